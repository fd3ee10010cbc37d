import Verif.Runs.Model

/-! What running the tests should yield. -/

namespace Verif.Runs

variable {B : Type}

/-- The messages a run has sent. -/
def sentBy (st : St B) (i : Nat) (second : Bool) : List B := (st.sent.filter fun e => e.1.test == i && e.1.second == second).map (·.2)

/-- All test functions have returned: done, failed, or never started because the first one failed. -/
def Over (st : St B) : Prop :=
  ∀ (i : Nat) (p : Phase B), st.ph[i]? = some p → (∃ one two, p = .done one two) ∨ p = .failed ∨ (p = .waiting ∧ st.ph[0]? = some .failed)

/-- The field checks of a test: the smaller number of state messages, if there are two runs. -/
def checksOf (c : Cfg B) (st : St B) (i : Nat) : Nat :=
  if c.twice i then min ((sentBy st i false).countP c.isState) ((sentBy st i true).countP c.isState) else (sentBy st i false).countP c.isState

/-- `k` steps without a message being sent. -/
inductive Quiet (c : Cfg B) (clean : Bool) : Nat → St B → St B → Prop
  | nil (st : St B) : Quiet c clean 0 st st
  | cons {k : Nat} {st st' st'' : St B} : Step c clean st st' → st'.sent = st.sent → Quiet c clean k st' st'' → Quiet c clean (k + 1) st st''

end Verif.Runs
