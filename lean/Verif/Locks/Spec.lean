import Verif.Locks.Model

/-! What is asked of the goroutines, and what is claimed of all schedules. -/

namespace Verif.Locks

/-- Locks of files are among the stripes; the workers of a `Commit` are workers of that modifier, and a buffer is waited for from a worker started before. -/
def Op.Fits (stripes m : Nat) (sys : Nat → Routine) : Op → Prop
  | .inject f _ => f < stripes
  | .commitFile f _ => f < stripes
  | .insert f _ _ => f < stripes
  | .commit ws => (∀ w ∈ ws, ∃ b, sys w.2 = .worker m b) ∧ ∀ as w bs u, ws = as ++ w :: bs → w.1 = some u → u ∈ as.map (·.2)
  | _ => True

/-- A system of `n` goroutines with `mods` modifiers; all others do nothing. -/
structure System (n stripes mods : Nat) (sys : Nat → Routine) : Prop where
  fits : ∀ t ops, sys t = .editor ops → ∀ o ∈ ops, o.1 < mods ∧ o.2.Fits stripes o.1 sys
  rest : ∀ t, n ≤ t → sys t = .editor []

/-- No goroutine that was started has anything left to do, the workers of all commits were started, and all locks are free. -/
structure Ended (sys : Nat → Routine) (s : St) : Prop where
  done : ∀ t, s.started t = true → s.code t = []
  editors : ∀ t ops, sys t = .editor ops → s.started t = true
  workers : ∀ t ops m ws, sys t = .editor ops → (m, Op.commit ws) ∈ ops → ∀ w ∈ ws, s.started w.2 = true
  free : ∀ l, s.owner l = none

/-- No goroutine can step. -/
def Stuck (s : St) : Prop := ∀ t, step t s = none

end Verif.Locks
