import Verif.Sched.Model
import Verif.Total.Spec

/-! The tests of a phase one after the other. -/

namespace Verif.Sched

open Verif.Storage (Impl)
open Verif.Total (Ctx Test phase beforeTest afterTest)

/-- One test from its beginning to its end without another one between; `none` is an error. -/
def whole (I : Impl) (x : Ctx) (fuel : Nat) (after : Bool) : I.σ → Test → Option I.σ :=
  if after then afterTest I x fuel else beforeTest I x

/-- The storage after the tests one after the other, in some order. -/
def Serial (I : Impl) (x : Ctx) (fuel : Nat) (after : Bool) (ts : List Test) (store store' : I.σ) : Prop :=
  ∃ order : List Test, order.Perm ts ∧ phase (whole I x fuel after) store order = some store'

/-- All tests have returned, or the first one has failed and no other was started. -/
def Returned (st : St α) : Prop :=
  ∀ (i : Nat) (p : Task), st.tasks[i]? = some p → p = .done ∨ p = .failed ∨ (p = .waiting ∧ st.tasks[0]? = some .failed)

end Verif.Sched
