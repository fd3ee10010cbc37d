import Verif.Mutation.Model
import Verif.Lines.Spec

/-! What is wanted of mutation testing. -/

namespace Verif.Mutation
open Verif Verif.Util Verif.Lines

/-- The tests were run against the mutant: nothing before failed, and the script was not stopped. -/
def Tested (e : Env) (d : Disk) : Prop := e.covered = true ∧ d.orig ≠ none ∧ e.mv = true ∧ e.cp = .ok ∧ e.stop = none

/-- What came out of testing a mutant. -/
inductive Result where
  | passed
  | failed
  | noBuild
deriving DecidableEq, Repr

/-- The line of the function is marked. -/
def Marked (marks : List Bool) (i : Nat) : Prop := marks[i]? = some true

end Verif.Mutation
