import Verif.Attempt.Model
import Verif.Pipeline.Spec

/-! What a test does of itself. -/

namespace Verif.Attempt

open Verif.Result (Bytes)
open Verif.Fields (Lib)
open Verif.Pipeline (Run Shown After afterPanics)

/-- The instrumented test is built and runs to its end, as it would of itself. -/
structure Attempt.Proper (a : Attempt) : Prop where
  ends : a.ending = .failed ∨ a.ending = .passed
  outcome : a.own.failed = true ↔ a.ending = .failed

/-- The test behaves after the update as before. -/
structure Kept (c : Lib) (force : Bool) (r1 r2 r3 r4 : Run) : Prop where
  values : ∀ ident path n p v, Shown c r1 ident path n p v → Shown c r2 ident path n p v → After c force r3 r4 ident path n p v
  project : (r1.projectPanics : Multiset (Bytes × Bytes)) ∩ r2.projectPanics = afterPanics force r3.projectPanics r4.projectPanics
  modul : (r1.modulePanics : Multiset (Bytes × Bytes)) ∩ r2.modulePanics = afterPanics force r3.modulePanics r4.modulePanics

end Verif.Attempt
