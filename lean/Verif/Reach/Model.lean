import Verif.Static.Model

/-!
From changed module functions to the tests that are run: `/repo/lens/static.go:29–125` (`CallerStaticAnalysis`, called from `engine.go:283–301`) followed by
`static.go:189–282` (`TestStaticAnalysis`, called from `engine.go:306–308`). The two analyses load the project twice, without and with its tests, so there are
two call graphs. The workers run at the same time; a result is possible if some order of their locked updates gives it.
-/

namespace Verif.Reach

open Verif.Static (Bytes Graph Entry Search callerWorker testWorker testStarts recordAll)

section
variable {N M : Type} [DecidableEq N] [DecidableEq M]

/-- `CallerStaticAnalysis` may end with these callers, static.go:52–113. -/
structure CallersFound (g : Graph N) (changes : List Bytes) (found : AMap Bytes (Entry N)) : Prop where
  run : ∃ (steps : Nat) (out : Bytes → List (Bytes × N × Bytes)) (updates : List (Bytes × N × Bytes)),
    (∀ ch ∈ changes, callerWorker g steps ch = .done (out ch)) ∧ updates.Perm (changes.flatMap out) ∧ found = recordAll updates

/-- `reachableModuleChanges`, static.go:115–122. -/
def reachable (found : AMap Bytes (Entry N)) : List Bytes := (found.flatMap fun e => e.2.targets).dedup

/-- `TestStaticAnalysis` may end with these tests, static.go:223–281; the callers come in any order (`bulk.MapValuesSlice`). -/
structure TestsFound (g : Graph M) (callers : List Bytes) (found : AMap Bytes (Entry M)) : Prop where
  run : ∃ (steps : Nat) (out : M × Bytes → List (Bytes × M × Bytes)) (updates : List (Bytes × M × Bytes)),
    (∀ w ∈ testStarts g callers, testWorker g steps w.1 w.2 = .done (out w)) ∧ updates.Perm ((testStarts g callers).flatMap out) ∧ found = recordAll updates

/-- Both analyses: callers found without tests (`g`), tests found for these callers with tests (`gt`). -/
structure Selected (g : Graph N) (gt : Graph M) (changes : List Bytes) (callers : AMap Bytes (Entry N)) (tests : AMap Bytes (Entry M)) : Prop where
  first : CallersFound g changes callers
  second : ∃ order : List Bytes, order.Perm callers.keys ∧ TestsFound gt order tests

end

end Verif.Reach
