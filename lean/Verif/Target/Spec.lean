import Verif.Target.Model

/-! What a pattern means, and which tests should be run. -/

namespace Verif.Target

open Verif.Report (Bytes)

/-- The name of a test function: not empty, letters, digits and underscores (here: none of the bytes that mean something in the pattern or the script). -/
def Name (n : Bytes) : Prop := n ≠ [] ∧ 32 ∉ n ∧ 124 ∉ n ∧ 40 ∉ n ∧ 41 ∉ n

/-- The test reaches a changed function in the file. -/
def Test.Reaches (t : Test) (file : Bytes) : Prop := ∃ fs ∈ t.targets, file ∈ fs

/-- The name is one of the alternatives of `a|b|…`. -/
def Alternative (n text : Bytes) : Prop := ∃ before after, text = before ++ n ++ after ∧ 124 ∉ n ∧ (before = [] ∨ ∃ x, before = x ++ [124]) ∧ (after = [] ∨ ∃ x, after = 124 :: x)

/-- `go test -run '^(a|b|…)$'` runs the tests of this name, in all packages. -/
def Runs (pat : Bytes) (t : Test) : Prop := ∃ text, pat = [94, 40] ++ text ++ [41, 36] ∧ Alternative t.name text

end Verif.Target
