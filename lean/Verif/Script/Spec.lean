import Verif.Script.Model

/-! What C168 claims. -/

namespace Verif.Script
open Verif
open Verif.Select (Str)

/-- The mutated file is there, the mutant is another file, neither path is a directory, and the name of the backup is not taken by a directory or the mutant. -/
structure Ready (o c : Str) (d : Disk) : Prop where
  orig : ∃ x, d.files.get o = some x
  changed : ∃ y, d.files.get c = some y
  apart : c ≠ o ∧ c ≠ backup o
  plain : o ∉ d.dirs ∧ backup o ∉ d.dirs

/-- The mutant was tested: while the tests ran the file had the content of the mutant and every other file, but for the backup, its own; afterwards every file but
the backup is as before, and the exit code tells how the tests ended. -/
def Tests (o c : Str) (test : Nat) (d : Disk) (r : Out) : Prop :=
  (∃ dt, r.during = some dt ∧ dt.files.get o = d.files.get c ∧ ∀ p, p ≠ o → p ≠ backup o → dt.files.get p = d.files.get p) ∧
  (∀ p, p ≠ backup o → r.disk.files.get p = d.files.get p) ∧ r.disk.files.get (backup o) = none ∧
  (r.exit = 0 ↔ test = 1) ∧ (r.exit = 1 ↔ test = 0)

/-- A path bash leaves as it is without quotes. -/
def Plain (s : Str) : Prop := s ≠ [] ∧ ∀ c ∈ s, c ≠ ' ' ∧ c ≠ '\t' ∧ c ≠ '\n' ∧ c ≠ '*' ∧ c ≠ '?' ∧ c ≠ '['

instance (s : Str) : Decidable (Plain s) := by unfold Plain; infer_instance

end Verif.Script
