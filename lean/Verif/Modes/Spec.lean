import Verif.Modes.Model

/-! What C171 claims: a file that was edited and restored, and a copy of a file, has the content and the permissions of the file. -/

namespace Verif.Modes
open Verif

/-- What a new file gets. -/
def Default (umask m : Mode) : Prop := ∀ i < 9, m.getLsbD i = ((i = 1 ∨ i = 2 ∨ i = 4 ∨ i = 5 ∨ i = 7 ∨ i = 8) && !umask.getLsbD i)

/-- No path of the copy is one of the original, and no two files get one path. -/
structure Apart (cp : Path → Path) (ps : List Path) (d : Disk) : Prop where
  new : ∀ p ∈ ps, d.get (cp p) = none
  other : ∀ p ∈ ps, ∀ q ∈ ps, cp p ≠ q
  inj : ∀ p ∈ ps, ∀ q ∈ ps, cp p = cp q → p = q

end Verif.Modes
