import Verif.Leave.Model
import Verif.Files.Spec

/-! What C172 claims: after the analysis all files are as they were. -/

namespace Verif.Leave
open Verif Verif.Files

/-- The project: sources, files to be generated and modules, without leftovers of an earlier run and without clashes of names. -/
structure Project (fs0 : FS) (src gen : Path → Prop) (mods : List Mod) : Prop where
  files : Setting fs0 src gen
  modules : ModSetting fs0 mods
  clean : ∀ m ∈ mods, fs0 (bkp m.gomod) = none ∧ fs0 (bkp m.gosum) = none
  srcMod : ∀ p, src p → p ∉ modNames mods ∧ bkp p ∉ modNames mods
  genMod : ∀ p, gen p → p ∉ modNames mods

/-- The go command changes go.mod and go.sum files only, and makes no new go.sum. -/
structure Tame (mods : List Mod) (get : FS → FS) : Prop where
  frame : ∀ fs q, (∀ m ∈ mods, q ≠ m.gomod ∧ q ≠ m.gosum) → get fs q = fs q
  noSum : ∀ fs, ∀ m ∈ mods, fs m.gosum = none → get fs m.gosum = none

end Verif.Leave
