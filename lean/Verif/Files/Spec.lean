import Verif.Files.Model

/-!
What C46–C48 and C76 talk about.
-/

namespace Verif.Files

/-- The source files that may be instrumented and the files the tool may generate, on a file system without leftovers: sources are
regular files without a backup, and none of the names clash. -/
structure Setting (fs0 : FS) (src gen : Path → Prop) : Prop where
  regular : ∀ p, src p → ∃ c, fs0 p = some (.file c)
  noBackup : ∀ p, src p → fs0 (bkp p) = none
  notBackup : ∀ p q, src p → src q → p ≠ bkp q
  genSrc : ∀ p, gen p → ¬ src p
  genBackup : ∀ p q, gen p → src q → p ≠ bkp q

/-- Operations of an instrumentation run in which no backup copy and no generated file fails to be written; changed files may be. -/
def OpOk (src gen : Path → Prop) : Op → Prop
  | .stage p _ => src p
  | .commitFile _ cf _ => cf = .ok
  | .commit faults => ∀ p, (faults p).1 = .ok
  | .insertLines p _ cf _ => src p ∧ cf = .ok
  | .inject client api _ _ _ f1 f2 => gen client ∧ gen api ∧ client ≠ api ∧ f1 = .ok ∧ f2 = .ok
  | .restore _ => True

/-- The same, and no restore in between meets an error. -/
def OpOkR (src gen : Path → Prop) (op : Op) : Prop :=
  OpOk src gen op ∧ ∀ faults, op = .restore faults → ∀ a, faults a = .ok

/-- The original content of `p` is still on disk, in the file or in its backup. -/
def Kept (fs0 fs : FS) (p : Path) : Prop := fs p = fs0 p ∨ fs (bkp p) = fs0 p

/-- The names of go.mod, go.sum and their backups. -/
def modNames (mods : List Mod) : List Path := mods.flatMap fun m => [m.gomod, bkp m.gomod, m.gosum, bkp m.gosum]

/-- The modules of a project: different names, go.mod a regular file, go.sum a regular file or missing, no links under the names of the
backups. -/
structure ModSetting (fs0 : FS) (mods : List Mod) : Prop where
  nodup : (modNames mods).Nodup
  gomod : ∀ m ∈ mods, ∃ c, fs0 m.gomod = some (.file c)
  gosum : ∀ m ∈ mods, ∀ t, fs0 m.gosum ≠ some (.link t)
  modBkp : ∀ m ∈ mods, ∀ t, fs0 (bkp m.gomod) ≠ some (.link t)
  sumBkp : ∀ m ∈ mods, ∀ t, fs0 (bkp m.gosum) ≠ some (.link t)

end Verif.Files
