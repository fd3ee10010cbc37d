import Verif.Files.Model

/-!
The file system over the whole of `RunModuleUpdateAnalysis`, `/repo/lens/astexec.go:63–181`: instrumentation, tests and restore before the update
(`runMonitoredTestAnalysis`, 183–200), backup of the go.mod files, update, instrumentation, tests and restore after it, and the deferred restore of the go.mod files.
The parts are those of `Verif/Files`. Simplified: the tests leave the files of the project alone.
-/

namespace Verif.Leave
open Verif Verif.Files

/-- What happens in a run: the operations of both instrumentations up to where they end, what fails, and what the go command does. -/
structure Run where
  before : List Op
  restore1 : Action → RFault
  /-- The tests before the update ended without an error, and the go.mod files were found (106–114). -/
  passed : Bool
  copies : Path → Fault
  /-- `go get` and `go mod tidy` up to where they end, 153–168. -/
  get : FS → FS
  /-- They ended without an error. -/
  got : Bool
  after : List Op
  restore2 : Action → RFault
  renames : Path → Bool

/-- `runMonitoredTestAnalysis` with its deferred restore, astexec.go:183–200. -/
def session (fs : FS) (ops : List Op) (faults : Action → RFault) : FS := (restore (run (newM fs) ops) faults).2.w.fs

/-- Everything between the backups of the go.mod files and their restore, 153–181. -/
def update (a : Run) (fs : FS) : FS := if a.got then session (a.get fs) a.after a.restore2 else a.get fs

/-- `RunModuleUpdateAnalysis`, astexec.go:98–181. -/
def analysis (mods : List Mod) (a : Run) (fs : FS) : FS :=
  let fs1 := session fs a.before a.restore1
  if a.passed then (updateRun mods a.copies (fun w => w.step (update a w.fs)) a.renames ⟨fs1, [fs1]⟩).fs else fs1

end Verif.Leave
