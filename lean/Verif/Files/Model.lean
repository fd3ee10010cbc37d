import Verif.AMap

/-!
Files being changed and restored: `/repo/lens/file.go`, the file handling of `/repo/lens/asttweak.go` and the backup of go.mod and
go.sum in `/repo/lens/astexec.go`.

A file system maps paths to files and symbolic links; directories, modes and hard links are not modelled. Every state the file
system goes through is logged, so that a crash is "the file system is in a state of the log". Writing a file goes through
every prefix of the content. Steps can fail; the failure is an input.

`Commit` handles its files concurrently; here one after the other. They are different files, and everything proved about
states between steps is about one file at a time.
-/

namespace Verif.Files

abbrev Bytes := List UInt8
abbrev Path := Bytes

inductive Node where
  | file (content : Bytes)
  | link (target : Path)
deriving DecidableEq, Repr

abbrev FS := Path → Option Node

def FS.set (fs : FS) (p : Path) (n : Node) : FS := fun q => if q = p then some n else fs q
def FS.del (fs : FS) (p : Path) : FS := fun q => if q = p then none else fs q

/-- Following links; `none` if there are too many. -/
def follow (fs : FS) : Nat → Path → Option Path
  | 0, _ => none
  | n + 1, p =>
    match fs p with
    | some (.link q) => follow fs n q
    | _ => some p

/-- The limit of the operating system. -/
def maxLinks : Nat := 40

/-- File system and the states it went through. -/
structure W where
  fs : FS
  log : List FS

def W.step (w : W) (fs : FS) : W := ⟨fs, w.log ++ [fs]⟩

/-- How a write goes wrong: it does not begin, or stops after some bytes. -/
inductive Fault where
  | ok
  | atOpen
  | after (n : Nat)
deriving DecidableEq, Repr

/-- How a removal and renaming goes wrong. -/
inductive RFault where
  | ok
  | remove
  | rename
deriving DecidableEq, Repr

/-- Truncate a file and write `data` to it. -/
def W.writeTo (w : W) (q : Path) (data : Bytes) : W :=
  ⟨w.fs.set q (.file data), w.log ++ (List.range (data.length + 1)).map fun n => w.fs.set q (.file (data.take n))⟩

/-- `os.WriteFile`, and the second half of `CopyFile`, file.go:80–96. -/
def writeFile (w : W) (p : Path) (data : Bytes) (f : Fault) : Bool × W :=
  match follow w.fs maxLinks p with
  | none => (false, w)
  | some q =>
    match f with
    | .ok => (true, w.writeTo q data)
    | .atOpen => (false, w)
    | .after n => (false, w.writeTo q (data.take n))

/-- `CopyFile`, file.go:64–97. -/
def copyFile (w : W) (src dst : Path) (f : Fault) : Bool × W :=
  match w.fs src with
  | none => (false, w)
  | some (.link t) => if (w.fs dst).isSome then (false, w) else (true, w.step (w.fs.set dst (.link t)))
  | some (.file c) => writeFile w dst c f

/-- `FileExists`, file.go:16–21; too many links are an error that does not say "not found". -/
def fileExists (fs : FS) (p : Path) : Bool :=
  match follow fs maxLinks p with
  | none => true
  | some q => (fs q).isSome

/-- `os.Stat` without error. -/
def statOk (fs : FS) (p : Path) : Bool :=
  match follow fs maxLinks p with
  | none => false
  | some q => (fs q).isSome

/-- `os.Rename`. -/
def rename (w : W) (src dst : Path) (fails : Bool) : Bool × W :=
  match w.fs src with
  | none => (false, w)
  | some n => if fails then (false, w) else (true, w.step ((w.fs.del src).set dst n))

/-- `os.Remove`. -/
def remove (w : W) (p : Path) (fails : Bool) : Bool × W :=
  if (w.fs p).isSome && !fails then (true, w.step (w.fs.del p)) else (false, w)

/-- `replaceFile`, file.go:51–60. -/
def replaceFile (w : W) (src dst : Path) (f : RFault) : Bool × W :=
  if statOk w.fs dst then
    match remove w dst (f == .remove) with
    | (false, w) => (false, w)
    | (true, w) => rename w src dst (f == .rename)
  else rename w src dst (f == .rename)

/-! ### ASTModifier -/

/-- ".bkp" -/
def bkp (p : Path) : Path := p ++ [46, 98, 107, 112]

/-- A cleanup action: put a backup back, or remove the two generated files. -/
inductive Action where
  | back (p : Path)
  | gen (client api : Path)
deriving DecidableEq, Repr

/-- `ASTModifier`: cleanup actions and files changed in memory with their formatted content. -/
structure M where
  w : W
  cleanup : List Action
  pending : AMap Path Bytes

/-- `backupOrigFile`, asttweak.go:386–397. -/
def backup (m : M) (p : Path) (f : Fault) : Bool × M :=
  if fileExists m.w.fs (bkp p) then (true, m)
  else
    match copyFile m.w p (bkp p) f with
    | (false, w) => (false, { m with w := w })
    | (true, w) => (true, { m with w := w, cleanup := m.cleanup ++ [.back p] })

/-- A commit action, asttweak.go:145–155, and the end of `InsertFuncLines`, 1973–1976: backup, then write. -/
def backupAndWrite (m : M) (p : Path) (data : Bytes) (cf wf : Fault) : Bool × M :=
  match backup m p cf with
  | (false, m) => (false, m)
  | (true, m) =>
    match writeFile m.w p data wf with
    | (ok, w) => (ok, { m with w := w })

/-- `CommitFile`, asttweak.go:160–177. -/
def commitFile (m : M) (p : Path) (cf wf : Fault) : Bool × M :=
  match m.pending.get p with
  | none => (true, m)
  | some data => backupAndWrite { m with pending := m.pending.del p } p data cf wf

/-- The actions of `Commit`; all are run even if some fail. -/
def commitAll : List (Path × Bytes) → (Path → Fault × Fault) → M → Bool × M
  | [], _, m => (true, m)
  | e :: es, faults, m =>
    match backupAndWrite m e.1 e.2 (faults e.1).1 (faults e.1).2 with
    | (ok, m) =>
      match commitAll es faults m with
      | (ok', m) => (ok && ok', m)

/-- `Commit`, asttweak.go:180–205. -/
def commit (m : M) (faults : Path → Fault × Fault) : Bool × M :=
  match commitAll m.pending faults m with
  | (true, m) => (true, { m with pending := [] })
  | (false, m) => (false, m)

/-- `InjectASTClient`, asttweak.go:208–251; `other` says whether the directory has another file of that kind. -/
def inject (m : M) (client api : Path) (other : Bool) (clientTxt apiTxt : Bytes) (f1 f2 : Fault) : Bool × M :=
  if other || (m.w.fs client).isSome || (m.w.fs api).isSome then (true, m)
  else
    match writeFile m.w client clientTxt f1 with
    | (false, w) => (false, { m with w := w })
    | (true, w) =>
      match writeFile w api apiTxt f2 with
      | (false, w) => (false, { m with w := w })
      | (true, w) => (true, { m with w := w, cleanup := m.cleanup ++ [.gen client api] })

/-- One cleanup action, asttweak.go:246–248 and 392–394. -/
def cleanupOne (w : W) (a : Action) (f : RFault) : Bool × W :=
  match a with
  | .back p => replaceFile w (bkp p) p f
  | .gen client api =>
    match remove w client (f == .remove) with
    | (ok1, w) =>
      match remove w api (f == .rename) with
      | (ok2, w) => (ok1 && ok2, w)

/-- The loop of `Restore`, asttweak.go:98–102; the flag says whether no error was collected. -/
def cleanupAll : List Action → (Action → RFault) → W → Bool × W
  | [], _, w => (true, w)
  | a :: as, faults, w =>
    match cleanupOne w a (faults a) with
    | (ok, w) =>
      match cleanupAll as faults w with
      | (ok', w) => (ok && ok', w)

/-- `Restore`, asttweak.go:92–108, without cleaning the build cache. -/
def restore (m : M) (faults : Action → RFault) : Bool × M :=
  match cleanupAll m.cleanup faults m.w with
  | (ok, w) => (ok, { m with w := w, cleanup := [] })

/-- What can be done with an `ASTModifier`. `stage` stands for `loadParsedFileNode` and changes of the syntax tree. -/
inductive Op where
  | stage (p : Path) (data : Bytes)
  | commitFile (p : Path) (cf wf : Fault)
  | commit (faults : Path → Fault × Fault)
  | insertLines (p : Path) (data : Bytes) (cf wf : Fault)
  | inject (client api : Path) (other : Bool) (clientTxt apiTxt : Bytes) (f1 f2 : Fault)
  | restore (faults : Action → RFault)

def run1 (m : M) : Op → M
  | .stage p data => { m with pending := m.pending.set p data }
  | .commitFile p cf wf => (commitFile m p cf wf).2
  | .commit faults => (commit m faults).2
  | .insertLines p data cf wf => (backupAndWrite m p data cf wf).2
  | .inject client api other ct at_ f1 f2 => (inject m client api other ct at_ f1 f2).2
  | .restore faults => (restore m faults).2

def run (m : M) (ops : List Op) : M := ops.foldl run1 m

/-- A new `ASTModifier`. -/
def newM (fs : FS) : M := ⟨⟨fs, [fs]⟩, [], []⟩

/-! ### go.mod and go.sum -/

/-- A module of the project: paths of go.mod and go.sum. -/
structure Mod where
  gomod : Path
  gosum : Path
deriving DecidableEq, Repr

/-- `modBackupInfo`: whether go.sum was there. -/
structure Backup where
  m : Mod
  hasSum : Bool
deriving DecidableEq, Repr

/-- The backup loop, astexec.go:134–151. -/
def backupMods (faults : Path → Fault) : List Mod → W → Bool × W × List Backup
  | [], w => (true, w, [])
  | m :: ms, w =>
    match copyFile w m.gomod (bkp m.gomod) (faults m.gomod) with
    | (false, w) => (false, w, [])
    | (true, w) =>
      if fileExists w.fs m.gosum then
        match copyFile w m.gosum (bkp m.gosum) (faults m.gosum) with
        | (false, w) => (false, w, [])
        | (true, w) =>
          match backupMods faults ms w with
          | (ok, w, bs) => (ok, w, ⟨m, true⟩ :: bs)
      else
        match backupMods faults ms w with
        | (ok, w, bs) => (ok, w, ⟨m, false⟩ :: bs)

/-- The deferred restore, astexec.go:123–133. -/
def restoreMods (fails : Path → Bool) : List Backup → W → W
  | [], w => w
  | b :: bs, w =>
    match rename w (bkp b.m.gomod) b.m.gomod (fails b.m.gomod) with
    | (false, w) => restoreMods fails bs w
    | (true, w) =>
      if b.hasSum then restoreMods fails bs (rename w (bkp b.m.gosum) b.m.gosum (fails b.m.gosum)).2
      else restoreMods fails bs w

/-- `RunModuleUpdateAnalysis`, astexec.go:106–181: backup, then `go get`, `go mod tidy` and the second test run up to wherever they
fail (`tool`, any change of the file system and the states it goes through), then the deferred restore. -/
def updateRun (mods : List Mod) (copyFaults : Path → Fault) (tool : W → W) (renameFails : Path → Bool) (w : W) : W :=
  match backupMods copyFaults mods w with
  | (false, w, bs) => restoreMods renameFails bs w
  | (true, w, bs) => restoreMods renameFails bs (tool w)

end Verif.Files
