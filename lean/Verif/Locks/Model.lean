/-!
The locks of the editor of source files: `ASTModifier` and its users, `/repo/lens/asttweak.go:65–204, 386–440, 508–514, 700–706, 1870–1877, 1975–1978`, `/repo/lens/astexec.go:361–362, 440–441`.

Only what goroutines wait for is modelled: taking a lock, and waiting for the workers of `Commit`. A lock is a number: those of files (`astFileLock`, several files can share one) come first,
then `commitLock`, `cleanupLock` and `pointIdLock`. `defer lock.Unlock()` is an instruction at the end of each path.
-/

namespace Verif.Locks

/-- Taking and giving back a lock, starting a goroutine, waiting for its end. -/
inductive Instr where
  | take (l : Nat)
  | give (l : Nat)
  | fork (t : Nat)
  | await (t : Nat)
deriving DecidableEq

/-- What each goroutine has still to do, who has a lock, and which goroutines have been started. -/
structure St where
  code : Nat → List Instr
  owner : Nat → Option Nat
  started : Nat → Bool

def put {α : Type} (f : Nat → α) (i : Nat) (a : α) : Nat → α := fun j => if j = i then a else f j

/-- A step of goroutine `t`; `none` if it has not been started, waits or is at its end. -/
def step (t : Nat) (s : St) : Option St :=
  if s.started t then
    match s.code t with
    | [] => none
    | .take l :: rest => if s.owner l = none then some { s with code := put s.code t rest, owner := put s.owner l (some t) } else none
    | .give l :: rest => some { s with code := put s.code t rest, owner := put s.owner l none }
    | .fork u :: rest => some { s with code := put s.code t rest, started := put s.started u true }
    | .await u :: rest => if s.started u && (s.code u).isEmpty then some { s with code := put s.code t rest } else none
  else none

def run : List Nat → St → Option St
  | [], s => some s
  | t :: ts, s => (step t s).bind (run ts)

/-- The operations. `stripe`: the lock of the file, see `stripedMutex`, util.go:80–115; `stripes` is the number of these.
* `inject`: `injectPoint` (asttweak.go:419–440), `InjectFuncPointReturnStates` (508–514), `InjectFuncPointBeforeCall` (700–706); `parse`: the file has to be parsed (140–157).
* `commitFile`: `CommitFile` (160–178); `backup`: an edit is pending, and the backup is new (388).
* `insert`: `InsertFuncLines` (1870–1877, 1975); `backup`, `backup'`: as before for the pending edit and for the lines.
* `client`: `InjectASTClient` (239). `restore`: `Restore` (92–107). `record`: astexec.go:361, 440.
* `commit`: `Commit` (181–204) with its workers in order; each is started with a buffer, for which the goroutine waits until one of the workers before has ended (190–193), which one is left open. -/
inductive Op where
  | inject (stripe : Nat) (parse : Bool)
  | commitFile (stripe : Nat) (backup : Bool)
  | insert (stripe : Nat) (backup backup' : Bool)
  | client
  | restore
  | record
  | commit (workers : List (Option Nat × Nat))

/-- The locks of modifier `m`; those of files belong to all modifiers (asttweak.go:66). -/
def commitLock (stripes m : Nat) : Nat := stripes + 3 * m
def cleanupLock (stripes m : Nat) : Nat := stripes + 3 * m + 1
def pointLock (stripes m : Nat) : Nat := stripes + 3 * m + 2

/-- With a lock taken. -/
def holding (l : Nat) (body : List Instr) : List Instr := .take l :: body ++ [.give l]

/-- `addCleanupAction`, asttweak.go:110–114, if there is something to add. -/
def addCleanup (stripes m : Nat) (add : Bool) : List Instr := if add then holding (cleanupLock stripes m) [] else []

def Op.code (stripes m : Nat) : Op → List Instr
  | .inject f parse => holding f (if parse then holding (commitLock stripes m) [] else [])
  | .commitFile f b => holding f (holding (commitLock stripes m) (addCleanup stripes m b))
  | .insert f b b' => holding f (holding (commitLock stripes m) (addCleanup stripes m b) ++ addCleanup stripes m b')
  | .client => holding (cleanupLock stripes m) []
  | .restore => holding (cleanupLock stripes m) []
  | .record => holding (pointLock stripes m) []
  | .commit ws => holding (commitLock stripes m) (ws.flatMap (fun w => (w.1.map Instr.await).toList ++ [.fork w.2]) ++ ws.map fun w => .await w.2)

/-- A goroutine: one of those that edit, with its operations in order, each of some modifier, or a worker of `Commit` (asttweak.go:145–156, 191–197). -/
inductive Routine where
  | editor (ops : List (Nat × Op))
  | worker (m : Nat) (backup : Bool)

def Routine.code (stripes : Nat) : Routine → List Instr
  | .editor ops => ops.flatMap fun o => o.2.code stripes o.1
  | .worker m b => addCleanup stripes m b

/-- At the beginning the editors are started. -/
def start (stripes : Nat) (sys : Nat → Routine) : St :=
  ⟨fun t => (sys t).code stripes, fun _ => none, fun t => match sys t with | .editor _ => true | .worker _ _ => false⟩

end Verif.Locks
