import Verif.Base

/-!
Copies of directories: `CopyDir` and `CopyFile`, `/repo/lens/file.go:62–135`, and `WriteChmod` with `concurrentWalk`, file.go:137–178, as used by
`setupTempEnvironment`, `/repo/lens/engine.go:992–1047`. The walk and the goroutines of the `errgroup` are interleaved steps.
-/

namespace Verif.Copy

abbrev Path := List String

/-- The target of a symbolic link. -/
inductive Target where
  | abs (p : Path)
  | rel (p : Path)
deriving DecidableEq, Repr

/-- A file, link or directory. -/
inductive Tree where
  | file (c : List UInt8)
  | link (t : Target)
  | dir (names : List String) (kids : List Tree)

/-- What is at a path. -/
inductive Node where
  | dir
  | file (c : List UInt8)
  | link (t : Target)
deriving DecidableEq, Repr

mutual
/-- `filepath.Walk`: every file, link and directory with its path below the root, directories before what is in them. Links are not followed, not even at
the root (`os.Lstat`). -/
def Tree.walk (p : Path) : Tree → List (Path × Node)
  | .file c => [(p, .file c)]
  | .link t => [(p, .link t)]
  | .dir ns ks => (p, .dir) :: walkAll p ns ks
def walkAll (p : Path) : List String → List Tree → List (Path × Node)
  | n :: ns, k :: ks => k.walk (p ++ [n]) ++ walkAll p ns ks
  | _, _ => []
end

/-- The destination: paths below it. -/
abbrev FS := Path → Option Node

def FS.set (d : FS) (p : Path) (n : Node) : FS := fun q => if q = p then some n else d q

/-- An error: input/output at a path, or `context.Canceled`. -/
inductive Err where
  | io (p : Path)
  | canceled
deriving DecidableEq, Repr

/-- `CopyFile` before the destination exists, or with the first `n` bytes written. -/
inductive Phase where
  | start
  | writing (n : Nat)
deriving DecidableEq, Repr

structure Task where
  path : Path
  node : Node
  phase : Phase
deriving DecidableEq, Repr

/-- A running `CopyDir`: the rest of the walk, whether the context has been looked at for the next entry, the goroutines, the destination, the context, the
first error of a goroutine, and what was returned. -/
structure St where
  todo : List (Path × Node)
  checked : Bool
  tasks : List Task
  dst : FS
  canceled : Bool
  gerr : Option Err
  ret : Option (Option Err)

/-- Nothing has been done; `dst` is what is at the destination before. -/
def init (src : Tree) (dst : FS) : St := ⟨src.walk [], false, [], dst, false, none, none⟩

/-- The directory a path is in exists, or it is the destination itself. -/
def parentOk (d : FS) (p : Path) : Prop := p = [] ∨ d p.dropLast = some .dir

/-- One step of `CopyDir` with at most `limit` goroutines that does not fail. -/
inductive Ok (limit : Nat) : St → St → Prop
  /-- `select { case <-ctx.Done(): … default: }`, file.go:105–109. -/
  | check (st) : st.ret = none → st.todo ≠ [] → st.checked = false → st.canceled = false → Ok limit st { st with checked := true }
  | done (st) : st.ret = none → st.todo ≠ [] → st.checked = false → st.canceled = true → Ok limit st { st with ret := some (some .canceled) }
  /-- `os.MkdirAll`, file.go:120. -/
  | mkdir (st p rest) : st.ret = none → st.todo = (p, .dir) :: rest → st.checked = true → parentOk st.dst p → (st.dst p = none ∨ st.dst p = some .dir) →
      Ok limit st { st with todo := rest, checked := false, dst := st.dst.set p .dir }
  /-- `eg.Go`, file.go:122. -/
  | spawn (st p n rest) : st.ret = none → st.todo = (p, n) :: rest → n ≠ .dir → st.checked = true → st.tasks.length < limit →
      Ok limit st { st with todo := rest, checked := false, tasks := st.tasks ++ [⟨p, n, .start⟩] }
  /-- `os.Symlink`, file.go:72. -/
  | symlink (st l1 l2 p t) : st.tasks = l1 ++ ⟨p, .link t, .start⟩ :: l2 → parentOk st.dst p → st.dst p = none →
      Ok limit st { st with tasks := l1 ++ l2, dst := st.dst.set p (.link t) }
  /-- `os.Create`, file.go:81: a new or emptied file. -/
  | create (st l1 l2 p c) : st.tasks = l1 ++ ⟨p, .file c, .start⟩ :: l2 → parentOk st.dst p → (st.dst p = none ∨ ∃ c0, st.dst p = some (.file c0)) →
      Ok limit st { st with tasks := l1 ++ ⟨p, .file c, .writing 0⟩ :: l2, dst := st.dst.set p (.file []) }
  /-- `io.Copy`, file.go:91: some more bytes. -/
  | write (st l1 l2 p c n k) : st.tasks = l1 ++ ⟨p, .file c, .writing n⟩ :: l2 → n < k → k ≤ c.length →
      Ok limit st { st with tasks := l1 ++ ⟨p, .file c, .writing k⟩ :: l2, dst := st.dst.set p (.file (c.take k)) }
  /-- All bytes are written, `Sync` and `Close` succeed. -/
  | finish (st l1 l2 p c) : st.tasks = l1 ++ ⟨p, .file c, .writing c.length⟩ :: l2 → Ok limit st { st with tasks := l1 ++ l2 }
  /-- `eg.Wait()`, file.go:134. -/
  | wait (st) : st.ret = none → st.todo = [] → st.tasks = [] → Ok limit st { st with ret := some st.gerr }

/-- A step in which an operation on files fails, which is possible at any time. -/
inductive Fail : St → Err → St → Prop
  /-- Reading a directory or `Lstat` fails during the walk, file.go:102–104. -/
  | walk (st p n rest) : st.ret = none → st.todo = (p, n) :: rest → st.checked = false → Fail st (.io p) { st with ret := some (some (.io p)) }
  | mkdir (st p rest) : st.ret = none → st.todo = (p, .dir) :: rest → st.checked = true → Fail st (.io p) { st with ret := some (some (.io p)) }
  /-- Any operation of `CopyFile`: the first error of the group is kept and the context canceled. -/
  | copy (st l1 l2 t) : st.tasks = l1 ++ t :: l2 →
      Fail st (.io t.path) { st with tasks := l1 ++ l2, gerr := st.gerr.or (some (.io t.path)), canceled := true }

/-- The states `CopyDir` can be in, with the failures so far. -/
inductive Reach (limit : Nat) (src : Tree) (dst : FS) : St → List Err → Prop
  | init : Reach limit src dst (init src dst) []
  | ok (st st' errs) : Reach limit src dst st errs → Ok limit st st' → Reach limit src dst st' errs
  | fail (st st' e errs) : Reach limit src dst st errs → Fail st e st' → Reach limit src dst st' (errs ++ [e])

/-! ### `WriteChmod` -/

/-- Permission bits, and whether a link or a directory. -/
structure Info where
  perm : BitVec 9
  isDir : Bool
  isLink : Bool
deriving DecidableEq, Repr

/-- The new permissions, file.go:140–144. -/
def newPerm (i : Info) : BitVec 9 := if i.isDir then (i.perm ||| 0o222#9) ||| 0o111#9 else i.perm ||| 0o222#9

/-- A running `concurrentWalk`: the walk, goroutines, permissions. `werr` is the error of the walk once it has ended. -/
structure CSt where
  todo : List Path
  checked : Bool
  tasks : List Path
  info : Path → Option Info
  canceled : Bool
  gerr : Option Err
  werr : Option (Option Err)
  ret : Option (List Err)

def cinit (paths : List Path) (info : Path → Option Info) : CSt := ⟨paths, false, [], info, false, none, none, none⟩

/-- One step of `concurrentWalk` with the handler of `WriteChmod`. Links are skipped. -/
inductive COk (limit : Nat) : CSt → CSt → Prop
  | check (st) : st.werr = none → st.todo ≠ [] → st.checked = false → st.canceled = false → COk limit st { st with checked := true }
  | done (st) : st.werr = none → st.todo ≠ [] → st.checked = false → st.canceled = true → COk limit st { st with werr := some (some .canceled) }
  | spawn (st p rest) : st.werr = none → st.todo = p :: rest → st.checked = true → st.tasks.length < limit →
      COk limit st { st with todo := rest, checked := false, tasks := st.tasks ++ [p] }
  | walked (st) : st.werr = none → st.todo = [] → COk limit st { st with werr := some none }
  /-- `d.Info()` and the handler, file.go:166–172 and 140–148. -/
  | link (st l1 l2 p i) : st.tasks = l1 ++ p :: l2 → st.info p = some i → i.isLink = true → COk limit st { st with tasks := l1 ++ l2 }
  | chmod (st l1 l2 p i) : st.tasks = l1 ++ p :: l2 → st.info p = some i → i.isLink = false →
      COk limit st { st with tasks := l1 ++ l2, info := fun q => if q = p then some { i with perm := newPerm i } else st.info q }
  /-- `eg.Wait()` and `errors.Join`, file.go:176–177. -/
  | wait (st w) : st.werr = some w → st.ret = none → st.tasks = [] → COk limit st { st with ret := some (w.toList ++ st.gerr.toList) }

/-- Failing steps: reading directories, `d.Info()`, `os.Chmod`. -/
inductive CFail : CSt → Err → CSt → Prop
  | walk (st p rest) : st.werr = none → st.todo = p :: rest → st.checked = false → CFail st (.io p) { st with werr := some (some (.io p)) }
  | chmod (st l1 l2 p) : st.tasks = l1 ++ p :: l2 →
      CFail st (.io p) { st with tasks := l1 ++ l2, gerr := st.gerr.or (some (.io p)), canceled := true }

inductive CReach (limit : Nat) (paths : List Path) (info : Path → Option Info) : CSt → List Err → Prop
  | init : CReach limit paths info (cinit paths info) []
  | ok (st st' errs) : CReach limit paths info st errs → COk limit st st' → CReach limit paths info st' errs
  | fail (st st' e errs) : CReach limit paths info st errs → CFail st e st' → CReach limit paths info st' (errs ++ [e])

end Verif.Copy
