import Verif.Result.Spec
import Verif.Util.Model

/-!
Point ids, the test monitor, call path keys and the stable baseline: `/repo/lens/asttweak.go` (ids) and
`/repo/lens/astexec.go`.
-/

namespace Verif.Monitor

open Verif.Result (Bytes FMap StackFrame CallFrame TestResult bytesKey)

/-! ### Point ids, asttweak.go:399–415 -/

/-- A goroutine outside of the loop (or about to retry), or after `Load` returned `v`. -/
inductive PPhase where
  | idle
  | loaded (v : Nat)
deriving DecidableEq, Repr

/-- `cur` is `currPointId` (32 bits); `out` records who got which id, in the order of the atomic updates; `errs` who got
the overflow error. -/
structure PState where
  cur : Nat
  gs : List PPhase
  out : List (Nat × Nat)
  errs : List Nat

/-- One atomic step of `nextPointId` in goroutine `i`. -/
inductive PStep : PState → PState → Prop
  | load (s : PState) (i : Nat) : s.gs[i]? = some .idle → PStep s { s with gs := s.gs.set i (.loaded s.cur) }
  | casZero (s : PState) (i : Nat) : s.gs[i]? = some (.loaded 0) → s.cur = 0 →
      PStep s ⟨2, s.gs.set i .idle, s.out ++ [(i, 1)], s.errs⟩
  | casZeroFail (s : PState) (i : Nat) : s.gs[i]? = some (.loaded 0) → s.cur ≠ 0 →
      PStep s { s with gs := s.gs.set i .idle }
  | overflow (s : PState) (i v : Nat) : s.gs[i]? = some (.loaded v) → v ≠ 0 → (v + 1) % 2 ^ 32 = 0 →
      PStep s { s with gs := s.gs.set i .idle, errs := s.errs ++ [i] }
  | cas (s : PState) (i v : Nat) : s.gs[i]? = some (.loaded v) → v ≠ 0 → (v + 1) % 2 ^ 32 ≠ 0 → s.cur = v →
      PStep s ⟨(v + 1) % 2 ^ 32, s.gs.set i .idle, s.out ++ [(i, v)], s.errs⟩
  | casFail (s : PState) (i v : Nat) : s.gs[i]? = some (.loaded v) → v ≠ 0 → (v + 1) % 2 ^ 32 ≠ 0 → s.cur ≠ v →
      PStep s { s with gs := s.gs.set i .idle }

inductive PReach (s₀ : PState) : PState → Prop
  | refl : PReach s₀ s₀
  | step {s s'} : PReach s₀ s → PStep s s' → PReach s₀ s'

/-- A new `ASTModifier` used by `g` goroutines. -/
def pinit (g : Nat) : PState := ⟨0, List.replicate g .idle, [], []⟩

/-- `MaxPointId`, asttweak.go:86–88. -/
def maxPointId (s : PState) : Nat := s.cur

/-! ### The monitor, astexec.go:700–834, 896–908 -/

/-- Where a message stands: `wait.Add(1)` done; lock of its storage key held (taken before the goroutine starts,
astexec.go:735); frame appended; lock released; `wait.Done()` called; or returned early because the point id is unknown
(astexec.go:728–731). -/
inductive JPhase where
  | arrived | locked | appended | unlocked | done | dropped
deriving DecidableEq, Repr

structure Job (M : Type) where
  msg : M
  phase : JPhase

/-- What a message is stored under: extension point or caller, and the identifier; `none` for an unknown point id. -/
structure MonCfg (K M F : Type) where
  target : M → Option (Bool × K)
  /-- Index of the mutex used for an identifier (util.go:109–115). -/
  stripe : K → Nat
  /-- The frame recorded for a message, given the frames already recorded under its key (astexec.go:740–832). -/
  build : M → List F → F

/-- `log` is the order in which locks were taken; it and the finished jobs are bookkeeping. -/
structure MonState (K M F : Type) where
  wait : Nat
  jobs : List (Job M)
  frames : AMap (Bool × K) (List F)
  log : List M
  result : Option (AMap (Bool × K) (List F))

/-- The job holds the mutex with index `n`. -/
def holdsStripe {K M F : Type} (c : MonCfg K M F) (n : Nat) (j : Job M) : Prop :=
  (j.phase = .locked ∨ j.phase = .appended) ∧ ∃ k, c.target j.msg = some k ∧ c.stripe k.2 = n

/-- Steps of handlers and background goroutines. With `seq` set, a message arrives only when the handlers of all earlier
ones have returned (a client that waits for the reply before it sends the next message). `finish` is `makeTestResult`
after `wait.Wait()`. -/
inductive MonStep {K M F : Type} [DecidableEq K] (c : MonCfg K M F) (seq : Bool) : MonState K M F → MonState K M F → Prop
  | arrive (s : MonState K M F) (m : M) (k) : c.target m = some k →
      (seq = true → ∀ j ∈ s.jobs, j.phase ≠ .arrived) →
      MonStep c seq s { s with wait := s.wait + 1, jobs := s.jobs ++ [⟨m, .arrived⟩] }
  | arriveUnknown (s : MonState K M F) (m : M) : c.target m = none →
      (seq = true → ∀ j ∈ s.jobs, j.phase ≠ .arrived) →
      MonStep c seq s { s with wait := s.wait + 1, jobs := s.jobs ++ [⟨m, .dropped⟩] }
  | lock (s : MonState K M F) (i : Nat) (m : M) (k) : s.jobs[i]? = some ⟨m, .arrived⟩ → c.target m = some k →
      (∀ j ∈ s.jobs, ¬ holdsStripe c (c.stripe k.2) j) →
      MonStep c seq s { s with jobs := s.jobs.set i ⟨m, .locked⟩, log := s.log ++ [m] }
  | append (s : MonState K M F) (i : Nat) (m : M) (k) : s.jobs[i]? = some ⟨m, .locked⟩ → c.target m = some k →
      MonStep c seq s { s with
        jobs := s.jobs.set i ⟨m, .appended⟩
        frames := s.frames.set k (((s.frames.get k).getD []) ++ [c.build m ((s.frames.get k).getD [])]) }
  | unlock (s : MonState K M F) (i : Nat) (m : M) : s.jobs[i]? = some ⟨m, .appended⟩ →
      MonStep c seq s { s with jobs := s.jobs.set i ⟨m, .unlocked⟩ }
  | done (s : MonState K M F) (i : Nat) (m : M) : s.jobs[i]? = some ⟨m, .unlocked⟩ →
      MonStep c seq s { s with jobs := s.jobs.set i ⟨m, .done⟩, wait := s.wait - 1 }
  | finish (s : MonState K M F) : s.wait = 0 → MonStep c seq s { s with result := some s.frames }

inductive MonReach {K M F : Type} [DecidableEq K] (c : MonCfg K M F) (seq : Bool) (s₀ : MonState K M F) :
    MonState K M F → Prop
  | refl : MonReach c seq s₀ s₀
  | step {s s'} : MonReach c seq s₀ s → MonStep c seq s s' → MonReach c seq s₀ s'

def monInit {K M F : Type} : MonState K M F := ⟨0, [], [], [], none⟩

/-! ### Call path keys -/

/-- What `StackFramesKey` writes to its buffer, astexec.go:633–645. -/
def stackText : List StackFrame → Bytes
  | [] => []
  | [f] => f.file ++ 58 :: f.func
  | f :: fs => f.file ++ 58 :: f.func ++ 124 :: stackText fs

/-- `StackFramesKey`; `H` is SHA-1. (The separator is written if the buffer is not empty, which is the case from the
second frame on, since a frame writes at least the colon.) -/
def stackKey (H : Bytes → Bytes) (fs : List StackFrame) : Bytes := bytesKey H (stackText fs)

/-- "./" -/
def dotSlash : Bytes := [46, 47]
/-- "/pkg/mod/" -/
def pkgMod : Bytes := [47, 112, 107, 103, 47, 109, 111, 100, 47]
/-- "./vendor/" -/
def dotVendor : Bytes := [46, 47, 118, 101, 110, 100, 111, 114, 47]

/-- What follows the first occurrence of `pat` (`strings.Index` and slicing). -/
def afterFirst (pat : Bytes) : Bytes → Option Bytes
  | [] => if pat = [] then some [] else none
  | b :: s => if pat.isPrefixOf (b :: s) then some ((b :: s).drop pat.length) else afterFirst pat s

/-- Removal of the GOROOT part, astexec.go:660–669; `none` is the panic of slicing beyond the end of the path. -/
def trimGoroot (cwd : List Bytes) (goroot file : Bytes) : Option Bytes :=
  if goroot ≠ [] ∧ Util.fileWithinDir cwd file goroot = true then
    let idx := if goroot.getLast? = some 47 then goroot.length - 1 else goroot.length
    if idx ≤ file.length then some (file.drop idx) else none
  else some file

/-- The treatment of files outside of the project, astexec.go:658–679. -/
def trimExternal (cwd : List Bytes) (goroot file : Bytes) : Option Bytes :=
  (trimGoroot cwd goroot file).map fun f =>
    let f := (afterFirst pkgMod f).getD f
    if dotSlash.isPrefixOf f then f.drop 1 else f

/-- `trimStackFile`, astexec.go:647–679, for absolute paths `projectDir` and `file` on Unix (then `filepath.Rel` does not
fail and works on cleaned paths). -/
def trimStackFile (cwd : List Bytes) (projectDir goroot file : Bytes) : Option Bytes :=
  if projectDir ≠ [] ∧ Util.fileWithinDir cwd file projectDir = true then
    some (dotSlash ++ Util.joinPath (Util.relComps (Util.absClean cwd projectDir) (Util.absClean cwd file)))
  else trimExternal cwd goroot file

/-- The test of `ProjectFrames`, astexec.go:684–687. -/
def isProjectFile (file : Bytes) : Bool := dotSlash.isPrefixOf file && !dotVendor.isPrefixOf file

/-- `ProjectFrames`, astexec.go:683–688. -/
def projectFrames (fs : List StackFrame) : List StackFrame := fs.filter fun f => isProjectFile f.file

/-! ### The stable baseline, astexec.go:937–1054 -/

/-- `stableFieldValues`, astexec.go:1032–1054. -/
def stableFV : FMap → FMap → FMap
  | .cons k v kids rest, f2 =>
    match f2.find k with
    | none => stableFV rest f2
    | some (v2, kids2) =>
      if kids.isEmpty && kids2.isEmpty then
        if v = v2 then .cons k v .goNil (stableFV rest f2) else stableFV rest f2
      else if !kids.isEmpty && !kids2.isEmpty then
        if (stableFV kids kids2).isEmpty then stableFV rest f2
        else .cons k [] (stableFV kids kids2) (stableFV rest f2)
      else stableFV rest f2
  | _, _ => .empty

/-- Insertion that keeps earlier elements with the same time in front. -/
def insertByTime (f : CallFrame) : List CallFrame → List CallFrame
  | [] => [f]
  | g :: gs => if f.time ≤ g.time then f :: g :: gs else g :: insertByTime f gs

/-- `slices.SortStableFunc` by `TimeMillis`, astexec.go:950–961. -/
def sortByTime : List CallFrame → List CallFrame
  | [] => []
  | f :: fs => insertByTime f (sortByTime fs)

/-- The loop over the frames of the first run, astexec.go:972–995; `used` counts the frames seen per key, and the group of
a key is the frames of the second run with that key, in order. -/
def stableLoop (key : CallFrame → Bytes) (fs2 : List CallFrame) : List CallFrame → AMap Bytes Nat → List CallFrame
  | [], _ => []
  | f :: fs, used =>
    let k := key f
    let idx := (used.get k).getD 0
    let rest := stableLoop key fs2 fs (used.set k (idx + 1))
    match (fs2.filter fun g => key g = k)[idx]? with
    | none => rest
    | some g => ⟨stableFV f.fields g.fields, f.stack, f.time⟩ :: rest

/-- The frames of one identifier. -/
def stableFrames (key : CallFrame → Bytes) (fs1 fs2 : List CallFrame) : List CallFrame :=
  stableLoop key (sortByTime fs2) (sortByTime fs1) []

/-- `computeStableFrames`, astexec.go:941–1000, for maps given as listings. (The Go code also sorts the frames of its
arguments in place.) -/
def stableFrameMap (key : CallFrame → Bytes) (m1 m2 : List (Bytes × List CallFrame)) : List (Bytes × List CallFrame) :=
  m1.filterMap fun kv => (AMap.get (K := Bytes) (V := List CallFrame) m2 kv.1).map fun fs2 => (kv.1, stableFrames key kv.2 fs2)

/-- The inner loop of `intersectPanics`, astexec.go:1013–1018. -/
def commonMsgs : List Bytes → AMap Bytes Nat → List Bytes
  | [], _ => []
  | m :: ms, counts =>
    if 0 < (counts.get m).getD 0 then m :: commonMsgs ms (counts.set m ((counts.get m).getD 0 - 1))
    else commonMsgs ms counts

/-- `bulk.SliceToCounts`. -/
def sliceCounts : List Bytes → AMap Bytes Nat
  | [] => []
  | m :: ms => let c := sliceCounts ms; c.set m ((c.get m).getD 0 + 1)

/-- `intersectPanics`, astexec.go:1005–1021: an identifier without common messages gets no entry. -/
def intersectPanics (m1 m2 : List (Bytes × List Bytes)) : List (Bytes × List Bytes) :=
  m1.filterMap fun kv =>
    (AMap.get (K := Bytes) (V := List Bytes) m2 kv.1).bind fun l2 =>
      if commonMsgs kv.2 (sliceCounts l2) = [] then none else some (kv.1, commonMsgs kv.2 (sliceCounts l2))

/-- Key of a caller frame: project frames only (astexec.go:966–968, 975–978). -/
def callerKey (H : Bytes → Bytes) (f : CallFrame) : Bytes := stackKey H (projectFrames f.stack)
/-- Key of an extension frame. -/
def extKey (H : Bytes → Bytes) (f : CallFrame) : Bytes := stackKey H f.stack

/-- `testResultStableFields`, astexec.go:937–1028. -/
def stableResult (H : Bytes → Bytes) (r1 r2 : TestResult) : TestResult where
  testIdent := r1.testIdent
  testName := r1.testName
  callers := stableFrameMap (callerKey H) r1.callers r2.callers
  projectPanics := intersectPanics r1.projectPanics r2.projectPanics
  modulePanics := intersectPanics r1.modulePanics r2.modulePanics
  changesHit := r1.changesHit
  failure := r1.failure || r2.failure
  extension := stableFrameMap (extKey H) r1.extension r2.extension

/-! ### The filter applied while recording, astexec.go:751–803 -/

/-- Number of recorded frames with the key. -/
def countKey (key : CallFrame → Bytes) (k : Bytes) (fs : List CallFrame) : Nat := (fs.filter fun f => key f = k).length

/-- Deletion of all top-level fields whose name is not allowed (astexec.go:798–802). -/
def keepNames (allowed : List Bytes) : FMap → FMap
  | .cons k v kids rest => if k ∈ allowed then .cons k v kids (keepNames allowed rest) else keepNames allowed rest
  | m => m

/-- `applyStableFilter`: `stable` is the baseline's frames for the caller (`none` if it has none), `recorded` what has been
recorded for the caller in this run, `k` the key of the new frame. -/
def stableFilter (key : CallFrame → Bytes) (stable : Option (List CallFrame)) (recorded : List CallFrame) (k : Bytes)
    (fields : FMap) : FMap :=
  match stable with
  | none => keepNames [] fields
  | some frames =>
    match (frames.filter fun f => key f = k)[countKey key k recorded]? with
    | none => keepNames [] fields
    | some f => keepNames f.fields.names fields

end Verif.Monitor
