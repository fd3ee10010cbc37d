import Verif.Fields.Model
import Verif.Compare.Model

/-!
A test from its messages to its report: recording (`/repo/lens/astexec.go:700–832, 880–908`), the runs before and after the update
(`runMonitoredTest`, 520–566, called from 184–298) and the comparison (`/repo/lens/engine.go:346–625`).
-/

namespace Verif.Pipeline

open Verif.Wire (Field)
open Verif.Result (Bytes FMap StackFrame CallFrame TestResult)
open Verif.Fields (Lib record)
open Verif.Monitor (stableFilter callerKey stackKey projectFrames stableResult)
open Verif.Compare (TestReport compareTest)

/-- A state message whose point id is known: from an extension point or a caller, the identifier the point belongs to, the call stack with
trimmed file names (astexec.go:741–748), the time since the start of the client and the fields. -/
structure Call where
  ext : Bool
  ident : Bytes
  stack : List StackFrame
  ns : Nat
  fields : List Field

/-- What a run of a test sends, in the order in which it is handled: states, panics of project and module functions (identifier and message),
the ids of the module entry points; and whether the test failed. -/
structure Run where
  calls : List Call
  projectPanics : List (Bytes × Bytes)
  modulePanics : List (Bytes × Bytes)
  reached : List Nat
  failed : Bool

/-- `uint32((msg.TimeNS + 500000) / 1_000_000)`, astexec.go:813. -/
def millis (ns : Nat) : Nat := (ns + 500000) / 1000000 % 2 ^ 32

abbrev Frames := AMap Bytes (List CallFrame)

/-- The frame recorded for a message, astexec.go:740–832. The filter is used for callers if there is a baseline (755–758, 821–829). -/
def newFrame (c : Lib) (H : Bytes → Bytes) (stable : Option Frames) (recorded : List CallFrame) (m : Call) : CallFrame :=
  match m.ext, stable with
  | false, some st =>
    ⟨stableFilter (callerKey H) (st.get m.ident) recorded (stackKey H (projectFrames m.stack)) (record c m.fields), m.stack, millis m.ns⟩
  | _, _ => ⟨record c m.fields, m.stack, millis m.ns⟩

/-- `recordedAppend`, astexec.go:808–815. -/
def appendTo (c : Lib) (H : Bytes → Bytes) (stable : Option Frames) (store : Frames) (m : Call) : Frames :=
  store.set m.ident ((store.get m.ident).getD [] ++ [newFrame c H stable ((store.get m.ident).getD []) m])

/-- The two maps of a monitor, astexec.go:617–620: callers and extension points. -/
structure Recorded where
  callers : Frames
  extension : Frames

/-- `HandleFuncPointState`, astexec.go:700–832. -/
def handleState (c : Lib) (H : Bytes → Bytes) (stable : Option Frames) (s : Recorded) (m : Call) : Recorded :=
  match m.ext with
  | true => { s with extension := appendTo c H stable s.extension m }
  | false => { s with callers := appendTo c H stable s.callers m }

/-- `HandleFuncPointPanic`, astexec.go:880–894, for panics of one kind. -/
def handlePanic (store : AMap Bytes (List Bytes)) (p : Bytes × Bytes) : AMap Bytes (List Bytes) :=
  store.set p.1 ((store.get p.1).getD [] ++ [p.2])

/-- A run recorded by a new monitor (newTestMonitor, makeTestResult, astexec.go:580–599, 896–917); `stable` is the baseline's frames of callers, `none`
if there is no baseline. -/
def testResult (c : Lib) (H : Bytes → Bytes) (stable : Option Frames) (name : Bytes × Bytes) (r : Run) : TestResult where
  testIdent := name.1
  testName := name.2
  callers := (r.calls.foldl (handleState c H stable) ⟨[], []⟩).callers
  extension := (r.calls.foldl (handleState c H stable) ⟨[], []⟩).extension
  projectPanics := r.projectPanics.foldl handlePanic []
  modulePanics := r.modulePanics.foldl handlePanic []
  changesHit := r.reached.dedup.length
  failure := r.failed

/-- `runMonitoredTest`, astexec.go:520–566: the second run is made unless there is a baseline and it is not forced. -/
def monitored (c : Lib) (H : Bytes → Bytes) (stable : Option Frames) (force : Bool) (name : Bytes × Bytes) (a b : Run) : TestResult :=
  match stable.isSome && !force with
  | true => testResult c H stable name a
  | false => stableResult H (testResult c H stable name a) (testResult c H none name b)

/-- One test through `RunModuleUpdateAnalysis`, astexec.go:106–182, and `CompareTestResults`: two runs before the update; one run after it, filtered by their
result, or two with extension points; comparison. Between the steps the results are stored and loaded, which is left out here; see `analysedStored`.
A baseline without any caller may be loaded as a nil map, for which the filter is not used; nothing is compared in that case. -/
def analysed (c : Lib) (H : Bytes → Bytes) (dv : Bytes → Bytes → Bytes) (mult : Nat) (force : Bool) (name : Bytes × Bytes) (r1 r2 r3 r4 : Run) : TestReport :=
  compareTest dv H mult (monitored c H none false name r1 r2)
    (monitored c H (some (monitored c H none false name r1 r2).callers) force name r3 r4)

/-- A result stored and loaded again (astexec.go:227–275, engine.go:612–624): `none` if decoding fails. -/
def saved (H : Bytes → Bytes) (sk : List StackFrame → Bytes) (fuel : Nat) (r : TestResult) : Option TestResult :=
  (Result.decode fuel (Result.encode (Result.cfgOf H sk r) r).wire).toOption

/-- The same with the results stored and loaded between the steps. -/
def analysedStored (c : Lib) (H : Bytes → Bytes) (sk : List StackFrame → Bytes) (dv : Bytes → Bytes → Bytes) (mult : Nat) (force : Bool) (name : Bytes × Bytes)
    (fuel : Nat) (r1 r2 r3 r4 : Run) : Option TestReport :=
  (saved H sk fuel (monitored c H none false name r1 r2)).bind fun base =>
    (saved H sk fuel (monitored c H (some base.callers) force name r3 r4)).map fun post => compareTest dv H mult base post

end Verif.Pipeline
