import Verif.Pipeline.Model
import Verif.Storage.Model
import Verif.Report.Model

/-!
A whole update over all its tests, with the results kept in a storage: the two phases of `RunModuleUpdateAnalysis` (`/repo/lens/astexec.go:99–104, 169–176`, with
`runMonitoredTestAnalysis`, 216–299) and the comparison of everything stored (`CompareTestResults` and `loadTestResult`, `/repo/lens/engine.go:390–422, 595–624`).

The tests of a phase run concurrently (`Verif/Runs`); each loads and saves only under its own identifier, and calls of a storage are atomic, so a phase is taken as
the tests one after the other, in any order. The messages of a run are given; recording them is in `Verif/Pipeline`. The msgpack library is a parameter.
-/

namespace Verif.Total

open Verif.Result (Bytes StackFrame TestResult ETest)
open Verif.Fields (Lib)
open Verif.Storage (Impl Blob keyPrefixStep)
open Verif.Pipeline (Run monitored)
open Verif.Compare (TestReport Loaded compareLoop)

/-- The libraries and settings: capturing fields, hashing, keys of stacks, difference texts, time multiplier, whether there are extension points after the update,
and the msgpack library on the encoded form of results. -/
structure Ctx where
  c : Lib
  H : Bytes → Bytes
  sk : List StackFrame → Bytes
  dv : Bytes → Bytes → Bytes
  mult : Nat
  force : Bool
  enc : ETest → Blob
  dec : Blob → Option ETest

/-- A test function with its runs: two before the update, two after it (the second one is used only with extension points). -/
structure Test where
  ident : Bytes
  name : Bytes
  r1 : Run
  r2 : Run
  r3 : Run
  r4 : Run

/-- "pre", astexec.go:100. -/
def prePrefix : Bytes := [112, 114, 101]
/-- "post", astexec.go:167. -/
def postPrefix : Bytes := [112, 111, 115, 116]

/-- `marshalMsgpack`, types.go:221–418. -/
def marshal (x : Ctx) (r : TestResult) : Blob := x.enc (Result.encode (Result.cfgOf x.H x.sk r) r)

/-- `UnmarshalMsgpack`, types.go:420–531; `none` is an error. -/
def unmarshal (x : Ctx) (fuel : Nat) (b : Blob) : Option TestResult := (x.dec b).bind fun e => (Result.decode fuel e).toOption

/-- What a loaded blob stands for. -/
def readBlob (x : Ctx) (fuel : Nat) : Option Blob → Loaded
  | none => .missing
  | some b =>
    match unmarshal x fuel b with
    | none => .failed
    | some r => .found r

/-- `loadTestResult`, engine.go:611–624; the same in astexec.go:227–240. -/
def loadResult (I : Impl) (x : Ctx) (fuel : Nat) (p : Bytes) (st : I.σ) (ident : Bytes) : Loaded :=
  match (keyPrefixStep I p st (.load ident)).2 with
  | .blob b => readBlob x fuel b
  | _ => .failed

/-- Encoding and saving a result, astexec.go:254–263; `none` is an error. -/
def saveResult (I : Impl) (x : Ctx) (p : Bytes) (st : I.σ) (ident : Bytes) (r : TestResult) : Option I.σ :=
  match keyPrefixStep I p st (.save ident (marshal x r)) with
  | (st', .ok) => some st'
  | _ => none

/-- A test before the update: no baseline, saved under "pre" (astexec.go:100–104, 222–288). -/
def beforeTest (I : Impl) (x : Ctx) (st : I.σ) (t : Test) : Option I.σ :=
  saveResult I x prePrefix st t.ident (monitored x.c x.H none false (t.ident, t.name) t.r1 t.r2)

/-- A test after the update: the baseline is loaded from "pre", the result saved under "post" (astexec.go:166–176, 222–288). -/
def afterTest (I : Impl) (x : Ctx) (fuel : Nat) (st : I.σ) (t : Test) : Option I.σ :=
  match loadResult I x fuel prePrefix st t.ident with
  | .failed => none
  | .missing => saveResult I x postPrefix st t.ident (monitored x.c x.H none x.force (t.ident, t.name) t.r3 t.r4)
  | .found base => saveResult I x postPrefix st t.ident (monitored x.c x.H (some base.callers) x.force (t.ident, t.name) t.r3 t.r4)

/-- A phase: the tests in some order; an error of one test is an error of the phase. -/
def phase {σ : Type} (f : σ → Test → Option σ) : σ → List Test → Option σ
  | st, [] => some st
  | st, t :: ts => (f st t).bind fun st' => phase f st' ts

/-- The keys of a wrapper, in order (engine.go:392–402); `none` is an error. -/
def sortedKeys (I : Impl) (p : Bytes) (st : I.σ) : Option (List Bytes) :=
  match (keyPrefixStep I p st (.list [])).2 with
  | .keys ks => some (Report.sortBy Report.le ks)
  | _ => none

/-- `CompareTestResults`, engine.go:390–610. The keys before the update are listed and not used. -/
def compareStored (I : Impl) (x : Ctx) (fuel : Nat) (st : I.σ) : Option (Nat × Nat × List TestReport) :=
  (sortedKeys I prePrefix st).bind fun _ =>
    (sortedKeys I postPrefix st).bind fun ks =>
      compareLoop x.dv x.H x.mult (loadResult I x fuel prePrefix st) (loadResult I x fuel postPrefix st) ks

/-- Both phases on a storage, with the orders in which the tests finish. -/
def runUpdate (I : Impl) (x : Ctx) (fuel : Nat) (st : I.σ) (before after : List Test) : Option I.σ :=
  (phase (beforeTest I x) st before).bind fun st' => phase (afterTest I x fuel) st' after

/-- The update and its comparison, on a storage that may have been used before. -/
def update (I : Impl) (x : Ctx) (fuel : Nat) (st : I.σ) (before after : List Test) : Option (Nat × Nat × List TestReport) :=
  (runUpdate I x fuel st before after).bind (compareStored I x fuel)

end Verif.Total
