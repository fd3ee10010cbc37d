import Verif.Monitor.Model

/-!
Comparison of test results: `/repo/lens/engine.go` lines 346–625.
-/

namespace Verif.Compare

open Verif.Result (Bytes FMap StackFrame CallFrame TestResult flatten)
open Verif.Monitor (callerKey sliceCounts)

/-! ### Value differences -/

/-- "vsha1-", astexec.go:30. -/
def hashPrefix : Bytes := [118, 115, 104, 97, 49, 45]

/-- "<VALUE TOO LARGE ..." -/
def tooLarge : Bytes := "<VALUE TOO LARGE ...".toUTF8.toList

/-- " != " -/
def notEq : Bytes := [32, 33, 61, 32]

/-- The last four bytes, if there are four (engine.go:357–362). -/
def suffix4 (v : Bytes) : Bytes := if v.length ≥ 4 then v.drop (v.length - 4) else []

/-- `DiffValues`, engine.go:349–388. `quote` is the verb `%q`; `unified` is `GetUnifiedDiffString` of the lines of the
two values (a library function), `none` if it fails. -/
def diffValues (quote : Bytes → Bytes) (unified : Bytes → Bytes → Option Bytes) (v1 v2 : Bytes) : Bytes :=
  if v1 = v2 then []
  else if hashPrefix.isPrefixOf v1 && hashPrefix.isPrefixOf v2 then
    tooLarge ++ suffix4 v1 ++ [62] ++ notEq ++ tooLarge ++ suffix4 v2 ++ [62]
  else if hashPrefix.isPrefixOf v1 then tooLarge ++ suffix4 v1 ++ [62] ++ notEq ++ quote v2
  else if hashPrefix.isPrefixOf v2 then quote v1 ++ notEq ++ tooLarge ++ suffix4 v2 ++ [62]
  else
    match unified v1 v2 with
    | some t => if t ≠ [] then t else [9, 39] ++ v1 ++ [39, 10, 33, 61, 10, 9, 39] ++ v2 ++ [39]
    | none => [9, 39] ++ v1 ++ [39, 10, 33, 61, 10, 9, 39] ++ v2 ++ [39]

/-! ### Fields -/

/-- Outcome of comparing fields: equal, different, and the texts stored per field name. -/
structure FieldOut where
  same : Nat
  diff : Nat
  changes : AMap Bytes Bytes

/-- The loop over the sorted field names of a frame, engine.go:466–489. -/
def fieldLoop (dv : Bytes → Bytes → Bytes) (pre post : AMap Bytes Bytes) : List Bytes → FieldOut → FieldOut
  | [], o => o
  | n :: ns, o =>
    let value := (pre.get n).getD []
    match post.get n with
    | none => fieldLoop dv pre post ns { o with diff := o.diff + 1 }
    | some vPost =>
      if value = vPost then fieldLoop dv pre post ns { o with same := o.same + 1 }
      else fieldLoop dv pre post ns { o with diff := o.diff + 1, changes := o.changes.set n (dv value vPost) }

/-! ### Times -/

/-- `PerformanceTimeChange`, report.go:77–82; `diff` in milliseconds. -/
structure TimeChange where
  diff : Int
  pre : Nat
  post : Nat
deriving DecidableEq, Repr

/-- No change yet. -/
def noChange : TimeChange := ⟨0, 0, 0⟩

/-- `max(1, x) * uint32(timeMultiplier) < y`, engine.go:500, 516 (32-bit arithmetic). -/
def exceeds (mult x y : Nat) : Bool := max 1 x * mult % 2 ^ 32 < y

/-- The update of `mostSignificantTimeChange` for one interval, engine.go:500–532. -/
def timeStep (mult : Nat) (most : TimeChange) (pre post : Nat) : TimeChange :=
  let d : Int := (post : Int) - pre
  if exceeds mult pre post then
    if d > most.diff then ⟨d, pre, post⟩ else most
  else if exceeds mult post pre then
    if most.diff = 0 ∨ d < most.diff then ⟨d, pre, post⟩ else most
  else most

/-- State of the loop over the frames of a caller. -/
structure CallerState where
  out : FieldOut
  used : AMap Bytes Nat
  most : TimeChange
  lastPre : Nat
  lastPost : Nat

/-- One baseline frame, engine.go:440–538. `posts` are the frames after the update; the group of a key is those with the
key, in order. -/
def frameStep (dv : Bytes → Bytes → Bytes) (key : CallFrame → Bytes) (mult : Nat) (posts : List CallFrame) (s : CallerState)
    (f : CallFrame) : CallerState :=
  let k := key f
  let idx := (s.used.get k).getD 0
  let used := s.used.set k (idx + 1)
  let preFlat := flatten f.fields
  match (posts.filter fun g => key g = k)[idx]? with
  | none => { s with used := used, out := { s.out with diff := s.out.diff + preFlat.length } }
  | some g =>
    let most :=
      if f.time > 0 ∧ g.time > 0 ∧ f.time ≥ s.lastPre ∧ g.time ≥ s.lastPost then
        timeStep mult s.most (f.time - s.lastPre) (g.time - s.lastPost)
      else s.most
    ⟨fieldLoop dv preFlat (flatten g.fields) preFlat.keys s.out, used, most, f.time, g.time⟩

/-- The loop over the frames of one caller, engine.go:426–543. (The names of a frame are visited in sorted order; the
order does not matter for the outcome, see `C29_order_irrelevant`.) -/
def compareCaller (dv : Bytes → Bytes → Bytes) (key : CallFrame → Bytes) (mult : Nat) (frames posts : List CallFrame) : CallerState :=
  frames.foldl (frameStep dv key mult posts) ⟨⟨0, 0, []⟩, [], noChange, 0, 0⟩

/-! ### Panics -/

/-- Sum of the values of a map. -/
def total (c : AMap Bytes Nat) : Nat := (c.map (·.2)).sum

/-- The loop over the panics of one identifier before the update, engine.go:548–556: how many were removed, and the counts
left. -/
def panicLoop : List Bytes → AMap Bytes Nat → Nat × AMap Bytes Nat
  | [], c => (0, c)
  | m :: ms, c =>
    if 0 < (c.get m).getD 0 then panicLoop ms (c.set m ((c.get m).getD 0 - 1))
    else ((panicLoop ms c).1 + 1, (panicLoop ms c).2)

/-- `comparePanics`, engine.go:545–573: the number of differences. -/
def panicDiffs (pre post : List (Bytes × List Bytes)) : Nat :=
  (pre.map fun kv =>
    let r := panicLoop kv.2 (sliceCounts ((AMap.get (K := Bytes) (V := List Bytes) post kv.1).getD []))
    r.1 + total r.2).sum +
  ((post.filter fun kv => (AMap.get (K := Bytes) (V := List Bytes) pre kv.1).isNone).map fun kv => kv.2.length).sum

/-! ### Tests -/

/-- `TestReport`, report.go:95–103. The results keep only what is not released (engine.go:587–594). -/
structure TestReport where
  original : TestResult
  postUpdate : TestResult
  fieldChanges : AMap Bytes (AMap Bytes Bytes)
  timeChanges : AMap Bytes TimeChange
  regressions : Nat
  same : Nat
  diff : Nat

def zeroResult : TestResult := ⟨[], [], [], [], [], 0, false, []⟩

/-- The zero value, which stays in the slice for a test without result before the update (engine.go:408, 416). -/
def zeroReport : TestReport := ⟨zeroResult, zeroResult, [], [], 0, 0, 0⟩

/-- Fields released before a result is stored in a report, engine.go:587–594. -/
def released (r : TestResult) : TestResult := { r with callers := [], projectPanics := [], modulePanics := [] }

/-- The comparison of one caller of a test, engine.go:428–543. -/
def callerOut (dv : Bytes → Bytes → Bytes) (H : Bytes → Bytes) (mult : Nat) (post : TestResult) (kv : Bytes × List CallFrame) :
    CallerState :=
  compareCaller dv (callerKey H) mult kv.2 ((AMap.get (K := Bytes) (V := List CallFrame) post.callers kv.1).getD [])

/-- Comparison of one test, engine.go:424–604. -/
def compareTest (dv : Bytes → Bytes → Bytes) (H : Bytes → Bytes) (mult : Nat) (pre post : TestResult) : TestReport where
  original := released pre
  postUpdate := released post
  fieldChanges := (pre.callers.map fun kv => (kv.1, (callerOut dv H mult post kv).out.changes)).filter fun kv => kv.2 ≠ []
  timeChanges := (pre.callers.map fun kv => (kv.1, (callerOut dv H mult post kv).most)).filter fun kv => kv.2.diff ≠ 0
  regressions := if !pre.failure && post.failure then 1 else 0
  same := (pre.callers.map fun kv => (callerOut dv H mult post kv).out.same).sum
  diff := (pre.callers.map fun kv => (callerOut dv H mult post kv).out.diff).sum +
    panicDiffs pre.projectPanics post.projectPanics + panicDiffs pre.modulePanics post.modulePanics

/-- `loadTestResult`: an error, no result, or a result. -/
inductive Loaded where
  | failed
  | missing
  | found (r : TestResult)

/-- The loop over the tests after the update, engine.go:410–605; `none` is the error return. -/
def compareLoop (dv : Bytes → Bytes → Bytes) (H : Bytes → Bytes) (mult : Nat) (pre post : Bytes → Loaded) :
    List Bytes → Option (Nat × Nat × List TestReport)
  | [] => some (0, 0, [])
  | n :: ns =>
    match pre n with
    | .failed => none
    | .missing => (compareLoop dv H mult pre post ns).map fun (s, d, rs) => (s, d, zeroReport :: rs)
    | .found a =>
      match post n with
      | .failed => none
      | .missing => none
      | .found b =>
        let r := compareTest dv H mult a b
        (compareLoop dv H mult pre post ns).map fun (s, d, rs) => (r.same + s, r.diff + d, r :: rs)

end Verif.Compare
