import Verif.AMap
import Verif.Engine.Model

/-!
The report: `/repo/lens/report.go`.

Maps are association lists; the order of the list stands for the order in which Go happens to iterate. Sorting by distinct keys has one result, so
`slices.SortFunc` by identifier is an insertion sort; the sort of the table, where equal rows are common, is a parameter. Layout, colours, times of the run and
the drawing itself are not modelled.
-/

namespace Verif.Report
open Verif

abbrev Bytes := List UInt8

/-- `strings.Compare(a, b) <= 0`. -/
def le (a b : Bytes) : Bool := decide (a ≤ b)

def insertBy {α} (f : α → α → Bool) (a : α) : List α → List α
  | [] => [a]
  | b :: l => if f a b then a :: b :: l else b :: insertBy f a l

/-- A sort. -/
def sortBy {α} (f : α → α → Bool) : List α → List α
  | [] => []
  | a :: l => insertBy f a (sortBy f l)

/-! ### Preparation -/

/-- `PerformanceTimeChange`, report.go:77–82; the difference in nanoseconds. -/
structure Time where
  diff : Int
  pre : Nat
  post : Nat
deriving DecidableEq, Repr

/-- `TestReport`, report.go:95–103, as far as the report uses it: the test, whether it failed before and after, module changes reached, differing fields, their
texts by caller and field, and time changes by caller. -/
structure Test where
  ident : Bytes
  name : Bytes
  before : Bool
  after : Bool
  hits : Nat
  diff : Nat
  fields : AMap Bytes (AMap Bytes Bytes)
  times : AMap Bytes Time
deriving DecidableEq, Repr

/-- `CallerFunction`: its identifier and those of the changed functions it reaches. -/
structure Caller where
  ident : Bytes
  changes : List Bytes
deriving DecidableEq, Repr

/-- `ModuleChange`, as far as used. -/
structure Mod where
  name : Bytes
  prior : Bytes
  next : Bytes
  indirect : Bool
deriving DecidableEq, Repr

/-- `PerformanceChange`, report.go:67–74. -/
structure Perf where
  ident : Bytes
  name : Bytes
  caller : Bytes
  diff : Int
  pre : Nat
  post : Nat
deriving DecidableEq, Repr

/-- `TestDetail`, report.go:85–93. -/
structure Detail where
  ident : Bytes
  name : Bytes
  baseline : Bool
  regression : Bool
  diff : Nat
  hits : Nat
  fields : AMap Bytes (AMap Bytes Bytes)
deriving DecidableEq, Repr

/-- `m[k] = true` for all keys of a list, then `MapKeysSlice` and `slices.Sort`, report.go:118–130. -/
def keySet (ks : List Bytes) : List Bytes := sortBy le (AMap.keys (ks.foldl (fun m k => AMap.set m k true) ([] : AMap Bytes Bool)))

/-- "TestGen_", types.go:16. -/
def genPrefix : Bytes := [84, 101, 115, 116, 71, 101, 110, 95]

/-- Trimming the texts, report.go:147–151. -/
def trimFields (m : AMap Bytes (AMap Bytes Bytes)) : AMap Bytes (AMap Bytes Bytes) := m.map fun (k, v) => (k, v.map fun (k2, v2) => (k2, Engine.trim v2))

/-- The test results after sorting and trimming in place, report.go:139–151; the charts are drawn from these. -/
def results (ts : List Test) : List Test := (sortBy (fun a b => le a.ident b.ident) ts).map fun t => { t with fields := trimFields t.fields }

/-- report.go:152–160. -/
def detail (t : Test) : Detail := ⟨t.ident, t.name, t.before, !t.before && t.after, t.diff, t.hits, t.fields⟩

/-- report.go:163–174; `Milliseconds` drops the rest. -/
def perfs (t : Test) : List Perf := t.times.map fun (c, x) => ⟨t.ident, t.name, c, x.diff.tdiv 1000000, x.pre, x.post⟩

/-- `rootModule`, report.go:181–196. -/
def rootLoop : List Mod → Mod → Mod
  | [], d => d
  | m :: ms, d =>
    if m.indirect = false then
      if d.name = [] then rootLoop ms m
      else ⟨[], [], [], false⟩
    else rootLoop ms d

def rootModule (ms : List Mod) : Mod :=
  match ms with
  | [m] => m
  | _ => rootLoop ms ⟨[], [], [], false⟩

/-- The numbers and names drawn in the charts. -/
structure Head where
  name : Bytes
  start : Bytes
  update : Bytes
  funcs : Nat
  reachable : Nat
  reached : Nat
  untracked : Nat
  same : Nat
  diff : Nat
  mutations : Nat
  squashed : Nat
deriving DecidableEq, Repr

/-- `ReportMetrics`, report.go:27–63, without times of the run. -/
structure Metrics where
  name : Bytes
  start : Bytes
  update : Bytes
  modules : List Bytes
  funcs : Nat
  reachable : List Bytes
  reachableCount : Nat
  untracked : Nat
  callers : List Bytes
  tests : List Bytes
  generated : Nat
  checks : Nat
  reached : Nat
  same : Nat
  diff : Nat
  mutations : Nat
  squashed : Nat
  perf : List Perf
  details : List Detail
deriving DecidableEq, Repr

/-- What a run hands to the report writer. `tests` are identifier and name. -/
structure Input where
  changed : List Mod
  checked : List Bytes
  funcs : Nat
  reached : Nat
  untracked : Nat
  checks : Nat
  callers : List Caller
  tests : List (Bytes × Bytes)
  same : Nat
  diff : Nat
  results : List Test
  mutations : Nat
  squashed : Nat
deriving DecidableEq, Repr

/-- Identifiers of reachable changed functions, report.go:118–130. -/
def reachableIdents (cs : List Caller) : List Bytes := keySet (cs.flatMap (·.changes))

/-- `PrepareReportData` (report.go:110–179) and `BuildReportMap` (report.go:200–238) up to the conversion to a map. -/
def metrics (i : Input) : Metrics where
  name := (rootModule i.changed).name
  start := (rootModule i.changed).prior
  update := (rootModule i.changed).next
  modules := i.checked
  funcs := i.funcs
  reachable := reachableIdents i.callers
  reachableCount := (reachableIdents i.callers).length
  untracked := i.untracked
  callers := keySet (i.callers.map (·.ident))
  tests := sortBy le (i.tests.map (·.1))
  generated := (i.tests.filter fun t => genPrefix.isPrefixOf t.2).length
  checks := i.checks
  reached := i.reached
  same := i.same
  diff := i.diff
  mutations := i.mutations
  squashed := i.squashed
  perf := (results i.results).flatMap perfs
  details := (results i.results).map detail

/-! ### The JSON file -/

/-- A count after becoming a `float64` (report.go:246: numbers of a map are floating point) and a number again: 53 significant bits, ties to even. -/
def viaFloat (n : Nat) : Nat :=
  if n ≤ 2 ^ 53 then n
  else
    let e := 2 ^ (n.log2 - 52)
    let q := n / e
    let r := n % e
    if 2 * r > e ∨ 2 * r = e ∧ q % 2 = 1 then (q + 1) * e else q * e

def viaFloatInt (n : Int) : Int := if n < 0 then - (viaFloat n.natAbs : Int) else viaFloat n.natAbs

/-- A map written and read: strings as `js` leaves them, later entries replace earlier ones with the same key, the order is that of the file. -/
def mapThrough {V} (js : Bytes → Bytes) (f : V → V) (m : AMap Bytes V) : AMap Bytes V :=
  (sortBy (fun a b => le a.1 b.1) m).foldl (fun m e => AMap.set m (js e.1) (f e.2)) []

/-- Writing (report.go:240–272) and reading the JSON. `js s` is what is left of a string: bytes that are not UTF-8 are replaced. -/
def through (js : Bytes → Bytes) (m : Metrics) : Metrics where
  name := js m.name
  start := js m.start
  update := js m.update
  modules := m.modules.map js
  funcs := viaFloat m.funcs
  reachable := m.reachable.map js
  reachableCount := viaFloat m.reachableCount
  untracked := viaFloat m.untracked
  callers := m.callers.map js
  tests := m.tests.map js
  generated := viaFloat m.generated
  checks := viaFloat m.checks
  reached := viaFloat m.reached
  same := viaFloat m.same
  diff := viaFloat m.diff
  mutations := viaFloat m.mutations
  squashed := viaFloat m.squashed
  perf := m.perf.map fun p => ⟨js p.ident, js p.name, js p.caller, viaFloatInt p.diff, viaFloat p.pre, viaFloat p.post⟩
  details := m.details.map fun d => ⟨js d.ident, js d.name, d.baseline, d.regression, viaFloat d.diff, viaFloat d.hits, mapThrough js (mapThrough js js) d.fields⟩

/-! ### Charts -/

/-- The text of the column "Regression", report.go:639–644. -/
inductive Verdict where
  | pass
  | fail
  | baseline
deriving DecidableEq, Repr

/-- The columns of the table that are compared; the third is a decimal number in the code. -/
structure Key where
  name : Bytes
  verdict : Verdict
  diff : Nat
deriving DecidableEq, Repr

structure Row where
  key : Key
  fields : Bytes
deriving DecidableEq, Repr

/-- `caller[a|b]`, cut to 66 bytes, report.go:660–663. -/
def entryText (caller : Bytes) (names : List Bytes) : Bytes :=
  let s := caller ++ [91] ++ List.intercalate [124] names ++ [93]
  if s.length > 66 then s.take 64 ++ [46, 46] else s

/-- " more field differences)" -/
def moreText : Bytes := [32, 109, 111, 114, 101, 32, 102, 105, 101, 108, 100, 32, 100, 105, 102, 102, 101, 114, 101, 110, 99, 101, 115, 41]

/-- The loop over the callers, report.go:648–665; `lines` were written of `total`. -/
def summaryLoop (total : Nat) : Nat → List (Bytes × AMap Bytes Bytes) → Bytes
  | _, [] => []
  | lines, (c, fs) :: rest =>
    if lines > 1 then [10, 40] ++ itoaBytes (total - lines) ++ moreText
    else (if lines > 0 then [10] else []) ++ entryText c (sortBy le fs.keys) ++ summaryLoop total (lines + 1) rest

def summary (m : AMap Bytes (AMap Bytes Bytes)) : Bytes := summaryLoop m.length 0 m

/-- report.go:635–673. -/
def risky (t : Test) : Option Row :=
  let regression := !t.before && t.after
  if regression || t.diff > 0 then
    some ⟨⟨t.name, if regression then .fail else if t.before then .baseline else .pass, t.diff⟩, summary t.fields⟩
  else none

def rows (ts : List Test) : List Row := ts.filterMap risky

/-- The comparison of rows, report.go:680–714. The last step compares the fourth column as a number; it never is one, so both are 0. -/
def cmp (a b : Key) : Int :=
  let aGen := genPrefix.isPrefixOf a.name
  let bGen := genPrefix.isPrefixOf b.name
  if aGen != bGen then (if aGen then 1 else -1)
  else
    let aRegress : Int := if a.verdict = .fail then 1 else 0
    let bRegress : Int := if b.verdict = .fail then 1 else 0
    if aRegress ≠ bRegress then bRegress - aRegress
    else if a.diff ≠ b.diff then (b.diff : Int) - a.diff
    else 0

/-- The table, report.go:680–717. `srt` is `slices.SortFunc`: the positions of the rows in sorted order, which depend on the compared columns only. -/
def table (srt : List Key → List Nat) (ts : List Test) : List Row :=
  ((srt ((rows ts).map (·.key))).filterMap fun i => (rows ts)[i]?).take 10

/-- Total times before and after in milliseconds, report.go:419–425. (Floating point in the code, exact up to 2^53.) -/
def totals (ts : List Test) : Nat × Nat := ((ts.map fun t => (t.times.map (·.2.pre)).sum).sum, (ts.map fun t => (t.times.map (·.2.post)).sum).sum)

/-- What is drawn. -/
structure Chart where
  head : Head
  totals : Nat × Nat
  rows : List Row
deriving DecidableEq, Repr

def chart (srt : List Key → List Nat) (h : Head) (ts : List Test) : Chart := ⟨h, totals ts, table srt ts⟩

/-- Charts at the end of a run, engine.go:680–683. -/
def chartDirect (srt : List Key → List Nat) (i : Input) : Chart :=
  chart srt ⟨(rootModule i.changed).name, (rootModule i.changed).prior, (rootModule i.changed).next, i.funcs, (reachableIdents i.callers).length, i.reached, i.untracked,
    i.same, i.diff, i.mutations, i.squashed⟩ (results i.results)

/-- Rebuilding a test result, report.go:301–338. -/
def rebuild (ps : List Perf) (d : Detail) : Test :=
  ⟨d.ident, d.name, d.baseline, d.regression, d.hits, d.diff, d.fields,
    (ps.filter fun p => p.ident = d.ident).foldl (fun m p => AMap.set m p.caller ⟨p.diff * 1000000, p.pre, p.post⟩) []⟩

/-- `RenderReportChartsFromJson`, report.go:298–360. -/
def chartFromJson (srt : List Key → List Nat) (m : Metrics) : Chart :=
  chart srt ⟨m.name, m.start, m.update, m.funcs, m.reachableCount, m.reached, m.untracked, m.same, m.diff, m.mutations, m.squashed⟩
    (sortBy (fun a b => le a.ident b.ident) (m.details.map (rebuild m.perf)))

/-! ### Labels. Percentages are exact here and floating point in the code. -/

/-- `FormatValueHumanize(v, 1, false)` in tenths: rounded, half away from zero. -/
def tenths (p : Rat) : Int := if 0 ≤ p then (p * 10 + 1 / 2).floor else (p * 10 - 1 / 2).ceil

/-- "Field Stability", report.go:553–560, for the computed percentage. -/
def stableLabel (p : Rat) (diff : Nat) : Int := tenths (if diff > 0 ∧ p > 999 / 10 then 999 / 10 else p)

/-- The percentage of report.go:555. -/
def stablePercent (same diff : Nat) : Rat := 100 * same / (same + diff)

/-- "Mutations Squashed", report.go:578–585; `f` is the second series. -/
def mutationLabel (p : Rat) (f : Nat) : Int := tenths (if f > 0 ∧ p > 999 / 10 then 999 / 10 else p)

/-- `100.0*(total-f)/total` in report.go:505, 532 and 580. -/
def restPercent (total f : Rat) : Rat := 100 * (total - f) / total

/-- "Module Change Impact", report.go:503–506. -/
def impactLabel (funcs reachable : Nat) : Int := tenths (restPercent funcs (funcs - reachable))

/-- "Changed Module Function Coverage", report.go:514–533. -/
def coverLabel (reachable reached untracked : Nat) : Int := tenths (restPercent reachable (reachable - reached - untracked))

/-- The unit of the times, report.go:426–436: divisor. -/
def timeUnit (pre post : Rat) : Rat :=
  if max pre post > 2000 then (if max (pre / 1000) (post / 1000) > 120 then 60000 else 1000) else 1

/-- "Performance Change", report.go:611–621, on the scaled times: the number and whether it says "faster". -/
def timeLabel (pre post : Rat) : Option (Int × Bool) :=
  if pre = 0 then none
  else
    let ratio := post / pre
    if post ≤ pre then some (tenths (100 - ratio * 100), true) else some (tenths ((1 - ratio) * 100), false)

end Verif.Report
