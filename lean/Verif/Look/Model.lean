import Verif.Report.Model
import Mathlib.Data.List.Infix

/-!
Colours and scales of the charts, /repo/lens/report.go:484–487, 514–533, 548–551, 573–576, 588–610, 738–776 and 800–829.

The code compares floating point numbers; counts and milliseconds up to 2^53 are exact, `sum/2` is exact, and `sum*.8` is rounded to the exact value if that is
an integer, so that comparing a count with it comes out as for exact numbers (used here). Times in seconds or minutes are rounded in the code.
-/

namespace Verif.Look

open Verif.Report (Bytes Verdict)

inductive Colour where
  | red
  | orange
  | green
  /-- the colour of labels in the theme -/
  | plain
  | black
deriving DecidableEq, Repr

/-- `firstValueSeriesRankColor`, report.go:800–809, for the values of the bars. -/
def rank (bars : List Rat) : Colour :=
  let first := bars.head?.getD 0
  if first < bars.sum / 2 then .red else if first < bars.sum * (4 / 5) then .orange else .plain

/-- Bars of "Changed Module Function Coverage", report.go:514–519. -/
def coverBars (reachable reached untracked : Nat) : List Rat := [(reached : Rat), (untracked : Rat), (reachable : Rat) - (reached : Rat) - (untracked : Rat)]

/-- Bars of "Field Stability", report.go:542–544. -/
def stableBars (same diff : Nat) : List Rat := [(same : Rat), (diff : Rat)]

/-- Bars of "Mutations Squashed", report.go:567–569. -/
def mutationBars (mutations squashed : Nat) : List Rat := [(squashed : Rat), (mutations : Rat) - (squashed : Rat)]

/-- Bars of "Performance Change", report.go:591–604. -/
def timeBars (pre post : Rat) : List Rat := if post ≤ pre then [post, pre - post] else [pre, post - pre]

/-- The colour of its label. -/
def timeColour (pre post : Rat) : Colour := if post ≤ pre then .black else rank (timeBars pre post)

/-- The colour of the label of times in milliseconds, after the change of units in report.go:426–436. -/
def timeColourOf (pre post : Nat) : Colour :=
  let u := Report.timeUnit (pre : Rat) (post : Rat)
  timeColour ((pre : Rat) / u) ((post : Rat) / u)

/-- "Pass", "FAIL", "Baseline FAIL": astexec.go:32–33, report.go:639–644. -/
def verdictText : Verdict → Bytes
  | .pass => [80, 97, 115, 115]
  | .fail => [70, 65, 73, 76]
  | .baseline => [66, 97, 115, 101, 108, 105, 110, 101, 32, 70, 65, 73, 76]

/-- `strings.Contains`. -/
def contains (s t : Bytes) : Bool := decide (t <:+: s)

/-- The column "Regression", report.go:755–762. -/
def verdictCell (text : Bytes) : Colour :=
  if text = [70, 65, 73, 76] then .red else if contains text [70, 65, 73, 76] then .orange else .green

/-- The column "Fields Changed", report.go:763–772. -/
def countCell (text : Bytes) : Colour :=
  if text ≠ [48] then (if text.length < 2 then .orange else .red) else .green

/-- `axisUnitForMax`, report.go:811–829. -/
def axisUnit (val : Nat) : Nat :=
  if val ≥ 8000 then 2000 else if val > 2000 then 1000 else if val ≥ 800 then 200 else if val > 200 then 100
  else if val ≥ 80 then 20 else if val > 20 then 10 else if val ≥ 10 then 2 else 1

end Verif.Look
