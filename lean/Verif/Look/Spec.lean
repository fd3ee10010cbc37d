import Verif.Look.Model
import Verif.Verdict.Spec

/-! What the colours of the charts should mean. -/

namespace Verif.Look

open Verif.Verdict (FailedBefore Regressed)
open Verif.Total (Ctx Test Kept)

/-- The cells of a row of the table have the colours of what the test did: red if it passes no more, orange if it failed before, green else; green if its behaviour
is kept, orange for fewer than ten differences, red for more. -/
structure Painted (x : Ctx) (t : Test) (k : Report.Key) : Prop where
  fails : verdictCell (verdictText k.verdict) = .red ↔ Regressed x t
  failed : verdictCell (verdictText k.verdict) = .orange ↔ FailedBefore t
  passes : verdictCell (verdictText k.verdict) = .green ↔ ¬ Regressed x t ∧ ¬ FailedBefore t
  kept : countCell (itoaBytes k.diff) = .green ↔ Kept x t
  few : countCell (itoaBytes k.diff) = .orange ↔ ¬ Kept x t ∧ k.diff < 10
  many : countCell (itoaBytes k.diff) = .red ↔ 10 ≤ k.diff

/-- The colour tells the share of a part in a whole: red below a half, orange below four fifths. -/
structure Ranks (c : Colour) (part whole : Rat) : Prop where
  red : c = .red ↔ part / whole < 1 / 2
  orange : c = .orange ↔ 1 / 2 ≤ part / whole ∧ part / whole < 4 / 5
  plain : c = .plain ↔ 4 / 5 ≤ part / whole

end Verif.Look
