import Verif.Sched.Model
import Verif.Report.Model

/-!
From the comparison of the results to the report: `WriteReportFiles` as `Run` calls it at the end of an update (`/repo/lens/engine.go:905–927, 661–689`).
-/

namespace Verif.Verdict

open Verif.Compare (TestReport)

/-- A `TestReport` (report.go:95–103) as the report writer reads it (report.go:143–175): identifier, name, earlier failure and hits of the result before the update,
failure of the result after it; `TimeDiff` is in nanoseconds (engine.go:508, 524). -/
def toTest (r : TestReport) : Report.Test where
  ident := r.original.testIdent
  name := r.original.testName
  before := r.original.failure
  after := r.postUpdate.failure
  hits := r.original.changesHit
  diff := r.diff
  fields := r.fieldChanges
  times := r.timeChanges.map fun kv => (kv.1, ⟨kv.2.diff * 1000000, kv.2.pre, kv.2.post⟩)

/-- What is written at the end of an update, engine.go:907–922: counts and reports are those of the comparison, everything else (`i`) is known before. -/
def written (i : Report.Input) (u : Nat × Nat × List TestReport) : Report.Input := { i with same := u.1, diff := u.2.1, results := u.2.2.map toTest }

end Verif.Verdict
