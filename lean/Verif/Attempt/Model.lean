import Verif.Pipeline.Model

/-!
What the monitor makes of the ways in which `go test` ends: `ExecGoTest`, `/repo/lens/exec.go:78–92`, gives an error whenever the command does not end with 0: if the test fails, if it is not done
within 30 seconds (79), and if its package does not build. `runMonitoredTest`, `/repo/lens/astexec.go:520–566`, takes each of these for a failure of the test (531, 555).
-/

namespace Verif.Attempt

open Verif.Result (Bytes)
open Verif.Fields (Lib)
open Verif.Pipeline (Run)
open Verif.Compare (TestReport)

/-- How `go test` ends for the instrumented package. -/
inductive Ending where
  | unbuilt
  | late
  | failed
  | passed
deriving DecidableEq

/-- An attempt to run a test: how it ends, what the test does if it is left to run, and what of that was sent before the time was over. -/
structure Attempt where
  ending : Ending
  own : Run
  sent : Run

/-- What the monitor has of the attempt, astexec.go:529–537, 549–559. -/
def Attempt.run (a : Attempt) : Run :=
  match a.ending with
  | .unbuilt => ⟨[], [], [], [], true⟩
  | .late => { a.sent with failed := true }
  | .failed => { a.own with failed := true }
  | .passed => { a.own with failed := false }

/-- The report on a test from its attempts, see `Pipeline.analysed`. -/
def report (c : Lib) (H : Bytes → Bytes) (dv : Bytes → Bytes → Bytes) (mult : Nat) (force : Bool) (name : Bytes × Bytes) (a1 a2 a3 a4 : Attempt) : TestReport :=
  Pipeline.analysed c H dv mult force name a1.run a2.run a3.run a4.run

end Verif.Attempt
