import Verif.Reach.Model
import Verif.Verdict.Model
import Verif.Module.Model

/-!
The engine from the changed functions to the report: `/repo/lens/engine.go:826–926` with the default providers. What each of the steps does is modelled elsewhere
(`Reach`, `Module`, `Sched`, `Total`, `Verdict`); here are the values handed from one to the next, and the counts of `runMonitoredTestAnalysis`
(`/repo/lens/astexec.go:215–298, 910–936`).
-/

namespace Verif.Whole

open Verif.Result (Bytes)
open Verif.Static (Graph Entry)
open Verif.Total (Test)
open Verif.Report (Input)

/-- Points in the order in which their ids are taken (`nextPointId`, asttweak.go:398–417, see C22): the identifier of a changed function for its entry point, `none` for any
other point. -/
abbrev Taken := List (Option Bytes)

/-- `moduleEntryPointIdToIdent`, astexec.go:407–418, 437: ids start at one. -/
def entryPoints (taken : Taken) : AMap Nat Bytes := (taken.zipIdx 1).filterMap fun p => p.1.map fun ident => (p.2, ident)

/-- `getModuleChangesReached`, astexec.go:919–933, without the order: unknown ids are only logged. -/
def changesReached (entry : AMap Nat Bytes) (t : Test) : List Bytes := t.r1.reached.dedup.filterMap entry.get

/-- `moduleIdentsReached`, astexec.go:216, 284–286: its size is what is returned. -/
def identsReached (entry : AMap Nat Bytes) (ts : List Test) : AMap Bytes Bool :=
  (ts.flatMap (changesReached entry)).foldl (fun m ident => m.set ident true) []

section
variable {N M : Type}

/-- What is known of the project and the changes: call graphs without and with tests, identifiers of the changed functions, and the Go version of the module of
each (`none`: no module known). -/
structure Project (N M : Type) where
  g : Graph N
  gt : Graph M
  changes : List Bytes
  goOf : Bytes → Option Bytes

/-- The changed functions that get an entry point, and the number of those that do not, astexec.go:97: the map is iterated in any order. -/
structure Tracked (p : Project N M) (reachable : List Bytes) (tracked : List Module.ModFunc) (skipped : Nat) : Prop where
  run : ∃ order : List Bytes, order.Perm reachable ∧ Module.filterByGo (order.map fun ch => ⟨ch, p.goOf ch⟩) = (tracked, skipped)

/-- The entry points put in: each tracked function gets at most one (none if it has no body, astexec.go:411–414). -/
structure Instrumented (tracked : List Module.ModFunc) (taken : Taken) : Prop where
  sub : ∃ some', some'.Sublist (tracked.map (·.ident)) ∧ (taken.filterMap id).Perm some'

/-- The engine may write this report for a project, engine.go:826–926: `ts` are the tests it has selected, with what they do when they are run, and `taken` the points put into
the code before the update (if there are tests). -/
structure Written [DecidableEq N] [DecidableEq M] (p : Project N M) (updates : List Test → Nat × Nat × List Compare.TestReport → Prop) (ts : List Test) (taken : Taken)
    (i : Input) : Prop where
  run : ∃ (callers : AMap Bytes (Entry N)) (tests : AMap Bytes (Entry M)),
    Reach.Selected p.g p.gt p.changes callers tests ∧ (ts.map (·.ident)).Perm tests.keys ∧
    i.callers.Perm (callers.map fun e => ⟨e.1, e.2.targets⟩) ∧ i.tests = ts.map (fun t => (t.ident, t.name)) ∧
    -- no callers, or no tests: the report is written at once, engine.go:833–841 and 857–865
    ((ts = [] ∧ i.funcs = (if callers = [] then 0 else p.changes.length) ∧ i.reached = 0 ∧ i.untracked = 0 ∧ i.same = 0 ∧ i.diff = 0 ∧ i.results = []) ∨
    -- otherwise the tests are run, engine.go:873–926
     (ts ≠ [] ∧ i.funcs = p.changes.length ∧ ∃ tracked u j, Tracked p (Reach.reachable callers) tracked i.untracked ∧ Instrumented tracked taken ∧
       i.reached = (identsReached (entryPoints taken) ts).length ∧ updates ts u ∧ i = Verdict.written j u))

end

end Verif.Whole
