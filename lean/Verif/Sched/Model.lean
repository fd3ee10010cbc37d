import Verif.Total.Model

/-!
The tests of a phase running at the same time on one storage: `runMonitoredTestAnalysis`, `/repo/lens/astexec.go:216–299`, as a state machine whose steps are the calls
of the storage. `Verif/Total` takes a phase as the tests one after the other; `Verif/Runs` has the servers and messages of the runs, which are given here.

Simplified: a call of a storage is one step (on disk a call may take several transactions, see `Verif/Storage` and C06; a phase reads and writes different keys).
-/

namespace Verif.Sched

open Verif.Result (Bytes TestResult)
open Verif.Storage (Impl Resp keyPrefixStep)
open Verif.Pipeline (Frames monitored)
open Verif.Compare (Loaded)
open Verif.Total (Ctx Test prePrefix postPrefix marshal loadResult)

/-- What a test function is doing, astexec.go:222–288. -/
inductive Task where
  /-- `errGrp.Go` has not been called yet. -/
  | waiting
  /-- Before the baseline is loaded. -/
  | started
  /-- With the baseline, if there is one, before the result is saved. -/
  | loaded (stable : Option Frames)
  /-- Returned without an error. -/
  | done
  /-- Returned with an error. -/
  | failed

/-- Counts against the limit of the group. -/
def Task.active : Task → Bool
  | .started | .loaded _ => true
  | _ => false

structure St (σ : Type) where
  store : σ
  /-- The test functions, by position. -/
  tasks : List Task
  /-- Whether an error will be returned. -/
  err : Bool

/-- Loading the baseline, astexec.go:226–243: there is a storage of baselines only after the update. -/
def loadStable (I : Impl) (x : Ctx) (fuel : Nat) (after : Bool) (st : I.σ) (t : Test) : Task :=
  if after then
    match loadResult I x fuel prePrefix st t.ident with
    | .failed => .failed
    | .missing => .loaded none
    | .found base => .loaded (some base.callers)
  else .loaded none

/-- The result of a test, astexec.go:248–253: two runs before the update, and after it as `monitored` says. -/
def resultOf (x : Ctx) (after : Bool) (t : Test) (stable : Option Frames) : TestResult :=
  if after then monitored x.c x.H stable x.force (t.ident, t.name) t.r3 t.r4 else monitored x.c x.H none false (t.ident, t.name) t.r1 t.r2

/-- Saving the result, astexec.go:254–263. -/
def saveStep (I : Impl) (x : Ctx) (after : Bool) (st : I.σ) (t : Test) (stable : Option Frames) : I.σ × Resp :=
  keyPrefixStep I (if after then postPrefix else prePrefix) st (.save t.ident (marshal x (resultOf x after t stable)))

def isFailed : Task → Bool
  | .failed => true
  | _ => false

/-- One step of a phase with tests `ts` on at most `limit` servers. -/
inductive Step (I : Impl) (x : Ctx) (fuel limit : Nat) (after : Bool) (ts : List Test) : St I.σ → St I.σ → Prop
  /-- The first test runs alone; an error ends the phase; the group runs at most as many as there are servers, astexec.go:289–296. -/
  | start (st : St I.σ) (i : Nat) : st.tasks[i]? = some .waiting → (∀ j < i, st.tasks[j]? ≠ some .waiting) →
      (i ≠ 0 → st.tasks[0]? = some .done ∧ st.tasks.countP Task.active < limit) → Step I x fuel limit after ts st { st with tasks := st.tasks.set i .started }
  /-- `LoadState`, astexec.go:227. -/
  | load (st : St I.σ) (i : Nat) (t : Test) : st.tasks[i]? = some .started → ts[i]? = some t →
      Step I x fuel limit after ts st
        { st with tasks := st.tasks.set i (loadStable I x fuel after st.store t), err := st.err || isFailed (loadStable I x fuel after st.store t) }
  /-- `SaveState`, astexec.go:258. -/
  | save (st : St I.σ) (i : Nat) (t : Test) (stable : Option Frames) : st.tasks[i]? = some (.loaded stable) → ts[i]? = some t →
      (saveStep I x after st.store t stable).2 = .ok →
      Step I x fuel limit after ts st { st with store := (saveStep I x after st.store t stable).1, tasks := st.tasks.set i .done }
  /-- `SaveState` with an error. -/
  | lost (st : St I.σ) (i : Nat) (t : Test) (stable : Option Frames) : st.tasks[i]? = some (.loaded stable) → ts[i]? = some t →
      (saveStep I x after st.store t stable).2 ≠ .ok →
      Step I x fuel limit after ts st { store := (saveStep I x after st.store t stable).1, tasks := st.tasks.set i .failed, err := true }
  /-- Any other error, of a run or of the encoding, astexec.go:250–257. -/
  | fail (st : St I.σ) (i : Nat) (stable : Option Frames) : st.tasks[i]? = some (.loaded stable) →
      Step I x fuel limit after ts st { st with tasks := st.tasks.set i .failed, err := true }

inductive Reach (I : Impl) (x : Ctx) (fuel limit : Nat) (after : Bool) (ts : List Test) (store : I.σ) : St I.σ → Prop
  | init : Reach I x fuel limit after ts store ⟨store, ts.map fun _ => .waiting, false⟩
  | step {a b : St I.σ} : Reach I x fuel limit after ts store a → Step I x fuel limit after ts a b → Reach I x fuel limit after ts store b

/-- `errGrp.Wait` has returned: nothing runs, and nothing can be started. -/
def Over (I : Impl) (x : Ctx) (fuel limit : Nat) (after : Bool) (ts : List Test) (st : St I.σ) : Prop := ∀ st', ¬ Step I x fuel limit after ts st st'

/-- A phase may end without an error with this storage. -/
structure Ends (I : Impl) (x : Ctx) (fuel limit : Nat) (after : Bool) (ts : List Test) (store store' : I.σ) : Prop where
  run : ∃ st, Reach I x fuel limit after ts store st ∧ Over I x fuel limit after ts st ∧ st.err = false ∧ st.store = store'

/-- Both phases and the comparison, astexec.go:98–181 and engine.go:390: a report that the update may give. -/
structure Updates (I : Impl) (x : Ctx) (fuel limit : Nat) (ts : List Test) (store : I.σ) (report : Nat × Nat × List Compare.TestReport) : Prop where
  run : ∃ st1 st2, Ends I x fuel limit false ts store st1 ∧ Ends I x fuel limit true ts st1 st2 ∧ Total.compareStored I x fuel st2 = some report

end Verif.Sched
