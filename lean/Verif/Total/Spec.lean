import Verif.Total.Model
import Verif.Pipeline.Spec

/-! When a test keeps its behaviour, and what the libraries and runs have to be like. -/

namespace Verif.Total

open Verif.Result (Bytes TestResult)
open Verif.Pipeline (Shown After afterPanics Keyed InOrder Named Storable monitored saved)

/-- A test behaves after the update as it did before: what both runs before show (values in calls, panics) is what the runs after show. -/
structure Kept (x : Ctx) (t : Test) : Prop where
  values : ∀ ident path n p v, Shown x.c t.r1 ident path n p v → Shown x.c t.r2 ident path n p v → After x.c x.force t.r3 t.r4 ident path n p v
  project : (t.r1.projectPanics : Multiset (Bytes × Bytes)) ∩ t.r2.projectPanics = afterPanics x.force t.r3.projectPanics t.r4.projectPanics
  modul : (t.r1.modulePanics : Multiset (Bytes × Bytes)) ∩ t.r2.modulePanics = afterPanics x.force t.r3.modulePanics t.r4.modulePanics

/-- Reading back what the msgpack library has written gives it back, but for empty maps left out; results are written as maps, whose first byte is at least 0x80. -/
structure Faithful (x : Ctx) : Prop where
  back : ∀ e, x.dec (x.enc e) = some e.wire
  maps : ∀ e, ∃ h t, x.enc e = h :: t ∧ 128 ≤ h.toNat

/-- The conditions of C131 on a test: calls arrive in order, names have no dots, no collisions. -/
structure Orderly (x : Ctx) (t : Test) : Prop where
  keyed : Keyed x.H [t.r1, t.r2, t.r3, t.r4]
  first : InOrder t.r1
  second : InOrder t.r2
  after : x.force = true → InOrder t.r3 ∧ InOrder t.r4
  named1 : Named x.c t.r1
  named3 : Named x.c t.r3
  store1 : Storable x.H x.sk (monitored x.c x.H none false (t.ident, t.name) t.r1 t.r2)
  store2 : ∀ fuel base, saved x.H x.sk fuel (monitored x.c x.H none false (t.ident, t.name) t.r1 t.r2) = some base →
    Storable x.H x.sk (monitored x.c x.H (some base.callers) x.force (t.ident, t.name) t.r3 t.r4)

/-- The report of one test, whatever the others do. -/
def alone (x : Ctx) (fuel : Nat) (t : Test) : Option Compare.TestReport :=
  Pipeline.analysedStored x.c x.H x.sk x.dv x.mult x.force (t.ident, t.name) fuel t.r1 t.r2 t.r3 t.r4

/-- Reports belong to tests: one for each, in the order of identifiers. -/
structure Reports (x : Ctx) (fuel : Nat) (ts : List Test) (same diff : Nat) (reports : List Compare.TestReport) : Prop where
  each : ∃ sorted, sorted.Perm ts ∧ sorted.Pairwise (fun a b => a.ident < b.ident) ∧
    List.Forall₂ (fun t rep => alone x fuel t = some rep ∧ rep.original.testIdent = t.ident ∧ rep.original.testName = t.name ∧
      rep.postUpdate.testIdent = t.ident ∧ rep.postUpdate.testName = t.name ∧ (rep.diff = 0 ↔ Kept x t)) sorted reports
  same : same = (reports.map (·.same)).sum
  diff : diff = (reports.map (·.diff)).sum

end Verif.Total
