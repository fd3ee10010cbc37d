import Verif.Verdict.Model
import Verif.Total.Spec
import Verif.Result.Spec
import Verif.Report.Spec
import Mathlib.Data.Finset.Card

/-! What the report should say about the tests, in terms of their runs. -/

namespace Verif.Verdict

open Verif.Result (Bytes dotted)
open Verif.Total (Ctx Test Kept)
open Verif.Pipeline (Shown After)

/-- The test did not pass before the update. -/
def FailedBefore (t : Test) : Prop := t.r1.failed = true ∨ t.r2.failed = true

/-- The test does not pass after the update, in the run or runs made. -/
def FailsAfter (x : Ctx) (t : Test) : Prop := t.r3.failed = true ∨ (x.force = true ∧ t.r4.failed = true)

/-- The test passed and passes no more. -/
def Regressed (x : Ctx) (t : Test) : Prop := ¬ FailedBefore t ∧ FailsAfter x t

/-- In the call number `i` of the function `f` along a path the field at `p` was `v` in both runs before the update and is `w` after it. -/
def Changes (x : Ctx) (t : Test) (f : Bytes) (path : List (Bytes × Bytes)) (i : Nat) (p : List Bytes) (v w : Bytes) : Prop :=
  Shown x.c t.r1 f path i p v ∧ Shown x.c t.r2 f path i p v ∧ After x.c x.force t.r3 t.r4 f path i p w ∧ v ≠ w

/-- The report lists a text for the field `n` of the function `f`. -/
def Listed (fields : AMap Bytes (AMap Bytes Bytes)) (f n text : Bytes) : Prop := ∃ ch, fields.get f = some ch ∧ ch.get n = some text

/-- What a report says about a test is so. -/
structure Says (x : Ctx) (t : Test) (d : Report.Detail) : Prop where
  ident : d.ident = t.ident
  name : d.name = t.name
  baseline : d.baseline = true ↔ FailedBefore t
  regression : d.regression = true ↔ Regressed x t
  diff : d.diff = 0 ↔ Kept x t
  hits : d.hits = t.r1.reached.toFinset.card
  listed : ∀ f n, (∃ text, Listed d.fields f n text) ↔ ∃ path i p v w, dotted p = n ∧ Changes x t f path i p v w
  text : ∀ f n text, Listed d.fields f n text → ∃ path i p v w, dotted p = n ∧ Changes x t f path i p v w ∧ text = Engine.trim (x.dv v w)

/-- A report has one entry for each test, in the order of identifiers, which is so; and no differences in total just if all tests keep their behaviour. -/
structure Complete (x : Ctx) (ts : List Test) (m : Report.Metrics) : Prop where
  each : ∃ sorted, sorted.Perm ts ∧ sorted.Pairwise (fun a b => a.ident < b.ident) ∧ List.Forall₂ (Says x) sorted m.details
  total : m.diff = 0 ↔ ∀ t ∈ ts, Kept x t

/-- The strings of the entries survive in JSON. -/
def Survives (js : Bytes → Bytes) (m : Report.Metrics) : Prop :=
  ∀ d ∈ m.details, js d.ident = d.ident ∧ js d.name = d.name ∧ ∀ e ∈ d.fields, js e.1 = e.1 ∧ ∀ e' ∈ e.2, js e'.1 = e'.1 ∧ js e'.2 = e'.2

/-- Ids of entry points have 32 bits. -/
def Ids (ts : List Test) : Prop := ∀ t ∈ ts, ∀ n ∈ t.r1.reached, n < 2 ^ 32

/-- The test needs attention. -/
def Suspect (x : Ctx) (t : Test) : Prop := Regressed x t ∨ ¬ Kept x t

/-- A row of the table says what is so of a test. -/
structure RowSays (x : Ctx) (t : Test) (k : Report.Key) : Prop where
  name : k.name = t.name
  fail : k.verdict = .fail ↔ Regressed x t
  baseline : k.verdict = .baseline ↔ FailedBefore t
  diff : k.diff = 0 ↔ Kept x t

/-- The table of the charts: rows for tests that need attention; tests that need it are left out only from the tenth row on, and then none that regressed for one
that did not, among tests written by hand and among generated ones. -/
structure Table (x : Ctx) (ts : List Test) (keys : List Report.Key) : Prop where
  parts : ∃ shown left calm, (shown ++ left ++ calm).Perm ts ∧ List.Forall₂ (RowSays x) shown keys ∧ (∀ t ∈ shown ++ left, Suspect x t) ∧
    (∀ t ∈ calm, ¬ Suspect x t) ∧ (left ≠ [] → keys.length = 10) ∧ keys.length ≤ 10 ∧
    ∀ a ∈ shown, ∀ b ∈ left, ([84, 101, 115, 116, 71, 101, 110, 95] <+: a.name ↔ [84, 101, 115, 116, 71, 101, 110, 95] <+: b.name) → Regressed x b → Regressed x a

/-- What an update of some tests can come to, whichever storage is used and however the tests running at the same time are interleaved. -/
def Outcome (x : Ctx) (fuel limit : Nat) (ts : List Test) (u : Nat × Nat × List Compare.TestReport) : Prop :=
  Sched.Updates Storage.memStorage x fuel limit ts [] u ∨ ∃ size, 0 < size ∧ Sched.Updates (Storage.badgerStorage size) x fuel limit ts [] u

end Verif.Verdict
