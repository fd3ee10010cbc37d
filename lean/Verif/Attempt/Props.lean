import Verif.Attempt.Spec
import Verif.Pipeline.Props

/-! # C161: tests that could not be watched -/

namespace Verif.Attempt

open Verif.Result (Bytes)
open Verif.Fields (Lib)
open Verif.Pipeline (Run Keyed InOrder Named)

theorem failed_iff (a : Attempt) : a.run.failed = true ↔ a.ending ≠ .passed := by
  unfold Attempt.run
  cases a.ending <;> simp

theorem run_proper {a : Attempt} (h : a.Proper) : a.run = a.own := by
  obtain ⟨e, o⟩ := h
  unfold Attempt.run
  rcases e with e | e
  · rw [e] at o ⊢
    have := o.mpr rfl
    cases ho : a.own
    rw [ho] at this
    simp_all
  · rw [e] at o ⊢
    have : a.own.failed = false := by cases hf : a.own.failed <;> simp_all
    cases ho : a.own
    rw [ho] at this
    simp_all

/-- C161 (regressions): a test is reported to fail since the update exactly if both attempts before it passed and that after it (one of the two, if two are made) did not, for whatever reason. -/
theorem C161_regression (c : Lib) (H : Bytes → Bytes) (dv : Bytes → Bytes → Bytes) (mult : Nat) (force : Bool) (name : Bytes × Bytes) (a1 a2 a3 a4 : Attempt) :
    (report c H dv mult force name a1 a2 a3 a4).regressions = 1 ↔
      a1.ending = .passed ∧ a2.ending = .passed ∧ (a3.ending ≠ .passed ∨ force = true ∧ a4.ending ≠ .passed) := by
  have h1 := failed_iff a1
  have h2 := failed_iff a2
  have h3 := failed_iff a3
  have h4 := failed_iff a4
  have e : (report c H dv mult force name a1 a2 a3 a4).regressions = if !(a1.run.failed || a2.run.failed) && (a3.run.failed || force && a4.run.failed) then 1 else 0 := by
    unfold report Pipeline.analysed Pipeline.monitored Compare.compareTest
    cases force <;> simp [Monitor.stableResult, Pipeline.testResult]
  rw [e]
  cases hf1 : a1.run.failed <;> cases hf2 : a2.run.failed <;> cases hf3 : a3.run.failed <;> cases hf4 : a4.run.failed <;> cases force <;> simp_all

/-- C161 (watched): if all attempts are built and run to their end, the report on the test is without differences exactly if the test itself behaves after the update as before. Missing: the
conditions of C131, and attempts that are not, see `C161_unbuilt_violated`. -/
theorem C161_watched_partial (c : Lib) (H : Bytes → Bytes) (dv : Bytes → Bytes → Bytes) (mult : Nat) (force : Bool) (name : Bytes × Bytes) (a1 a2 a3 a4 : Attempt)
    (p1 : a1.Proper) (p2 : a2.Proper) (p3 : a3.Proper) (p4 : a4.Proper) (hk : Keyed H [a1.own, a2.own, a3.own, a4.own]) (o1 : InOrder a1.own) (o2 : InOrder a2.own)
    (o : force = true → InOrder a3.own ∧ InOrder a4.own) (n1 : Named c a1.own) (n3 : Named c a3.own) :
    (report c H dv mult force name a1 a2 a3 a4).diff = 0 ↔ Kept c force a1.own a2.own a3.own a4.own := by
  unfold report
  rw [run_proper p1, run_proper p2, run_proper p3, run_proper p4, Pipeline.C131_exact_partial c H dv mult force name _ _ _ _ hk o1 o2 o n1 n3]
  exact ⟨fun ⟨a, b, d⟩ => ⟨a, b, d⟩, fun h => ⟨h.values, h.project, h.modul⟩⟩

/-- C161 (not built): if the package of a test does not build once it is instrumented, the report on the test has no values, no differences and no failure, whatever the update does. -/
theorem C161_unbuilt (c : Lib) (H : Bytes → Bytes) (dv : Bytes → Bytes → Bytes) (mult : Nat) (force : Bool) (name : Bytes × Bytes) (a1 a2 a3 a4 : Attempt)
    (h1 : a1.ending = .unbuilt) (h2 : a2.ending = .unbuilt) (h3 : a3.ending = .unbuilt) (h4 : a4.ending = .unbuilt) :
    (report c H dv mult force name a1 a2 a3 a4).same = 0 ∧ (report c H dv mult force name a1 a2 a3 a4).diff = 0 ∧ (report c H dv mult force name a1 a2 a3 a4).regressions = 0 ∧
    (report c H dv mult force name a1 a2 a3 a4).fieldChanges = [] := by
  unfold report Attempt.run
  rw [h1, h2, h3, h4]
  cases force <;> exact ⟨rfl, rfl, rfl, rfl⟩

open Verif.Pipeline (calm small_calm keyed_small inOrder_calm named_small) in
/-- Attempts that pass with calls as in `Pipeline.calm`: the conditions hold, and a changed value is a difference. -/
example (c : Lib) (H : Bytes → Bytes) (dv : Bytes → Bytes → Bytes) (name : Bytes × Bytes) : let a (v : UInt8) : Attempt := ⟨.passed, calm [v], calm []⟩
    (∀ v, (a v).Proper) ∧ ((report c H dv 10 false name (a 49) (a 49) (a 50) (a 50)).diff = 0 ↔ Kept c false (calm [49]) (calm [49]) (calm [50]) (calm [50])) := by
  have hs : ∀ v : UInt8, Pipeline.Small (calm [v]) := fun v => small_calm (by simp)
  have hp : ∀ v, Attempt.Proper ⟨.passed, calm [v], calm []⟩ := fun v => ⟨.inr rfl, by simp [calm]⟩
  exact ⟨hp, C161_watched_partial c H dv 10 false name _ _ _ _ (hp _) (hp _) (hp _) (hp _) (keyed_small H (by simp [hs])) (inOrder_calm _) (inOrder_calm _) (by simp) (named_small c (hs _))
    (named_small c (hs _))⟩

/-- A value changes with the update and the test fails since. This is reported if the instrumented package builds; if it does not, which is so for ordinary code (C156, C157), nothing of it
is reported. -/
theorem C161_unbuilt_violated (c : Lib) (H : Bytes → Bytes) (dv : Bytes → Bytes → Bytes) (name : Bytes × Bytes) : ∃ r1 r3 : Run, r1.failed = false ∧ r3.failed = true ∧
    ¬ Kept c false r1 r1 r3 r3 ∧ (∀ e f, e = .passed → f = .failed → 0 < (report c H dv 10 false name ⟨e, r1, r1⟩ ⟨e, r1, r1⟩ ⟨f, r3, r3⟩ ⟨f, r3, r3⟩).diff ∧
      (report c H dv 10 false name ⟨e, r1, r1⟩ ⟨e, r1, r1⟩ ⟨f, r3, r3⟩ ⟨f, r3, r3⟩).regressions = 1) ∧
    (∀ e f, e = .unbuilt → f = .unbuilt → (report c H dv 10 false name ⟨e, r1, r1⟩ ⟨e, r1, r1⟩ ⟨f, r3, r3⟩ ⟨f, r3, r3⟩).diff = 0 ∧
      (report c H dv 10 false name ⟨e, r1, r1⟩ ⟨e, r1, r1⟩ ⟨f, r3, r3⟩ ⟨f, r3, r3⟩).regressions = 0) := by
  have hs : ∀ (v : UInt8) (b : Bool), Pipeline.Small { Pipeline.calm [v] with failed := b } := fun v b m hm => Pipeline.small_calm (v := [v]) (by simp) m hm
  have p1 : Attempt.Proper ⟨.passed, Pipeline.calm [49], Pipeline.calm [49]⟩ := ⟨.inr rfl, by simp [Pipeline.calm]⟩
  have p3 : Attempt.Proper ⟨.failed, { Pipeline.calm [50] with failed := true }, { Pipeline.calm [50] with failed := true }⟩ := ⟨.inl rfl, by simp⟩
  have hk : ¬ Kept c false (Pipeline.calm [49]) (Pipeline.calm [49]) { Pipeline.calm [50] with failed := true } { Pipeline.calm [50] with failed := true } := fun h => by
    obtain ⟨m, hm, ha⟩ := (h.values [102] [] 1 [[97]] [49] (Pipeline.shown_calm c _ (by simp)) (Pipeline.shown_calm c _ (by simp))).1
    cases hm
    have := ((Pipeline.at_callA c [50] (by simp) 2 _ _).mp ha).2
    exact absurd this (by decide)
  have hd := fun h => hk ((C161_watched_partial c H dv 10 false name _ _ _ _ p1 p1 p3 p3 (Pipeline.keyed_small H (by
      intro r hr
      simp only [List.mem_cons, List.not_mem_nil, or_false] at hr
      rcases hr with rfl | rfl | rfl | rfl
      · exact hs 49 false
      · exact hs 49 false
      · exact hs 50 true
      · exact hs 50 true)) (Pipeline.inOrder_calm _) (Pipeline.inOrder_calm _) (by simp) (Pipeline.named_small c (hs 49 false)) (Pipeline.named_small c (hs 50 true))).mp h)
  refine ⟨Pipeline.calm [49], { Pipeline.calm [50] with failed := true }, rfl, rfl, hk, fun e f he hf => ?_, fun e f he hf => ?_⟩
  · subst he hf
    exact ⟨Nat.pos_of_ne_zero hd, rfl⟩
  · subst he hf
    exact ⟨rfl, rfl⟩

/-- A test that takes more than 30 seconds is not reported to fail since the update, although it passes before and fails after it. -/
theorem C161_late_violated (c : Lib) (H : Bytes → Bytes) (dv : Bytes → Bytes → Bytes) (mult : Nat) (force : Bool) (name : Bytes × Bytes) (a1 a2 a3 a4 : Attempt) (h1 : a1.ending = .late) :
    (report c H dv mult force name a1 a2 a3 a4).regressions ≠ 1 := by
  intro h
  have := ((C161_regression c H dv mult force name a1 a2 a3 a4).mp h).1
  rw [h1] at this
  cases this

end Verif.Attempt
