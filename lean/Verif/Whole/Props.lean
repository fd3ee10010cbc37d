import Verif.Whole.Lemmas

/-! C145, C146: from changed functions to the report. -/

namespace Verif.Whole

open Verif.Result (Bytes)
open Verif.Static (Graph Entry Reportable IsProjectTest)
open Verif.Reach (Way Repeated Unique)
open Verif.Total (Ctx Test Kept Orderly Faithful)
open Verif.Report (Input metrics through)
open Verif.Verdict (Says Outcome Regressed Complete Survives Ids)

section
variable {N M : Type} [DecidableEq N] [DecidableEq M]

theorem idents_nodup {p : Project N M} {updates : List Test → Nat × Nat × List Compare.TestReport → Prop} {ts : List Test} {taken : Taken} {i : Input}
    (h : Written p updates ts taken i) : (ts.map (·.ident)).Nodup := by
  obtain ⟨callers, tests, ⟨_, order, _, ⟨steps, out, updates', _, _, h6⟩⟩, hp, _⟩ := h.run
  rw [hp.nodup_iff, h6]
  exact Reach.recordAll_nodup updates'

/-- What is behind a report: each test has its entry. -/
theorem complete (x : Ctx) (hx : Faithful x) (ts : List Test) (ho : ∀ t ∈ ts, Orderly x t) : ∃ f0, ∀ fuel, f0 ≤ fuel → ∀ limit, 0 < limit →
    ∀ (p : Project N M) (taken : Taken) (i : Input), Written p (Outcome x fuel limit) ts taken i → Complete x ts (metrics i) ∧
      ∀ js, Ids ts → Survives js (metrics i) → Complete x ts (through js (metrics i)) := by
  by_cases hn : (ts.map (·.ident)).Nodup
  · obtain ⟨f0, h0⟩ := Verdict.C141_report_partial x hx ts ho hn
    by_cases hid : Ids ts
    · obtain ⟨f1, h1⟩ := Verdict.C141_file_partial x hx ts ho hn hid
      refine ⟨max f0 f1, fun fuel hf limit hl p taken i hw => ?_⟩
      obtain ⟨callers, tests, _, _, _, _, ⟨rfl, _, _, _, _, hd, hr⟩ | ⟨_, _, tracked, u, j, _, _, _, hu, rfl⟩⟩ := hw.run
      · have e : (metrics i).details = [] := by simp [metrics, hr, Report.results, Report.sortBy]
        have e' : (metrics i).diff = 0 := hd
        refine ⟨⟨⟨[], .refl _, .nil, by rw [e]; exact .nil⟩, by simp [e']⟩, fun js _ _ => ⟨⟨[], .refl _, .nil, ?_⟩, ?_⟩⟩
        · simp only [through, e, List.map_nil]
          exact .nil
        · simp [through, e', Report.viaFloat]
      · exact ⟨(h0 fuel (by omega) limit hl).2 u hu j, fun js _ hs => (h1 fuel (by omega) limit hl).2 u hu j js hs⟩
    · refine ⟨f0, fun fuel hf limit hl p taken i hw => ⟨?_, fun js h => absurd h hid⟩⟩
      obtain ⟨callers, tests, _, _, _, _, ⟨rfl, _, _, _, _, hd, hr⟩ | ⟨_, _, tracked, u, j, _, _, _, hu, rfl⟩⟩ := hw.run
      · have e : (metrics i).details = [] := by simp [metrics, hr, Report.results, Report.sortBy]
        have e' : (metrics i).diff = 0 := hd
        exact ⟨⟨[], .refl _, .nil, by rw [e]; exact .nil⟩, by simp [e']⟩
      · exact (h0 fuel hf limit hl).2 u hu j
  · exact ⟨0, fun fuel _ limit _ p taken i hw => absurd (idents_nodup hw) hn⟩

theorem entry_of {x : Ctx} {ts : List Test} {m : Report.Metrics} (h : Complete x ts m) :
    (∀ T ∈ ts, ∃ d ∈ m.details, Says x T d) ∧ ∀ d ∈ m.details, ∃ T ∈ ts, Says x T d := by
  obtain ⟨⟨sorted, hp, _, hf⟩, _⟩ := h
  obtain ⟨hl, hg⟩ := List.forall₂_iff_get.mp hf
  constructor
  · intro T hT
    obtain ⟨n, hn, rfl⟩ := List.getElem_of_mem (hp.mem_iff.mpr hT)
    exact ⟨m.details[n]'(by omega), List.getElem_mem _, hg n hn (by omega)⟩
  · intro d hd
    obtain ⟨n, hn, rfl⟩ := List.getElem_of_mem hd
    exact ⟨sorted[n]'(by omega), hp.mem_iff.mp (List.getElem_mem _), hg n (by omega) hn⟩

/-! ## C145 -/

/-- **C145** (partial). Every test from which calls lead to a changed function is among the tests of the report and has an entry, which says what is so of its runs.
Missing: the conditions of C134 on the way (`Leads`) and the identifiers, and those of C131 on the runs. -/
theorem C145_tested_partial (x : Ctx) (hx : Faithful x) (ts : List Test) (ho : ∀ t ∈ ts, Orderly x t) : ∃ f0, ∀ fuel, f0 ≤ fuel → ∀ limit, 0 < limit →
    ∀ (p : Project N M) (of : M → Option N) (taken : Taken) (i : Input), Repeated p.g p.gt of → (∀ ch ∈ p.changes, Unique p.g ch) →
      Written p (Outcome x fuel limit) ts taken i → ∀ t, Leads p of t →
        (p.gt.fn t).ident ∈ (metrics i).tests ∧ ∃ T ∈ ts, T.ident = (p.gt.fn t).ident ∧ ∃ d ∈ (metrics i).details, Says x T d := by
  obtain ⟨f0, h0⟩ := complete (N := N) (M := M) x hx ts ho
  refine ⟨f0, fun fuel hf limit hl p of taken i hr hu hw t ⟨⟨ht, hsup⟩, above, y, below, s, y', k1, k2, k3, k4, k5, k6, k7, k8⟩ => ?_⟩
  have hc := (h0 fuel hf limit hl p taken i hw).1
  obtain ⟨callers, tests, hsel, hp, _, htests, _⟩ := hw.run
  obtain ⟨e, he, _⟩ := Reach.C134_run_partial p.g p.gt of hr p.changes callers tests hsel hu t y s above below y' k4 k1 k3 ht hsup k2 k7 k5 k6 k8
  have hk : (p.gt.fn t).ident ∈ tests.keys := by rw [AMap.mem_keys, he]; rfl
  obtain ⟨T, hT, hTi⟩ := List.mem_map.mp (hp.mem_iff.mpr hk)
  obtain ⟨d, hd, hs⟩ := (entry_of hc).1 T hT
  refine ⟨?_, T, hT, hTi, d, hd, hs⟩
  rw [(Report.C63_tests_partial i).2.1.mem_iff, htests, List.map_map]
  exact List.mem_map.mpr ⟨T, hT, hTi⟩

/-- **C145**. Every entry of the report is about a test of the project from which calls lead to a caller of a changed function. -/
theorem C145_only (x : Ctx) (hx : Faithful x) (ts : List Test) (ho : ∀ t ∈ ts, Orderly x t) : ∃ f0, ∀ fuel, f0 ≤ fuel → ∀ limit, 0 < limit →
    ∀ (p : Project N M) (taken : Taken) (i : Input), Written p (Outcome x fuel limit) ts taken i → ∀ d ∈ (metrics i).details,
      ∃ T ∈ ts, Says x T d ∧ ∃ t y : M, ∃ y' s : N, (p.gt.fn t).ident = d.ident ∧ (t = y ∨ ∃ l, Way p.gt (t :: l) ∧ l.getLast? = some y) ∧
        (p.gt.fn y).ident = (p.g.fn y').ident ∧ Reportable (p.g.fn y') ∧ (∃ l, Way p.g (y' :: l) ∧ l.getLast? = some s) ∧ (p.g.fn s).ident ∈ p.changes := by
  obtain ⟨f0, h0⟩ := complete (N := N) (M := M) x hx ts ho
  refine ⟨f0, fun fuel hf limit hl p taken i hw d hd => ?_⟩
  obtain ⟨T, hT, hs⟩ := (entry_of (h0 fuel hf limit hl p taken i hw).1).2 d hd
  refine ⟨T, hT, hs, ?_⟩
  obtain ⟨callers, tests, hsel, hp, _⟩ := hw.run
  have hk : T.ident ∈ tests.keys := hp.mem_iff.mp (List.mem_map_of_mem hT)
  obtain ⟨e, he⟩ := Option.isSome_iff_exists.mp ((AMap.mem_keys _ _).mp hk)
  obtain ⟨_, _, hne, hall⟩ := Reach.C134_only p.g p.gt p.changes callers tests hsel T.ident e he
  obtain ⟨c, hc⟩ := List.exists_mem_of_ne_nil _ hne
  obtain ⟨t, y, y', s, k1, k2, k3, k4, k5, k6, k7⟩ := hall c hc
  exact ⟨t, y, y', s, k1.trans hs.ident.symm, k6, k2.trans k3.symm, k5, k7, k4⟩

/-- **C145** (partial). The report, or what is read back from the JSON file, has no differences and no regression just if no test that was run is affected by the
update; and then none from which calls lead to a changed function is. Missing: as above, and strings that JSON changes. -/
theorem C145_clean_partial (x : Ctx) (hx : Faithful x) (ts : List Test) (ho : ∀ t ∈ ts, Orderly x t) (hid : Ids ts) : ∃ f0, ∀ fuel, f0 ≤ fuel → ∀ limit, 0 < limit →
    ∀ (p : Project N M) (of : M → Option N) (taken : Taken) (i : Input), Repeated p.g p.gt of → (∀ ch ∈ p.changes, Unique p.g ch) →
      Written p (Outcome x fuel limit) ts taken i → ∀ m, (m = metrics i ∨ ∃ js, Survives js (metrics i) ∧ m = through js (metrics i)) →
        ((m.diff = 0 ∧ ∀ d ∈ m.details, d.regression = false) ↔ ∀ T ∈ ts, Unaffected x T) ∧
        (m.diff = 0 → (∀ d ∈ m.details, d.regression = false) → ∀ t, Leads p of t → ∃ T ∈ ts, T.ident = (p.gt.fn t).ident ∧ Unaffected x T) := by
  obtain ⟨f0, h0⟩ := complete (N := N) (M := M) x hx ts ho
  obtain ⟨f1, h1⟩ := C145_tested_partial (N := N) (M := M) x hx ts ho
  refine ⟨max f0 f1, fun fuel hf limit hl p of taken i hr hu hw m hm => ?_⟩
  have hc : Complete x ts m := by
    obtain ⟨k1, k2⟩ := h0 fuel (by omega) limit hl p taken i hw
    rcases hm with rfl | ⟨js, hs, rfl⟩
    · exact k1
    · exact k2 js hid hs
  obtain ⟨e1, e2⟩ := entry_of hc
  have key : (m.diff = 0 ∧ ∀ d ∈ m.details, d.regression = false) ↔ ∀ T ∈ ts, Unaffected x T := by
    rw [hc.total]
    constructor
    · rintro ⟨k1, k2⟩ T hT
      obtain ⟨d, hd, hs⟩ := e1 T hT
      exact ⟨k1 T hT, fun hreg => by simpa [k2 d hd] using hs.regression.mpr hreg⟩
    · intro k
      refine ⟨fun T hT => (k T hT).1, fun d hd => ?_⟩
      obtain ⟨T, hT, hs⟩ := e2 d hd
      exact Bool.eq_false_iff.mpr fun he => (k T hT).2 (hs.regression.mp he)
  refine ⟨key, fun k1 k2 t ht => ?_⟩
  obtain ⟨_, T, hT, hTi, _⟩ := h1 fuel (by omega) limit hl p of taken i hr hu hw t ht
  exact ⟨T, hT, hTi, key.mp ⟨k1, k2⟩ T hT⟩

end

/-! ## C146 -/

theorem callers_changes {N : Type} {i : Input} {callers : AMap Bytes (Entry N)} (hc : i.callers.Perm (callers.map fun e => ⟨e.1, e.2.targets⟩)) (ch : Bytes) :
    ch ∈ (metrics i).reachable ↔ ch ∈ Reach.reachable callers := by
  rw [(Report.C63_functions i).2.2.1]
  simp only [Reach.reachable, List.mem_dedup, List.mem_flatMap, hc.mem_iff, List.mem_map]
  constructor
  · rintro ⟨_, ⟨e, he, rfl⟩, h⟩
    exact ⟨e, he, h⟩
  · rintro ⟨e, he, h⟩
    exact ⟨_, ⟨e, he, rfl⟩, h⟩

section
variable {N M : Type} [DecidableEq N] [DecidableEq M]

theorem reachable_sub {g : Graph N} {changes : List Bytes} {callers : AMap Bytes (Entry N)} (h : Reach.CallersFound g changes callers) {ch : Bytes}
    (hc : ch ∈ Reach.reachable callers) : ch ∈ changes := by
  obtain ⟨steps, out, updates, h1, h2, rfl⟩ := h
  simp only [Reach.reachable, List.mem_dedup, List.mem_flatMap] at hc
  obtain ⟨⟨i, e⟩, hm, ht⟩ := hc
  have hg := AMap.get_eq_some_of_mem (Reach.recordAll_nodup updates) hm
  obtain ⟨n, hn⟩ := (((Static.recordAll_holds updates).targets i e hg).2.1 ch).mp ht
  rw [h2.mem_iff, List.mem_flatMap] at hn
  obtain ⟨ch', hch, hev⟩ := hn
  obtain ⟨start, k1, k2, k3, k4, k5, k6⟩ := (Static.callerWorker_done (h1 ch' hch) _).mp hev
  simp only at k6
  rwa [k6]

/-- **C146** (partial). The report lists exactly the changed functions that the project can reach, sorted and each once. Missing: changed functions whose
identifier belongs to several functions. -/
theorem C146_reachable_partial {p : Project N M} {updates : List Test → Nat × Nat × List Compare.TestReport → Prop} {ts : List Test} {taken : Taken} {i : Input}
    (hu : ∀ ch ∈ p.changes, Unique p.g ch) (h : Written p updates ts taken i) :
    (metrics i).reachable.Pairwise (· < ·) ∧ ∀ ch, ch ∈ (metrics i).reachable ↔ CanReach p ch := by
  obtain ⟨callers, tests, hsel, _, hc, _⟩ := h.run
  refine ⟨(Report.C63_functions i).1, fun ch => ?_⟩
  rw [callers_changes hc, Reach.C135_reachable_partial p.g p.changes callers hsel.first hu]
  rfl

theorem strict_nodup {l : List Bytes} (h : Report.Strict l) : l.Nodup :=
  List.Pairwise.imp (S := (· ≠ ·)) (fun {a b} (hab : a < b) (e : a = b) => List.lt_irrefl a (by rw [← e] at hab; exact hab)) h

/-- The reachable changed functions of the report, counted. -/
theorem reachable_perm {N : Type} {i : Input} {callers : AMap Bytes (Entry N)} (hc : i.callers.Perm (callers.map fun e => ⟨e.1, e.2.targets⟩)) :
    (metrics i).reachable.Perm (Reach.reachable callers) := by
  refine (List.perm_ext_iff_of_nodup ?_ ?_).mpr (callers_changes hc)
  · exact strict_nodup (Report.C63_functions i).1
  · exact List.nodup_dedup _

/-- **C146**. The number of changed functions reached in testing is that of the functions whose entry point the first run of some test has passed; they are reachable,
and not in a module that is too old for entry points. -/
theorem C146_reached {p : Project N M} {updates : List Test → Nat × Nat × List Compare.TestReport → Prop} {ts : List Test} {taken : Taken} {i : Input}
    (h : Written p updates ts taken i) : ∃ l : List Bytes, l.Nodup ∧ l.length = (metrics i).reached ∧ (∀ ch, ch ∈ l ↔ Entered ts taken ch) ∧
      ∀ ch ∈ l, ch ∈ (metrics i).reachable ∧ ¬ TooOld p ch := by
  obtain ⟨callers, tests, hsel, _, hc, _, ⟨rfl, _, hr, _⟩ | ⟨_, _, tracked, u, j, ⟨order, ho, ht⟩, ⟨some', hs, hp⟩, hr, _⟩⟩ := h.run
  · exact ⟨[], .nil, hr.symm, by simp [Entered], by simp⟩
  · obtain ⟨k1, k2⟩ := reached_spec taken ts
    refine ⟨_, k1, ?_, k2, fun ch hch => ?_⟩
    · show _ = i.reached
      rw [hr, AMap.keys, List.length_map]
    · obtain ⟨t, _, n, hn, _⟩ := (k2 ch).mp hch
      have hm : ch ∈ taken.filterMap id := List.mem_filterMap.mpr ⟨some ch, List.mem_of_getElem? hn, rfl⟩
      obtain ⟨f, hf, rfl⟩ := List.mem_map.mp (hs.mem (hp.mem_iff.mp hm))
      obtain ⟨_, _, q3, _⟩ := Module.C40_partition (order.map fun ch => ⟨ch, p.goOf ch⟩)
      rw [ht] at q3
      obtain ⟨hf1, hf2⟩ := (q3 f).mp hf
      obtain ⟨c, hc1, rfl⟩ := List.mem_map.mp hf1
      exact ⟨(callers_changes hc c).mpr (ho.mem_iff.mp hc1), fun ⟨v, hv1, hv2⟩ => by simp [hf2 v hv1] at hv2⟩

/-- **C146**. The number of untracked functions is that of the reachable changed functions in modules that are too old, if tests are run. -/
theorem C146_untracked {p : Project N M} {updates : List Test → Nat × Nat × List Compare.TestReport → Prop} {ts : List Test} {taken : Taken} {i : Input}
    (h : Written p updates ts taken i) (hne : ts ≠ []) : ∃ l : List Bytes, l.Nodup ∧ l.length = (metrics i).untracked ∧ ∀ ch, ch ∈ l ↔ ch ∈ (metrics i).reachable ∧ TooOld p ch := by
  obtain ⟨callers, tests, hsel, _, hc, _, ⟨h0, _⟩ | ⟨_, _, tracked, u, j, ⟨order, ho, ht⟩, _⟩⟩ := h.run
  · exact absurd h0 hne
  · obtain ⟨_, _, _, q4⟩ := Module.C40_partition (order.map fun ch => ⟨ch, p.goOf ch⟩)
    rw [ht, List.countP_map] at q4
    dsimp only at q4
    have hnd : order.Nodup := ho.nodup_iff.mpr (List.nodup_dedup _)
    refine ⟨order.filter fun ch => (p.goOf ch).any Module.belowMin, hnd.filter _, ?_, fun ch => ?_⟩
    · show _ = i.untracked
      rw [q4, ← List.countP_eq_length_filter]
      rfl
    · rw [List.mem_filter, callers_changes hc, ho.mem_iff]
      unfold TooOld
      simp only [Option.any_eq_true]

/-- **C146**. Functions reached and functions not tracked are different ones among the reachable functions, and these are among the changed functions: no part of the
bars drawn for them is negative. -/
theorem C146_counts {p : Project N M} {updates : List Test → Nat × Nat × List Compare.TestReport → Prop} {ts : List Test} {taken : Taken} {i : Input}
    (h : Written p updates ts taken i) : (metrics i).reached + (metrics i).untracked ≤ (metrics i).reachableCount ∧ (metrics i).reachableCount ≤ (metrics i).funcs ∧
      (metrics i).funcs ≤ p.changes.length := by
  obtain ⟨l, l1, l2, l3, l4⟩ := C146_reached h
  have hstrict : (metrics i).reachable.Nodup := strict_nodup (Report.C63_functions i).1
  have hcount : (metrics i).reachableCount = (metrics i).reachable.length := rfl
  refine ⟨?_, ?_⟩
  · by_cases hne : ts = []
    · obtain ⟨callers, tests, _, _, _, _, ⟨_, _, hr, hu, _⟩ | ⟨h0, _⟩⟩ := h.run
      · have e1 : (metrics i).reached = 0 := hr
        have e2 : (metrics i).untracked = 0 := hu
        omega
      · exact absurd hne h0
    · obtain ⟨k, k1, k2, k3⟩ := C146_untracked h hne
      rw [hcount, ← l2, ← k2, ← List.length_append]
      refine (List.Nodup.subperm ?_ ?_).length_le
      · exact List.nodup_append.mpr ⟨l1, k1, fun a ha b hb e => (l4 a ha).2 (e ▸ ((k3 b).mp hb).2)⟩
      · intro ch hch
        rcases List.mem_append.mp hch with hch | hch
        · exact (l4 ch hch).1
        · exact ((k3 ch).mp hch).1
  · obtain ⟨callers, tests, hsel, _, hc, _, hrest⟩ := h.run
    have hsub : (metrics i).reachable.length ≤ p.changes.length :=
      (hstrict.subperm fun ch hch => reachable_sub hsel.first ((callers_changes hc ch).mp hch)).length_le
    have hf : (metrics i).funcs = i.funcs := rfl
    rw [hcount, hf]
    rcases hrest with ⟨_, he, _⟩ | ⟨_, he, _⟩
    · rw [he]
      by_cases h0 : callers = []
      · have : (metrics i).reachable.length = 0 := by
          rw [(reachable_perm hc).length_eq, h0]
          rfl
        rw [if_pos h0]
        omega
      · rw [if_neg h0]
        exact ⟨hsub, Nat.le_refl _⟩
    · rw [he]
      exact ⟨hsub, Nat.le_refl _⟩

/-- **C146** (partial). The chart says that all reachable functions are covered exactly if at most one in 2000 of them has neither been entered by a test nor is in
a module that is too old. Missing: that all were entered (see C83). -/
theorem C146_cover_partial {p : Project N M} {updates : List Test → Nat × Nat × List Compare.TestReport → Prop} {ts : List Test} {taken : Taken} {i : Input}
    (h : Written p updates ts taken i) (hne : ts ≠ []) (h0 : (metrics i).reachable ≠ []) :
    ∃ l : List Bytes, l.Nodup ∧ (∀ ch, ch ∈ l ↔ ch ∈ (metrics i).reachable ∧ ¬ Entered ts taken ch ∧ ¬ TooOld p ch) ∧
      (Report.coverLabel (metrics i).reachableCount (metrics i).reached (metrics i).untracked = 1000 ↔ 2000 * l.length ≤ (metrics i).reachableCount) := by
  classical
  obtain ⟨a, a1, a2, a3, a4⟩ := C146_reached h
  obtain ⟨b, b1, b2, b3⟩ := C146_untracked h hne
  have hnd : (metrics i).reachable.Nodup := strict_nodup (Report.C63_functions i).1
  have hcount : (metrics i).reachableCount = (metrics i).reachable.length := rfl
  obtain ⟨q, hq⟩ : ∃ q : Bytes → Bool, ∀ ch, q ch = true ↔ ¬ Entered ts taken ch ∧ ¬ TooOld p ch := ⟨fun ch => decide _, fun ch => decide_eq_true_iff⟩
  refine ⟨(metrics i).reachable.filter q, hnd.filter _, by simp [List.mem_filter, hq], ?_⟩
  have hab : (a ++ b).Nodup := List.nodup_append.mpr ⟨a1, b1, fun x hx y hy e => (a4 x hx).2 (e ▸ ((b3 y).mp hy).2)⟩
  have hperm : ((metrics i).reachable.filter fun ch => !q ch).Perm (a ++ b) := by
    refine (List.perm_ext_iff_of_nodup (hnd.filter _) hab).mpr fun ch => ?_
    simp only [List.mem_filter, List.mem_append, a3, b3, Bool.not_eq_true', ← Bool.not_eq_true, hq]
    have := a4 ch
    rw [a3] at this
    clear * - this
    tauto
  have hlen := (metrics i).reachable.length_eq_length_filter_add (f := q)
  rw [hperm.length_eq, List.length_append, a2, b2] at hlen
  have hpos : 0 < (metrics i).reachableCount := by
    rw [hcount]
    exact List.length_pos_iff.mpr h0
  rw [Report.C83_cover_partial _ _ _ hpos (C146_counts h).1]
  have e : (metrics i).reachableCount - (metrics i).reached - (metrics i).untracked =
      ((metrics i).reachable.filter q).length := by omega
  rw [e]

end

/-! ### Examples -/

/-- The project of C134, with the module function 0 changed and a recent Go version. -/
def proj : Project (Fin 3) (Fin 7) := ⟨Reach.small, Reach.large, [[0]], fun _ => some [49, 46, 50, 50]⟩

/-- The test 5 breaks. It passes point 7, which is the entry point of the changed function. -/
theorem written_example (c : Fields.Lib) (dv : Bytes → Bytes → Bytes) (fuel : Nat) (u : Nat × Nat × List Compare.TestReport)
    (hu : Verdict.Outcome (Total.sample c dv) fuel 2 [Verdict.broken [5]] u) :
    ∃ i, Written proj (Verdict.Outcome (Total.sample c dv) fuel 2) [Verdict.broken [5]] [none, none, none, none, none, none, some [0]] i ∧ i.untracked = 0 ∧ i.reached = 1 := by
  refine ⟨Verdict.written ⟨[], [], 1, 1, 0, 0, [⟨[2], [[0]]⟩], [([5], [66])], 0, 0, [], 0, 0⟩ u, ⟨?_⟩, rfl, rfl⟩
  refine ⟨_, _, Reach.selected_example, by decide, by simp [Verdict.written], rfl, .inr ⟨by simp, rfl, [⟨[0], some [49, 46, 50, 50]⟩], u, _, ⟨[[0]], by decide, (by decide +kernel : Module.filterByGo ([[0]].map fun ch => ⟨ch, proj.goOf ch⟩) = (_, 0))⟩,
    ⟨[[0]], by simp, by decide⟩, (by decide +kernel : 1 = (identsReached (entryPoints [none, none, none, none, none, none, some [0]]) [Verdict.broken [5]]).length), hu, rfl⟩⟩

theorem leads_example : Leads proj Reach.copyOf 5 :=
  ⟨by unfold IsProjectTest; decide, [4], 3, [1], 0, 2, by simp [Way, Reach.CallsNext, proj, Reach.large], by decide, by decide, rfl, by unfold Reportable; decide, by decide, by decide, by decide⟩

theorem orderly_single (c : Fields.Lib) (dv : Bytes → Bytes → Bytes) : ∀ t ∈ [Verdict.broken [5]], Orderly (Total.sample c dv) t := fun t ht => by
  rw [List.mem_singleton.mp ht]
  exact Verdict.orderly_broken c dv _

/-- The report has an entry for the test, a difference is counted, and the changed function is listed and counted as reached. -/
example (c : Fields.Lib) (dv : Bytes → Bytes → Bytes) : ∃ fuel i, Written proj (Outcome (Total.sample c dv) fuel 2) [Verdict.broken [5]] [none, none, none, none, none, none, some [0]] i ∧
    [5] ∈ (metrics i).tests ∧ (∃ d ∈ (metrics i).details, d.ident = [5] ∧ d.regression = true) ∧ (metrics i).diff ≠ 0 ∧ [0] ∈ (metrics i).reachable ∧ (metrics i).reached = 1 ∧
    (metrics i).untracked = 0 ∧ Entered [Verdict.broken [5]] [none, none, none, none, none, none, some [0]] [0] := by
  have ho := orderly_single c dv
  have hx := Total.faithful_sample c dv
  obtain ⟨f0, h0⟩ := C145_tested_partial (N := Fin 3) (M := Fin 7) _ hx _ ho
  obtain ⟨f1, h1⟩ := Verdict.C141_report_partial _ hx _ ho (by decide)
  obtain ⟨f2, h2⟩ := complete (N := Fin 3) (M := Fin 7) _ hx _ ho
  obtain ⟨u, hu⟩ := (h1 (max f0 (max f1 f2)) (by omega) 2 (by decide)).1
  obtain ⟨i, hi, k1, k2⟩ := written_example c dv _ u hu
  have hun : ∀ ch ∈ proj.changes, Unique proj.g ch := by unfold Reach.Unique; decide
  obtain ⟨m1, T, hT, m2, d, hd, m3⟩ := h0 _ (by omega) 2 (by decide) proj Reach.copyOf _ i Reach.repeated_example hun hi 5 leads_example
  have hc := (h2 _ (by omega) 2 (by decide) proj _ i hi).1
  obtain rfl := List.mem_singleton.mp hT
  refine ⟨_, i, hi, m1, ⟨d, hd, m3.ident, m3.regression.mpr ⟨by simp [Verdict.FailedBefore, Verdict.broken, Pipeline.calm], .inl rfl⟩⟩, fun hz => ?_, ?_, k2, k1, ?_⟩
  · have hk := hc.total.mp hz _ hT
    exact Total.not_kept c dv [5] ⟨hk.values, hk.project, hk.modul⟩
  · refine ((C146_reachable_partial hun hi).2 [0]).mpr ⟨by decide, 0, by decide, rfl, 2, [1, 0], by decide, by unfold Reportable; decide, ?_, rfl, by decide⟩
    simp [Way, Reach.CallsNext, proj, Reach.small]
  · exact ⟨_, hT, 6, rfl, by decide⟩

end Verif.Whole
