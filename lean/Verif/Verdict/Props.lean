import Verif.Verdict.Lemmas

/-! C141, C142: from the runs of the tests to the report. -/

namespace Verif.Verdict

open Verif.Result (Bytes)
open Verif.Total (Ctx Test Kept Orderly Faithful Reports alone)
open Verif.Report (Input metrics through chartDirect chartFromJson IsSort TextOk CountsOk)

/-- What is behind an update of tests: its reports. -/
theorem outcomes (x : Ctx) (hx : Faithful x) (ts : List Test) (ho : ∀ t ∈ ts, Orderly x t) (hn : (ts.map (·.ident)).Nodup) :
    ∃ f0, ∀ fuel, f0 ≤ fuel → ∀ limit, 0 < limit → (∃ u, Outcome x fuel limit ts u) ∧
      ∀ u, Outcome x fuel limit ts u → Reports x fuel ts u.1 u.2.1 u.2.2 ∧ ∀ t ∈ ts, ∃ rep, alone x fuel t = some rep ∧ Right x t rep := by
  obtain ⟨f0, h0⟩ := Sched.C140_reports_partial x hx ts ho hn
  obtain ⟨f1, h1⟩ := right_all ho
  refine ⟨max f0 f1, fun fuel hf limit hl => ?_⟩
  obtain ⟨same, diff, reports, h2, h3, h4⟩ := h0 fuel (by omega) limit hl
  refine ⟨⟨_, .inl ((h3 _).mpr rfl)⟩, fun u hu => ⟨?_, h1 fuel (by omega)⟩⟩
  rcases hu with hu | ⟨size, hs, hu⟩
  · rw [(h3 u).mp hu]
    exact h2
  · rw [h4 size hs u hu]
    exact h2

/-! ## C141: the entries of the tests -/

/-- **C141** (partial). However the tests run, the report has one entry for each test, in the order of identifiers. It says whether the test failed before the update,
whether it passed before and fails after, how many changed functions its first run reached, and which fields of which functions changed, with the difference; and it
counts no differences just if the test keeps its behaviour. All of it is so of the runs themselves. Missing: the conditions of C131 on each test (`Orderly`). -/
theorem C141_report_partial (x : Ctx) (hx : Faithful x) (ts : List Test) (ho : ∀ t ∈ ts, Orderly x t) (hn : (ts.map (·.ident)).Nodup) :
    ∃ f0, ∀ fuel, f0 ≤ fuel → ∀ limit, 0 < limit → (∃ u, Outcome x fuel limit ts u) ∧
      ∀ u, Outcome x fuel limit ts u → ∀ i : Input, Complete x ts (metrics (written i u)) := by
  obtain ⟨f0, h0⟩ := outcomes x hx ts ho hn
  refine ⟨f0, fun fuel hf limit hl => ⟨(h0 fuel hf limit hl).1, fun u hu i => ?_⟩⟩
  obtain ⟨h1, h2⟩ := (h0 fuel hf limit hl).2 u hu
  refine ⟨?_, h1.clean⟩
  obtain ⟨sorted, hp, hs, hf⟩ := results_of h1 h2
  refine ⟨sorted, hp, hs, ?_⟩
  show List.Forall₂ (Says x) sorted ((Report.results (u.2.2.map toTest)).map Report.detail)
  rw [List.forall₂_map_right_iff]
  exact hf.imp fun _ _ h => h.1.told

/-- **C141** (partial). The same is so of what is read from the JSON file. Missing: also strings that are not text, which JSON does not keep. -/
theorem C141_file_partial (x : Ctx) (hx : Faithful x) (ts : List Test) (ho : ∀ t ∈ ts, Orderly x t) (hn : (ts.map (·.ident)).Nodup) (hid : Ids ts) :
    ∃ f0, ∀ fuel, f0 ≤ fuel → ∀ limit, 0 < limit → (∃ u, Outcome x fuel limit ts u) ∧
      ∀ u, Outcome x fuel limit ts u → ∀ (i : Input) (js : Bytes → Bytes), Survives js (metrics (written i u)) →
        Complete x ts (through js (metrics (written i u))) := by
  obtain ⟨f0, h0⟩ := outcomes x hx ts ho hn
  refine ⟨f0, fun fuel hf limit hl => ⟨(h0 fuel hf limit hl).1, fun u hu i js hj => ?_⟩⟩
  obtain ⟨h1, h2⟩ := (h0 fuel hf limit hl).2 u hu
  refine ⟨?_, (viaFloat_zero _).trans h1.clean⟩
  obtain ⟨sorted, hp, hs, hf⟩ := results_of h1 h2
  refine ⟨sorted, hp, hs, ?_⟩
  have hj' : ∀ w ∈ Report.results (u.2.2.map toTest), js (Report.detail w).ident = (Report.detail w).ident ∧ js (Report.detail w).name = (Report.detail w).name ∧
      ∀ e ∈ (Report.detail w).fields, js e.1 = e.1 ∧ ∀ e' ∈ e.2, js e'.1 = e'.1 ∧ js e'.2 = e'.2 :=
    fun w hw => hj _ (List.mem_map.mpr ⟨w, hw, rfl⟩)
  have hid' : ∀ t ∈ sorted, ∀ n ∈ t.r1.reached, n < 2 ^ 32 := fun t ht => hid t (hp.mem_iff.mp ht)
  show List.Forall₂ (Says x) sorted (((Report.results (u.2.2.map toTest)).map Report.detail).map _)
  rw [List.map_map, List.forall₂_map_right_iff]
  clear hp hs h1 h2 hj hid
  generalize Report.results (u.2.2.map toTest) = us at hf hj'
  induction hf with
  | nil => exact .nil
  | @cons t w l l' a _ ih =>
      exact .cons (says_through a.1 (hid' t (by simp)) (hj' w (by simp))) (ih (fun t ht => hid' t (by simp [ht])) fun w hw => hj' w (by simp [hw]))

/-! ### Examples used below -/

/-- A test that passes and shows "2" before the update, and fails and shows "3" after it. -/
def broken (ident : Bytes) : Test := ⟨ident, [66], Pipeline.calm [50], Pipeline.calm [50], { Pipeline.calm [51] with failed := true }, Pipeline.calm [50]⟩

theorem orderly_broken (c : Fields.Lib) (dv : Bytes → Bytes → Bytes) (ident : Bytes) : Orderly (Total.sample c dv) (broken ident) := by
  have h := Total.orderly_testOf c dv ident (v := 51) (.inr rfl)
  have hb : Pipeline.Storable Result.toyH Result.toyKey (Pipeline.monitored c Result.toyH none false (ident, [66]) (Pipeline.calm [50]) (Pipeline.calm [50])) := by
    have hbase : Pipeline.monitored c Result.toyH none false (ident, [66]) (Pipeline.calm [50]) (Pipeline.calm [50]) =
        ⟨ident, [66], [([102], [⟨.cons [97] [49] .goNil .empty, [], 1⟩, ⟨.cons [97] [50] .goNil .empty, [], 2⟩])], [([102], [[109]])], [], 2, false, []⟩ := rfl
    rw [hbase]
    refine Pipeline.storable_small ?_
    intro f hf
    simp [Result.TestResult.frames] at hf
    rcases hf with rfl | rfl <;> simp [Pipeline.SmallTree]
  have hs : ∀ v : UInt8, Pipeline.Small (Pipeline.calm [v]) := fun v => Pipeline.small_calm (by simp)
  have hs' : Pipeline.Small { Pipeline.calm [51] with failed := true } := hs 51
  exact ⟨Pipeline.keyed_small _ (by simp [broken, hs, hs']), h.first, h.second, by simp [Total.sample], h.named1, h.named3, hb,
    fun fuel base _ => Pipeline.storable_small (Pipeline.small_test c _ (ident, [66]) (by simp))⟩

/-- Of two tests one breaks: it is reported as regression with differences, the other one is not. -/
example (c : Fields.Lib) (dv : Bytes → Bytes → Bytes) (i : Input) : ∃ fuel, (∃ u, Outcome (Total.sample c dv) fuel 2 [Total.testOf [117] [50], broken [116]] u) ∧
    ∀ u, Outcome (Total.sample c dv) fuel 2 [Total.testOf [117] [50], broken [116]] u → ∃ d e, (metrics (written i u)).details = [d, e] ∧
      d.ident = [116] ∧ d.regression = true ∧ d.diff ≠ 0 ∧ d.hits = 2 ∧ e.ident = [117] ∧ e.regression = false ∧ e.diff = 0 := by
  obtain ⟨f0, h⟩ := C141_report_partial (Total.sample c dv) (Total.faithful_sample c dv) [Total.testOf [117] [50], broken [116]] (by
    intro t ht
    simp only [List.mem_cons, List.not_mem_nil, or_false] at ht
    rcases ht with rfl | rfl
    · exact Total.orderly_testOf c dv _ (.inl rfl)
    · exact orderly_broken c dv _) (by decide)
  obtain ⟨h1, h2⟩ := h f0 (Nat.le_refl _) 2 (by decide)
  refine ⟨f0, h1, fun u hu => ?_⟩
  obtain ⟨sorted, hp, hs, hf⟩ := (h2 u hu i).each
  have e : sorted = [broken [116], Total.testOf [117] [50]] := by
    refine (hp.trans (.swap _ _ _)).eq_of_pairwise (fun a b _ _ hab hba => absurd (List.lt_trans hab hba) (List.lt_irrefl _)) hs ?_
    simp only [List.pairwise_cons, List.mem_cons, List.not_mem_nil, or_false, forall_eq, false_implies, implies_true, List.Pairwise.nil, and_true, broken, Total.testOf]
    decide
  subst e
  generalize (metrics (written i u)).details = l at hf ⊢
  cases hf with
  | cons hd hf =>
      cases hf with
      | cons he hf =>
          cases hf
          refine ⟨_, _, rfl, hd.ident, hd.regression.mpr ⟨by simp [FailedBefore, broken, Pipeline.calm], .inl rfl⟩, fun h0 => ?_, hd.hits, he.ident, ?_, he.diff.mpr (Total.kept_same c dv _)⟩
          · have hk := hd.diff.mp h0
            exact Total.not_kept c dv [116] ⟨hk.values, hk.project, hk.modul⟩
          · rw [← Bool.not_eq_true, he.regression]
            simp [Regressed, FailsAfter, Total.testOf, Pipeline.calm, Total.sample]

/-! ## C142: the table of the charts -/

/-- **C142** (partial). The table drawn at the end of an update has rows for tests that pass no more or changed their behaviour, which say so; such tests are left out
only when there are ten rows, and then none that passes no more for one that does, among tests written by hand and among generated ones. Missing: the conditions of C131;
for the order between written and generated tests see C65. -/
theorem C142_table_partial (x : Ctx) (hx : Faithful x) (ts : List Test) (ho : ∀ t ∈ ts, Orderly x t) (hn : (ts.map (·.ident)).Nodup) :
    ∃ f0, ∀ fuel, f0 ≤ fuel → ∀ limit, 0 < limit → (∃ u, Outcome x fuel limit ts u) ∧
      ∀ u, Outcome x fuel limit ts u → ∀ (i : Input) (srt : List Report.Key → List Nat), IsSort srt →
        Table x ts ((chartDirect srt (written i u)).rows.map (·.key)) := by
  obtain ⟨f0, h0⟩ := outcomes x hx ts ho hn
  refine ⟨f0, fun fuel hf limit hl => ⟨(h0 fuel hf limit hl).1, fun u hu i srt hs => ?_⟩⟩
  obtain ⟨h1, h2⟩ := (h0 fuel hf limit hl).2 u hu
  obtain ⟨sorted, hp, _, hf⟩ := results_of h1 h2
  obtain ⟨shown, left, calm, p, r⟩ := (table_of hs hf).parts
  exact ⟨shown, left, calm, p.trans hp, r⟩

/-- **C142** (partial). So has the table drawn from the JSON file. Missing: also strings that are not text, and counts above 2^53. -/
theorem C142_json_partial (x : Ctx) (hx : Faithful x) (ts : List Test) (ho : ∀ t ∈ ts, Orderly x t) (hn : (ts.map (·.ident)).Nodup) :
    ∃ f0, ∀ fuel, f0 ≤ fuel → ∀ limit, 0 < limit → (∃ u, Outcome x fuel limit ts u) ∧
      ∀ u, Outcome x fuel limit ts u → ∀ (i : Input) (js : Bytes → Bytes) (srt : List Report.Key → List Nat), IsSort srt →
        TextOk js (written i u) → CountsOk (written i u) → Table x ts ((chartFromJson srt (through js (metrics (written i u)))).rows.map (·.key)) := by
  obtain ⟨f0, h0⟩ := outcomes x hx ts ho hn
  refine ⟨f0, fun fuel hf limit hl => ⟨(h0 fuel hf limit hl).1, fun u hu i js srt hs ht hc => ?_⟩⟩
  obtain ⟨h1, h2⟩ := (h0 fuel hf limit hl).2 u hu
  obtain ⟨sorted, hp, _, hf⟩ := results_of h1 h2
  have hsh := Report.C64_charts_partial srt js (written i u) (results_idents h1) (results_times h1 h2) ht hc
  have hk : (chartFromJson srt (through js (metrics (written i u)))).rows.map (·.key) = (chartDirect srt (written i u)).rows.map (·.key) :=
    congrArg (fun p => p.2.2) hsh
  rw [hk]
  obtain ⟨shown, left, calm, p, r⟩ := (table_of hs hf).parts
  exact ⟨shown, left, calm, p.trans hp, r⟩

/-- An empty table means that all tests keep their behaviour and their verdict, and the other way round. -/
theorem C142_clean {x : Ctx} {ts : List Test} {keys : List Report.Key} (h : Table x ts keys) :
    keys = [] ↔ ∀ t ∈ ts, ¬ Regressed x t ∧ Kept x t := by
  obtain ⟨shown, left, calm, p, f, s, c, l, _, _⟩ := h.parts
  have hs : ∀ t, ¬ Suspect x t ↔ ¬ Regressed x t ∧ Kept x t := fun t => by
    unfold Suspect
    rw [not_or, not_not]
  constructor
  · rintro rfl t ht
    cases f
    have hl : left = [] := by
      by_contra hne
      exact absurd (l hne) (by decide)
    subst hl
    rw [← hs]
    exact c t (p.mem_iff.mpr ht)
  · intro hall
    cases f with
    | nil => rfl
    | @cons t k l l' a f => exact absurd (s t (by simp)) ((hs t).mpr (hall t (p.mem_iff.mp (by simp))))

/-- The table of the two tests above is not empty, and its one row says that the broken test fails. -/
example (c : Fields.Lib) (dv : Bytes → Bytes → Bytes) (i : Input) : ∃ fuel, (∃ u, Outcome (Total.sample c dv) fuel 2 [Total.testOf [117] [50], broken [116]] u) ∧
    ∀ u, Outcome (Total.sample c dv) fuel 2 [Total.testOf [117] [50], broken [116]] u →
      ∃ k, (chartDirect Report.stable (written i u)).rows.map (·.key) = [k] ∧ k.name = [66] ∧ k.verdict = .fail ∧ k.diff ≠ 0 := by
  obtain ⟨f0, h⟩ := C142_table_partial (Total.sample c dv) (Total.faithful_sample c dv) [Total.testOf [117] [50], broken [116]] (by
    intro t ht
    simp only [List.mem_cons, List.not_mem_nil, or_false] at ht
    rcases ht with rfl | rfl
    · exact Total.orderly_testOf c dv _ (.inl rfl)
    · exact orderly_broken c dv _) (by decide)
  obtain ⟨h1, h2⟩ := h f0 (Nat.le_refl _) 2 (by decide)
  refine ⟨f0, h1, fun u hu => ?_⟩
  obtain ⟨shown, left, calm, p, f, s, q, l, n, _⟩ := (h2 u hu i Report.stable Report.C65_stable).parts
  have hb : Regressed (Total.sample c dv) (broken [116]) := ⟨by simp [FailedBefore, broken, Pipeline.calm], .inl rfl⟩
  have hk : ¬ Suspect (Total.sample c dv) (Total.testOf [117] [50]) := by
    rintro (h | h)
    · simp [Regressed, FailsAfter, Total.testOf, Pipeline.calm, Total.sample] at h
    · exact h (Total.kept_same c dv _)
  have hlen : shown.length + left.length + calm.length = 2 := by
    have := p.length_eq
    rwa [List.length_append, List.length_append] at this
  have hl : left = [] := by
    by_contra hne
    have := l hne
    rw [← f.length_eq] at this
    omega
  subst hl
  rw [List.append_nil] at p s
  have hmem : ∀ t ∈ shown, t = broken [116] := by
    intro t ht
    have : t ∈ [Total.testOf [117] [50], broken [116]] := p.mem_iff.mp (List.mem_append_left _ ht)
    simp only [List.mem_cons, List.not_mem_nil, or_false] at this
    rcases this with rfl | rfl
    · exact absurd (s _ ht) hk
    · rfl
  have hin : broken [116] ∈ shown := by
    have : broken [116] ∈ shown ++ calm := p.mem_iff.mpr (by simp)
    rcases List.mem_append.mp this with h | h
    · exact h
    · exact absurd (.inl hb) (q _ h)
  have hnd : shown.Nodup := by
    have hd : ([Total.testOf [117] [50], broken [116]] : List Test).Nodup := by
      have : Total.testOf [117] [50] ≠ broken [116] := fun e => absurd (congrArg Test.ident e) (by decide)
      simp [this]
    exact (List.nodup_append.mp (p.nodup_iff.mpr hd)).1
  obtain rfl : shown = [broken [116]] := by
    cases shown with
    | nil => cases hin
    | cons a r =>
        cases r with
        | nil => rw [hmem a (by simp)]
        | cons b r =>
            have e1 := hmem a (by simp)
            have e2 := hmem b (by simp)
            rw [e1, e2] at hnd
            simp at hnd
  generalize (chartDirect Report.stable (written i u)).rows.map (·.key) = ks at f ⊢
  cases f with
  | cons a f =>
      cases f
      refine ⟨_, rfl, a.name, a.fail.mpr hb, fun h0 => ?_⟩
      have hk := a.diff.mp h0
      exact Total.not_kept c dv [116] ⟨hk.values, hk.project, hk.modul⟩

end Verif.Verdict
