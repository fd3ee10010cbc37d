import Verif.Tidy.Lemmas

/-! # C155: from the programs alone to the report -/

namespace Verif.Tidy

open Verif.Result (Bytes)
open Verif.Seen

/-- **C155** (partial). If the states of each function are sent in the order of their times, names of fields have no dots, and those of files and functions no separators, the report has one
entry for each test which says what the test did, and there are no differences in total just if all tests do what they did. Missing: `Fine` (C147), and that hashes do not collide. -/
theorem C155_report_partial (x : Total.Ctx) (hx : Total.Faithful x) (ks : List Case) (hf : ∀ k ∈ ks, ∀ j, ∀ ev ∈ (k.prog j).events, Fine (k.prog j).env (k.prog j).fuel ev)
    (ht : ∀ k ∈ ks, Tidy x k.prog) (hs : ∀ k ∈ ks, Stored x k.test) (hn : (ks.map (·.ident)).Nodup) :
    ∃ f0, ∀ fuel, f0 ≤ fuel → ∀ limit, 0 < limit → (∃ u, Verdict.Outcome x fuel limit (ks.map Case.test) u) ∧
      ∀ u, Verdict.Outcome x fuel limit (ks.map Case.test) u → ∀ i,
        (∃ sorted, sorted.Perm ks ∧ sorted.Pairwise (fun a b => a.ident < b.ident) ∧ List.Forall₂ (Tells x) sorted (Report.metrics (Verdict.written i u)).details) ∧
        ((Report.metrics (Verdict.written i u)).diff = 0 ↔ ∀ k ∈ ks, Same x k.prog) :=
  C149_report_partial x hx ks hf (fun k hk => orderly (hf k hk) (ht k hk) (hs k hk)) hn

theorem alike_shows {lib : Fields.Lib} {P Q : Program} (h : Alike lib P Q) (f : Bytes) (path : List (Bytes × Bytes)) (i : Nat) (p : List Bytes) (v : Bytes) :
    P.Shows lib f path i p v ↔ Q.Shows lib f path i p v := by
  have h1 := h.values f path
  unfold Program.Shows
  generalize P.along f path = a at h1
  generalize Q.along f path = b at h1
  have h2 := List.forall₂_iff_get.mp h1
  constructor
  · rintro ⟨s, hs, hd⟩
    obtain ⟨hi, rfl⟩ := List.getElem?_eq_some_iff.mp hs
    exact ⟨b[i]'(h2.1 ▸ hi), List.getElem?_eq_getElem _, (h2.2 i hi (h2.1 ▸ hi) p v).mp hd⟩
  · rintro ⟨s, hs, hd⟩
    obtain ⟨hi, rfl⟩ := List.getElem?_eq_some_iff.mp hs
    exact ⟨a[i]'(h2.1 ▸ hi), List.getElem?_eq_getElem _, (h2.2 i (h2.1 ▸ hi) hi p v).mpr hd⟩

/-- **C155** (partial). If all programs do after the update what they did before it, no difference and no changed field is reported. Missing: as in `C155_report_partial`. -/
theorem C155_unchanged_partial (x : Total.Ctx) (hx : Total.Faithful x) (ks : List Case) (hf : ∀ k ∈ ks, ∀ j, ∀ ev ∈ (k.prog j).events, Fine (k.prog j).env (k.prog j).fuel ev)
    (ht : ∀ k ∈ ks, Tidy x k.prog) (hs : ∀ k ∈ ks, Stored x k.test) (hn : (ks.map (·.ident)).Nodup) (ha : ∀ k ∈ ks, ∀ j, Alike x.c (k.prog 0) (k.prog j)) :
    ∃ f0, ∀ fuel, f0 ≤ fuel → ∀ limit, 0 < limit → (∃ u, Verdict.Outcome x fuel limit (ks.map Case.test) u) ∧
      ∀ u, Verdict.Outcome x fuel limit (ks.map Case.test) u → ∀ i, (Report.metrics (Verdict.written i u)).diff = 0 ∧
        ∀ d ∈ (Report.metrics (Verdict.written i u)).details, d.diff = 0 ∧ ∀ f n text, ¬ Verdict.Listed d.fields f n text := by
  obtain ⟨f0, h0⟩ := C155_report_partial x hx ks hf ht hs hn
  have same : ∀ k ∈ ks, Same x k.prog := fun k hk => by
    have pan : ∀ (a b c : List (Bytes × Bytes)), a.Perm b → a.Perm c → (a : Multiset (Bytes × Bytes)) ∩ b = c := fun a b c g1 g2 => by
      rw [Multiset.coe_eq_coe.mpr g1.symm, Multiset.coe_eq_coe.mpr g2]
      exact inf_idem (c : Multiset (Bytes × Bytes))
    refine ⟨fun f path i p v g _ => ⟨(alike_shows (ha k hk 2) f path i p v).mp g, fun _ => (alike_shows (ha k hk 3) f path i p v).mp g⟩, ?_, ?_⟩
    · split
      · rw [pan _ _ _ (ha k hk 1).project (.refl _), pan _ _ _ ((ha k hk 2).project.symm.trans (ha k hk 3).project) (ha k hk 2).project.symm]
      · exact pan _ _ _ (ha k hk 1).project (ha k hk 2).project
    · split
      · rw [pan _ _ _ (ha k hk 1).modul (.refl _), pan _ _ _ ((ha k hk 2).modul.symm.trans (ha k hk 3).modul) (ha k hk 2).modul.symm]
      · exact pan _ _ _ (ha k hk 1).modul (ha k hk 2).modul
  refine ⟨f0, fun fuel hfu limit hl => ⟨(h0 fuel hfu limit hl).1, fun u hu i => ?_⟩⟩
  obtain ⟨⟨sorted, hp, _, hr⟩, hd⟩ := (h0 fuel hfu limit hl).2 u hu i
  refine ⟨hd.mpr same, fun d hdm => ?_⟩
  obtain ⟨k, hk, hkd⟩ : ∃ k ∈ sorted, Tells x k d := by
    clear * - hr hdm
    generalize (Report.metrics (Verdict.written i u)).details = ds at hr hdm
    induction hr with
    | nil => cases hdm
    | cons h _ ih =>
      rcases List.mem_cons.mp hdm with rfl | hdm
      · exact ⟨_, List.mem_cons_self, h⟩
      · obtain ⟨k, hk, hkd⟩ := ih hdm
        exact ⟨k, List.mem_cons_of_mem _ hk, hkd⟩
  have hk' := hp.subset hk
  refine ⟨hkd.diff.mpr (same k hk'), fun f n text ht' => ?_⟩
  obtain ⟨path, j, p, v, w, _, hturn, hne, _⟩ := hkd.lists.text f n text ht'
  exact hne (shows_unique (⟨hf k hk' 2, rfl⟩ : Makes (k.prog 2) _) ((alike_shows (ha k hk' 2) f path j p v).mp hturn.1) hturn.2.2.1)

/-! ### Examples -/

theorem calm_tidy (c : Fields.Lib) (dv : Bytes → Bytes → Bytes) (v : Bytes) : Tidy (Total.sample c dv) fun k => if k = 2 then strProgram v else strProgram [50] := by
  have shots : ∀ w, (strProgram w).shots = [strShot [49] 1, strShot w 2] := fun _ => rfl
  have timely : ∀ w, Timely (strProgram w) := fun w => by
    refine ⟨fun s hs => ?_, ?_⟩
    · rw [shots] at hs
      simp only [List.mem_cons, List.not_mem_nil, or_false] at hs
      rcases hs with rfl | rfl <;> simp [strShot]
    · rw [shots]
      simp [strShot]
  have spoken : ∀ w, Spoken (strProgram w) := fun w s hs sn hsn hne => by
    rw [shots] at hs
    simp only [List.mem_cons, List.not_mem_nil, or_false] at hs
    rcases hs with rfl | rfl <;>
    · simp only [strShot, List.mem_cons, List.not_mem_nil, or_false] at hsn
      rcases hsn with rfl | rfl
      · refine ⟨⟨by decide, by decide⟩, fun u hu e he => ?_⟩
        rw [strUnwraps hu] at he
        simp [Capture.items] at he
      · exact absurd rfl hne
  have path : ∀ w, ∀ s ∈ (strProgram w).shots, pathAt (strProgram w).env s = [] := fun w s hs => by
    rw [shots] at hs
    simp only [List.mem_cons, List.not_mem_nil, or_false] at hs
    rcases hs with rfl | rfl <;> rfl
  have each : ∀ {Q : Program → Prop}, (∀ w, Q (strProgram w)) → ∀ k : Fin 4, Q (if k = 2 then strProgram v else strProgram [50]) := fun {Q} g k => by split <;> exact g _
  refine ⟨timely _, timely _, fun _ => ⟨timely _, timely _⟩, spoken _, spoken _, each fun w s hs q hq => ?_, fun j s hs j' s' hs' _ => ?_⟩
  · rw [path w s hs] at hq
    cases hq
  · have e1 := each (Q := fun P => ∀ s ∈ P.shots, pathAt P.env s = []) path j s hs
    have e2 := each (Q := fun P => ∀ s ∈ P.shots, pathAt P.env s = []) path j' s' hs'
    simp only [e1, e2]

theorem calm_fine {v : Bytes} (hv : v.length ≤ 100) (j : Fin 4) : ∀ ev ∈ (if j = 2 then strProgram v else strProgram [50]).events,
    Fine (if j = 2 then strProgram v else strProgram [50]).env (if j = 2 then strProgram v else strProgram [50]).fuel ev := by
  split
  · exact (strMakes v hv).fine
  · exact (strMakes [50] (by decide)).fine

theorem calm_stored (c : Fields.Lib) (dv : Bytes → Bytes → Bytes) : Stored (Total.sample c dv) strCase.test := by
  rw [strCase_test]
  have := Total.orderly_testOf c dv [5] (v := 51) (.inr rfl)
  exact ⟨this.store1, this.store2⟩

/-- The programs of the example of C149 meet the conditions. -/
example (c : Fields.Lib) (dv : Bytes → Bytes → Bytes) (i : Report.Input) : ∃ fuel u, Verdict.Outcome (Total.sample c dv) fuel 2 [strCase.test] u ∧
    ∃ d, (Report.metrics (Verdict.written i u)).details = [d] ∧ d.hits = 2 ∧ d.diff ≠ 0 := by
  obtain ⟨f0, h0⟩ := C155_report_partial (Total.sample c dv) (Total.faithful_sample c dv) [strCase]
    (fun k hk j => by rw [List.mem_singleton.mp hk]; exact calm_fine (v := [51]) (by decide) j)
    (fun k hk => by rw [List.mem_singleton.mp hk]; exact calm_tidy c dv [51]) (fun k hk => by rw [List.mem_singleton.mp hk]; exact calm_stored c dv) (by simp)
  obtain ⟨u, hu⟩ := (h0 f0 (le_refl _) 2 (by decide)).1
  obtain ⟨⟨sorted, hp, _, hr⟩, _⟩ := (h0 f0 (le_refl _) 2 (by decide)).2 u hu i
  rw [List.perm_singleton.mp hp] at hr
  generalize hds : (Report.metrics (Verdict.written i u)).details = ds at hr
  match ds, hr, hds with
  | [d], .cons h .nil, hds =>
    refine ⟨f0, u, hu, d, hds, ?_, ?_⟩
    · rw [h.hits]; decide
    · rw [Ne, h.diff, ← kept_iff fun j => calm_fine (v := [51]) (by decide) j, strCase_test]
      exact Total.not_kept c dv [5]

/-- A program is alike to itself. -/
theorem alike_refl (lib : Fields.Lib) (P : Program) : Alike lib P P :=
  ⟨fun f path => List.forall₂_same.mpr fun _ _ _ _ => Iff.rfl, .refl _, .refl _⟩

/-- If the pointer is to "2" after the update, too, nothing is reported. -/
example (c : Fields.Lib) (dv : Bytes → Bytes → Bytes) (i : Report.Input) :
    let k : Case := ⟨[5], [84], fun k => if k = 2 then strProgram [50] else strProgram [50]⟩
    ∃ fuel u, Verdict.Outcome (Total.sample c dv) fuel 2 [k.test] u ∧ (Report.metrics (Verdict.written i u)).diff = 0 := by
  intro k
  have ht : k.test = Total.testOf [5] [50] := by
    have h0 := (strMakes [50] (by decide)).run
    unfold Total.testOf
    rw [h0]
    rfl
  have ho := Total.orderly_testOf c dv [5] (v := 50) (.inl rfl)
  obtain ⟨f0, h0⟩ := C155_unchanged_partial (Total.sample c dv) (Total.faithful_sample c dv) [k]
    (fun k' hk j => by rw [List.mem_singleton.mp hk]; exact calm_fine (v := [50]) (by decide) j)
    (fun k' hk => by rw [List.mem_singleton.mp hk]; exact calm_tidy c dv [50]) (fun k' hk => by rw [List.mem_singleton.mp hk, ht]; exact ⟨ho.store1, ho.store2⟩) (by simp)
    (fun k' hk j => by
      rw [List.mem_singleton.mp hk]
      have : ∀ j, k.prog j = strProgram [50] := fun j => ite_self _
      rw [this, this]
      exact alike_refl _ _)
  obtain ⟨u, hu⟩ := (h0 f0 (le_refl _) 2 (by decide)).1
  exact ⟨f0, u, hu, ((h0 f0 (le_refl _) 2 (by decide)).2 u hu i).1⟩

end Verif.Tidy
