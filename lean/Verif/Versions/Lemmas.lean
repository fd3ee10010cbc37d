import Verif.Versions.Spec
import Verif.Module.Props

/-! Lemmas on version selection. -/

namespace Verif.Versions

open Module (Change compareSem)

theorem update_other (reqs : List Change) : ∀ (main : AMap Bytes Bytes) (n : Bytes), n ∉ reqs.map (·.name) → (update main reqs).get n = main.get n := by
  induction reqs with
  | nil => intros; rfl
  | cons c cs ih =>
    intro main n hn
    simp only [List.map_cons, List.mem_cons, not_or] at hn
    show (update (main.set c.name c.new) cs).get n = _
    rw [ih _ _ hn.2, AMap.get_set, if_neg hn.1]

theorem update_request (reqs : List Change) : ∀ (main : AMap Bytes Bytes) (c : Change), (reqs.map (·.name)).Nodup → c ∈ reqs → (update main reqs).get c.name = some c.new := by
  induction reqs with
  | nil => intro _ _ _ h; cases h
  | cons a cs ih =>
    intro main c hn hc
    rw [List.map_cons, List.nodup_cons] at hn
    show (update (main.set a.name a.new) cs).get c.name = _
    rcases List.mem_cons.mp hc with rfl | hc
    · rw [update_other _ _ _ hn.1, AMap.get_set, if_pos rfl]
    · exact ih _ _ hn.2 hc

theorem cmp_self (v : Bytes) : compareSem v v = 0 := (Module.C37_total v v v).1
theorem cmp_swap (v w : Bytes) : compareSem w v = - compareSem v w := (Module.C37_total v v w).2.1
theorem cmp_trans {u v w : Bytes} (h1 : compareSem u v ≤ 0) (h2 : compareSem v w ≤ 0) : compareSem u w ≤ 0 := (Module.C37_total u v w).2.2.2.1 h1 h2
theorem cmp_lt {u v w : Bytes} (h1 : compareSem u v < 0) (h2 : compareSem v w ≤ 0) : compareSem u w < 0 := (Module.C37_total u v w).2.2.2.2 h1 h2

/-- Where what the updated project needs comes from. -/
theorem needs_update {g : Graph} {main : AMap Bytes Bytes} {reqs : List Change} (hu : Upgrade main reqs) (hn : NoneNew g main reqs) {n v : Bytes} (h : Needs g (update main reqs) n v) :
    Needs g main n v ∨ (Touched g main reqs n v ∧ main.get n ≠ some v) := by
  have side : ∀ {n v}, Touched g main reqs n v → Needs g main n v ∨ (Touched g main reqs n v ∧ main.get n ≠ some v) := by
    intro n v ht
    by_cases hm : main.get n = some v
    · exact .inl (.main hm)
    · exact .inr ⟨ht, hm⟩
  induction h with
  | @main n v h =>
    by_cases hm : n ∈ reqs.map (·.name)
    · obtain ⟨c, hc, rfl⟩ := List.mem_map.mp hm
      rw [update_request _ _ _ hu.once hc] at h
      cases h
      exact side (.request hc)
    · rw [update_other _ _ _ hm] at h
      exact .inl (.main h)
  | @dep n v d w _ hd ih =>
    rcases ih with ih | ⟨ht, hm⟩
    · exact .inl (.dep ih hd)
    · obtain ⟨p, hp⟩ := Option.isSome_iff_exists.mp (hn _ _ ht)
      by_cases ho : (g n p).get d = some w
      · exact .inl (.dep (.main hp) ho)
      · exact side (.dep ht hp hd ho)

theorem touched_needs {g : Graph} {main : AMap Bytes Bytes} {reqs : List Change} (hu : Upgrade main reqs) {n v : Bytes} (h : Touched g main reqs n v) : Needs g (update main reqs) n v := by
  induction h with
  | request hc => exact .main (update_request _ _ _ hu.once hc)
  | dep _ _ hd _ ih => exact .dep ih hd

/-- Of each module of the project the updated project needs a version that is not lower. -/
theorem needs_kept {g : Graph} {main : AMap Bytes Bytes} {reqs : List Change} (hu : Upgrade main reqs) {n p : Bytes} (h : main.get n = some p) :
    ∃ q, Needs g (update main reqs) n q ∧ compareSem p q ≤ 0 := by
  by_cases hm : n ∈ reqs.map (·.name)
  · obtain ⟨c, hc, rfl⟩ := List.mem_map.mp hm
    have := hu.prior c hc
    rw [h] at this
    cases this
    exact ⟨c.new, .main (update_request _ _ _ hu.once hc), Int.le_of_lt (hu.higher c hc)⟩
  · exact ⟨p, .main (by rw [update_other _ _ _ hm]; exact h), by rw [cmp_self]⟩

/-- What the analysis reaches is touched, and compared with the version of the project. -/
theorem reachable_touched {F : Type} {g : Graph} {funcs : Change → List F} {main : AMap Bytes Bytes} {reqs : List Change} (hg : OneEach g) (hu : Upgrade main reqs) {c : Change}
    (h : Module.Reachable (envOf g funcs main) true reqs c) : Touched g main reqs c.name c.new ∧ main.get c.name = some c.prior ∧ c.prior ≠ c.new := by
  induction h with
  | @request c hc =>
    refine ⟨.request hc, hu.prior c hc, fun e => ?_⟩
    have := hu.higher c hc
    rw [e, cmp_self] at this
    exact absurd this (by decide)
  | @follow c d fs od nd _ hl _ hf ih =>
    cases hl
    obtain ⟨h1, h2, h3, h4, -⟩ := hf
    exact ⟨.dep ih.1 ih.2.1 (AMap.get_eq_some_of_mem (hg _ _) h1) h2, h3, h4⟩

/-- What is touched in another version than that of the project is analysed, in this version. -/
theorem touched_seen {F : Type} {g : Graph} {funcs : Change → List F} {main : AMap Bytes Bytes} {reqs : List Change} {rounds : Nat} {s : Module.AState F} (hg : OneEach g) (hu : Upgrade main reqs)
    (hn : NoneNew g main reqs) (ho : OneVersion g main reqs) (h : Module.analyze (envOf g funcs main) true reqs rounds = .done s) {n v : Bytes} (ht : Touched g main reqs n v)
    (hv : main.get n ≠ some v) : ∃ c ∈ s.seen, c.name = n ∧ main.get n = some c.prior ∧ c.new = v := by
  obtain ⟨-, hreach, -, hclosed⟩ := Module.C38_once _ _ _ _ _ h
  induction ht with
  | @request c hc =>
    refine ⟨c, (Module.C38_complete_partial _ _ _ _ _ h).1 c hc ?_, rfl, hu.prior c hc, rfl⟩
    exact List.nodup_iff_count_le_one.mp hu.once c.name
  | @dep n v p d w htn hp hd hold ih =>
    have hvp : main.get n ≠ some v := by
      intro e
      rw [hp] at e
      cases e
      exact hold hd
    obtain ⟨c, hc, rfl, hprior, rfl⟩ := ih hvp
    rw [hp] at hprior
    cases hprior
    have htd : Touched g main reqs d w := .dep htn hp hd hold
    obtain ⟨pd, hpd⟩ := Option.isSome_iff_exists.mp (hn _ _ htd)
    have hne : pd ≠ w := by
      rintro rfl
      exact hv hpd
    have hm := hclosed rfl c hc _ _ _ rfl ⟨d, pd, w, true⟩ ⟨AMap.mem_of_get hd, hold, hpd, hne, rfl⟩
    obtain ⟨c', hc', hname⟩ := List.mem_map.mp hm
    dsimp only at hname
    subst hname
    obtain ⟨h1, h2, h3⟩ := reachable_touched hg hu (hreach c' hc')
    refine ⟨c', hc', rfl, h2, ho _ _ _ h1 htd (fun e => ?_) hv⟩
    rw [h2] at e
    exact h3 (Option.some.inj e)

theorem used_ne {repl : Bytes → Option Bytes} {main : AMap Bytes Bytes} (hr : Unreplaced repl main) {n v w : Bytes} (hn : (main.get n).isSome) : used repl n v ≠ used repl n w ↔ v ≠ w := by
  unfold used
  rw [hr n hn]
  simp

/-! ### Tables, for examples -/

/-- A graph with finitely many requirements. -/
def table (l : List ((Bytes × Bytes) × AMap Bytes Bytes)) : Graph := fun n v => ((l.find? fun e => e.1 = (n, v)).map (·.2)).getD []

theorem table_one {l : List ((Bytes × Bytes) × AMap Bytes Bytes)} (h : ∀ e ∈ l, (AMap.keys e.2).Nodup) : OneEach (table l) := by
  intro n v
  unfold table
  cases hf : l.find? fun e => e.1 = (n, v) with
  | none => exact List.nodup_nil
  | some e => exact h e (List.mem_of_find?_eq_some hf)

theorem needs_in {g : Graph} {main : AMap Bytes Bytes} (S : List (Bytes × Bytes)) (h1 : ∀ e ∈ main, e ∈ S) (h2 : ∀ e ∈ S, ∀ e' ∈ g e.1 e.2, e' ∈ S) {n v : Bytes} (h : Needs g main n v) : (n, v) ∈ S := by
  induction h with
  | main h => exact h1 _ (AMap.mem_of_get h)
  | dep _ hd ih => exact h2 _ ih _ (AMap.mem_of_get hd)

theorem tidy_of {g : Graph} {main : AMap Bytes Bytes} (S : List (Bytes × Bytes)) (h1 : ∀ e ∈ main, e ∈ S) (h2 : ∀ e ∈ S, ∀ e' ∈ g e.1 e.2, e' ∈ S) (h3 : ∀ e ∈ S, (main.get e.1).isSome)
    (h4 : ∀ e ∈ main, ∀ e' ∈ S, e'.1 = e.1 → compareSem e'.2 e.2 ≤ 0) : Tidy g main :=
  ⟨fun _ _ h => h3 _ (needs_in S h1 h2 h), fun _ _ h => ⟨.main h, fun _ hw => h4 _ (AMap.mem_of_get h) _ (needs_in S h1 h2 hw) rfl⟩⟩

theorem apart_of {g : Graph} {main main' : AMap Bytes Bytes} (S : List (Bytes × Bytes)) (h1 : ∀ e ∈ main, e ∈ S) (h1' : ∀ e ∈ main', e ∈ S) (h2 : ∀ e ∈ S, ∀ e' ∈ g e.1 e.2, e' ∈ S)
    (h3 : ∀ e ∈ S, ∀ e' ∈ S, e.1 = e'.1 → compareSem e.2 e'.2 = 0 → e.2 = e'.2) : Apart g main main' := by
  intro n v w hv hw hc
  have inS : ∀ {u}, Needs g main n u ∨ Needs g main' n u → (n, u) ∈ S := by
    rintro u (h | h)
    · exact needs_in S h1 h2 h
    · exact needs_in S h1' h2 h
  exact h3 _ (inS hv) _ (inS hw) rfl hc

end Verif.Versions
