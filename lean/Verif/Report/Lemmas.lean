import Verif.Report.Spec
import Mathlib.Tactic.Linarith
import Mathlib.Tactic.FieldSimp
import Mathlib.Data.Rat.Floor
import Mathlib.Data.List.Induction

namespace Verif.Report
open Verif

/-! ### Sorting -/

theorem insertBy_perm {α} (f : α → α → Bool) (a : α) : ∀ l, (insertBy f a l).Perm (a :: l)
  | [] => List.Perm.refl _
  | b :: l => by
      unfold insertBy
      split
      · exact List.Perm.refl _
      · exact ((insertBy_perm f a l).cons b).trans (List.Perm.swap a b l)

theorem sortBy_perm {α} (f : α → α → Bool) : ∀ l, (sortBy f l).Perm l
  | [] => List.Perm.refl _
  | a :: l => (insertBy_perm f a _).trans ((sortBy_perm f l).cons a)

theorem insertBy_sorted {α} {f : α → α → Bool} (ht : ∀ a b, f a b = true ∨ f b a = true) (htr : ∀ a b c, f a b = true → f b c = true → f a c = true) (a : α) :
    ∀ l, l.Pairwise (fun x y => f x y = true) → (insertBy f a l).Pairwise (fun x y => f x y = true)
  | [], _ => by simp [insertBy]
  | b :: l, h => by
      rw [List.pairwise_cons] at h
      unfold insertBy
      split
      · rename_i hf
        refine List.pairwise_cons.mpr ⟨?_, List.pairwise_cons.mpr h⟩
        intro x hx
        rcases List.mem_cons.mp hx with rfl | hx
        · exact hf
        · exact htr _ _ _ hf (h.1 x hx)
      · rename_i hf
        refine List.pairwise_cons.mpr ⟨?_, insertBy_sorted ht htr a l h.2⟩
        intro x hx
        rcases List.mem_cons.mp ((insertBy_perm f a l).mem_iff.mp hx) with rfl | hx
        · rcases ht b x with h' | h'
          · exact h'
          · exact absurd h' hf
        · exact h.1 x hx

theorem sortBy_sorted {α} {f : α → α → Bool} (ht : ∀ a b, f a b = true ∨ f b a = true) (htr : ∀ a b c, f a b = true → f b c = true → f a c = true) :
    ∀ l, (sortBy f l).Pairwise (fun x y => f x y = true)
  | [] => by simp [sortBy]
  | a :: l => insertBy_sorted ht htr a _ (sortBy_sorted ht htr l)

theorem sortBy_id {α} {f : α → α → Bool} : ∀ {l : List α}, l.Pairwise (fun x y => f x y = true) → sortBy f l = l
  | [], _ => rfl
  | a :: l, h => by
      rw [List.pairwise_cons] at h
      unfold sortBy
      rw [sortBy_id h.2]
      cases l with
      | nil => rfl
      | cons b l => unfold insertBy; rw [if_pos (h.1 b (by simp))]

theorem le_total' (a b : Bytes) : le a b = true ∨ le b a = true := by
  unfold le
  simp only [decide_eq_true_eq]
  exact List.le_total a b

theorem le_trans' (a b c : Bytes) (h : le a b = true) (h' : le b c = true) : le a c = true := by
  unfold le at *
  simp only [decide_eq_true_eq] at *
  exact List.le_trans h h'

theorem sortBy_le (l : List Bytes) : (sortBy le l).Pairwise (· ≤ ·) := by
  have := sortBy_sorted le_total' le_trans' l
  exact this.imp fun h => by simpa [le] using h

theorem lt_of_le_ne {a b : Bytes} (h : a ≤ b) (hn : a ≠ b) : a < b := by
  by_contra hlt
  exact hn (List.le_antisymm h (by simpa using hlt))

theorem strict_of {l : List Bytes} (h : l.Pairwise (· ≤ ·)) (hn : l.Nodup) : Strict l := by
  unfold Strict
  exact (h.and hn).imp fun ⟨a, b⟩ => lt_of_le_ne a b

theorem foldl_set_keys (ks : List Bytes) : ∀ m : AMap Bytes Bool, m.keys.Nodup →
    (AMap.keys (ks.foldl (fun m k => AMap.set m k true) m)).Nodup ∧
      ∀ x, x ∈ AMap.keys (ks.foldl (fun m k => AMap.set m k true) m) ↔ x ∈ m.keys ∨ x ∈ ks := by
  induction ks with
  | nil => intro m h; exact ⟨h, by simp⟩
  | cons k ks ih =>
      intro m h
      obtain ⟨h1, h2⟩ := ih (AMap.set m k true) (AMap.nodup_set h k true)
      refine ⟨h1, fun x => ?_⟩
      rw [List.foldl_cons, h2, AMap.mem_keys, AMap.get_set, AMap.mem_keys, List.mem_cons]
      by_cases hx : x = k
      · simp [hx]
      · simp [hx]

theorem keySet_spec (ks : List Bytes) : Strict (keySet ks) ∧ ∀ x, x ∈ keySet ks ↔ x ∈ ks := by
  obtain ⟨h1, h2⟩ := foldl_set_keys ks [] (by simp [AMap.keys])
  unfold keySet
  refine ⟨strict_of (sortBy_le _) ((sortBy_perm le _).nodup_iff.mpr h1), fun x => ?_⟩
  rw [(sortBy_perm le _).mem_iff, h2]
  simp [AMap.keys]

theorem identLe_total (a b : Test) : le a.ident b.ident = true ∨ le b.ident a.ident = true := le_total' _ _

theorem results_sorted (ts : List Test) : (results ts).Pairwise fun a b => le a.ident b.ident = true := by
  unfold results
  rw [List.pairwise_map]
  exact sortBy_sorted (f := fun a b : Test => le a.ident b.ident) identLe_total (fun a b c => le_trans' _ _ _) ts

theorem results_perm (ts : List Test) : (results ts).Perm (ts.map fun t => { t with fields := trimFields t.fields }) :=
  (sortBy_perm _ ts).map _

theorem results_mem {ts : List Test} {t : Test} (h : t ∈ results ts) : ∃ u ∈ ts, t.ident = u.ident ∧ t.name = u.name ∧ t.before = u.before ∧ t.after = u.after ∧
    t.hits = u.hits ∧ t.diff = u.diff ∧ t.times = u.times := by
  rw [(results_perm ts).mem_iff] at h
  obtain ⟨u, hu, rfl⟩ := List.mem_map.mp h
  exact ⟨u, hu, rfl, rfl, rfl, rfl, rfl, rfl, rfl⟩

theorem results_idents (ts : List Test) : ((results ts).map (·.ident)).Perm (ts.map (·.ident)) := by
  have := (results_perm ts).map (·.ident)
  rw [List.map_map] at this
  exact this

/-! ### Floating point -/

theorem viaFloat_id {n : Nat} (h : n ≤ 2 ^ 53) : viaFloat n = n := by unfold viaFloat; rw [if_pos h]

/-! ### Rebuilt tests -/

theorem foldl_set_nodup (ps : List Perf) (g : Perf → Time) : ∀ m : AMap Bytes Time, (∀ p ∈ ps, p.caller ∉ m.keys) → (ps.map (·.caller)).Nodup →
    ps.foldl (fun m p => AMap.set m p.caller (g p)) m = (ps.map fun p => (p.caller, g p)).reverse ++ m := by
  induction ps with
  | nil => intro m _ _; rfl
  | cons p ps ih =>
      intro m hm hn
      simp only [List.map_cons, List.nodup_cons] at hn
      have hd : AMap.del m p.caller = m := by
        unfold AMap.del
        rw [List.filter_eq_self]
        intro e he
        have := hm p (by simp)
        simp only [ne_eq, decide_not, Bool.not_eq_eq_eq_not, Bool.not_true, decide_eq_false_iff_not]
        rintro h
        exact this (h ▸ List.mem_map_of_mem (f := (·.1)) he)
      have hs : AMap.set m p.caller (g p) = (p.caller, g p) :: m := by unfold AMap.set; rw [hd]
      rw [List.foldl_cons, hs, ih _ _ hn.2]
      · simp
      · intro q hq
        simp only [AMap.keys, List.map_cons, List.mem_cons, not_or]
        refine ⟨?_, hm q (by simp [hq])⟩
        rintro h
        exact hn.1 (h ▸ List.mem_map_of_mem hq)

theorem filter_flatMap_one {α β γ} [DecidableEq γ] (g : α → γ) (f : α → List β) (k : β → γ) (hk : ∀ a, ∀ b ∈ f a, k b = g a) :
    ∀ (l : List α), (l.map g).Nodup → ∀ a ∈ l, (l.flatMap f).filter (fun b => k b = g a) = f a
  | [], _, a, ha => by simp at ha
  | x :: l, hn, a, ha => by
      simp only [List.map_cons, List.nodup_cons] at hn
      rw [List.flatMap_cons, List.filter_append]
      rcases List.mem_cons.mp ha with rfl | ha
      · have h1 : (f a).filter (fun b => k b = g a) = f a := by
          rw [List.filter_eq_self]; intro b hb; simp [hk a b hb]
        have h2 : (l.flatMap f).filter (fun b => k b = g a) = [] := by
          rw [List.filter_eq_nil_iff]
          intro b hb
          obtain ⟨y, hy, hb⟩ := List.mem_flatMap.mp hb
          simp only [decide_eq_true_eq]
          rw [hk y b hb]
          intro h
          exact hn.1 (h ▸ List.mem_map_of_mem hy)
        rw [h1, h2, List.append_nil]
      · have h1 : (f x).filter (fun b => k b = g a) = [] := by
          rw [List.filter_eq_nil_iff]
          intro b hb
          simp only [decide_eq_true_eq]
          rw [hk x b hb]
          intro h
          exact hn.1 (h ▸ List.mem_map_of_mem ha)
        rw [h1, List.nil_append, filter_flatMap_one g f k hk l hn.2 a ha]

/-! ### The table -/

theorem rows_key (ts : List Test) : (rows ts).map (·.key) = ts.filterMap fun t => (risky t).map (·.key) := by
  unfold rows
  rw [List.map_filterMap]

theorem table_key (srt : List Key → List Nat) (ts : List Test) :
    (table srt ts).map (·.key) = ((srt ((rows ts).map (·.key))).filterMap fun i => ((rows ts).map (·.key))[i]?).take 10 := by
  unfold table
  rw [List.map_take, List.map_filterMap]
  simp

theorem perm_range_get {α} (l : List α) : ∀ {p : List Nat}, p.Perm (List.range l.length) → (p.filterMap fun i => l[i]?).Perm l := by
  intro p h
  have h1 := h.filterMap (fun i => l[i]?)
  have h2 : (List.range l.length).filterMap (fun i => l[i]?) = l := by
    clear h h1
    induction l using List.reverseRecOn with
    | nil => rfl
    | append_singleton l a ih =>
        rw [List.length_append, List.length_singleton, List.range_succ, List.filterMap_append]
        congr 1
        · have : ∀ i ∈ List.range l.length, (l ++ [a])[i]? = l[i]? := by
            intro i hi
            rw [List.getElem?_append_left (List.mem_range.mp hi)]
          exact (List.filterMap_congr this).trans ih
        · simp
  rw [h2] at h1
  exact h1

theorem cmp_neg (a b : Key) : cmp b a = - cmp a b := by
  unfold cmp
  cases genPrefix.isPrefixOf a.name <;> cases genPrefix.isPrefixOf b.name <;> simp
  all_goals
    by_cases ha : a.verdict = .fail <;> by_cases hb : b.verdict = .fail <;> simp [ha, hb]
    all_goals
      by_cases hd : a.diff = b.diff
      · simp [hd]
      · have hd' : ¬ b.diff = a.diff := fun h => hd h.symm
        simp [hd, hd']

theorem cmp_trans (a b c : Key) (h1 : cmp a b ≤ 0) (h2 : cmp b c ≤ 0) : cmp a c ≤ 0 := by
  unfold cmp at *
  revert h1 h2
  cases genPrefix.isPrefixOf a.name <;> cases genPrefix.isPrefixOf b.name <;> cases genPrefix.isPrefixOf c.name <;> simp
  all_goals
    by_cases ha : a.verdict = .fail <;> by_cases hb : b.verdict = .fail <;> by_cases hc : c.verdict = .fail <;> simp [ha, hb, hc]
  all_goals
    intro h1 h2
    split at h1 <;> split at h2 <;> split <;> omega

/-! ### Percentages -/

theorem tenths_lt {p : Rat} (h0 : 0 ≤ p) (z : Int) : tenths p < z ↔ p * 10 + 1 / 2 < z := by
  unfold tenths; rw [if_pos h0, Rat.floor_lt_iff]

theorem le_tenths {p : Rat} (h0 : 0 ≤ p) (z : Int) : z ≤ tenths p ↔ (z : Rat) ≤ p * 10 + 1 / 2 := by
  unfold tenths; rw [if_pos h0, Rat.le_floor_iff]

theorem tenths_neg {p : Rat} (h0 : p < 0) : tenths p ≤ 0 := by
  unfold tenths
  rw [if_neg (by linarith), Rat.ceil_le_iff]
  push_cast
  linarith

end Verif.Report
