import Verif.Target.Spec
import Verif.Report.Lemmas

namespace Verif.Target

open Verif.Report (Bytes sortBy le)

/-! ### The table -/

/-- The names in the table for a file. -/
def names (tab : Table) (f : Bytes) : List Bytes := (tab.get f).getD []

theorem names_addFile (name : Bytes) (tab : Table) (f g n : Bytes) :
    n ∈ names (if name ∈ (tab.get f).getD [] then tab else tab.set f ((tab.get f).getD [] ++ [name])) g ↔ n ∈ names tab g ∨ (n = name ∧ g = f) := by
  by_cases h : name ∈ (tab.get f).getD []
  · rw [if_pos h]
    constructor
    · exact Or.inl
    · rintro (h' | ⟨rfl, rfl⟩)
      · exact h'
      · exact h
  · rw [if_neg h]
    unfold names
    rw [AMap.get_set]
    by_cases hg : g = f
    · subst hg; simp
    · simp [hg]

theorem names_addFiles (name : Bytes) (g n : Bytes) : ∀ (files : List Bytes) (tab : Table), n ∈ names (addFiles name tab files) g ↔
    n ∈ names tab g ∨ (n = name ∧ g ∈ files)
  | [], tab => by simp [addFiles]
  | f :: files, tab => by
    have := names_addFiles name g n files (if name ∈ (tab.get f).getD [] then tab else tab.set f ((tab.get f).getD [] ++ [name]))
    unfold addFiles at this ⊢
    rw [List.foldl_cons]
    simp only
    rw [this, names_addFile]
    simp only [List.mem_cons]
    tauto

theorem names_targets (name : Bytes) (g n : Bytes) : ∀ (ts : List (List Bytes)) (tab : Table), n ∈ names (ts.foldl (addFiles name) tab) g ↔
    n ∈ names tab g ∨ (n = name ∧ ∃ fs ∈ ts, g ∈ fs)
  | [], tab => by simp
  | fs :: ts, tab => by
    rw [List.foldl_cons, names_targets name g n ts, names_addFiles]
    simp only [List.mem_cons, exists_eq_or_imp]
    tauto

theorem names_tests (g n : Bytes) : ∀ (tests : List Test) (tab : Table),
    n ∈ names (tests.foldl (fun tab t => t.targets.foldl (addFiles t.name) tab) tab) g ↔ n ∈ names tab g ∨ ∃ t ∈ tests, t.name = n ∧ t.Reaches g
  | [], tab => by simp
  | t :: tests, tab => by
    rw [List.foldl_cons, names_tests g n tests, names_targets]
    simp only [List.mem_cons, exists_eq_or_imp, Test.Reaches]
    constructor
    · rintro ((h | ⟨rfl, h⟩) | h)
      · exact Or.inl h
      · exact Or.inr (Or.inl ⟨rfl, h⟩)
      · exact Or.inr (Or.inr h)
    · rintro (h | ⟨rfl, h⟩ | h)
      · exact Or.inl (Or.inl h)
      · exact Or.inl (Or.inr ⟨rfl, h⟩)
      · exact Or.inr h

theorem mem_table (tests : List Test) (g n : Bytes) : n ∈ names (fileToTests tests) g ↔ ∃ t ∈ tests, t.name = n ∧ t.Reaches g := by
  have := names_tests g n tests []
  simpa [fileToTests, names] using this

/-! ### The pattern -/

theorem bars_id {x : Bytes} (h : 32 ∉ x) : bars x = x := by
  unfold bars
  conv => rhs; rw [← List.map_id x]
  refine List.map_congr_left fun b hb => ?_
  have : b ≠ 32 := by rintro rfl; exact h hb
  rw [if_neg this]; rfl

theorem bars_join : ∀ (l : List Bytes), (∀ n ∈ l, 32 ∉ n) → bars (join 32 l) = join 124 l
  | [], _ => rfl
  | [x], h => bars_id (h x (by simp))
  | x :: y :: l, h => by
    have h1 := bars_id (h x (by simp))
    have h2 := bars_join (y :: l) fun n hn => h n (by simp only [List.mem_cons] at hn ⊢; tauto)
    unfold bars at *
    simp only [join, List.map_append, List.map_cons, if_true] at *
    rw [h1, h2]

/-- An alternative of names joined with bars is one of the names. -/
theorem alternative_join : ∀ (l : List Bytes) (n : Bytes), (∀ x ∈ l, 124 ∉ x) → l ≠ [] → (Alternative n (join 124 l) ↔ n ∈ l)
  | [], _, _, h => absurd rfl h
  | [x], n, hx, _ => by
    have hx := hx x (by simp)
    simp only [join, List.mem_singleton]
    constructor
    · rintro ⟨b, a, rfl, -, hb, ha⟩
      have hb' : b = [] := by
        rcases hb with h | ⟨y, rfl⟩
        · exact h
        · exact absurd (by simp) hx
      have ha' : a = [] := by
        rcases ha with h | ⟨y, rfl⟩
        · exact h
        · exact absurd (by simp) hx
      simp [hb', ha']
    · rintro rfl
      exact ⟨[], [], by simp, hx, Or.inl rfl, Or.inl rfl⟩
  | x :: y :: l, n, hx, _ => by
    have h1 := hx x (by simp)
    have ih := alternative_join (y :: l) n (fun z hz => hx z (by simp only [List.mem_cons] at hz ⊢; tauto)) (by simp)
    rw [List.mem_cons, ← ih]
    simp only [join]
    constructor
    · rintro ⟨b, a, h, hn, hb, ha⟩
      rcases hb with rfl | ⟨z, rfl⟩
      · -- the first one
        left
        simp only [List.nil_append] at h
        rcases List.append_eq_append_iff.1 h with ⟨r, hr, hr'⟩ | ⟨r, hr, hr'⟩
        · -- n = x ++ r
          cases r with
          | nil => simpa using hr
          | cons c r =>
            simp only [List.cons_append, List.cons.injEq] at hr'
            exact absurd (by rw [hr, ← hr'.1]; simp) hn
        · -- x = n ++ r
          cases r with
          | nil => simpa using hr.symm
          | cons c r =>
            exfalso
            rcases ha with rfl | ⟨w, rfl⟩
            · simp at hr'
            · simp only [List.cons_append, List.cons.injEq] at hr'
              exact h1 (by rw [hr, ← hr'.1]; simp)
      · right
        -- the text before ends with a bar; it is not inside x
        rw [show z ++ [124] ++ n ++ a = z ++ 124 :: (n ++ a) by simp] at h
        rcases List.append_eq_append_iff.1 h with ⟨r, hr, hr'⟩ | ⟨r, hr, hr'⟩
        · -- z = x ++ r
          cases r with
          | nil =>
            simp only [List.nil_append, List.cons.injEq, true_and] at hr'
            exact ⟨[], a, by rw [hr']; simp, hn, Or.inl rfl, ha⟩
          | cons c r =>
            simp only [List.cons_append, List.cons.injEq] at hr'
            exact ⟨r ++ [124], a, by rw [hr'.2]; simp, hn, Or.inr ⟨r, rfl⟩, ha⟩
        · -- x = z ++ r
          cases r with
          | nil =>
            simp only [List.nil_append, List.cons.injEq, true_and] at hr'
            exact ⟨[], a, by rw [← hr']; simp, hn, Or.inl rfl, ha⟩
          | cons c r =>
            simp only [List.cons_append, List.cons.injEq] at hr'
            exact absurd (by rw [hr, ← hr'.1]; simp) h1
    · rintro (rfl | ⟨b, a, h, hn, hb, ha⟩)
      · exact ⟨[], 124 :: join 124 (y :: l), by simp, h1, Or.inl rfl, Or.inr ⟨_, rfl⟩⟩
      · refine ⟨x ++ 124 :: b, a, by rw [h]; simp, hn, Or.inr ?_, ha⟩
        rcases hb with rfl | ⟨z, rfl⟩
        · exact ⟨x, rfl⟩
        · exact ⟨x ++ 124 :: z, by simp⟩

theorem join_nil {l : List Bytes} (h : ∀ n ∈ l, n ≠ []) : join 32 l = [] ↔ l = [] := by
  match l with
  | [] => simp [join]
  | [x] => simp [join, h x (by simp)]
  | x :: y :: l => simp [join]

end Verif.Target
