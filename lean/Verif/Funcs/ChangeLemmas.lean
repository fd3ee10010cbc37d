import Verif.Funcs.Lemmas
import Mathlib.Data.List.Pairwise

/-! Lemmas: the functions found to have changed. -/

namespace Verif.Funcs
open Verif

/-- The functions with their identifiers. -/
def pairs (fs : List Fun) : AMap Nat Fun := fs.map fun f => (f.ident, f)

theorem keys_pairs (fs : List Fun) : (pairs fs).keys = fs.map Fun.ident := by
  simp [pairs, AMap.keys, Function.comp_def]

theorem get_pairs {fs : List Fun} (h : (fs.map Fun.ident).Nodup) (i : Nat) (f : Fun) : (pairs fs).get i = some f ↔ f ∈ fs ∧ f.ident = i := by
  constructor
  · intro hg
    have := AMap.mem_of_get hg
    simp only [pairs, List.mem_map, Prod.mk.injEq] at this
    obtain ⟨g, h1, h2, rfl⟩ := this
    exact ⟨h1, h2⟩
  · rintro ⟨h1, rfl⟩
    exact AMap.get_eq_some_of_mem (by rw [keys_pairs]; exact h) (List.mem_map.mpr ⟨f, h1, rfl⟩)

theorem extract_eq (fs : List Fun) (hp : ∀ f ∈ fs, f.text ≠ none) (m : AMap Nat Fun) :
    extract fs (m, false) = ((pairs fs).foldl (fun m e => m.set e.1 e.2) m, false) := by
  induction fs generalizing m with
  | nil => rfl
  | cons f fs ih =>
    cases ht : f.text with
    | none => exact absurd ht (hp f (by simp))
    | some t =>
      simp only [extract, ht]
      rw [ih fun g hg => hp g (by simp [hg])]
      rfl

theorem nodup_fold {V : Type} (x m : AMap Nat V) (h : m.keys.Nodup) : (x.foldl (fun m e => m.set e.1 e.2) m).keys.Nodup := by
  induction x generalizing m with
  | nil => exact h
  | cons e x ih => exact ih _ (AMap.nodup_set h _ _)

theorem aggregate_eq (files : List (List Fun)) (hn : (files.flatten.map Fun.ident).Nodup) (hp : ∀ f ∈ files.flatten, f.text ≠ none) (m : AMap Nat Fun)
    (hm : m.keys.Nodup) :
    ∃ r, aggregate files m = some r ∧ r.keys.Nodup ∧ ∀ i, r.get i = ((pairs files.flatten).get i).or (m.get i) := by
  induction files generalizing m with
  | nil => exact ⟨m, rfl, hm, fun i => by simp [pairs]⟩
  | cons file files ih =>
    rw [List.flatten_cons, List.map_append, List.nodup_append] at hn
    obtain ⟨n1, n2, n3⟩ := hn
    simp only [aggregate]
    rw [extract_eq file fun f hf => hp f (by simp [hf])]
    simp only
    have hk : (pairs file).keys.Nodup := by rw [keys_pairs]; exact n1
    set x := (pairs file).foldl (fun m e => AMap.set m e.1 e.2) [] with hx
    have hxk : x.keys.Nodup := nodup_fold _ _ (by simp [AMap.keys])
    have hxg : ∀ i, x.get i = (pairs file).get i := by
      intro i; rw [hx, get_foldl_set _ _ hk]; simp
    obtain ⟨r, r1, r2, r3⟩ := ih n2 (fun f hf => hp f (by rw [List.flatten_cons]; exact List.mem_append_right _ hf))
      (x.foldl (fun m e => AMap.set m e.1 e.2) m) (nodup_fold _ _ hm)
    refine ⟨r, r1, r2, fun i => ?_⟩
    rw [r3, get_foldl_set _ _ hxk, hxg]
    have hpa : pairs (List.flatten (file :: files)) = pairs file ++ pairs files.flatten := by simp [pairs]
    rw [hpa]
    cases h1 : (pairs files.flatten).get i with
    | none =>
      have : (AMap.get (pairs file ++ pairs files.flatten) i) = (pairs file).get i := by
        unfold AMap.get at h1 ⊢
        rw [List.find?_append]
        cases hf : List.find? (fun e : Nat × Fun => decide (e.1 = i)) (pairs file) with
        | some e => rfl
        | none => rw [Option.none_or]; exact h1
      rw [this]; rfl
    | some g =>
      have hg := AMap.mem_of_get h1
      have hgk : i ∈ files.flatten.map Fun.ident := by
        rw [← keys_pairs]; exact List.mem_map.mpr ⟨_, hg, rfl⟩
      have hno : (pairs file).get i = none := by
        rw [← Option.not_isSome_iff_eq_none, ← AMap.mem_keys, keys_pairs]
        intro hc; exact n3 i hc i hgk rfl
      have : (AMap.get (pairs file ++ pairs files.flatten) i) = some g := by
        unfold AMap.get at h1 hno ⊢
        rw [List.find?_append]
        rw [Option.map_eq_none_iff] at hno
        rw [hno, Option.none_or]; exact h1
      rw [this]; rfl

/-- The functions of a package. -/
theorem aggregate_pkg (p : Pkg) (hn : Names p) (hp : Printable p) :
    ∃ r, aggregate p.files [] = some r ∧ r.keys.Nodup ∧ ∀ i f, r.get i = some f ↔ f ∈ p.files.flatten ∧ f.ident = i := by
  obtain ⟨r, r1, r2, r3⟩ := aggregate_eq p.files hn hp [] (by simp [AMap.keys])
  refine ⟨r, r1, r2, fun i f => ?_⟩
  rw [r3, ← get_pairs hn i f]
  simp

theorem mem_changedIn {old new : AMap Nat Fun} (hk : new.keys.Nodup) (f : Fun) :
    f ∈ changedIn old new ↔ ∃ i g, new.get i = some g ∧ old.get i = some f ∧ f.text ≠ g.text := by
  unfold changedIn
  rw [List.mem_filterMap]
  constructor
  · rintro ⟨⟨i, g⟩, h1, h2⟩
    simp only at h2
    cases ho : old.get i with
    | none => rw [ho] at h2; simp at h2
    | some o =>
      rw [ho] at h2
      simp only at h2
      by_cases ht : o.text ≠ g.text
      · rw [if_pos ht] at h2
        simp only [Option.some.injEq] at h2
        subst h2
        exact ⟨i, g, AMap.get_eq_some_of_mem hk h1, ho, ht⟩
      · rw [if_neg ht] at h2; simp at h2
  · rintro ⟨i, g, h1, h2, h3⟩
    exact ⟨(i, g), AMap.mem_of_get h1, by simp [h2, h3]⟩

theorem nodup_changedIn {old new : AMap Nat Fun} (hk : new.keys.Nodup) (hid : ∀ i f, old.get i = some f → f.ident = i) : (changedIn old new).Nodup := by
  induction new with
  | nil => exact List.nodup_nil
  | cons e new ih =>
    have hke : AMap.keys (e :: new) = e.1 :: AMap.keys new := rfl
    rw [hke, List.nodup_cons] at hk
    have ihn := ih hk.2
    cases ho : old.get e.1 with
    | none =>
      have : changedIn old (e :: new) = changedIn old new := by unfold changedIn; rw [List.filterMap_cons_none]; simp [ho]
      rw [this]; exact ihn
    | some o =>
      by_cases ht : o.text ≠ e.2.text
      · have : changedIn old (e :: new) = o :: changedIn old new := by unfold changedIn; rw [List.filterMap_cons_some]; simp [ho, ht]
        rw [this, List.nodup_cons]
        refine ⟨fun hc => ?_, ihn⟩
        obtain ⟨i, g, g1, g2, -⟩ := (mem_changedIn hk.2 o).mp hc
        apply hk.1
        rw [← hid _ _ ho, hid _ _ g2]
        exact List.mem_map.mpr ⟨_, AMap.mem_of_get g1, rfl⟩
      · have : changedIn old (e :: new) = changedIn old new := by unfold changedIn; rw [List.filterMap_cons_none]; simp [ho, ht]
        rw [this]; exact ihn

theorem get_pkgMap (ps : List Pkg) (h : (ps.map Pkg.path).Nodup) (i : Nat) (p : Pkg) : (pkgMap ps).get i = some p ↔ p ∈ ps ∧ p.path = i := by
  have : pkgMap ps = (ps.map fun p => (p.path, p)).foldl (fun m e => AMap.set m e.1 e.2) [] := by
    unfold pkgMap; rw [List.foldl_map]
  have hk : AMap.keys (ps.map fun p => (p.path, p)) = ps.map Pkg.path := by simp [AMap.keys, Function.comp_def]
  rw [this, get_foldl_set _ _ (by rw [hk]; exact h)]
  simp only [AMap.get_nil, Option.or_none]
  constructor
  · intro hg
    have := AMap.mem_of_get hg
    simp only [List.mem_map, Prod.mk.injEq] at this
    obtain ⟨g, h1, h2, rfl⟩ := this
    exact ⟨h1, h2⟩
  · rintro ⟨h1, rfl⟩
    exact AMap.get_eq_some_of_mem (by rw [hk]; exact h) (List.mem_map.mpr ⟨p, h1, rfl⟩)

/-- All packages. -/
theorem changed_eq (olds news : List Pkg) (hop : (olds.map Pkg.path).Nodup) (hn : ∀ p ∈ olds ++ news, Names p ∧ Printable p) :
    ∃ l, changed (pkgMap olds) news = some l ∧ (∀ f, f ∈ l ↔ Changed olds news f) ∧
      ((news.map Pkg.path).Nodup → (olds.flatMap fun p => p.files.flatten).Nodup → l.Nodup) := by
  induction news with
  | nil => exact ⟨[], rfl, fun f => by simp [Changed], fun _ _ => List.nodup_nil⟩
  | cons n news ih =>
    obtain ⟨l, l1, l2, l3⟩ := ih fun p hp => hn p (by
      rcases List.mem_append.mp hp with h | h
      · simp [h]
      · simp [h])
    obtain ⟨new, a1, a2, a3⟩ := aggregate_pkg n (hn n (by simp)).1 (hn n (by simp)).2
    have hsplit : ∀ f, Changed olds (n :: news) f ↔ (∃ o ∈ olds, o.path = n.path ∧ f ∈ o.files.flatten ∧ ∃ g ∈ n.files.flatten, g.ident = f.ident ∧ g.text ≠ f.text) ∨
        Changed olds news f := by
      intro f
      constructor
      · rintro ⟨o, h1, n', h2, h3⟩
        rcases List.mem_cons.mp h2 with rfl | h2
        · exact Or.inl ⟨o, h1, h3⟩
        · exact Or.inr ⟨o, h1, n', h2, h3⟩
      · rintro (⟨o, h1, h3⟩ | ⟨o, h1, n', h2, h3⟩)
        · exact ⟨o, h1, n, by simp, h3⟩
        · exact ⟨o, h1, n', by simp [h2], h3⟩
    simp only [changed, a1]
    cases hg : (pkgMap olds).get n.path with
    | none =>
      refine ⟨l, l1, fun f => ?_, fun hnp hof => l3 (List.nodup_cons.mp hnp).2 hof⟩
      rw [l2, hsplit]
      constructor
      · exact Or.inr
      · rintro (⟨o, h1, h3, -⟩ | h)
        · have := (get_pkgMap olds hop n.path o).mpr ⟨h1, h3⟩
          rw [hg] at this; simp at this
        · exact h
    | some op =>
      obtain ⟨o1, o2⟩ := (get_pkgMap olds hop n.path op).mp hg
      obtain ⟨old, b1, b2, b3⟩ := aggregate_pkg op (hn op (by simp [o1])).1 (hn op (by simp [o1])).2
      simp only [b1, l1]
      have hmem : ∀ f, f ∈ changedIn old new ↔ f ∈ op.files.flatten ∧ ∃ g ∈ n.files.flatten, g.ident = f.ident ∧ g.text ≠ f.text := by
        intro f
        rw [mem_changedIn a2]
        constructor
        · rintro ⟨i, g, g1, g2, g3⟩
          obtain ⟨c1, c2⟩ := (a3 i g).mp g1
          obtain ⟨c3, c4⟩ := (b3 i f).mp g2
          exact ⟨c3, g, c1, c2.trans c4.symm, fun h => g3 h.symm⟩
        · rintro ⟨c3, g, c1, c2, c4⟩
          exact ⟨f.ident, g, (a3 _ _).mpr ⟨c1, c2⟩, (b3 _ _).mpr ⟨c3, rfl⟩, fun h => c4 h.symm⟩
      have huniq : ∀ o ∈ olds, o.path = n.path → o = op := by
        intro o h1 h2
        have := (get_pkgMap olds hop n.path o).mpr ⟨h1, h2⟩
        rw [hg] at this; simpa using this.symm
      refine ⟨_, rfl, fun f => ?_, fun hnp hof => ?_⟩
      · rw [List.mem_append, l2, hsplit, hmem]
        refine or_congr ?_ Iff.rfl
        constructor
        · rintro ⟨h1, h2⟩; exact ⟨op, o1, o2, h1, h2⟩
        · rintro ⟨o, h1, h2, h3⟩; rw [huniq o h1 h2] at h3; exact h3
      · rw [List.nodup_append]
        refine ⟨nodup_changedIn a2 (fun i f h => ((b3 i f).mp h).2), l3 (List.nodup_cons.mp hnp).2 hof, ?_⟩
        rintro f h1 f' h2 rfl
        obtain ⟨o, p1, n', p2, p3, p4, -⟩ := (l2 f).mp h2
        have p5 := ((hmem f).mp h1).1
        have hne : o ≠ op := by
          rintro rfl
          apply (List.nodup_cons.mp hnp).1
          rw [← o2, p3]
          exact List.mem_map.mpr ⟨n', p2, rfl⟩
        have hpw := (List.nodup_flatMap.mp hof).2
        haveI : Std.Symm (Function.onFun List.Disjoint (fun p : Pkg => p.files.flatten)) := ⟨fun _ _ h x hx hy => h hy hx⟩
        exact hpw.forall o1 p1 hne.symm p5 p4

end Verif.Funcs
