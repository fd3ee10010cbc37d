import Verif.Batch.Model

/-! Property C52. -/

namespace Verif.Batch
open Verif Verif.Util

/-- Workers run concurrently: the functions in the order in which they are handled, each worker keeping the order of its batch. -/
inductive Interleaving : List (List Fn) → List Fn → Prop
  | done (bs : List (List Fn)) (h : ∀ b ∈ bs, b = []) : Interleaving bs []
  | step (pre post : List (List Fn)) (f : Fn) (b : List Fn) (s : List Fn) (h : Interleaving (pre ++ b :: post) s) : Interleaving (pre ++ (f :: b) :: post) (f :: s)

theorem group_flatten : ∀ (l : List Fn) (cur : Bytes) (acc : List Fn) (dirs : List Bytes), (group cur acc dirs l).1.flatten = acc ++ l := by
  intro l
  induction l with
  | nil => intro cur acc dirs; simp [group]
  | cons f fs ih =>
      intro cur acc dirs
      simp only [group]
      split
      · rw [ih]; simp
      · have h := ih f.file [f] (if dirOf f.file ∈ dirs then dirs else dirs ++ [dirOf f.file])
        simp only [List.flatten_cons, h]
        simp

/-- The batches of a sorted list: each within one file, files of different batches different. -/
theorem group_files : ∀ (l : List Fn) (cur : Bytes) (acc : List Fn) (dirs : List Bytes), ByFile l → (∀ f ∈ l, cur ≤ f.file) → (∀ f ∈ acc, f.file = cur) →
    (∀ b ∈ (group cur acc dirs l).1, ∀ f ∈ b, ∀ g ∈ b, f.file = g.file) ∧
    (group cur acc dirs l).1.Pairwise (fun a b => ∀ f ∈ a, ∀ g ∈ b, f.file ≠ g.file) ∧
    ∀ b ∈ (group cur acc dirs l).1, ∀ f ∈ b, f ∈ acc ∨ f ∈ l := by
  intro l
  induction l with
  | nil =>
      intro cur acc dirs _ _ hacc
      simp only [group, List.mem_singleton, forall_eq, List.pairwise_singleton, true_and]
      exact ⟨fun f hf g hg => by rw [hacc f hf, hacc g hg], fun f hf => Or.inl hf⟩
  | cons f fs ih =>
      intro cur acc dirs hs hle hacc
      have hs' : ByFile fs := (List.pairwise_cons.mp hs).2
      have hff : ∀ g ∈ fs, f.file ≤ g.file := (List.pairwise_cons.mp hs).1
      simp only [group]
      split
      · rename_i hc
        obtain ⟨h1, h2, h3⟩ := ih cur (acc ++ [f]) dirs hs' (fun g hg => hle g (List.mem_cons_of_mem _ hg)) (fun g hg => by
          rcases List.mem_append.mp hg with hg | hg
          · exact hacc g hg
          · rw [List.mem_singleton.mp hg, hc])
        refine ⟨h1, h2, fun b hb g hg => ?_⟩
        rcases h3 b hb g hg with h | h
        · rcases List.mem_append.mp h with h | h
          · exact Or.inl h
          · exact Or.inr (by rw [List.mem_singleton.mp h]; exact List.mem_cons_self ..)
        · exact Or.inr (List.mem_cons_of_mem _ h)
      · rename_i hc
        obtain ⟨h1, h2, h3⟩ := ih f.file [f] (if dirOf f.file ∈ dirs then dirs else dirs ++ [dirOf f.file]) hs' hff (fun g hg => by rw [List.mem_singleton.mp hg])
        have hin : ∀ b ∈ (group f.file [f] (if dirOf f.file ∈ dirs then dirs else dirs ++ [dirOf f.file]) fs).1, ∀ g ∈ b, g ∈ f :: fs := by
          intro b hb g hg
          rcases h3 b hb g hg with h | h
          · rw [List.mem_singleton.mp h]; exact List.mem_cons_self ..
          · exact List.mem_cons_of_mem _ h
        refine ⟨fun b hb g hg g' hg' => ?_, List.pairwise_cons.mpr ⟨fun b hb g hg g' hg' heq => ?_, h2⟩, fun b hb g hg => ?_⟩
        · rcases List.mem_cons.mp hb with rfl | hb
          · rw [hacc g hg, hacc g' hg']
          · exact h1 b hb g hg g' hg'
        · rw [hacc g hg] at heq
          have hge : f.file ≤ g'.file := by
            rcases List.mem_cons.mp (hin b hb g' hg') with rfl | h
            · exact List.le_refl _
            · exact hff g' h
          rw [← heq] at hge
          exact hc (List.le_antisymm (hle f (List.mem_cons_self ..)) hge)
        · rcases List.mem_cons.mp hb with rfl | hb
          · exact Or.inl hg
          · exact Or.inr (hin b hb g hg)

/-- Every function is in exactly one place of exactly one batch. -/
theorem C52_once (l : List Fn) (fns : List Fn) (hp : l.Perm fns) : (batches l).flatten.Perm fns ∧ (batches l).flatten = l := by
  have h : (batches l).flatten = l := by unfold batches; rw [group_flatten]; rfl
  exact ⟨by rw [h]; exact hp, h⟩

/-- All functions of a file are in one batch and a batch has one file, so its worker accepts it; this for every result the unstable sort may give. -/
theorem C52_one_worker (l : List Fn) (hs : ByFile l) :
    (∀ b ∈ batches l, accepted b = true ∧ ∀ f ∈ b, ∀ g ∈ b, f.file = g.file) ∧ (batches l).Pairwise (fun a b => ∀ f ∈ a, ∀ g ∈ b, f.file ≠ g.file) := by
  obtain ⟨h1, h2, -⟩ := group_files l [] [] [] hs (fun f _ => List.nil_le _) (fun f hf => by simp at hf)
  refine ⟨fun b hb => ⟨?_, h1 b hb⟩, h2⟩
  unfold accepted
  cases b with
  | nil => rfl
  | cons f b =>
      have hlast := List.getLast_mem (List.cons_ne_nil f b)
      have he := h1 _ hb f (List.mem_cons_self ..) _ hlast
      rw [List.getLast?_eq_some_getLast (List.cons_ne_nil f b)]
      simp [he]

theorem interleaving_filter (p : Bytes) : ∀ (bs : List (List Fn)) (s : List Fn), Interleaving bs s →
    bs.Pairwise (fun a b => ∀ f ∈ a, ∀ g ∈ b, f.file ≠ g.file) → s.filter (fun f => f.file = p) = bs.flatten.filter fun f => f.file = p := by
  intro bs s hi
  induction hi with
  | done bs h =>
      intro _
      have : bs.flatten = [] := List.flatten_eq_nil_iff.mpr h
      simp [this]
  | step pre post f b s h ih =>
      intro hp
      rw [List.pairwise_append, List.pairwise_cons] at hp
      obtain ⟨p1, ⟨p2, p3⟩, p4⟩ := hp
      have ih' := ih (by
        rw [List.pairwise_append, List.pairwise_cons]
        refine ⟨p1, ⟨fun c hc x hx => p2 c hc x (List.mem_cons_of_mem _ hx), p3⟩, fun a ha c hc x hx y hy => ?_⟩
        rcases List.mem_cons.mp hc with rfl | hc
        · exact p4 a ha _ (List.mem_cons_self ..) x hx y (List.mem_cons_of_mem _ hy)
        · exact p4 a ha c (List.mem_cons_of_mem _ hc) x hx y hy)
      rw [List.filter_cons, ih']
      simp only [List.flatten_append, List.flatten_cons, List.filter_append]
      by_cases hf : f.file = p
      · simp only [hf, decide_true, if_true]
        have hpre : (pre.flatten.filter fun g => decide (g.file = p)) = [] := by
          rw [List.filter_eq_nil_iff]
          intro g hg
          obtain ⟨a, ha, hga⟩ := List.mem_flatten.mp hg
          have := p4 a ha (f :: b) (List.mem_cons_self ..) g hga f (List.mem_cons_self ..)
          rw [hf] at this
          simpa using this
        rw [hpre]
        simp [hf]
      · simp [hf]

/-- However the workers are scheduled, the functions of each file are instrumented one after the other in the same order. -/
theorem C52_schedule (l : List Fn) (hs : ByFile l) (s : List Fn) (hi : Interleaving (batches l) s) (p : Bytes) :
    s.filter (fun f => f.file = p) = l.filter fun f => f.file = p := by
  rw [interleaving_filter p _ _ hi (C52_one_worker l hs).2, (C52_once l l (List.Perm.refl l)).2]

theorem group_dirs : ∀ (l : List Fn) (cur : Bytes) (acc : List Fn) (dirs : List Bytes), dirs.Nodup → (cur ≠ [] → dirOf cur ∈ dirs) → (∀ f ∈ l, f.file ≠ []) →
    (group cur acc dirs l).2.Nodup ∧ ∀ d, d ∈ (group cur acc dirs l).2 ↔ d ∈ dirs ∨ ∃ f ∈ l, dirOf f.file = d := by
  intro l
  induction l with
  | nil => intro cur acc dirs hn _ _; simp [group, hn]
  | cons f fs ih =>
      intro cur acc dirs hn hcur hne
      have hne' : ∀ g ∈ fs, g.file ≠ [] := fun g hg => hne g (List.mem_cons_of_mem _ hg)
      simp only [group]
      split
      · rename_i hc
        obtain ⟨h1, h2⟩ := ih cur (acc ++ [f]) dirs hn hcur hne'
        refine ⟨h1, fun d => ?_⟩
        rw [h2]
        simp only [List.mem_cons, exists_eq_or_imp]
        refine ⟨fun h => h.imp id Or.inr, fun h => ?_⟩
        rcases h with h | rfl | h
        · exact Or.inl h
        · rw [← hc]; exact Or.inl (hcur (by rw [hc]; exact hne f (List.mem_cons_self ..)))
        · exact Or.inr h
      · simp only
        by_cases hd : dirOf f.file ∈ dirs
        · rw [if_pos hd]
          obtain ⟨h1, h2⟩ := ih f.file [f] dirs hn (fun _ => hd) hne'
          refine ⟨h1, fun d => ?_⟩
          rw [h2]
          simp only [List.mem_cons, exists_eq_or_imp]
          refine ⟨fun h => h.imp id Or.inr, fun h => ?_⟩
          rcases h with h | rfl | h
          · exact Or.inl h
          · exact Or.inl hd
          · exact Or.inr h
        · rw [if_neg hd]
          obtain ⟨h1, h2⟩ := ih f.file [f] (dirs ++ [dirOf f.file]) (by
            rw [List.nodup_append]
            refine ⟨hn, by simp, fun a ha b hb hab => ?_⟩
            rw [List.mem_singleton.mp hb] at hab
            exact hd (hab ▸ ha)) (fun _ => by simp) hne'
          refine ⟨h1, fun d => ?_⟩
          rw [h2]
          simp only [List.mem_append, List.mem_cons, List.not_mem_nil, or_false, exists_eq_or_imp, or_assoc]
          rw [show (d = dirOf f.file) = (dirOf f.file = d) from propext eq_comm]

/-- The directory of a path: what is before its last '/'. -/
theorem dirOf_spec {d name : Bytes} (h : 47 ∉ name) : dirOf (d ++ 47 :: name) = d := by
  unfold dirOf
  rw [List.reverse_append, List.reverse_cons, List.append_assoc, List.dropWhile_append_of_pos (fun x hx => ?_)]
  · simp
  · simp only [bne_iff_ne]
    rintro rfl
    exact h (List.mem_reverse.mp hx)

/-- Every directory with a function to instrument gets the client exactly once. Files are given by directory and name. -/
theorem C52_clients (l : List Fn) (hp : ∀ f ∈ l, ∃ d name, f.file = d ++ 47 :: name ∧ 47 ∉ name) :
    (clientDirs l).Nodup ∧ ∀ d, d ∈ clientDirs l ↔ ∃ f ∈ l, ∃ name, f.file = d ++ 47 :: name ∧ 47 ∉ name := by
  obtain ⟨h1, h2⟩ := group_dirs l [] [] [] List.nodup_nil (fun h => absurd rfl h) (fun f hf => by obtain ⟨d, name, e, -⟩ := hp f hf; rw [e]; simp)
  refine ⟨h1, fun d => ?_⟩
  unfold clientDirs
  rw [h2]
  constructor
  · rintro (h | ⟨f, hf, rfl⟩)
    · cases h
    · obtain ⟨d, name, e, hn⟩ := hp f hf
      refine ⟨f, hf, name, ?_, hn⟩
      rw [e, dirOf_spec hn]
  · rintro ⟨f, hf, name, e, hn⟩
    exact .inr ⟨f, hf, by rw [e, dirOf_spec hn]⟩

/-- The callers of the project and the changed functions of modules are grouped apart. If they have no file in common, the batches of both together
have no file in common either. Missing: files in both lists. -/
theorem C52_both_partial (l m : List Fn) (hl : ByFile l) (hm : ByFile m) (hd : ∀ f ∈ l, ∀ g ∈ m, f.file ≠ g.file) :
    (batches l ++ batches m).Pairwise (fun a b => ∀ f ∈ a, ∀ g ∈ b, f.file ≠ g.file) := by
  refine List.pairwise_append.mpr ⟨(C52_one_worker l hl).2, (C52_one_worker m hm).2, fun a ha b hb f hf g hg => hd f ?_ g ?_⟩
  · rw [← (C52_once l l (List.Perm.refl l)).2]; exact List.mem_flatten.mpr ⟨a, ha, hf⟩
  · rw [← (C52_once m m (List.Perm.refl m)).2]; exact List.mem_flatten.mpr ⟨b, hb, hg⟩

/-- A file in both lists is given to two workers. -/
theorem C52_both_violated : ∃ l m : List Fn, ByFile l ∧ ByFile m ∧ ¬ (batches l ++ batches m).Pairwise (fun a b => ∀ f ∈ a, ∀ g ∈ b, f.file ≠ g.file) :=
  ⟨[⟨[97], 1⟩], [⟨[97], 2⟩], by simp [ByFile], by simp [ByFile], by decide⟩

/-! ### A case -/

/-- Files `a/x`, `a/x`, `a/y`, `b/x`. -/
def demo : List Fn := [⟨[97, 47, 120], 3⟩, ⟨[97, 47, 120], 1⟩, ⟨[97, 47, 121], 2⟩, ⟨[98, 47, 120], 4⟩]

example : ByFile demo ∧ (∀ f ∈ demo, f.file ≠ []) := by unfold ByFile; decide
example : ∀ f ∈ demo, ∃ d name, f.file = d ++ 47 :: name ∧ 47 ∉ name := by
  intro f hf
  refine ⟨f.file.take 1, f.file.drop 2, ?_⟩
  revert f hf
  decide
example : batches demo = [[], [⟨[97, 47, 120], 3⟩, ⟨[97, 47, 120], 1⟩], [⟨[97, 47, 121], 2⟩], [⟨[98, 47, 120], 4⟩]] ∧ clientDirs demo = [[97], [98]] := by decide

example : Interleaving (batches demo) [⟨[97, 47, 121], 2⟩, ⟨[97, 47, 120], 3⟩, ⟨[98, 47, 120], 4⟩, ⟨[97, 47, 120], 1⟩] := by
  refine .step [[], [⟨[97, 47, 120], 3⟩, ⟨[97, 47, 120], 1⟩]] [[⟨[98, 47, 120], 4⟩]] _ [] _ ?_
  refine .step [[]] [[], [⟨[98, 47, 120], 4⟩]] _ [⟨[97, 47, 120], 1⟩] _ ?_
  refine .step [[], [⟨[97, 47, 120], 1⟩], []] [] _ [] _ ?_
  refine .step [[]] [[], []] _ [] _ ?_
  exact .done _ (by simp)

end Verif.Batch
