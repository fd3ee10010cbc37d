import Verif.Script.Spec
import Verif.Select.Lemmas

namespace Verif.Script
open Verif
open Verif.Select (Str wordsOf wordsOf_last)

theorem backup_ne (o : Str) : backup o ≠ o := by
  intro h
  have := congrArg List.length h
  simp [backup] at this

theorem expand_plain (d : Disk) {s : Str} (h : Plain s) : expand d s = [s] := by
  have hw : wordsOf s = [s] := wordsOf_last s fun c hc => ⟨(h.2 c hc).1, (h.2 c hc).2.1, (h.2 c hc).2.2.1⟩
  have hp : isPattern s = false := by
    simp only [isPattern, List.any_eq_false, decide_eq_true_eq, not_or]
    exact fun c hc => (h.2 c hc).2.2.2
  simp [expand, hw, h.1, glob, hp]

theorem plain_backup {o : Str} (h : Plain o) : Plain (backup o) := by
  refine ⟨by simp [backup], fun c hc => ?_⟩
  simp only [backup, List.mem_append] at hc
  rcases hc with hc | hc
  · exact h.2 c hc
  · revert c; decide

theorem command_two {keep : Bool} {d : Disk} {a b : Str} {x : Content} (ha : d.files.get a = some x) (hb : b ∉ d.dirs) (hab : a ≠ b) :
    command keep d [a, b] = some (⟨(if keep then d.files else d.files.del a).set b x, d.dirs⟩, true) := by
  simp [command, hb, hab, one, ha]

theorem verdict_iff (t : Nat) : (Mutation.verdict t = 0 ↔ t = 1) ∧ (Mutation.verdict t = 1 ↔ t = 0) := by
  match t with
  | 0 => simp [Mutation.verdict]
  | 1 => simp [Mutation.verdict]
  | 2 => simp [Mutation.verdict]
  | n + 3 => simp [Mutation.verdict]

/-- The files after the commands of both scripts. -/
theorem run_files {w : Disk → Str → List Str} {o c : Str} {test : Nat} {d : Disk} {x y : Content} (ho : ∀ d, w d o = [o]) (hb : ∀ d, w d (backup o) = [backup o])
    (hc : ∀ d, w d c = [c]) (hx : d.files.get o = some x) (hy : d.files.get c = some y) (ha : c ≠ o ∧ c ≠ backup o) (hp : o ∉ d.dirs ∧ backup o ∉ d.dirs) :
    run w o c test d = some ⟨⟨((((d.files.del o).set (backup o) x).set o y).del (backup o)).set o x, d.dirs⟩, Mutation.verdict test,
      some ⟨((d.files.del o).set (backup o) x).set o y, d.dirs⟩⟩ := by
  have hne := backup_ne o
  have s1 := command_two (keep := false) hx hp.2 (Ne.symm hne)
  simp only [Bool.false_eq_true, if_false] at s1
  have hy' : ((d.files.del o).set (backup o) x).get c = some y := by
    rw [AMap.get_set, if_neg ha.2, AMap.get_del, if_neg ha.1, hy]
  have s2 := command_two (keep := true) (d := ⟨(d.files.del o).set (backup o) x, d.dirs⟩) hy' hp.1 ha.1
  simp only [if_true] at s2
  have hx' : (((d.files.del o).set (backup o) x).set o y).get (backup o) = some x := by
    rw [AMap.get_set, if_neg hne, AMap.get_set, if_pos rfl]
  have s3 := command_two (keep := false) (d := ⟨((d.files.del o).set (backup o) x).set o y, d.dirs⟩) hx' hp.1 hne
  simp only [Bool.false_eq_true, if_false] at s3
  simp only [run, ho, hb, hc, List.singleton_append, s1, s2, s3, Option.bind_eq_bind, Option.bind_some, Option.pure_def, Bool.true_eq_false, if_false]

theorem run_tests {w : Disk → Str → List Str} {o c : Str} {test : Nat} {d : Disk} (ho : ∀ d, w d o = [o]) (hb : ∀ d, w d (backup o) = [backup o])
    (hc : ∀ d, w d c = [c]) (h : Ready o c d) : ∃ r, run w o c test d = some r ∧ Tests o c test d r := by
  obtain ⟨⟨x, hx⟩, ⟨y, hy⟩, ha, hp⟩ := h
  have hne := backup_ne o
  refine ⟨_, run_files ho hb hc hx hy ha hp, ⟨_, rfl, ?_, ?_⟩, ?_, ?_, verdict_iff test⟩
  · rw [AMap.get_set, if_pos rfl, hy]
  · intro p h1 h2
    simp only [AMap.get_set, AMap.get_del, if_neg h1, if_neg h2]
  · intro p h1
    simp only [AMap.get_set, AMap.get_del]
    by_cases h2 : p = o
    · subst h2; simp [hx]
    · simp [h1, h2]
  · simp only [AMap.get_set, AMap.get_del, if_neg hne, if_true]

/-! ### Blanks -/

theorem wordsOf_ne : ∀ s : Str, wordsOf s ≠ []
  | [] => by simp [wordsOf]
  | c :: s => by
    unfold wordsOf
    split
    · simp
    · split <;> simp

theorem wordsOf_blank : ∀ (a b : Str), wordsOf (a ++ ' ' :: b) = wordsOf a ++ wordsOf b
  | [], b => by simp [wordsOf]
  | c :: a, b => by
    have ih := wordsOf_blank a b
    simp only [List.cons_append, wordsOf]
    split
    · simp [ih]
    · rw [ih]
      cases h : wordsOf a with
      | nil => exact absurd h (wordsOf_ne a)
      | cons w ws => simp

/-- The words of a text with a word added at its end. -/
theorem wordsOf_end (t : Str) (ht : ∀ c ∈ t, c ≠ ' ' ∧ c ≠ '\t' ∧ c ≠ '\n') : ∀ s : Str, ∃ init last, wordsOf (s ++ t) = init ++ [last ++ t]
  | [] => ⟨[], [], by simpa using wordsOf_last t ht⟩
  | c :: s => by
    obtain ⟨init, last, h⟩ := wordsOf_end t ht s
    simp only [List.cons_append, wordsOf]
    split
    · exact ⟨[] :: init, last, by simp [h]⟩
    · rw [h]
      cases init with
      | nil => exact ⟨[], c :: last, by simp⟩
      | cons w ws => exact ⟨(c :: w) :: ws, last, by simp⟩

theorem mem_words : ∀ (s w : Str) (c : Char), w ∈ wordsOf s → c ∈ w → c ∈ s
  | [], w, c, h, hc => by simp [wordsOf] at h; subst h; simp at hc
  | d :: s, w, c, h, hc => by
    simp only [wordsOf] at h
    split at h
    · rcases List.mem_cons.1 h with rfl | h
      · simp at hc
      · exact List.mem_cons_of_mem _ (mem_words s w c h hc)
    · cases hs : wordsOf s with
      | nil => exact absurd hs (wordsOf_ne s)
      | cons v vs =>
        simp only [hs, List.mem_cons] at h
        rcases h with rfl | h
        · rcases List.mem_cons.1 hc with rfl | hc
          · simp
          · exact List.mem_cons_of_mem _ (mem_words s v c (by simp [hs]) hc)
        · exact List.mem_cons_of_mem _ (mem_words s w c (by simp [hs, h]) hc)

theorem words_pos : ∀ (s : Str), (∃ c ∈ s, c ≠ ' ' ∧ c ≠ '\t' ∧ c ≠ '\n') → 1 ≤ ((wordsOf s).filter (· ≠ [])).length
  | [], h => by simp at h
  | d :: s, h => by
    simp only [wordsOf]
    split
    · rename_i hd
      obtain ⟨c, hc, h1, h2, h3⟩ := h
      rcases List.mem_cons.1 hc with rfl | hc
      · simp [h1, h2, h3] at hd
      · simpa using words_pos s ⟨c, hc, h1, h2, h3⟩
    · cases wordsOf s <;> simp

theorem expand_words (d : Disk) {s : Str} (h : isPattern s = false) : expand d s = (wordsOf s).filter (· ≠ []) := by
  unfold expand
  have : ∀ l : List Str, (∀ w ∈ l, ∀ c ∈ w, c ∈ s) → l.flatMap (glob d) = l := by
    intro l
    induction l with
    | nil => intro; rfl
    | cons w l ih =>
      intro hl
      have hw : isPattern w = false := by
        simp only [isPattern, List.any_eq_false] at h ⊢
        exact fun c hc => h c (hl w (by simp) c hc)
      rw [List.flatMap_cons, ih fun v hv => hl v (by simp [hv])]
      simp [glob, hw]
  exact this _ fun w hw c hc => mem_words s w c (List.mem_filter.1 hw).1 hc

theorem pattern_backup {o : Str} (h : isPattern o = false) : isPattern (backup o) = false := by
  simp only [isPattern, List.any_eq_false] at h ⊢
  intro c hc
  simp only [backup, List.mem_append] at hc
  rcases hc with hc | hc
  · exact h c hc
  · revert c; decide

/-- With more than two arguments the last of which is no directory nothing is done. -/
theorem command_many {keep : Bool} {d : Disk} {init : List Str} {last : Str} (h : 2 ≤ init.length) (hl : last ∉ d.dirs) : command keep d (init ++ [last]) = some (d, false) := by
  have e : (init ++ [last]).getLast? = some last := by simp
  unfold command
  rw [e]
  dsimp only
  rw [if_neg hl]
  match init, h with
  | [a, b], _ => rfl
  | a :: b :: c :: l, _ => rfl

end Verif.Script
