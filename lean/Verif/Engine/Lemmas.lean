import Verif.Engine.Spec
import Verif.Util.Lemmas

/-! Helper lemmas for the engine. -/

namespace Verif.Engine
open Verif Verif.Util

theorem cutAt_some : ∀ (s x y : Bytes), cutAt s = some (x, y) ↔ s = x ++ 64 :: y ∧ (64 : UInt8) ∉ x := by
  intro s
  induction s with
  | nil => intro x y; simp [cutAt]
  | cons b s ih =>
      intro x y
      simp only [cutAt]
      by_cases hb : b = 64
      · subst hb
        simp only [if_true, Option.some.injEq, Prod.mk.injEq]
        constructor
        · rintro ⟨rfl, rfl⟩; simp
        · rintro ⟨h, hn⟩
          cases x with
          | nil => simp at h; exact ⟨rfl, h⟩
          | cons c x => simp at h; exact absurd (by simp [← h.1]) hn
      · rw [if_neg hb]
        cases x with
        | nil =>
            constructor
            · intro h; cases hc : cutAt s <;> rw [hc] at h <;> simp at h
            · rintro ⟨h, -⟩; simp at h; exact absurd h.1 hb
        | cons c x =>
            cases hc : cutAt s with
            | none =>
                constructor
                · intro h; simp at h
                · rintro ⟨h, hn⟩
                  simp at h
                  have := (ih x y).mpr ⟨h.2, fun hx => hn (List.mem_cons_of_mem _ hx)⟩
                  rw [hc] at this; simp at this
            | some p =>
                obtain ⟨x', y'⟩ := p
                have hi := ih x y
                rw [hc] at hi
                simp only [Option.some.injEq, Prod.mk.injEq] at hi
                simp only [Option.some.injEq, Prod.mk.injEq, List.cons.injEq, List.cons_append, List.mem_cons, not_or]
                constructor
                · rintro ⟨⟨rfl, rfl⟩, rfl⟩
                  obtain ⟨h1, h2⟩ := hi.mp ⟨rfl, rfl⟩
                  exact ⟨⟨rfl, h1⟩, fun h => hb h.symm, h2⟩
                · rintro ⟨⟨rfl, h1⟩, -, h2⟩
                  obtain ⟨rfl, rfl⟩ := hi.mpr ⟨h1, h2⟩
                  exact ⟨⟨rfl, rfl⟩, rfl⟩

theorem parseTarget_iff (s : Bytes) (t : Target) : parseTarget s = some t ↔ IsTarget s t := by
  unfold parseTarget IsTarget
  obtain ⟨n, v⟩ := t
  cases hc : cutAt s with
  | none =>
      constructor
      · intro h; simp at h
      · rintro ⟨h1, h2, -⟩
        have := (cutAt_some s n v).mpr ⟨h1, h2⟩
        rw [hc] at this; simp at this
  | some p =>
      obtain ⟨n', v'⟩ := p
      have hi := cutAt_some s n v
      rw [hc] at hi
      simp only [Option.some.injEq, Prod.mk.injEq] at hi
      simp only
      constructor
      · intro h
        by_cases h1 : n' = []
        · rw [if_pos h1] at h; simp at h
        by_cases h2 : v' = []
        · rw [if_neg h1, if_pos h2] at h; simp at h
        by_cases h3 : 47 ∉ n' ∧ 46 ∉ n'
        · rw [if_neg h1, if_neg h2, if_pos h3] at h; simp at h
        rw [if_neg h1, if_neg h2, if_neg h3] at h
        simp only [Option.some.injEq, Target.mk.injEq] at h
        obtain ⟨rfl, rfl⟩ := h
        obtain ⟨a, b⟩ := hi.mp ⟨rfl, rfl⟩
        exact ⟨a, b, h1, h2, by by_contra hcon; exact h3 ⟨fun h => hcon (Or.inl h), fun h => hcon (Or.inr h)⟩⟩
      · rintro ⟨a, b, c, d, e⟩
        obtain ⟨rfl, rfl⟩ := hi.mpr ⟨a, b⟩
        rw [if_neg c, if_neg d, if_neg (by rintro ⟨h1, h2⟩; exact e.elim h1 h2)]

theorem splitComma_ne (s : Bytes) : splitComma s ≠ [] := by
  induction s with
  | nil => simp [splitComma]
  | cons b s ih =>
      simp only [splitComma]
      split
      · simp
      · split <;> simp

theorem intercalate_cons (a : Bytes) (l : List Bytes) (h : l ≠ []) : List.intercalate [44] (a :: l) = a ++ 44 :: List.intercalate ([44] : Bytes) l := by
  cases l with
  | nil => exact absurd rfl h
  | cons b l => simp [List.intercalate, List.intersperse]

theorem intercalate_one (a : Bytes) : List.intercalate ([44] : Bytes) [a] = a := by simp [List.intercalate, List.intersperse]

theorem splitComma_entries (s : Bytes) : Entries s (splitComma s) := by
  induction s with
  | nil => exact ⟨by simp [splitComma], by simp [splitComma], by simp [splitComma, List.intercalate, List.intersperse]⟩
  | cons b s ih =>
      obtain ⟨h1, h2, h3⟩ := ih
      simp only [splitComma]
      by_cases hb : b = 44
      · rw [if_pos hb]
        refine ⟨by simp, fun e he => ?_, ?_⟩
        · rcases List.mem_cons.mp he with rfl | he
          · simp
          · exact h2 e he
        · rw [intercalate_cons _ _ h1, ← h3, hb]; rfl
      · rw [if_neg hb]
        cases hs : splitComma s with
        | nil => exact absurd hs h1
        | cons l ls =>
            rw [hs] at h2 h3
            refine ⟨by simp, fun e he => ?_, ?_⟩
            · rcases List.mem_cons.mp he with rfl | he
              · intro hm
                rcases List.mem_cons.mp hm with h | h
                · exact hb h.symm
                · exact h2 l (List.mem_cons_self ..) h
              · exact h2 e (List.mem_cons_of_mem _ he)
            · cases ls with
              | nil => rw [intercalate_one] at h3 ⊢; rw [h3]
              | cons m ms =>
                  rw [intercalate_cons _ _ (by simp)] at h3 ⊢
                  rw [h3]; rfl

theorem entries_unique : ∀ (s : Bytes) (es : List Bytes), Entries s es → es = splitComma s := by
  intro s
  induction s with
  | nil =>
      rintro es ⟨h1, h2, h3⟩
      match es, h1, h3 with
      | [e], _, h3 => rw [intercalate_one] at h3; rw [← h3]; rfl
      | e :: f :: es, _, h3 => rw [intercalate_cons _ _ (by simp)] at h3; simp at h3
  | cons b s ih =>
      rintro es ⟨h1, h2, h3⟩
      match es, h1, h2, h3 with
      | [] :: es, _, h2, h3 =>
          cases es with
          | nil => rw [intercalate_one] at h3; simp at h3
          | cons f es =>
              rw [intercalate_cons _ _ (by simp)] at h3
              simp only [List.nil_append, List.cons.injEq] at h3
              obtain ⟨rfl, h4⟩ := h3
              have := ih (f :: es) ⟨by simp, fun e he => h2 e (List.mem_cons_of_mem _ he), h4⟩
              simp [splitComma, ← this]
      | (x :: e) :: es, _, h2, h3 =>
          have hx : x ≠ 44 := fun h => h2 _ (List.mem_cons_self ..) (by simp [h])
          have hs : b = x ∧ s = List.intercalate [44] (e :: es) := by
            cases es with
            | nil => rw [intercalate_one] at h3 ⊢; simpa using h3
            | cons f es => rw [intercalate_cons _ _ (by simp)] at h3 ⊢; simpa using h3
          obtain ⟨rfl, hs⟩ := hs
          have := ih (e :: es) ⟨by simp, fun e' he => by
            rcases List.mem_cons.mp he with rfl | he
            · exact fun hm => h2 _ (List.mem_cons_self ..) (List.mem_cons_of_mem _ hm)
            · exact h2 e' (List.mem_cons_of_mem _ he), hs⟩
          simp only [splitComma, if_neg hx, ← this]

theorem dropWhile_space (a t : Bytes) (ha : ∀ x ∈ a, isSpace x) (ht : ∀ x, t.head? = some x → ¬ isSpace x) : (a ++ t).dropWhile isSpace = t := by
  induction a with
  | nil =>
      cases t with
      | nil => rfl
      | cons x t =>
          have := ht x rfl
          simp [List.dropWhile_cons, this]
  | cons x a ih =>
      rw [List.cons_append, List.dropWhile_cons, if_pos (ha x (List.mem_cons_self ..))]
      exact ih fun y hy => ha y (List.mem_cons_of_mem _ hy)

theorem space_iff (x : UInt8) : Space x ↔ isSpace x = true := by
  unfold Space isSpace
  have h : (x == 32) = true ↔ x.toNat = 32 := by
    rw [beq_iff_eq, ← UInt8.toNat_inj]; rfl
  rw [Bool.or_eq_true, h, Bool.and_eq_true, decide_eq_true_iff, decide_eq_true_iff, UInt8.le_iff_toNat_le, UInt8.le_iff_toNat_le]
  show _ ↔ x.toNat = 32 ∨ 9 ≤ x.toNat ∧ x.toNat ≤ 13
  omega

theorem trimmed_unique (s t : Bytes) (h : Trimmed s t) : t = trim s := by
  unfold Trimmed at h
  simp only [space_iff] at h
  obtain ⟨⟨a, b, rfl, ha, hb⟩, h1, h2⟩ := h
  unfold trim
  by_cases ht : t = []
  · subst ht
    have : (a ++ [] ++ b).dropWhile isSpace = [] := by
      have := dropWhile_space (a ++ b) [] (fun x hx => (List.mem_append.mp hx).elim (ha x) (hb x)) (by simp)
      simpa using this
    rw [this]; rfl
  · rw [List.append_assoc, dropWhile_space a (t ++ b) ha (fun x hx => h1 x (by
      cases t with
      | nil => exact absurd rfl ht
      | cons y t => simpa using hx))]
    rw [List.reverse_append, dropWhile_space b.reverse t.reverse (fun x hx => hb x (List.mem_reverse.mp hx)) (fun x hx => h2 x (by simpa using hx))]
    simp

theorem dropWhile_head (l : Bytes) (x : UInt8) (h : (l.dropWhile isSpace).head? = some x) : ¬ isSpace x := by
  induction l with
  | nil => simp at h
  | cons y l ih =>
      rw [List.dropWhile_cons] at h
      split at h
      · exact ih h
      · rename_i hy
        simp only [List.head?_cons, Option.some.injEq] at h
        rw [← h]; exact hy

theorem split_space (l : Bytes) : ∃ a, l = a ++ l.dropWhile isSpace ∧ ∀ x ∈ a, isSpace x :=
  ⟨l.takeWhile isSpace, (List.takeWhile_append_dropWhile ..).symm, fun x hx => by
    induction l with
    | nil => simp at hx
    | cons y l ih =>
        rw [List.takeWhile_cons] at hx
        split at hx
        · rcases List.mem_cons.mp hx with rfl | hx
          · assumption
          · exact ih hx
        · simp at hx⟩

theorem trim_trimmed (s : Bytes) : Trimmed s (trim s) := by
  unfold Trimmed
  simp only [space_iff]
  obtain ⟨a, ha, ha'⟩ := split_space s
  obtain ⟨b, hb, hb'⟩ := split_space (s.dropWhile isSpace).reverse
  have hd : s.dropWhile isSpace = trim s ++ b.reverse := by
    have := congrArg List.reverse hb
    rw [List.reverse_reverse, List.reverse_append] at this
    exact this
  refine ⟨⟨a, b.reverse, by rw [List.append_assoc, ← hd]; exact ha, ha', fun x hx => hb' x (List.mem_reverse.mp hx)⟩, fun x hx => ?_, fun x hx => ?_⟩
  · apply dropWhile_head s x
    rw [hd]
    cases ht : trim s with
    | nil => rw [ht] at hx; simp at hx
    | cons y t => rw [ht] at hx; simpa using hx
  · apply dropWhile_head (s.dropWhile isSpace).reverse x
    unfold trim at hx
    rw [List.getLast?_reverse] at hx
    exact hx

theorem trimmed_iff (s t : Bytes) : Trimmed s t ↔ t = trim s := ⟨trimmed_unique s t, fun h => h ▸ trim_trimmed s⟩

theorem parseEach_iff : ∀ (es : List Bytes) (ts : List Target), parseEach es = (ts, none) ↔ List.Forall₂ (fun e t => ∃ e', Trimmed e e' ∧ IsTarget e' t) es ts := by
  intro es
  induction es with
  | nil => intro ts; simp [parseEach, eq_comm]
  | cons m ms ih =>
      intro ts
      simp only [parseEach]
      by_cases h0 : trim m = []
      · rw [if_pos h0]
        constructor
        · intro h; simp at h
        · intro h
          cases h with
          | cons hh _ =>
              obtain ⟨e', he, ht⟩ := hh
              rw [trimmed_iff] at he
              subst he
              rw [h0] at ht
              have := ht.1
              simp at this
      · rw [if_neg h0]
        cases hp : parseTarget (trim m) with
        | none =>
            constructor
            · intro h; simp at h
            · intro h
              cases h with
              | cons hh _ =>
                  obtain ⟨e', he, ht⟩ := hh
                  rw [trimmed_iff] at he
                  subst he
                  rw [← parseTarget_iff, hp] at ht
                  simp at ht
        | some t =>
            simp only [Prod.mk.injEq]
            constructor
            · rintro ⟨rfl, h2⟩
              refine List.Forall₂.cons ⟨trim m, trim_trimmed m, (parseTarget_iff _ _).mp hp⟩ ((ih _).mp (Prod.ext rfl h2))
            · intro h
              cases h with
              | cons hh hr =>
                  obtain ⟨e', he, ht⟩ := hh
                  rw [trimmed_iff] at he
                  subst he
                  rw [← parseTarget_iff, hp] at ht
                  simp only [Option.some.injEq] at ht
                  have := (ih _).mpr hr
                  rw [this, ht]
                  exact ⟨rfl, rfl⟩

theorem parseArgs_iff (c : Config) (ts : List Target) : parseArgs c = (ts, none) ↔ Wanted c ts := by
  unfold parseArgs Wanted
  by_cases hm : c.moduleFlag = []
  · simp only [hm, if_true]
    by_cases hl : c.modulesFlag = []
    · simp [hl, eq_comm]
    · rw [if_neg hl]
      have key : parseEach (splitComma c.modulesFlag) = (ts, none) ↔ IsTargets c.modulesFlag ts := by
        rw [parseEach_iff]
        exact ⟨fun h => ⟨_, splitComma_entries _, h⟩, fun ⟨es, he, h⟩ => by rw [entries_unique _ _ he] at h; exact h⟩
      rw [show (([] : List Target) ++ (parseEach (splitComma c.modulesFlag)).1, (parseEach (splitComma c.modulesFlag)).2) = parseEach (splitComma c.modulesFlag) from rfl, key]
      simp [hl]
  · rw [if_neg hm]
    cases hp : parseTarget c.moduleFlag with
    | none =>
        simp only [Option.map_none]
        constructor
        · intro h; simp at h
        · rintro ⟨a, b, -, (⟨h, -⟩ | ⟨-, t, -, ht⟩), -⟩
          · exact absurd h hm
          · rw [← parseTarget_iff, hp] at ht; simp at ht
    | some t =>
        simp only [Option.map_some]
        by_cases hl : c.modulesFlag = []
        · rw [if_pos hl]
          constructor
          · intro h
            simp only [Prod.mk.injEq, and_true] at h
            subst h
            exact ⟨[t], [], by simp, Or.inr ⟨hm, t, rfl, (parseTarget_iff _ _).mp hp⟩, Or.inl ⟨hl, rfl⟩⟩
          · rintro ⟨a, b, rfl, (⟨g, -⟩ | ⟨-, t', rfl, ht⟩), (⟨-, rfl⟩ | ⟨h, -⟩)⟩
            · exact absurd g hm
            · exact absurd g hm
            · rw [← parseTarget_iff, hp] at ht
              simp only [Option.some.injEq] at ht
              simp [ht]
            · exact absurd hl h
        · rw [if_neg hl]
          constructor
          · intro h
            simp only [Prod.mk.injEq] at h
            obtain ⟨rfl, h2⟩ := h
            refine ⟨[t], (parseEach (splitComma c.modulesFlag)).1, rfl, Or.inr ⟨hm, t, rfl, (parseTarget_iff _ _).mp hp⟩, Or.inr ⟨hl, _, splitComma_entries _, ?_⟩⟩
            exact (parseEach_iff _ _).mp (Prod.ext rfl h2)
          · rintro ⟨a, b, rfl, (⟨g, -⟩ | ⟨-, t', rfl, ht⟩), (⟨h, -⟩ | ⟨-, es, he, hf⟩)⟩
            · exact absurd g hm
            · exact absurd g hm
            · exact absurd h hl
            · rw [← parseTarget_iff, hp] at ht
              simp only [Option.some.injEq] at ht
              rw [entries_unique _ _ he, ← parseEach_iff] at hf
              rw [hf, ht]

theorem scopes_eq : scopes = ["function", "line", "area", "none"].map fun s => s.toUTF8.toList := by decide +kernel
theorem modes_eq : modes = ["full", "fast"].map fun s => s.toUTF8.toList := by decide +kernel
theorem testModes_eq : testModes = ["full", "targeted"].map fun s => s.toUTF8.toList := by decide +kernel

theorem ite_none {p : Prop} [Decidable p] {e : Err} {x : Option Err} : (if p then some e else x) = none ↔ ¬ p ∧ x = none := by
  by_cases h : p <;> simp [h]

theorem checks_iff (w : World) (c : Config) (hb : ¬ (c.gomod ≠ [] ∧ c.gowork ≠ [])) :
    checks w c = none ↔ Readable w c ∧ InRange c ∧ (c.json ≠ [] → w.outOk c.json = true) ∧ (c.json = [] → c.charts ≠ [] → w.outOk c.charts = true) := by
  unfold checks
  simp only [ite_none]
  constructor
  · rintro ⟨h1, h2, h3, h4, h5, h6, h7, h8, h9, h10, h11, h12, -⟩
    refine ⟨⟨fun h => ?_, fun h => ?_⟩, ⟨by omega, by omega, by omega, by omega, by omega, ?_, ?_, ?_⟩, fun h => ?_, fun h h' => ?_⟩
    · cases hw : w.fileOk c.gomod with
      | true => rfl
      | false => exact absurd ⟨h, hw⟩ h1
    · cases hw : w.fileOk c.gowork with
      | true => rfl
      | false =>
          have : c.gomod = [] := by
            by_contra hg
            exact hb ⟨hg, h⟩
          exact absurd ⟨this, h, hw⟩ h2
    · rw [← scopes_eq]; exact not_not.mp h8
    · rw [← modes_eq]; exact not_not.mp h9
    · rw [← testModes_eq]; exact not_not.mp h10
    · cases hw : w.outOk c.json with
      | true => rfl
      | false => exact absurd ⟨h, hw⟩ h11
    · cases hw : w.outOk c.charts with
      | true => rfl
      | false => exact absurd ⟨h, h', hw⟩ h12
  · rintro ⟨⟨r1, r2⟩, ⟨a1, a2, a3, a4, a5, a6, a7, a8⟩, j, k⟩
    rw [← scopes_eq] at a6
    rw [← modes_eq] at a7
    rw [← testModes_eq] at a8
    refine ⟨fun h => ?_, fun h => ?_, by omega, by omega, by omega, by omega, by omega, not_not.mpr a6, not_not.mpr a7, not_not.mpr a8, fun h => ?_, fun h => ?_, trivial⟩
    · rw [r1 h.1] at h; simp at h
    · rw [r2 h.2.1] at h; simp at h
    · rw [j h.1] at h; simp at h
    · rw [k h.1 h.2.1] at h; simp at h

end Verif.Engine
