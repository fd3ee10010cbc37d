import Verif.Select.Spec

namespace Verif.Select

/-! ### The map -/

theorem get_put_same : ∀ (m : FileMap) (f : Str) (l : List Str), get (put m f l) f = l
  | [], f, l => by simp [put, get]
  | q :: m, f, l => by
    by_cases h : q.1 = f
    · simp [put, get, h]
    · have := get_put_same m f l
      unfold get at this ⊢
      simp only [put, h, if_false, List.find?_cons, decide_false]
      exact this

theorem get_put_other : ∀ (m : FileMap) {f g : Str} (l : List Str), g ≠ f → get (put m f l) g = get m g
  | [], f, g, l, h => by simp [put, get, Ne.symm h]
  | q :: m, f, g, l, h => by
    by_cases hq : q.1 = f
    · have : q.1 ≠ g := fun e => h (e.symm.trans hq)
      simp [put, get, hq, Ne.symm h]
    · have ih := get_put_other m l h
      unfold get at ih ⊢
      simp only [put, hq, if_false, List.find?_cons]
      by_cases hg : q.1 = g
      · simp [hg]
      · simpa [hg] using ih

theorem keys_put (m : FileMap) (f : Str) (l : List Str) : ∀ k, k ∈ (put m f l).map (·.1) ↔ k ∈ m.map (·.1) ∨ k = f := by
  induction m with
  | nil => intro k; simp [put]
  | cons q m ih =>
    intro k
    by_cases h : q.1 = f
    · simp only [put, h, if_true, List.map_cons, List.mem_cons]
      constructor
      · rintro (h | h)
        · exact Or.inl (Or.inl h)
        · exact Or.inl (Or.inr h)
      · rintro ((h | h) | h)
        · exact Or.inl h
        · exact Or.inr h
        · exact Or.inl h
    · simp only [put, h, if_false, List.map_cons, List.mem_cons, ih k]
      tauto

theorem nodup_put (m : FileMap) (f : Str) (l : List Str) (h : (m.map (·.1)).Nodup) : ((put m f l).map (·.1)).Nodup := by
  induction m with
  | nil => simp [put]
  | cons q m ih =>
    simp only [List.map_cons, List.nodup_cons] at h
    by_cases hq : q.1 = f
    · simp only [put, hq, if_true, List.map_cons, List.nodup_cons]
      exact ⟨hq ▸ h.1, h.2⟩
    · simp only [put, hq, if_false, List.map_cons, List.nodup_cons]
      refine ⟨fun hk => ?_, ih h.2⟩
      rcases (keys_put m f l q.1).mp hk with hk | hk
      · exact h.1 hk
      · exact hq hk

theorem get_of_mem {m : FileMap} (h : (m.map (·.1)).Nodup) {q : Str × List Str} (hq : q ∈ m) : get m q.1 = q.2 := by
  induction m with
  | nil => cases hq
  | cons p m ih =>
    simp only [List.map_cons, List.nodup_cons] at h
    rcases List.mem_cons.mp hq with rfl | hq
    · simp [get]
    · have hne : p.1 ≠ q.1 := fun e => h.1 (by rw [e]; exact List.mem_map.mpr ⟨q, hq, rfl⟩)
      have := ih h.2 hq
      unfold get at this ⊢
      simpa [hne] using this

theorem get_of_not_key {m : FileMap} {f : Str} (h : f ∉ m.map (·.1)) : get m f = [] := by
  unfold get
  have : m.find? (fun q => q.1 = f) = none := by
    rw [List.find?_eq_none]
    intro q hq he
    exact h (List.mem_map.mpr ⟨q, hq, by simpa using he⟩)
  rw [this]

/-- What the loops keep. -/
structure MapInv (m : FileMap) (P : Str → Str → Prop) : Prop where
  nodup : (m.map (·.1)).Nodup
  names : ∀ f n, n ∈ get m f ↔ P f n
  distinct : ∀ f, (get m f).Nodup
  filled : ∀ q ∈ m, q.2 ≠ []

theorem put_filled {m : FileMap} {f : Str} {l : List Str} (h : ∀ q ∈ m, q.2 ≠ []) (hl : l ≠ []) : ∀ q ∈ put m f l, q.2 ≠ [] := by
  induction m with
  | nil => intro q hq; simp [put] at hq; subst hq; exact hl
  | cons p m ih =>
    intro q hq
    by_cases hp : p.1 = f
    · simp only [put, hp, if_true, List.mem_cons] at hq
      rcases hq with rfl | hq
      · exact hl
      · exact h q (by simp [hq])
    · simp only [put, hp, if_false, List.mem_cons] at hq
      rcases hq with rfl | hq
      · exact h _ (by simp)
      · exact ih (fun q hq => h q (by simp [hq])) q hq

theorem addTest_inv {m : FileMap} {P : Str → Str → Prop} (h : MapInv m P) (f n : Str) : MapInv (addTest m f n) (fun g k => P g k ∨ (g = f ∧ k = n)) := by
  unfold addTest
  split
  · rename_i hin
    refine ⟨h.nodup, fun g k => ?_, h.distinct, h.filled⟩
    rw [h.names]
    constructor
    · exact Or.inl
    · rintro (h' | ⟨rfl, rfl⟩)
      · exact h'
      · exact (h.names _ _).mp hin
  · rename_i hout
    refine ⟨nodup_put _ _ _ h.nodup, fun g k => ?_, fun g => ?_, put_filled h.filled (by simp)⟩
    · by_cases hg : g = f
      · subst hg
        rw [get_put_same, List.mem_append, List.mem_singleton, h.names]
        simp
      · rw [get_put_other _ _ hg, h.names]
        simp [hg]
    · by_cases hg : g = f
      · subst hg
        rw [get_put_same]
        exact List.nodup_append.mpr ⟨h.distinct g, by simp, by intro a ha b hb; simp at hb; subst hb; intro e; exact hout (e ▸ ha)⟩
      · rw [get_put_other _ _ hg]
        exact h.distinct g

theorem inv_congr {m : FileMap} {P Q : Str → Str → Prop} (h : MapInv m P) (hpq : ∀ f n, P f n ↔ Q f n) : MapInv m Q :=
  ⟨h.nodup, fun f n => (h.names f n).trans (hpq f n), h.distinct, h.filled⟩

theorem addAll_inv (abs : Str → Str) (n : Str) : ∀ (cs : List Str) {m : FileMap} {P : Str → Str → Prop}, MapInv m P →
    MapInv (cs.foldl (fun m c => addTest m (abs c) n) m) (fun f k => P f k ∨ (k = n ∧ ∃ c ∈ cs, abs c = f))
  | [], m, P, h => inv_congr h (by simp)
  | c :: cs, m, P, h => by
    have := addAll_inv abs n cs (addTest_inv h (abs c) n)
    refine inv_congr this fun f k => ?_
    constructor
    · rintro ((h | ⟨rfl, rfl⟩) | ⟨rfl, c', hc, hf⟩)
      · exact Or.inl h
      · exact Or.inr ⟨rfl, c, by simp, rfl⟩
      · exact Or.inr ⟨rfl, c', by simp [hc], hf⟩
    · rintro (h | ⟨rfl, c', hc, rfl⟩)
      · exact Or.inl (Or.inl h)
      · rcases List.mem_cons.mp hc with rfl | hc
        · exact Or.inl (Or.inr ⟨rfl, rfl⟩)
        · exact Or.inr ⟨rfl, c', hc, rfl⟩

theorem collect_inv (abs : Str → Str) (ts : List TestFn) : MapInv (collect abs ts) (Covers abs ts) := by
  have key : ∀ (ts : List TestFn) {m : FileMap} {P : Str → Str → Prop}, MapInv m P →
      MapInv (ts.foldl (fun m t => t.targets.flatten.foldl (fun m c => addTest m (abs c) t.name) m) m) (fun f n => P f n ∨ Covers abs ts f n) := by
    intro ts
    induction ts with
    | nil => intro m P h; exact inv_congr h (by simp [Covers])
    | cons t ts ih =>
      intro m P h
      refine inv_congr (ih (addAll_inv abs t.name t.targets.flatten h)) fun f n => ?_
      constructor
      · rintro ((h | ⟨rfl, c, hc, hf⟩) | ⟨t', ht, hn, h⟩)
        · exact Or.inl h
        · obtain ⟨cs, hcs, hc⟩ := List.mem_flatten.mp hc
          exact Or.inr ⟨t, by simp, rfl, cs, hcs, c, hc, hf⟩
        · exact Or.inr ⟨t', by simp [ht], hn, h⟩
      · rintro (h | ⟨t', ht, hn, cs, hcs, c, hc, hf⟩)
        · exact Or.inl (Or.inl h)
        · rcases List.mem_cons.mp ht with rfl | ht
          · exact Or.inl (Or.inr ⟨hn.symm, c, List.mem_flatten.mpr ⟨cs, hcs, hc⟩, hf⟩)
          · exact Or.inr ⟨t', ht, hn, cs, hcs, c, hc, hf⟩
  have h0 : MapInv [] (fun _ _ => False) := ⟨by simp, by simp [get], by simp [get], by simp⟩
  refine inv_congr (key ts h0) fun f n => by simp

/-! ### Reading -/

theorem strip_append (p s : Str) : strip p (p ++ s) = some s := by
  unfold strip
  rw [if_pos (List.prefix_append _ _), List.drop_left]

theorem quoted_plain (env : Str → Str) : ∀ (s : Str) (n : Nat) (r : Str), Quotable s → s.length < n → quoted env n (s ++ '"' :: r) = some (s, r)
  | [], n + 1, r, _, _ => by simp [quoted]
  | c :: s, n + 1, r, h, hn => by
    obtain ⟨h1, h2, h3, h4⟩ := h c (by simp)
    simp only [List.length_cons] at hn
    have ih := quoted_plain env s n r (fun c hc => h c (by simp [hc])) (by omega)
    simp only [List.cons_append]
    rw [quoted.eq_def]
    dsimp only
    rw [if_neg h1, if_neg h2, if_neg h3, if_neg h4, ih]
    rfl

/-- What the line of an entry assigns. -/
def valueOf (q : Str × List Str) : Str × Str := (q.1, join ' ' (q.2.insertionSort (· ≤ ·)))

theorem join_mem {sep : Char} : ∀ {l : List Str} {c : Char}, c ∈ join sep l → c = sep ∨ ∃ s ∈ l, c ∈ s
  | [], c, h => by cases h
  | [x], c, h => Or.inr ⟨x, by simp, h⟩
  | x :: y :: l, c, h => by
    simp only [join, List.mem_append, List.mem_cons] at h
    rcases h with h | h | h
    · exact Or.inr ⟨x, by simp, h⟩
    · exact Or.inl h
    · rcases join_mem h with h | ⟨s, hs, hc⟩
      · exact Or.inl h
      · exact Or.inr ⟨s, by simp only [List.mem_cons] at hs ⊢; exact Or.inr hs, hc⟩

theorem ident_ne {s : Str} (h : Ident s) (c : Char) (hc : identChar c = false) : c ∉ s := by
  intro hm
  have := h.2 c hm
  rw [hc] at this
  cases this

theorem quotable_join {l : List Str} (h : ∀ s ∈ l, Ident s) : Quotable (join ' ' l) := by
  intro c hc
  rcases join_mem hc with rfl | ⟨s, hs, hc⟩
  · decide
  · refine ⟨?_, ?_, ?_, ?_⟩ <;> rintro rfl <;> exact ident_ne (h s hs) _ (by decide) hc

theorem quotable_words {l : List Str} (h : ∀ s ∈ l, Quotable s) : Quotable (join ' ' l) := by
  intro c hc
  rcases join_mem hc with rfl | ⟨s, hs, hc⟩
  · decide
  · exact h s hs c hc

theorem assigns_lines (env : Str → Str) : ∀ (es : FileMap) (n : Nat), es.length ≤ n → (∀ q ∈ es, Quotable q.1 ∧ ∀ t ∈ q.2, Ident t) →
    assigns env n (es.flatMap line) = some (es.map valueOf)
  | [], n, _, _ => by cases n <;> rfl
  | q :: es, 0, h, _ => by simp at h
  | q :: es, n + 1, hn, h => by
    simp only [List.length_cons] at hn
    obtain ⟨h1, h2⟩ := h q (by simp)
    have hj : Quotable (join ' ' (q.2.insertionSort (· ≤ ·))) := quotable_join fun s hs => h2 s ((List.mem_insertionSort _).mp hs)
    have ih := assigns_lines env es n (by omega) (fun q hq => h q (by simp [hq]))
    have htext : (q :: es).flatMap line = assign ++ (q.1 ++ '"' :: ([']', '=', '"'] ++ (join ' ' (q.2.insertionSort (· ≤ ·)) ++ '"' :: (['\n'] ++ es.flatMap line)))) := by
      simp [line]
    have hne : ∃ c r, (q :: es).flatMap line = c :: r := ⟨_, _, by rw [htext]; rfl⟩
    obtain ⟨c, r, hcr⟩ := hne
    have hunf : assigns env (n + 1) ((q :: es).flatMap line) = (do
        let s1 ← strip assign ((q :: es).flatMap line)
        let q1 ← quoted env (s1.length + 1) s1
        let s2 ← strip [']', '=', '"'] q1.2
        let q2 ← quoted env (s2.length + 1) s2
        let s3 ← strip ['\n'] q2.2
        let rest ← assigns env n s3
        pure ((q1.1, q2.1) :: rest)) := by rw [hcr]; rfl
    rw [hunf, htext, strip_append]
    simp only [Option.bind_eq_bind, Option.bind_some]
    rw [quoted_plain env _ _ _ h1 (by simp; omega)]
    simp only [Option.bind_some]
    rw [strip_append]
    simp only [Option.bind_some]
    rw [quoted_plain env _ _ _ hj (by simp; omega)]
    simp only [Option.bind_some]
    rw [strip_append]
    simp only [Option.bind_some]
    rw [ih]
    rfl

theorem line_length (q : Str × List Str) : 1 ≤ (line q).length := by simp [line, assign]

theorem lines_length : ∀ es : FileMap, es.length ≤ (es.flatMap line).length
  | [] => by simp
  | q :: es => by
    have := lines_length es
    have := line_length q
    simp only [List.flatMap_cons, List.length_append, List.length_cons]
    omega

theorem lookup_nodup {m : FileMap} (h : (m.map (·.1)).Nodup) (f : Str) :
    lookup (m.map valueOf) f = join ' ' ((get m f).insertionSort (· ≤ ·)) := by
  by_cases hk : f ∈ m.map (·.1)
  · obtain ⟨q, hq, rfl⟩ := List.mem_map.mp hk
    rw [get_of_mem h hq]
    have huniq : ∀ p ∈ m, p.1 = q.1 → p = q := by
      intro p hp he
      exact List.inj_on_of_nodup_map h hp hq he
    have : ∃ p, (m.map valueOf).reverse.find? (fun p => p.1 = q.1) = some p := by
      rw [← Option.isSome_iff_exists, List.find?_isSome]
      exact ⟨valueOf q, by simp only [List.mem_reverse]; exact List.mem_map.mpr ⟨q, hq, rfl⟩, by simp [valueOf]⟩
    obtain ⟨p, hp⟩ := this
    have h1 := List.find?_some hp
    have h2 := List.mem_of_find?_eq_some hp
    simp only [List.mem_reverse] at h2
    obtain ⟨p', hp', rfl⟩ := List.mem_map.mp h2
    have : p' = q := huniq p' hp' (of_decide_eq_true h1)
    subst this
    unfold lookup
    rw [hp]
    rfl
  · rw [get_of_not_key hk]
    have : (m.map valueOf).reverse.find? (fun p => p.1 = f) = none := by
      rw [List.find?_eq_none]
      intro p hp he
      simp only [List.mem_reverse] at hp
      obtain ⟨p', hp', rfl⟩ := List.mem_map.mp hp
      exact hk (List.mem_map.mpr ⟨p', hp', of_decide_eq_true he⟩)
    unfold lookup
    rw [this]
    rfl

/-! ### Words -/

theorem wordsOf_word : ∀ (w : Str) (r : Str), (∀ c ∈ w, c ≠ ' ' ∧ c ≠ '\t' ∧ c ≠ '\n') → wordsOf (w ++ ' ' :: r) = w :: wordsOf r
  | [], r, _ => by simp [wordsOf]
  | c :: w, r, h => by
    obtain ⟨h1, h2, h3⟩ := h c (by simp)
    have ih := wordsOf_word w r fun c hc => h c (by simp [hc])
    simp only [List.cons_append, wordsOf, h1, h2, h3, or_self, if_false, ih]

theorem wordsOf_last : ∀ (w : Str), (∀ c ∈ w, c ≠ ' ' ∧ c ≠ '\t' ∧ c ≠ '\n') → wordsOf w = [w]
  | [], _ => rfl
  | c :: w, h => by
    obtain ⟨h1, h2, h3⟩ := h c (by simp)
    have ih := wordsOf_last w fun c hc => h c (by simp [hc])
    simp only [wordsOf, h1, h2, h3, or_self, if_false, ih]

theorem wordsOf_join : ∀ (l : List Str), l ≠ [] → (∀ s ∈ l, Word s) → wordsOf (join ' ' l) = l
  | [], h, _ => absurd rfl h
  | [x], _, h => wordsOf_last x fun c hc => ⟨((h x (by simp)).2 c hc).1, ((h x (by simp)).2 c hc).2.1, ((h x (by simp)).2 c hc).2.2.1⟩
  | x :: y :: l, _, h => by
    have := wordsOf_join (y :: l) (by simp) fun s hs => h s (by simp only [List.mem_cons] at hs ⊢; exact Or.inr hs)
    simp only [join]
    rw [wordsOf_word _ _ fun c hc => ⟨((h x (by simp)).2 c hc).1, ((h x (by simp)).2 c hc).2.1, ((h x (by simp)).2 c hc).2.2.1⟩, this]

theorem splitWords_join {l : List Str} (hl : l ≠ []) (h : ∀ s ∈ l, Word s) : splitWords (join ' ' l) = some l := by
  unfold splitWords
  rw [if_neg, wordsOf_join l hl h]
  · congr 1
    rw [List.filter_eq_self]
    intro s hs
    simpa using (h s hs).1
  · simp only [List.any_eq_true, decide_eq_true_eq, not_exists, not_and]
    intro c hc
    rcases join_mem hc with rfl | ⟨s, hs, hc⟩
    · decide
    · obtain ⟨-, -, -, h4, h5, h6⟩ := (h s hs).2 c hc
      simp [h4, h5, h6]

/-! ### Patterns -/

theorem bars_join : ∀ (l : List Str), (∀ s ∈ l, ' ' ∉ s) → bars (join ' ' l) = join '|' l
  | [], _ => rfl
  | [x], h => by
    simp only [join, bars]
    conv_rhs => rw [← List.map_id x]
    refine List.map_congr_left fun c hc => ?_
    have : c ≠ ' ' := fun e => h x (by simp) (e ▸ hc)
    simp [this]
  | x :: y :: l, h => by
    have ih := bars_join (y :: l) fun s hs => h s (by simp only [List.mem_cons] at hs ⊢; exact Or.inr hs)
    have hx : x.map (fun c => if c = ' ' then '|' else c) = x := by
      conv_rhs => rw [← List.map_id x]
      refine List.map_congr_left fun c hc => ?_
      have : c ≠ ' ' := fun e => h x (by simp) (e ▸ hc)
      simp [this]
    simp only [join, bars, List.map_append, List.map_cons, hx, if_true]
    congr 2

theorem atBars_word : ∀ (w : Str) (r : Str), '|' ∉ w → atBars (w ++ '|' :: r) = w :: atBars r
  | [], r, _ => by simp [atBars]
  | c :: w, r, h => by
    have h1 : c ≠ '|' := fun e => h (by simp [e])
    have ih := atBars_word w r fun hc => h (by simp [hc])
    simp only [List.cons_append, atBars, h1, if_false, ih]

theorem atBars_last : ∀ (w : Str), '|' ∉ w → atBars w = [w]
  | [], _ => rfl
  | c :: w, h => by
    have h1 : c ≠ '|' := fun e => h (by simp [e])
    have ih := atBars_last w fun hc => h (by simp [hc])
    simp only [atBars, h1, if_false, ih]

theorem atBars_join : ∀ (l : List Str), l ≠ [] → (∀ s ∈ l, '|' ∉ s) → atBars (join '|' l) = l
  | [], h, _ => absurd rfl h
  | [x], _, h => atBars_last x (h x (by simp))
  | x :: y :: l, _, h => by
    have := atBars_join (y :: l) (by simp) fun s hs => h s (by simp only [List.mem_cons] at hs ⊢; exact Or.inr hs)
    simp only [join]
    rw [atBars_word _ _ (h x (by simp)), this]

theorem special_ident {s : Str} (h : Ident s) : ∀ c ∈ s, special c = false := by
  intro c hc
  cases hs : special c with
  | false => rfl
  | true =>
    exfalso
    unfold special at hs
    simp only [List.mem_cons, List.not_mem_nil, or_false, decide_eq_true_eq] at hs
    rcases hs with rfl | rfl | rfl | rfl | rfl | rfl | rfl | rfl | rfl | rfl | rfl | rfl | rfl | rfl | rfl <;> exact ident_ne h _ (by decide) hc

theorem namesOf_single {s : Str} (h : Ident s) : namesOf (single s) = some [s] := by
  have h1 : (single s).head? = some '^' := rfl
  have h2 : (single s).getLast? = some '$' := by
    rw [show single s = ('^' :: s) ++ ['$'] from rfl, List.getLast?_concat]
  have h3 : ((single s).drop 1).dropLast = s := by simp [single]
  unfold namesOf
  rw [if_pos ⟨h1, h2⟩]
  dsimp only
  rw [h3, if_pos]
  rw [List.any_eq_false]
  intro c hc
  rw [special_ident h c hc]
  simp

theorem namesOf_pattern {l : List Str} (hl : l ≠ []) (h : ∀ s ∈ l, Ident s) : namesOf (patternOf (join ' ' l)) = some l := by
  have hb : bars (join ' ' l) = join '|' l := bars_join l fun s hs => ident_ne (h s hs) ' ' (by decide)
  have h1 : (patternOf (join ' ' l)).head? = some '^' := rfl
  have h2 : (patternOf (join ' ' l)).getLast? = some '$' := by
    rw [show patternOf (join ' ' l) = (['^', '('] ++ bars (join ' ' l) ++ [')']) ++ ['$'] by simp [patternOf], List.getLast?_concat]
  have h3 : ((patternOf (join ' ' l)).drop 1).dropLast = '(' :: (join '|' l ++ [')']) := by
    rw [patternOf, hb]
    have : (['^', '('] ++ join '|' l ++ [')', '$']).drop 1 = ('(' :: (join '|' l ++ [')'])) ++ ['$'] := by simp
    rw [this, List.dropLast_concat]
  unfold namesOf
  rw [if_pos ⟨h1, h2⟩]
  dsimp only
  rw [h3, if_neg (by simp [special]), if_pos ⟨rfl, by
    rw [show '(' :: (join '|' l ++ [')']) = ('(' :: join '|' l) ++ [')'] from rfl, List.getLast?_concat]⟩]
  have h4 : (('(' :: (join '|' l ++ [')'])).drop 1).dropLast = join '|' l := by simp
  rw [h4, if_pos, atBars_join l hl fun s hs => ident_ne (h s hs) '|' (by decide)]
  rw [List.any_eq_false]
  intro c hc
  rcases join_mem hc with rfl | ⟨s, hs, hc⟩
  · decide
  · rw [special_ident (h s hs) c hc]; simp

theorem join_ne {sep : Char} : ∀ {l : List Str}, l ≠ [] → (∀ s ∈ l, s ≠ []) → join sep l ≠ []
  | [], h, _ => absurd rfl h
  | [x], _, h => h x (by simp)
  | x :: y :: l, _, h => by simp [join]

/-! ### Order -/

theorem sort_perm {l l' : List Str} (h : l.Perm l') : l.insertionSort (· ≤ ·) = l'.insertionSort (· ≤ ·) :=
  List.Perm.eq_of_sortedLE (List.sortedLE_insertionSort) (List.sortedLE_insertionSort)
    (((List.perm_insertionSort _ l).trans h).trans (List.perm_insertionSort _ l').symm)

theorem lines_eq {m : FileMap} (h : (m.map (·.1)).Nodup) :
    lines m = ((m.map (·.1)).insertionSort (· ≤ ·)).flatMap fun k => line (k, get m k) := by
  have hmap : (m.insertionSort (fun a b => a.1 ≤ b.1)).map (·.1) = (m.map (·.1)).insertionSort (· ≤ ·) :=
    List.map_insertionSort (r := fun a b : Str × List Str => a.1 ≤ b.1) (s := fun a b : Str => a ≤ b) (·.1) m (fun _ _ _ _ => Iff.rfl)
  unfold lines
  rw [← hmap, List.flatMap_map]
  refine List.flatMap_congr fun q hq => ?_
  have hq : q ∈ m := (List.mem_insertionSort _).mp hq
  rw [get_of_mem h hq]

theorem lines_congr {m m' : FileMap} (h : (m.map (·.1)).Nodup) (h' : (m'.map (·.1)).Nodup) (hk : (m.map (·.1)).Perm (m'.map (·.1)))
    (hl : ∀ k, (get m k).Perm (get m' k)) : lines m = lines m' := by
  rw [lines_eq h, lines_eq h', sort_perm hk]
  refine List.flatMap_congr fun k _ => ?_
  unfold line
  dsimp only
  rw [sort_perm (hl k)]

end Verif.Select
