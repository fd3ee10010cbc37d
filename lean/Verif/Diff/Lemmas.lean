import Verif.Diff.Match

/-! Lemmas about unified differences. -/

namespace Verif.Diff

open Verif.Module (Op Tag Covers)

/-! ### Numbers and ranges -/

theorem foldl_itoa (n : Nat) : (itoaBytes n).foldl (fun a c => a * 10 + (c.toNat - 48)) 0 = n := by
  have key : ∀ (l : List Nat) (k : Nat), (∀ d ∈ l, d < 10) →
      (l.map fun d => UInt8.ofNat (48 + d)).foldl (fun a c => a * 10 + (c.toNat - 48)) k = l.foldl (fun a d => a * 10 + d) k := by
    intro l
    induction l with
    | nil => intro k _; rfl
    | cons d l ih =>
      intro k h
      have hd := h d (by simp)
      simp only [List.map_cons, List.foldl_cons, UInt8.toNat_ofNat']
      rw [show (48 + d) % 2 ^ 8 - 48 = d by omega]
      exact ih _ fun d hd => h d (by simp [hd])
  have h := key (digits10 n) 0 (digits10_lt n)
  have h2 : (digits10 n).foldl (fun a d => a * 10 + d) 0 = n := ofDigits10_digits10 n
  exact h.trans h2

/-- Not a digit. -/
def Stop : Bytes → Prop
  | [] => True
  | c :: _ => ¬ (48 ≤ c ∧ c ≤ 57)

theorem number_itoa (n : Nat) {r : Bytes} (hr : Stop r) : number (itoaBytes n ++ r) = some (n, r) := by
  have hd : ∀ c ∈ itoaBytes n, (decide (48 ≤ c) && decide (c ≤ 57)) = true := by
    intro c hc
    have := itoaBytes_digit n c hc
    simp only [Bool.and_eq_true, decide_eq_true_eq, UInt8.le_iff_toNat_le]
    exact this
  have h1 : (itoaBytes n ++ r).takeWhile (fun c => decide (48 ≤ c) && decide (c ≤ 57)) = itoaBytes n := by
    rw [List.takeWhile_append_of_pos hd]
    cases r with
    | nil => simp
    | cons c r =>
      have : (decide (48 ≤ c) && decide (c ≤ 57)) = false := by
        cases hb : (decide (48 ≤ c) && decide (c ≤ 57))
        · rfl
        · exact absurd (by simpa using hb) hr
      rw [List.takeWhile_cons, this]
      simp
  have h2 : (itoaBytes n ++ r).dropWhile (fun c => decide (48 ≤ c) && decide (c ≤ 57)) = r := by
    rw [List.dropWhile_append_of_pos hd]
    cases r with
    | nil => simp
    | cons c r =>
      have : (decide (48 ≤ c) && decide (c ≤ 57)) = false := by
        cases hb : (decide (48 ≤ c) && decide (c ≤ 57))
        · rfl
        · exact absurd (by simpa using hb) hr
      rw [List.dropWhile_cons, this]
      simp
  unfold number
  simp only [h1, h2, itoaBytes_ne_nil, if_false, foldl_itoa]

theorem range_format (s e : Nat) (r : Bytes) (h : s ≤ e) : range (formatRange s e ++ 32 :: r) = some (s, e - s, 32 :: r) := by
  have hs : Stop (32 :: r) := by show ¬ ((48 : UInt8) ≤ 32 ∧ (32 : UInt8) ≤ 57); decide
  unfold formatRange
  by_cases h1 : e - s = 1
  · rw [if_pos h1]
    unfold range
    rw [number_itoa _ hs, Option.bind_some, h1]
    simp
  · rw [if_neg h1]
    unfold range
    rw [List.append_assoc, List.append_assoc, number_itoa _ (r := [44] ++ (itoaBytes (e - s) ++ 32 :: r)) (by show ¬ ((48 : UInt8) ≤ 44 ∧ (44 : UInt8) ≤ 57); decide), Option.bind_some]
    show (number (itoaBytes (e - s) ++ 32 :: r)).bind _ = _
    rw [number_itoa _ hs, Option.bind_some]
    dsimp only
    by_cases h0 : e - s = 0
    · rw [if_pos h0, if_pos h0, h0]
    · rw [if_neg h0, if_neg h0, if_neg (by omega)]
      simp

theorem expect_append (p r : Bytes) : expect p (p ++ r) = some r := by
  unfold expect
  rw [if_pos (List.prefix_append p r)]
  simp

/-! ### Lines -/

/-- A line with its end. -/
def Whole (l : Line) : Prop := ∀ r : Bytes, takeLine (l ++ r) = some (l, r)

theorem whole_cons {c : UInt8} {l : Line} (hc : c ≠ 10) (h : Whole l) : Whole (c :: l) := by
  intro r
  show takeLine (c :: (l ++ r)) = _
  unfold takeLine
  rw [if_neg hc, h r]
  rfl

theorem splitLines_ne (s : Bytes) : splitLines s ≠ [] := by
  cases s with
  | nil => simp [splitLines]
  | cons c s =>
    unfold splitLines
    split
    · simp
    · split <;> simp

theorem splitLines_whole : ∀ (s : Bytes), ∀ l ∈ splitLines s, Whole l
  | [], l, h => by
    simp [splitLines] at h
    subst h
    intro r; rfl
  | c :: s, l, h => by
    have ih := splitLines_whole s
    have hne := splitLines_ne s
    unfold splitLines at h
    split at h
    · rcases List.mem_cons.mp h with rfl | h
      · intro r; rfl
      · exact ih l h
    · rename_i hc
      cases hs : splitLines s with
      | nil => exact absurd hs hne
      | cons k ls =>
        rw [hs] at h
        rcases List.mem_cons.mp h with rfl | h
        · exact whole_cons hc (ih k (by simp [hs]))
        · exact ih l (by simp [hs, h])

theorem splitLines_flatten : ∀ (s : Bytes), (splitLines s).flatten = s ++ [10]
  | [] => rfl
  | c :: s => by
    have ih := splitLines_flatten s
    unfold splitLines
    split
    · rename_i hc
      subst hc
      simp [ih]
    · cases hs : splitLines s with
      | nil => exact absurd hs (splitLines_ne s)
      | cons k ls =>
        rw [hs] at ih
        simp only [List.flatten_cons, List.cons_append]
        simp only [List.flatten_cons] at ih
        rw [ih]

theorem splitLines_injective {s t : Bytes} (h : splitLines s = splitLines t) : s = t := by
  have := congrArg List.flatten h
  rw [splitLines_flatten, splitLines_flatten] at this
  exact List.append_cancel_right this

/-! ### The lines of a hunk -/

theorem body_keep (ls : List Line) (hw : ∀ l ∈ ls, Whole l) : ∀ (n ol nl : Nat) (text : Bytes) (old : List Line), ls.length ≤ n → ls.length ≤ ol → ls.length ≤ nl →
    body n ol nl ((ls.flatMap fun l => 32 :: l) ++ text) (ls ++ old) =
      (body (n - ls.length) (ol - ls.length) (nl - ls.length) text old).map fun r => (ls ++ r.1, r.2) := by
  induction ls with
  | nil => intro n ol nl text old _ _ _; simp
  | cons l ls ih =>
    intro n ol nl text old h1 h2 h3
    simp only [List.length_cons] at h1 h2 h3
    obtain ⟨n, rfl⟩ : ∃ k, n = k + 1 := ⟨n - 1, by omega⟩
    obtain ⟨ol, rfl⟩ : ∃ k, ol = k + 1 := ⟨ol - 1, by omega⟩
    obtain ⟨nl, rfl⟩ : ∃ k, nl = k + 1 := ⟨nl - 1, by omega⟩
    simp only [List.flatMap_cons, List.cons_append, List.append_assoc]
    rw [body, if_neg (by omega)]
    rw [hw l (by simp), Option.bind_some, if_pos rfl, if_pos ⟨by omega, by omega, rfl⟩]
    dsimp only [List.tail_cons]
    rw [Nat.add_sub_cancel, Nat.add_sub_cancel, ih (fun l hl => hw l (by simp [hl])) n ol nl text old (by omega) (by omega) (by omega)]
    simp only [List.length_cons, Nat.add_sub_add_right, Option.map_map]
    rfl

theorem body_remove (ls : List Line) (hw : ∀ l ∈ ls, Whole l) : ∀ (n ol nl : Nat) (text : Bytes) (old : List Line), ls.length ≤ n → ls.length ≤ ol →
    body n ol nl ((ls.flatMap fun l => 45 :: l) ++ text) (ls ++ old) = body (n - ls.length) (ol - ls.length) nl text old := by
  induction ls with
  | nil => intro n ol nl text old _ _; simp
  | cons l ls ih =>
    intro n ol nl text old h1 h2
    simp only [List.length_cons] at h1 h2
    obtain ⟨n, rfl⟩ : ∃ k, n = k + 1 := ⟨n - 1, by omega⟩
    obtain ⟨ol, rfl⟩ : ∃ k, ol = k + 1 := ⟨ol - 1, by omega⟩
    simp only [List.flatMap_cons, List.cons_append, List.append_assoc]
    rw [body, if_neg (by omega)]
    rw [hw l (by simp), Option.bind_some, if_neg (by decide), if_pos rfl, if_pos ⟨by omega, rfl⟩]
    dsimp only [List.tail_cons]
    rw [Nat.add_sub_cancel, ih (fun l hl => hw l (by simp [hl])) n ol nl text old (by omega) (by omega)]
    simp only [List.length_cons, Nat.add_sub_add_right]

theorem body_add (ls : List Line) (hw : ∀ l ∈ ls, Whole l) : ∀ (n ol nl : Nat) (text : Bytes) (old : List Line), ls.length ≤ n → ls.length ≤ nl →
    body n ol nl ((ls.flatMap fun l => 43 :: l) ++ text) old = (body (n - ls.length) ol (nl - ls.length) text old).map fun r => (ls ++ r.1, r.2) := by
  induction ls with
  | nil => intro n ol nl text old _ _; simp
  | cons l ls ih =>
    intro n ol nl text old h1 h2
    simp only [List.length_cons] at h1 h2
    obtain ⟨n, rfl⟩ : ∃ k, n = k + 1 := ⟨n - 1, by omega⟩
    obtain ⟨nl, rfl⟩ : ∃ k, nl = k + 1 := ⟨nl - 1, by omega⟩
    simp only [List.flatMap_cons, List.cons_append, List.append_assoc]
    rw [body, if_neg (by omega)]
    rw [hw l (by simp), Option.bind_some, if_neg (by decide), if_neg (by decide), if_pos rfl, if_pos (by omega)]
    rw [Nat.add_sub_cancel, ih (fun l hl => hw l (by simp [hl])) n ol nl text old (by omega) (by omega)]
    simp only [List.length_cons, Nat.add_sub_add_right, Option.map_map]
    rfl

theorem slice_length {l : List Line} {i j : Nat} (h : j ≤ l.length) : (slice l i j).length = j - i := by
  unfold slice
  simp
  omega

theorem slice_append_drop (l : List Line) {i j : Nat} (h : i ≤ j) : slice l i j ++ l.drop j = l.drop i := by
  unfold slice
  rw [show j = i + (j - i) by omega, Nat.add_sub_cancel_left, ← List.drop_drop]
  exact List.take_append_drop _ _

theorem slice_append_slice (l : List Line) {i j k : Nat} (h1 : i ≤ j) (h2 : j ≤ k) : slice l i j ++ slice l j k = slice l i k := by
  unfold slice
  rw [show k - i = (j - i) + (k - j) by omega, List.take_add, List.drop_drop, show i + (j - i) = j by omega]

theorem slice_whole {l : List Line} (h : ∀ x ∈ l, Whole x) (i j : Nat) : ∀ x ∈ slice l i j, Whole x :=
  fun x hx => h x (List.mem_of_mem_drop (List.mem_of_mem_take hx))

theorem slice_same {a b : List Line} {i1 i2 j1 j2 : Nat} (h : i2 - i1 = j2 - j1)
    (hs : ∀ k < i2 - i1, a[i1 + k]? = b[j1 + k]?) : slice a i1 i2 = slice b j1 j2 := by
  apply List.ext_getElem?
  intro k
  unfold slice
  rw [List.getElem?_take, List.getElem?_take, h]
  split
  · rw [List.getElem?_drop, List.getElem?_drop]
    exact hs k (by omega)
  · rfl

/-! ### Groups -/

/-- An operation that fits the texts. -/
structure Fit (a b : List Line) (c : Op) : Prop where
  i : c.i1 ≤ c.i2
  j : c.j1 ≤ c.j2
  ia : c.i2 ≤ a.length
  jb : c.j2 ≤ b.length
  equal : c.tag = .equal → slice a c.i1 c.i2 = slice b c.j1 c.j2
  insert : c.tag = .insert → c.i1 = c.i2
  delete : c.tag = .delete → c.j1 = c.j2

/-- Operations that lead from a place to a place. -/
inductive Seg (a b : List Line) : Nat → Nat → List Op → Nat → Nat → Prop
  | nil {i j : Nat} : i ≤ a.length → j ≤ b.length → Seg a b i j [] i j
  | step {i j : Nat} {c : Op} {cs : List Op} {i' j' : Nat} : c.i1 = i → c.j1 = j → Fit a b c → Seg a b c.i2 c.j2 cs i' j' → Seg a b i j (c :: cs) i' j'

theorem Seg.cons {a b : List Line} {c : Op} {cs : List Op} {i' j' : Nat} (hf : Fit a b c) (h : Seg a b c.i2 c.j2 cs i' j') : Seg a b c.i1 c.j1 (c :: cs) i' j' :=
  .step rfl rfl hf h

theorem seg_le {a b : List Line} {i j : Nat} {cs : List Op} {i' j' : Nat} (h : Seg a b i j cs i' j') : i ≤ i' ∧ j ≤ j' ∧ i' ≤ a.length ∧ j' ≤ b.length := by
  induction h with
  | nil h1 h2 => exact ⟨Nat.le_refl _, Nat.le_refl _, h1, h2⟩
  | step e1 e2 hf _ ih => have := hf.i; have := hf.j; omega

theorem seg_append {a b : List Line} {i j : Nat} {cs ds : List Op} {i' j' i'' j'' : Nat} (h : Seg a b i j cs i' j') (h2 : Seg a b i' j' ds i'' j'') :
    Seg a b i j (cs ++ ds) i'' j'' := by
  induction h with
  | nil => exact h2
  | step e1 e2 hf _ ih => exact .step e1 e2 hf (ih h2)

theorem covers_le {a b : List Line} {i j : Nat} {cs : List Op} (h : Covers a b i j cs) : i ≤ a.length ∧ j ≤ b.length := by
  induction h with
  | done => exact ⟨Nat.le_refl _, Nat.le_refl _⟩
  | op c h1 h2 h3 h4 _ _ _ _ ih => omega

theorem covers_seg {a b : List Line} {i j : Nat} {cs : List Op} (h : Covers a b i j cs) : Seg a b i j cs a.length b.length := by
  induction h with
  | done => exact .nil (Nat.le_refl _) (Nat.le_refl _)
  | op c h1 h2 h3 h4 h5 h6 h7 h8 ih =>
    subst h1 h2
    have hle := covers_le h8
    refine .cons ⟨h3, h4, hle.1, hle.2, ?_, h6, h7⟩ ih
    intro ht
    obtain ⟨e1, e2⟩ := h5 ht
    exact slice_same e1 e2

/-- Groups with unchanged lines between them. -/
def Hunks (a b : List Line) : Nat → Nat → List (List Op) → Prop
  | i, j, [] => i ≤ a.length ∧ a.drop i = b.drop j
  | i, j, g :: gs => ∃ s i' j', slice a i (i + s) = slice b j (j + s) ∧ g ≠ [] ∧ Seg a b (i + s) (j + s) g i' j' ∧ Hunks a b i' j' gs

theorem hunks_skip {a b : List Line} {i j s : Nat} {gs : List (List Op)} (hs : slice a i (i + s) = slice b j (j + s)) (h : Hunks a b (i + s) (j + s) gs) :
    Hunks a b i j gs := by
  cases gs with
  | nil =>
    obtain ⟨h1, h2⟩ := h
    refine ⟨by omega, ?_⟩
    rw [← slice_append_drop a (show i ≤ i + s by omega), ← slice_append_drop b (show j ≤ j + s by omega), hs, h2]
  | cons g gs =>
    obtain ⟨t, i', j', h1, h2, h3, h4⟩ := h
    refine ⟨s + t, i', j', ?_, h2, by rw [← Nat.add_assoc, ← Nat.add_assoc]; exact h3, h4⟩
    rw [← slice_append_slice a (show i ≤ i + s by omega) (show i + s ≤ i + (s + t) by omega), ← slice_append_slice b (show j ≤ j + s by omega) (show j + s ≤ j + (s + t) by omega),
      hs, ← Nat.add_assoc, ← Nat.add_assoc, h1]

theorem slice_sub {a b : List Line} {i1 i2 j1 j2 p q : Nat} (ha : i2 ≤ a.length) (hb : j2 ≤ b.length) (hi : i1 ≤ i2) (hj : j1 ≤ j2)
    (h : slice a i1 i2 = slice b j1 j2) (_hq : i1 + q ≤ i2) :
    slice a (i1 + p) (i1 + q) = slice b (j1 + p) (j1 + q) := by
  have hl : i2 - i1 = j2 - j1 := by
    have := congrArg List.length h
    rwa [slice_length ha, slice_length hb] at this
  have e : ∀ (l : List Line) (s t : Nat), s ≤ t → s + q ≤ t → slice l (s + p) (s + q) = ((slice l s t).take q).drop p := by
    intro l s t _ ht
    unfold slice
    rw [List.take_take, List.drop_take, List.drop_drop, Nat.min_eq_left (by omega), show s + q - (s + p) = q - p by omega]
  rw [e a i1 i2 hi (by omega), e b j1 j2 hj (by omega), h]

theorem slice_len_eq {a b : List Line} {c : Op} (hf : Fit a b c) (ht : c.tag = .equal) : c.i2 - c.i1 = c.j2 - c.j1 := by
  have := congrArg List.length (hf.equal ht)
  rwa [slice_length hf.ia, slice_length hf.jb] at this

theorem groupLoop_hunks {a b : List Line} (n : Nat) : ∀ (cs group : List Op) (i j i' j' i'' j'' : Nat), Seg a b i j group i' j' → Seg a b i' j' cs i'' j'' →
    a.drop i'' = b.drop j'' → Hunks a b i j (groupLoop n group cs)
  | [], group, i, j, i', j', i'', j'', hg, hc, he => by
    unfold groupLoop
    cases hc with
    | nil h1 h2 =>
      by_cases hid : idle group = true
      · rw [if_pos hid]
        cases hg with
        | nil => exact ⟨h1, he⟩
        | step e1 e2 hf hs =>
          subst e1 e2
          cases hs with
          | nil =>
            simp only [idle, decide_eq_true_eq] at hid
            refine ⟨Nat.le_trans hf.i h1, ?_⟩
            rw [← slice_append_drop a hf.i, ← slice_append_drop b hf.j, hf.equal hid, he]
          | step => simp [idle] at hid
      · rw [if_neg hid]
        refine ⟨0, _, _, by simp [slice], ?_, hg, h1, he⟩
        rintro rfl
        simp [idle] at hid
  | c :: cs, group, i, j, i', j', i'', j'', hg, hc, he => by
    unfold groupLoop
    cases hc with
    | step e1 e2 hf hs =>
      subst e1 e2
      split
      · rename_i hb
        obtain ⟨ht, hn⟩ := hb
        have hl := slice_len_eq hf ht
        have hsame := hf.equal ht
        have hfi := hf.i
        have hfj := hf.j
        have hia := hf.ia
        have hjb := hf.jb
        have e1 : min c.i2 (c.i1 + n) = c.i1 + n := Nat.min_eq_right (by omega)
        have e2 : min c.j2 (c.j1 + n) = c.j1 + n := Nat.min_eq_right (by omega)
        have e3 : max c.i1 (c.i2 - n) = c.i1 + (c.i2 - c.i1 - n) := by rw [Nat.max_eq_right (by omega)]; omega
        have e4 : max c.j1 (c.j2 - n) = c.j1 + (c.i2 - c.i1 - n) := by rw [Nat.max_eq_right (by omega)]; omega
        rw [e1, e2, e3, e4]
        refine ⟨0, c.i1 + n, c.j1 + n, by simp [slice], by simp, ?_, ?_⟩
        · refine seg_append hg ?_
          refine .cons (c := ⟨c.tag, c.i1, c.i1 + n, c.j1, c.j1 + n⟩) ⟨by dsimp only; omega, by dsimp only; omega, by dsimp only; omega, by dsimp only; omega, ?_, ?_, ?_⟩
            (.nil (by dsimp only; omega) (by dsimp only; omega))
          · intro _
            have := slice_sub (i1 := c.i1) (j1 := c.j1) (p := 0) (q := n) hia hjb hfi hfj hsame (by omega)
            exact this
          · intro h; rw [ht] at h; cases h
          · intro h; rw [ht] at h; cases h
        · have hmid : slice a (c.i1 + n) (c.i1 + n + (c.i2 - c.i1 - n - n)) = slice b (c.j1 + n) (c.j1 + n + (c.i2 - c.i1 - n - n)) := by
            rw [Nat.add_assoc, Nat.add_assoc]
            exact slice_sub hia hjb hfi hfj hsame (by omega)
          refine hunks_skip hmid ?_
          rw [show c.i1 + n + (c.i2 - c.i1 - n - n) = c.i1 + (c.i2 - c.i1 - n) by omega, show c.j1 + n + (c.i2 - c.i1 - n - n) = c.j1 + (c.i2 - c.i1 - n) by omega]
          refine groupLoop_hunks n cs _ _ _ c.i2 c.j2 _ _ ?_ hs he
          refine .cons (c := ⟨c.tag, c.i1 + (c.i2 - c.i1 - n), c.i2, c.j1 + (c.i2 - c.i1 - n), c.j2⟩)
            ⟨by dsimp only; omega, by dsimp only; omega, hia, hjb, ?_, ?_, ?_⟩ (.nil hia hjb)
          · intro _
            have := slice_sub (p := c.i2 - c.i1 - n) (q := c.i2 - c.i1) hia hjb hfi hfj hsame (by omega)
            rw [show c.i1 + (c.i2 - c.i1) = c.i2 by omega, show c.j1 + (c.i2 - c.i1) = c.j2 by omega] at this
            exact this
          · intro h; dsimp only at h; rw [ht] at h; cases h
          · intro h; dsimp only at h; rw [ht] at h; cases h
      · exact groupLoop_hunks n cs _ _ _ c.i2 c.j2 _ _ (seg_append hg (.cons hf (.nil hf.ia hf.jb))) hs he

theorem trimFirst_seg {a b : List Line} {n i j i' j' : Nat} {cs : List Op} (h : Seg a b i j cs i' j') :
    ∃ s, slice a i (i + s) = slice b j (j + s) ∧ Seg a b (i + s) (j + s) (trimFirst n cs) i' j' := by
  cases h with
  | nil h1 h2 => exact ⟨0, by simp [slice], by simpa [trimFirst] using Seg.nil h1 h2⟩
  | @step _ _ c cs _ _ e1 e2 hf hs =>
    subst e1 e2
    obtain ⟨tag, i1, i2, j1, j2⟩ := c
    cases tag with
    | equal =>
      have hl := slice_len_eq hf rfl
      have hsame := hf.equal rfl
      have hfi := hf.i
      have hfj := hf.j
      have hia := hf.ia
      have hjb := hf.jb
      dsimp only at hl hsame hfi hfj hia hjb
      refine ⟨i2 - i1 - n, ?_, ?_⟩
      · exact slice_sub (p := 0) hia hjb hfi hfj hsame (by omega)
      · show Seg a b _ _ (⟨.equal, max i1 (i2 - n), i2, max j1 (j2 - n), j2⟩ :: cs) i' j'
        rw [show max i1 (i2 - n) = i1 + (i2 - i1 - n) by omega, show max j1 (j2 - n) = j1 + (i2 - i1 - n) by omega]
        refine .cons (c := ⟨.equal, i1 + (i2 - i1 - n), i2, j1 + (i2 - i1 - n), j2⟩) ⟨by dsimp only; omega, by dsimp only; omega, hia, hjb, ?_, ?_, ?_⟩ hs
        · intro _
          have := slice_sub (p := i2 - i1 - n) (q := i2 - i1) hia hjb hfi hfj hsame (by omega)
          rw [show i1 + (i2 - i1) = i2 by omega, show j1 + (i2 - i1) = j2 by omega] at this
          exact this
        · intro h; cases h
        · intro h; cases h
    | replace => exact ⟨0, by simp [slice], .cons hf hs⟩
    | insert => exact ⟨0, by simp [slice], .cons hf hs⟩
    | delete => exact ⟨0, by simp [slice], .cons hf hs⟩

theorem trimLast_seg {a b : List Line} {n : Nat} {i' j' : Nat} (he : a.drop i' = b.drop j') : ∀ (cs : List Op) (i j : Nat), Seg a b i j cs i' j' →
    ∃ i'' j'', Seg a b i j (trimLast n cs) i'' j'' ∧ a.drop i'' = b.drop j''
  | [], i, j, h => ⟨i', j', by simpa [trimLast] using h, he⟩
  | [⟨tag, i1, i2, j1, j2⟩], i, j, h => by
    cases tag with
    | equal =>
      cases h with
      | step e1 e2 hf hs =>
        subst e1 e2
        have hl := slice_len_eq hf rfl
        have hsame := hf.equal rfl
        have hfi := hf.i
        have hfj := hf.j
        have hia := hf.ia
        have hjb := hf.jb
        dsimp only at hl hsame hfi hfj hia hjb
        cases hs with
        | nil =>
          unfold trimLast
          have e : ∃ k, min i2 (i1 + n) = i1 + k ∧ min j2 (j1 + n) = j1 + k ∧ i1 + k ≤ i2 := ⟨min n (i2 - i1), by omega, by omega, by omega⟩
          obtain ⟨k, e1, e2, e3⟩ := e
          rw [e1, e2]
          refine ⟨i1 + k, j1 + k, .cons (c := ⟨.equal, i1, i1 + k, j1, j1 + k⟩) ⟨by dsimp only; omega, by dsimp only; omega, by dsimp only; omega, by dsimp only; omega, ?_, ?_, ?_⟩
            (.nil (by dsimp only; omega) (by dsimp only; omega)), ?_⟩
          · intro _
            exact slice_sub (p := 0) hia hjb hfi hfj hsame e3
          · intro h; cases h
          · intro h; cases h
          · have := slice_sub (p := k) (q := i2 - i1) hia hjb hfi hfj hsame (by omega)
            rw [show i1 + (i2 - i1) = i2 by omega, show j1 + (i2 - i1) = j2 by omega] at this
            rw [← slice_append_drop a (show i1 + k ≤ i2 by omega), ← slice_append_drop b (show j1 + k ≤ j2 by omega), this]
            dsimp only at he
            rw [he]
    | replace => exact ⟨i', j', h, he⟩
    | insert => exact ⟨i', j', h, he⟩
    | delete => exact ⟨i', j', h, he⟩
  | c :: d :: cs, i, j, h => by
    cases h with
    | step e1 e2 hf hs =>
      obtain ⟨i'', j'', h1, h2⟩ := trimLast_seg he (d :: cs) _ _ hs
      exact ⟨i'', j'', by rw [trimLast]; exact .step e1 e2 hf h1, h2⟩

theorem opCodes_ne {a b : List Line} (ha : a ≠ []) : opCodes a b ≠ [] := by
  intro h
  have hc := opCodes_covers a b
  rw [h] at hc
  have : a.length = 0 := by
    cases hl : a.length with
    | zero => rfl
    | succ k =>
      exfalso
      have key : ∀ (i j : Nat), Covers a b i j [] → i = a.length := by
        intro i j h
        cases h
        rfl
      have := key 0 0 hc
      omega
  exact ha (List.length_eq_zero_iff.mp this)

theorem grouped_hunks {a b : List Line} (n : Nat) (ha : a ≠ []) : Hunks a b 0 0 (grouped n a b) := by
  unfold grouped
  dsimp only
  rw [if_neg (opCodes_ne ha)]
  obtain ⟨s, h1, h2⟩ := trimFirst_seg (n := n) (covers_seg (opCodes_covers a b))
  obtain ⟨i'', j'', h3, h4⟩ := trimLast_seg (n := n) (by simp) _ _ _ h2
  exact hunks_skip h1 (groupLoop_hunks n _ [] _ _ _ _ _ _ (.nil (by have := seg_le h2; omega) (by have := seg_le h2; omega)) h3 h4)

/-! ### Applying -/

theorem body_seg {a b : List Line} (hwa : ∀ l ∈ a, Whole l) (hwb : ∀ l ∈ b, Whole l) {i j i' j' : Nat} {cs : List Op} (h : Seg a b i j cs i' j') (rest : Bytes) : ∀ (n : Nat),
    (i' - i) + (j' - j) ≤ n →
    body n (i' - i) (j' - j) (cs.flatMap (opText a b) ++ rest) (a.drop i) = some (slice b j j', rest, a.drop i') := by
  induction h with
  | nil =>
    intro n _
    simp only [Nat.sub_self, List.flatMap_nil, List.nil_append, slice, List.take_zero]
    cases n <;> rfl
  | @step _ _ c cs i' j' e1 e2 hf hs ih =>
    subst e1 e2
    intro n hn
    have hle := seg_le hs
    have hfi := hf.i
    have hfj := hf.j
    have l1 : (slice a c.i1 c.i2).length = c.i2 - c.i1 := slice_length hf.ia
    have l2 : (slice b c.j1 c.j2).length = c.j2 - c.j1 := slice_length hf.jb
    have hA := slice_append_drop a hf.i
    have hB := slice_append_slice b hf.j hle.2.1
    have hwA := slice_whole hwa c.i1 c.i2
    have hwB := slice_whole hwb c.j1 c.j2
    simp only [List.flatMap_cons, List.append_assoc]
    generalize cs.flatMap (opText a b) ++ rest = T at ih
    obtain ⟨tag, i1, i2, j1, j2⟩ := c
    dsimp only at *
    cases tag with
    | equal =>
      have hl := slice_len_eq hf rfl
      have hsame := hf.equal rfl
      dsimp only at hl hsame
      unfold opText
      dsimp only
      rw [← hA, body_keep _ hwA _ _ _ _ _ (by omega) (by omega) (by omega), l1, show i' - i1 - (i2 - i1) = i' - i2 by omega, show j' - j1 - (i2 - i1) = j' - j2 by omega,
        ih _ (by omega), hsame]
      simp only [Option.map_some, hB]
    | replace =>
      unfold opText
      dsimp only
      rw [← hA, List.append_assoc, body_remove _ hwA _ _ _ _ _ (by omega) (by omega), body_add _ hwB _ _ _ _ _ (by omega) (by omega), l1, l2,
        show i' - i1 - (i2 - i1) = i' - i2 by omega, show j' - j1 - (j2 - j1) = j' - j2 by omega, ih _ (by omega)]
      simp only [Option.map_some, hB]
    | delete =>
      have hd := hf.delete rfl
      dsimp only at hd
      subst hd
      unfold opText
      dsimp only
      rw [← hA, body_remove _ hwA _ _ _ _ _ (by omega) (by omega), l1, show i' - i1 - (i2 - i1) = i' - i2 by omega, ih _ (by omega)]
    | insert =>
      have hd := hf.insert rfl
      dsimp only at hd
      subst hd
      unfold opText
      dsimp only
      rw [body_add _ hwB _ _ _ _ _ (by omega) (by omega), l2, show j' - j1 - (j2 - j1) = j' - j2 by omega, ih _ (by omega)]
      simp only [Option.map_some, hB]

theorem seg_first {a b : List Line} {i j i' j' : Nat} {c : Op} {cs : List Op} (h : Seg a b i j (c :: cs) i' j') : c.i1 = i ∧ c.j1 = j := by
  cases h with
  | step e1 e2 => exact ⟨e1, e2⟩

theorem seg_last {a b : List Line} {l : Op} : ∀ (cs : List Op) {i j i' j' : Nat}, Seg a b i j cs i' j' → cs.getLast? = some l → l.i2 = i' ∧ l.j2 = j'
  | [], _, _, _, _, _, h => by cases h
  | [c], _, _, _, _, hs, h => by
    cases hs with
    | step _ _ hf hs =>
      cases hs
      simp at h
      subst h
      exact ⟨rfl, rfl⟩
  | c :: d :: cs, _, _, _, _, hs, h => by
    cases hs with
    | step _ _ hf hs => exact seg_last (d :: cs) hs (by simpa [List.getLast?_cons_cons] using h)

theorem hunkText_eq {a b : List Line} {i j i' j' : Nat} {g : List Op} (hg : g ≠ []) (h : Seg a b i j g i' j') : hunkText a b g =
    [64, 64, 32, 45] ++ formatRange i i' ++ [32, 43] ++ formatRange j j' ++ [32, 64, 64, 10] ++ g.flatMap (opText a b) := by
  cases g with
  | nil => exact absurd rfl hg
  | cons c cs =>
    obtain ⟨e1, e2⟩ := seg_first h
    obtain ⟨l, hl⟩ : ∃ l, (c :: cs).getLast? = some l := ⟨_, List.getLast?_eq_some_getLast (by simp)⟩
    obtain ⟨e3, e4⟩ := seg_last _ h hl
    unfold hunkText
    rw [hl]
    dsimp only [List.head?_cons]
    rw [e1, e2, e3, e4]

theorem patch_hunks {a b : List Line} (hwa : ∀ l ∈ a, Whole l) (hwb : ∀ l ∈ b, Whole l) : ∀ (gs : List (List Op)) (i j n : Nat), Hunks a b i j gs → gs.length < n →
    patch n i j (gs.flatMap (hunkText a b)) (a.drop i) = some (b.drop j)
  | [], i, j, n, h, _ => by
    rw [← h.2]
    cases n <;> rfl
  | g :: gs, i, j, 0, _, h => by simp at h
  | g :: gs, i, j, n + 1, h, hn => by
    obtain ⟨s, i', j', h1, h2, h3, h4⟩ := h
    have ih := patch_hunks hwa hwb gs i' j' n h4 (by simpa using hn)
    have hle := seg_le h3
    have hb := body_seg hwa hwb h3 (gs.flatMap (hunkText a b)) _ (Nat.le_refl _)
    rw [List.flatMap_cons, hunkText_eq h2 h3]
    generalize hT : g.flatMap (opText a b) ++ gs.flatMap (hunkText a b) = T at hb
    have e : [64, 64, 32, 45] ++ formatRange (i + s) i' ++ [32, 43] ++ formatRange (j + s) j' ++ [32, 64, 64, 10] ++ g.flatMap (opText a b) ++
        gs.flatMap (hunkText a b) = [64, 64, 32, 45] ++ (formatRange (i + s) i' ++ 32 :: ([43] ++ (formatRange (j + s) j' ++ 32 :: ([64, 64, 10] ++ T)))) := by
      rw [← hT]
      simp
    rw [e]
    have hne : ∃ c r, ([64, 64, 32, 45] ++ (formatRange (i + s) i' ++ 32 :: ([43] ++ (formatRange (j + s) j' ++ 32 :: ([64, 64, 10] ++ T)))) : Bytes) = c :: r := ⟨_, _, rfl⟩
    have x1 := expect_append [64, 64, 32, 45] (formatRange (i + s) i' ++ 32 :: ([43] ++ (formatRange (j + s) j' ++ 32 :: ([64, 64, 10] ++ T))))
    have x2 := range_format (i + s) i' ([43] ++ (formatRange (j + s) j' ++ 32 :: ([64, 64, 10] ++ T))) hle.1
    have x3 := expect_append [32, 43] (formatRange (j + s) j' ++ 32 :: ([64, 64, 10] ++ T))
    have x4 := range_format (j + s) j' ([64, 64, 10] ++ T) hle.2.1
    have x5 := expect_append [32, 64, 64, 10] T
    obtain ⟨c, r, hcr⟩ := hne
    rw [hcr] at x1 ⊢
    rw [patch]
    · rw [x1, Option.bind_some, x2, Option.bind_some]
      dsimp only
      rw [show (32 :: ([43] ++ (formatRange (j + s) j' ++ 32 :: ([64, 64, 10] ++ T))) : Bytes) = [32, 43] ++ (formatRange (j + s) j' ++ 32 :: ([64, 64, 10] ++ T)) from rfl,
        x3, Option.bind_some, x4, Option.bind_some]
      dsimp only
      rw [show (32 :: ([64, 64, 10] ++ T) : Bytes) = [32, 64, 64, 10] ++ T from rfl, x5, Option.bind_some]
      rw [if_pos ⟨by omega, by simp; omega, by omega⟩, Nat.add_sub_cancel_left, List.drop_drop, hb, Option.bind_some]
      dsimp only
      rw [show i + s + (i' - (i + s)) = i' by omega, show j + s + (j' - (j + s)) = j' by omega, ih, Option.map_some]
      have t1 : (a.drop i).take s = slice a i (i + s) := by unfold slice; rw [Nat.add_sub_cancel_left]
      rw [t1, h1, slice_append_slice b (by omega) hle.2.1, slice_append_drop b (by omega)]
    · intro h; cases h

theorem flatMap_length_le {a b : List Line} : ∀ (gs : List (List Op)) (i j : Nat), Hunks a b i j gs → gs.length ≤ (gs.flatMap (hunkText a b)).length
  | [], _, _, _ => Nat.le_refl _
  | g :: gs, i, j, h => by
    obtain ⟨s, i', j', _, h2, h3, h4⟩ := h
    have := flatMap_length_le gs _ _ h4
    rw [List.flatMap_cons, hunkText_eq h2 h3]
    simp only [List.length_append, List.length_cons]
    omega

theorem apply_unified (n : Nat) (v w : Bytes) : applyDiff v (unifiedText n (splitLines v) (splitLines w)) = some w := by
  have hh := grouped_hunks (a := splitLines v) (b := splitLines w) n (splitLines_ne v)
  unfold applyDiff unifiedText
  have := patch_hunks (splitLines_whole v) (splitLines_whole w) _ 0 0 (((grouped n (splitLines v) (splitLines w)).flatMap (hunkText (splitLines v) (splitLines w))).length + 1) hh
    (Nat.lt_succ_of_le (flatMap_length_le _ _ _ hh))
  rw [List.drop_zero, List.drop_zero] at this
  rw [this, Option.map_some, splitLines_flatten, List.dropLast_concat]

/-- Different texts have a difference. -/
theorem unified_ne {n : Nat} {v w : Bytes} (h : v ≠ w) : unifiedText n (splitLines v) (splitLines w) ≠ [] := by
  intro he
  have := apply_unified n v w
  rw [he] at this
  unfold applyDiff patch at this
  rw [Option.map_some, splitLines_flatten, List.dropLast_concat] at this
  exact h (Option.some.inj this)

/-! ### Marks -/

theorem unmarked_append {l m : List Line} {p q : List Bool} (h : l.length = p.length) : unmarked (l ++ m) (p ++ q) = unmarked l p ++ unmarked m q := by
  unfold unmarked
  rw [List.zip_append h, List.filterMap_append]

theorem unmarked_false : ∀ (l : List Line), unmarked l (List.replicate l.length false) = l
  | [] => rfl
  | x :: l => by
    have := unmarked_false l
    unfold unmarked at this ⊢
    simp only [List.length_cons, List.replicate_succ, List.zip_cons_cons, List.filterMap_cons, Bool.false_eq_true, if_false, this]

theorem unmarked_true : ∀ (l : List Line), unmarked l (List.replicate l.length true) = []
  | [] => rfl
  | x :: l => by
    have := unmarked_true l
    unfold unmarked at this ⊢
    simp only [List.length_cons, List.replicate_succ, List.zip_cons_cons, List.filterMap_cons, if_true, this]

theorem drop_replicate {l : List Bool} {v : Bool} {i j : Nat} (hj : j ≤ l.length) (hi : i ≤ j) (h : ∀ k, i ≤ k → k < j → l[k]? = some v) :
    l.drop i = List.replicate (j - i) v ++ l.drop j := by
  rw [show l.drop j = (l.drop i).drop (j - i) by rw [List.drop_drop]; congr 1; omega]
  conv => lhs; rw [← List.take_append_drop (j - i) (l.drop i)]
  congr 1
  apply List.ext_getElem?
  intro k
  rw [List.getElem?_take, List.getElem?_replicate]
  split
  · rw [List.getElem?_drop]
    exact h _ (by omega) (by omega)
  · rfl

theorem unmarked_covers {a b : List Line} {A B : List Bool} (hA : A.length = a.length) (hB : B.length = b.length) {i j : Nat} {cs : List Op} (hc : Covers a b i j cs)
    (h : ∀ c ∈ cs, (c.tag = .equal → (∀ k, c.i1 ≤ k → k < c.i2 → A[k]? = some false) ∧ ∀ k, c.j1 ≤ k → k < c.j2 → B[k]? = some false) ∧
      (c.tag ≠ .equal → (∀ k, c.i1 ≤ k → k < c.i2 → A[k]? = some true) ∧ ∀ k, c.j1 ≤ k → k < c.j2 → B[k]? = some true)) :
    unmarked (a.drop i) (A.drop i) = unmarked (b.drop j) (B.drop j) := by
  induction hc with
  | done => rw [List.drop_length, List.drop_length]; rfl
  | op c h1 h2 h3 h4 h5 h6 h7 h8 ih =>
    subst h1 h2
    have ih := ih fun c hc => h c (by simp [hc])
    have hle := covers_le h8
    obtain ⟨e1, e2⟩ := h c (by simp)
    have la : (slice a c.i1 c.i2).length = c.i2 - c.i1 := slice_length hle.1
    have lb : (slice b c.j1 c.j2).length = c.j2 - c.j1 := slice_length hle.2
    by_cases ht : c.tag = .equal
    · obtain ⟨f1, f2⟩ := e1 ht
      obtain ⟨g1, g2⟩ := h5 ht
      rw [← slice_append_drop a h3, ← slice_append_drop b h4, drop_replicate (by omega) h3 f1, drop_replicate (by omega) h4 f2,
        unmarked_append (by rw [la, List.length_replicate]), unmarked_append (by rw [lb, List.length_replicate]), ih]
      have u1 := unmarked_false (slice a c.i1 c.i2)
      have u2 := unmarked_false (slice b c.j1 c.j2)
      rw [la] at u1
      rw [lb] at u2
      rw [u1, u2, slice_same g1 g2]
    · obtain ⟨f1, f2⟩ := e2 ht
      rw [← slice_append_drop a h3, ← slice_append_drop b h4, drop_replicate (by omega) h3 f1, drop_replicate (by omega) h4 f2,
        unmarked_append (by rw [la, List.length_replicate]), unmarked_append (by rw [lb, List.length_replicate]), ih]
      have u1 := unmarked_true (slice a c.i1 c.i2)
      have u2 := unmarked_true (slice b c.j1 c.j2)
      rw [la] at u1
      rw [lb] at u2
      rw [u1, u2]

end Verif.Diff
