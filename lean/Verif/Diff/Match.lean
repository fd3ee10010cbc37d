import Verif.Diff.Spec

/-! Lemmas about matching. -/

namespace Verif.Diff

open Verif.Module (Op Tag Covers)

/-! ### The longest match -/

theorem mem_places {b : List Line} {x : Line} {j : Nat} (h : j ∈ places b x) : b[j]? = some x := by
  unfold places at h
  split at h
  · cases h
  · simpa using (List.mem_filter.mp h).2

theorem places_sorted (b : List Line) (x : Line) : (places b x).Pairwise (· < ·) := by
  unfold places
  split
  · exact List.Pairwise.nil
  · exact List.Pairwise.filter _ List.pairwise_lt_range

theorem places_mem {b : List Line} {x : Line} {j : Nat} (hp : popular b x = false) (h : b[j]? = some x) : j ∈ places b x := by
  unfold places
  rw [hp]
  simp only [Bool.false_eq_true, if_false, List.mem_filter, List.mem_range, decide_eq_true_eq]
  exact ⟨(List.getElem?_eq_some_iff.mp h).1, h⟩

/-- The lines of a match are the same and within the limits. -/
structure Good (a b : List Line) (alo ahi blo bhi : Nat) (m : Match) : Prop where
  alo : alo ≤ m.a
  ahi : m.a + m.size ≤ ahi
  blo : blo ≤ m.b
  bhi : m.b + m.size ≤ bhi
  same : ∀ t < m.size, a[m.a + t]? = b[m.b + t]?

/-- The lengths of matches that end just before line `i`. -/
def Row (a b : List Line) (alo blo i : Nat) (f : Nat → Nat) : Prop :=
  ∀ j, f j ≤ i - alo ∧ (0 < f j → blo ≤ j ∧ f j ≤ j + 1 - blo) ∧ ∀ t < f j, a[i - 1 - t]? = b[j - t]?

theorem row_zero (a b : List Line) (alo blo i : Nat) : Row a b alo blo i fun _ => 0 := by
  intro j
  simp

theorem scanRow_good {a b : List Line} {alo ahi blo bhi i : Nat} {x : Line} (ha : a[i]? = some x) (hlo : alo ≤ i) (hhi : i < ahi) {j2len : Nat → Nat}
    (hrow : Row a b alo blo i j2len) : ∀ (js : List Nat) (best : Match) (next : Nat → Nat), (∀ j ∈ js, b[j]? = some x) →
    Good a b alo ahi blo bhi best → Row a b alo blo (i + 1) next →
    Good a b alo ahi blo bhi (scanRow i blo bhi j2len js best next).1 ∧ Row a b alo blo (i + 1) (scanRow i blo bhi j2len js best next).2
  | [], best, next, _, hb, hn => ⟨hb, hn⟩
  | j :: js, best, next, hjs, hb, hn => by
    unfold scanRow
    by_cases h1 : j < blo
    · rw [if_pos h1]
      exact scanRow_good ha hlo hhi hrow js best next (fun j hj => hjs j (by simp [hj])) hb hn
    · rw [if_neg h1]
      by_cases h2 : bhi ≤ j
      · rw [if_pos h2]
        exact ⟨hb, hn⟩
      · rw [if_neg h2]
        dsimp only
        have hk : before j2len j ≤ i - alo ∧ before j2len j + 1 ≤ j + 1 - blo ∧ ∀ t < before j2len j + 1, a[i - t]? = b[j - t]? := by
          have hj := hjs j (by simp)
          cases j with
          | zero =>
            refine ⟨Nat.zero_le _, by simp [before]; omega, ?_⟩
            intro t ht
            simp only [before] at ht
            obtain rfl : t = 0 := by omega
            simpa [hj] using ha
          | succ j =>
            obtain ⟨r1, r2, r3⟩ := hrow j
            refine ⟨r1, ?_, ?_⟩
            · show j2len j + 1 ≤ _
              by_cases h0 : 0 < j2len j
              · have := r2 h0; omega
              · omega
            · intro t ht
              cases t with
              | zero => simpa [hj] using ha
              | succ t =>
                have := r3 t (by simp only [before] at ht; omega)
                rw [show i - (t + 1) = i - 1 - t by omega, show j + 1 - (t + 1) = j - t by omega]
                exact this
        obtain ⟨k1, k2, k3⟩ := hk
        generalize before j2len j = p at k1 k2 k3
        refine scanRow_good ha hlo hhi hrow js _ _ (fun j hj => hjs j (by simp [hj])) ?_ ?_
        · split
          · refine ⟨by show alo ≤ i + 1 - (p + 1); omega, by show i + 1 - (p + 1) + (p + 1) ≤ ahi; omega, by show blo ≤ j + 1 - (p + 1); omega,
              by show j + 1 - (p + 1) + (p + 1) ≤ bhi; omega, ?_⟩
            intro t ht
            have ht : t < p + 1 := ht
            have := k3 (p - t) (by omega)
            show a[i + 1 - (p + 1) + t]? = b[j + 1 - (p + 1) + t]?
            rw [show i + 1 - (p + 1) + t = i - (p - t) by omega, show j + 1 - (p + 1) + t = j - (p - t) by omega]
            exact this
          · exact hb
        · intro j'
          unfold update
          by_cases hj' : j' = j
          · subst hj'
            rw [if_pos rfl]
            refine ⟨by omega, fun _ => ⟨by omega, by omega⟩, ?_⟩
            intro t ht
            have := k3 t ht
            rw [show i + 1 - 1 - t = i - t by omega]
            exact this
          · rw [if_neg hj']
            exact hn j'

theorem scanRow_size {i blo bhi : Nat} {j2len : Nat → Nat} : ∀ (js : List Nat) (best : Match) (next : Nat → Nat),
    best.size ≤ (scanRow i blo bhi j2len js best next).1.size
  | [], _, _ => Nat.le_refl _
  | j :: js, best, next => by
    unfold scanRow
    split
    · exact scanRow_size js _ _
    · split
      · exact Nat.le_refl _
      · refine Nat.le_trans ?_ (scanRow_size js _ _)
        split
        · simp only; omega
        · exact Nat.le_refl _

theorem scanRow_finds {i blo bhi : Nat} {j2len : Nat → Nat} : ∀ (js : List Nat) (best : Match) (next : Nat → Nat), js.Pairwise (· < ·) →
    ∀ j ∈ js, blo ≤ j → j < bhi → 0 < (scanRow i blo bhi j2len js best next).1.size
  | [], _, _, _, j, hj, _, _ => by cases hj
  | k :: js, best, next, hs, j, hj, h1, h2 => by
    have hk : k ≤ j := by
      rcases List.mem_cons.mp hj with rfl | hj
      · exact Nat.le_refl _
      · exact Nat.le_of_lt ((List.pairwise_cons.mp hs).1 j hj)
    unfold scanRow
    by_cases hb : k < blo
    · rw [if_pos hb]
      refine scanRow_finds js _ _ (List.pairwise_cons.mp hs).2 j ?_ h1 h2
      rcases List.mem_cons.mp hj with rfl | hj
      · omega
      · exact hj
    · rw [if_neg hb, if_neg (by omega)]
      refine Nat.lt_of_lt_of_le ?_ (scanRow_size js _ _)
      split
      · simp only; omega
      · omega

theorem scan_good {a b : List Line} {alo ahi blo bhi : Nat} (hahi : ahi ≤ a.length) : ∀ (n i : Nat) (best : Match) (j2len : Nat → Nat), alo ≤ i → i + n ≤ ahi →
    Good a b alo ahi blo bhi best → Row a b alo blo i j2len → Good a b alo ahi blo bhi (scan a b blo bhi n i best j2len)
  | 0, _, _, _, _, _, hb, _ => hb
  | n + 1, i, best, j2len, hlo, hhi, hb, hr => by
    unfold scan
    have hi : a[i]? = some a[i] := List.getElem?_eq_getElem (by omega)
    rw [hi]
    dsimp only
    obtain ⟨h1, h2⟩ := scanRow_good hi hlo (by omega : i < ahi) hr (places b a[i]) best (fun _ => 0) (fun j hj => mem_places hj) hb (row_zero _ _ _ _ _)
    exact scan_good hahi n (i + 1) _ _ (by omega) (by omega) h1 h2

theorem scan_size {a b : List Line} {blo bhi : Nat} : ∀ (n i : Nat) (best : Match) (j2len : Nat → Nat), best.size ≤ (scan a b blo bhi n i best j2len).size
  | 0, _, _, _ => Nat.le_refl _
  | n + 1, i, best, j2len => by
    unfold scan
    exact Nat.le_trans (scanRow_size _ _ _) (scan_size n (i + 1) _ _)

theorem scan_finds {a b : List Line} {blo bhi : Nat} {x : Line} (hp : popular b x = false) : ∀ (n i : Nat) (best : Match) (j2len : Nat → Nat) (k j : Nat),
    i ≤ k → k < i + n → a[k]? = some x → blo ≤ j → j < bhi → b[j]? = some x → 0 < (scan a b blo bhi n i best j2len).size
  | 0, _, _, _, _, _, _, _, _, _, _, _ => by omega
  | n + 1, i, best, j2len, k, j, h1, h2, ha, h3, h4, hb => by
    unfold scan
    by_cases hk : k = i
    · subst hk
      rw [ha]
      dsimp only
      exact Nat.lt_of_lt_of_le (scanRow_finds _ _ _ (places_sorted b x) j (places_mem hp hb) h3 h4) (scan_size _ _ _ _)
    · exact scan_finds hp n (i + 1) _ _ k j (by omega) (by omega) ha h3 h4 hb

theorem backwards_good {a b : List Line} {alo ahi blo bhi : Nat} : ∀ (i j k : Nat), Good a b alo ahi blo bhi ⟨i, j, k⟩ →
    Good a b alo ahi blo bhi (backwards a b alo blo i j k)
  | 0, _, _, h => by unfold backwards; exact h
  | i + 1, 0, _, h => by unfold backwards; exact h
  | i + 1, j + 1, k, h => by
    unfold backwards
    by_cases hc : alo < i + 1 ∧ blo < j + 1 ∧ a[i]? = b[j]?
    · rw [if_pos hc]
      obtain ⟨g1, g2, g3, g4, g5⟩ := h
      dsimp only at g1 g2 g3 g4 g5
      refine backwards_good i j (k + 1) ⟨by dsimp only; omega, by dsimp only; omega, by dsimp only; omega, by dsimp only; omega, ?_⟩
      intro t ht
      dsimp only at ht ⊢
      cases t with
      | zero => exact hc.2.2
      | succ t =>
        have := g5 t (by omega)
        rw [show i + (t + 1) = i + 1 + t by omega, show j + (t + 1) = j + 1 + t by omega]
        exact this
    · rw [if_neg hc]
      exact h

theorem backwards_size {a b : List Line} {alo blo : Nat} : ∀ (i j k : Nat), k ≤ (backwards a b alo blo i j k).size
  | 0, _, _ => by unfold backwards; exact Nat.le_refl _
  | i + 1, 0, _ => by unfold backwards; exact Nat.le_refl _
  | i + 1, j + 1, k => by
    unfold backwards
    split
    · exact Nat.le_trans (Nat.le_succ k) (backwards_size i j (k + 1))
    · exact Nat.le_refl _

theorem forwards_good {a b : List Line} {alo ahi blo bhi : Nat} : ∀ (n : Nat) (m : Match), Good a b alo ahi blo bhi m →
    Good a b alo ahi blo bhi (forwards a b ahi bhi n m)
  | 0, m, h => h
  | n + 1, m, h => by
    unfold forwards
    split
    · rename_i hc
      obtain ⟨g1, g2, g3, g4, g5⟩ := h
      refine forwards_good n _ ⟨g1, by dsimp only; omega, g3, by dsimp only; omega, ?_⟩
      intro t ht
      dsimp only at ht ⊢
      by_cases e : t = m.size
      · subst e; exact hc.2.2
      · exact g5 t (by omega)
    · exact h

theorem forwards_size {a b : List Line} {ahi bhi : Nat} : ∀ (n : Nat) (m : Match), m.size ≤ (forwards a b ahi bhi n m).size
  | 0, m => Nat.le_refl _
  | n + 1, m => by
    unfold forwards
    split
    · exact Nat.le_trans (Nat.le_succ _) (forwards_size n { m with size := m.size + 1 })
    · exact Nat.le_refl _

theorem longest_good {a b : List Line} {alo ahi blo bhi : Nat} (h : ahi ≤ a.length) (ha : alo ≤ ahi) (hb : blo ≤ bhi) :
    Good a b alo ahi blo bhi (longest a b alo ahi blo bhi) := by
  unfold longest
  refine forwards_good _ _ (backwards_good _ _ _ ?_)
  exact scan_good h _ _ _ _ (Nat.le_refl _) (by omega) ⟨Nat.le_refl _, ha, Nat.le_refl _, hb, by intro t ht; simp at ht⟩ (row_zero _ _ _ _ _)

theorem longest_finds {a b : List Line} {alo ahi blo bhi i j : Nat} {x : Line} (hp : popular b x = false) (h1 : alo ≤ i) (h2 : i < ahi) (ha : a[i]? = some x)
    (h3 : blo ≤ j) (h4 : j < bhi) (hb : b[j]? = some x) : 0 < (longest a b alo ahi blo bhi).size := by
  unfold longest
  refine Nat.lt_of_lt_of_le ?_ (forwards_size _ _)
  refine Nat.lt_of_lt_of_le ?_ (backwards_size _ _ _)
  exact scan_finds hp _ _ _ _ i j h1 (by omega) ha h3 h4 hb

/-! ### Blocks -/

/-- No line is in both ranges, apart from popular ones. -/
def Gap (a b : List Line) (i ahi j bhi : Nat) : Prop :=
  ∀ (i' j' : Nat) (x : Line), i ≤ i' → i' < ahi → j ≤ j' → j' < bhi → a[i']? = some x → b[j']? = some x → popular b x = true

/-- Blocks in order, with nothing in common between them. -/
def Chain (a b : List Line) : Nat → Nat → List Match → Nat → Nat → Prop
  | i, j, [], ahi, bhi => i ≤ ahi ∧ j ≤ bhi ∧ Gap a b i ahi j bhi
  | i, j, m :: ms, ahi, bhi => i ≤ m.a ∧ j ≤ m.b ∧ Gap a b i m.a j m.b ∧ 0 < m.size ∧ (∀ t < m.size, a[m.a + t]? = b[m.b + t]?) ∧
      Chain a b (m.a + m.size) (m.b + m.size) ms ahi bhi

theorem gap_left {a b : List Line} {i ahi j bhi : Nat} (h : ahi ≤ i) : Gap a b i ahi j bhi := by
  intro i' j' x h1 h2; omega

theorem gap_right {a b : List Line} {i ahi j bhi : Nat} (h : bhi ≤ j) : Gap a b i ahi j bhi := by
  intro i' j' x _ _ h1 h2; omega

theorem chain_append {a b : List Line} {m : Match} {ms : List Match} {ahi bhi : Nat} (h0 : 0 < m.size) (hs : ∀ t < m.size, a[m.a + t]? = b[m.b + t]?)
    (hms : Chain a b (m.a + m.size) (m.b + m.size) ms ahi bhi) : ∀ (l : List Match) (i j : Nat), Chain a b i j l m.a m.b → Chain a b i j (l ++ m :: ms) ahi bhi
  | [], _, _, h => ⟨h.1, h.2.1, h.2.2, h0, hs, hms⟩
  | k :: l, _, _, h => ⟨h.1, h.2.1, h.2.2.1, h.2.2.2.1, h.2.2.2.2.1, chain_append h0 hs hms l _ _ h.2.2.2.2.2⟩

theorem blocks_chain {a b : List Line} : ∀ (n alo ahi blo bhi : Nat), ahi ≤ a.length → alo ≤ ahi → blo ≤ bhi → ahi - alo < n →
    Chain a b alo blo (blocks a b n alo ahi blo bhi) ahi bhi
  | 0, _, _, _, _, _, _, _, h => by omega
  | n + 1, alo, ahi, blo, bhi, h1, h2, h3, h4 => by
    unfold blocks
    have hg := longest_good (b := b) h1 h2 h3
    have hf : ¬ 0 < (longest a b alo ahi blo bhi).size → Gap a b alo ahi blo bhi := by
      intro h0 i j x e1 e2 e3 e4 ha hb
      by_contra hp
      exact h0 (longest_finds (by simpa using hp) e1 e2 ha e3 e4 hb)
    generalize longest a b alo ahi blo bhi = m at hg hf
    dsimp only
    obtain ⟨g1, g2, g3, g4, g5⟩ := hg
    by_cases h0 : 0 < m.size
    · rw [if_pos h0]
      refine chain_append h0 g5 ?_ _ _ _ ?_
      · by_cases hr : m.a + m.size < ahi ∧ m.b + m.size < bhi
        · rw [if_pos hr]
          exact blocks_chain n _ _ _ _ h1 (by omega) (by omega) (by omega)
        · rw [if_neg hr]
          refine ⟨g2, g4, ?_⟩
          by_cases e : m.a + m.size < ahi
          · exact gap_right (by omega)
          · exact gap_left (by omega)
      · by_cases hl : alo < m.a ∧ blo < m.b
        · rw [if_pos hl]
          exact blocks_chain n _ _ _ _ (by omega) g1 g3 (by omega)
        · rw [if_neg hl]
          refine ⟨g1, g3, ?_⟩
          by_cases e : alo < m.a
          · exact gap_right (by omega)
          · exact gap_left (by omega)
    · rw [if_neg h0]
      exact ⟨h2, h3, hf h0⟩

theorem chain_skip {a b : List Line} : ∀ (ms : List Match) (i j ahi bhi : Nat), Chain a b i j ms ahi bhi → i ≤ ahi ∧ j ≤ bhi
  | [], _, _, _, _, h => ⟨h.1, h.2.1⟩
  | m :: ms, i, j, ahi, bhi, h => by
    have := chain_skip ms _ _ _ _ h.2.2.2.2.2
    have := h.1
    have := h.2.1
    omega

theorem collapse_chain {a b : List Line} : ∀ (ms : List Match) (cur : Match) (i j ahi bhi : Nat), i ≤ cur.a → j ≤ cur.b → Gap a b i cur.a j cur.b →
    (cur.size = 0 → cur.a = i ∧ cur.b = j) → (∀ t < cur.size, a[cur.a + t]? = b[cur.b + t]?) → Chain a b (cur.a + cur.size) (cur.b + cur.size) ms ahi bhi →
    Chain a b i j (collapse cur ms) ahi bhi
  | [], cur, i, j, ahi, bhi, h1, h2, h3, h4, h5, h6 => by
    unfold collapse
    split
    · rename_i h0
      exact ⟨h1, h2, h3, h0, h5, h6⟩
    · rename_i h0
      obtain ⟨e1, e2⟩ := h4 (by omega)
      have e : cur.size = 0 := by omega
      rw [e1, e2, e] at h6
      exact h6
  | m :: ms, cur, i, j, ahi, bhi, h1, h2, h3, h4, h5, h6 => by
    unfold collapse
    obtain ⟨m1, m2, m3, m4, m5, m6⟩ := h6
    split
    · rename_i hc
      refine collapse_chain ms _ i j ahi bhi h1 h2 h3 (by intro e; dsimp only at e; omega) ?_ ?_
      · intro t ht
        dsimp only at ht ⊢
        by_cases hlt : t < cur.size
        · exact h5 t hlt
        · have := m5 (t - cur.size) (by omega)
          rw [← hc.1, ← hc.2] at this
          rw [show cur.a + t = cur.a + cur.size + (t - cur.size) by omega, show cur.b + t = cur.b + cur.size + (t - cur.size) by omega]
          exact this
      · dsimp only
        rw [show cur.a + (cur.size + m.size) = m.a + m.size by omega, show cur.b + (cur.size + m.size) = m.b + m.size by omega]
        exact m6
    · by_cases h0 : 0 < cur.size
      · rw [if_pos h0]
        exact ⟨h1, h2, h3, h0, h5, collapse_chain ms m _ _ ahi bhi m1 m2 m3 (by omega) m5 m6⟩
      · rw [if_neg h0]
        obtain ⟨e1, e2⟩ := h4 (by omega)
        have e : cur.size = 0 := by omega
        rw [e1, e2, e] at m3
        rw [e1, e] at m1
        rw [e2, e] at m2
        exact collapse_chain ms m _ _ ahi bhi m1 m2 m3 (by omega) m5 m6

theorem blocks_collapsed (a b : List Line) : Chain a b 0 0 (collapse ⟨0, 0, 0⟩ (blocks a b (a.length + 1) 0 a.length 0 b.length)) a.length b.length :=
  collapse_chain _ _ _ _ _ _ (Nat.le_refl _) (Nat.le_refl _) (gap_left (Nat.le_refl _)) (fun _ => ⟨rfl, rfl⟩) (by intro t ht; simp at ht)
    (blocks_chain _ _ _ _ _ (Nat.le_refl _) (Nat.zero_le _) (Nat.zero_le _) (by omega))

/-! ### Operations -/

theorem gapOp_covers {a b : List Line} {i ai j bj : Nat} {cs : List Op} (h1 : i ≤ ai) (h2 : j ≤ bj) (h : Covers a b ai bj cs) : Covers a b i j (gapOp i ai j bj ++ cs) := by
  unfold gapOp
  split
  · exact .op _ rfl rfl h1 h2 (by simp) (by simp) (by simp) h
  · split
    · exact .op _ rfl rfl h1 h2 (by simp) (by simp) (by intro _; dsimp only; omega) h
    · split
      · exact .op _ rfl rfl h1 h2 (by simp) (by intro _; dsimp only; omega) (by simp) h
      · have e1 : i = ai := by omega
        have e2 : j = bj := by omega
        subst e1 e2
        exact h

theorem opLoop_covers {a b : List Line} : ∀ (ms : List Match) (i j : Nat), Chain a b i j ms a.length b.length → Covers a b i j (opLoop i j (ms ++ [⟨a.length, b.length, 0⟩]))
  | [], i, j, h => by
    have := gapOp_covers (cs := []) h.1 h.2.1 (.done (old := a) (new := b))
    simpa [opLoop] using this
  | m :: ms, i, j, h => by
    obtain ⟨m1, m2, -, m4, m5, m6⟩ := h
    have ih := opLoop_covers ms _ _ m6
    simp only [List.cons_append, opLoop, m4, if_true, List.append_assoc]
    refine gapOp_covers m1 m2 (.op _ rfl rfl (by dsimp only; omega) (by dsimp only; omega) ?_ (by simp) (by simp) ih)
    intro _
    dsimp only
    refine ⟨by omega, fun k hk => m5 k (by omega)⟩

theorem gapOp_gap {a b : List Line} {i ai j bj : Nat} (h : Gap a b i ai j bj) : ∀ c ∈ gapOp i ai j bj, c.tag ≠ .equal ∧ Gap a b c.i1 c.i2 c.j1 c.j2 ∧ (c.i1 < c.i2 ∨ c.j1 < c.j2) := by
  intro c hc
  unfold gapOp at hc
  split at hc
  · rename_i h'
    simp at hc; subst hc; exact ⟨by simp, h, Or.inl h'.1⟩
  · split at hc
    · rename_i h'
      simp at hc; subst hc; exact ⟨by simp, h, Or.inl h'⟩
    · split at hc
      · rename_i h'
        simp at hc; subst hc; exact ⟨by simp, h, Or.inr h'⟩
      · cases hc

theorem opLoop_gap {a b : List Line} : ∀ (ms : List Match) (i j : Nat), Chain a b i j ms a.length b.length →
    ∀ c ∈ opLoop i j (ms ++ [⟨a.length, b.length, 0⟩]), c.tag ≠ .equal → Gap a b c.i1 c.i2 c.j1 c.j2
  | [], i, j, h, c, hc, _ => by
    simp only [List.nil_append, opLoop, Nat.lt_irrefl, if_false, List.append_nil] at hc
    exact (gapOp_gap h.2.2 c hc).2.1
  | m :: ms, i, j, h, c, hc, ht => by
    obtain ⟨-, -, m3, m4, -, m6⟩ := h
    simp only [List.cons_append, opLoop, m4, if_true, List.append_assoc, List.mem_append, List.mem_cons, List.not_mem_nil, false_or] at hc
    rcases hc with hc | rfl | hc
    · exact (gapOp_gap m3 c hc).2.1
    · exact absurd rfl ht
    · exact opLoop_gap ms _ _ m6 c hc ht

theorem opCodes_covers (a b : List Line) : Covers a b 0 0 (opCodes a b) := opLoop_covers _ _ _ (blocks_collapsed a b)

theorem opCodes_gap (a b : List Line) : ∀ c ∈ opCodes a b, c.tag ≠ .equal → Gap a b c.i1 c.i2 c.j1 c.j2 := opLoop_gap _ _ _ (blocks_collapsed a b)

end Verif.Diff
