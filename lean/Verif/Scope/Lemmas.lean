import Verif.Scope.Spec

namespace Verif.Scope

abbrev Gen := Nat → Option (Nat × List Decl)

theorem values_append (a b : List Decl) : values (a ++ b) = values a ++ values b := List.filter_append ..

theorem mem_values {ds : List Decl} {d : Decl} : d ∈ values ds ↔ d ∈ ds ∧ d.kind ≠ .type := by
  unfold values
  simp

/-! ### Ends -/

mutual
theorem Stmt.lt_fin {lo : Nat} : ∀ (s : Stmt), s.laid lo → lo < s.fin
  | .simple _ _ _, h => h.1
  | .ret _ _ _, h => by obtain ⟨h1, h2, _⟩ := h; simp only [Stmt.fin]; omega
  | .gen _ _, h => h.elim
  | .box o f hdr lits body, h => by
    obtain ⟨h1, -, -, h4, h5⟩ := h
    have := Stmts.le_fin body h4 (o + 1) (Nat.le_refl _)
    simp only [Stmt.fin]; omega
  | .clause colon lits body, h => by
    obtain ⟨h1, -, h3⟩ := h
    have := Stmts.le_fin body h3 (colon + 1) (Nat.le_refl _)
    simp only [Stmt.fin]; omega
  | .select _ _ _, h => by obtain ⟨h1, h2, _⟩ := h; simp only [Stmt.fin]; omega
  | .label s, h => Stmt.lt_fin s h
theorem Stmts.le_fin {lo : Nat} : ∀ (l : Stmts), l.laid lo → ∀ d, d ≤ lo → d ≤ l.fin d
  | .nil, _, _, _ => Nat.le_refl _
  | .cons s rest, h, d, hd => by
    have h1 := Stmt.lt_fin s h.1
    have h2 := Stmts.le_fin rest h.2 s.fin (by omega)
    simp only [Stmts.fin]; omega
end

theorem Stmt.declares_lt {lo : Nat} : ∀ (s : Stmt), s.laid lo → ∀ d ∈ s.declares, d.pos < s.fin
  | .simple _ _ _, h, d, hd => (h.2.1 d hd).2
  | .ret _ _ _, _, _, hd => by cases hd
  | .gen _ _, _, _, hd => by cases hd
  | .box _ _ _ _ _, _, _, hd => by cases hd
  | .clause _ _ _, _, _, hd => by cases hd
  | .select _ _ _, _, _, hd => by cases hd
  | .label s, h, d, hd => Stmt.declares_lt s h d hd

mutual
/-- Replacing returns moves no end beyond `r`. -/
theorem Stmt.fin_replace {g : Gen} {r : Nat} (hg : ∀ p gf ds, g p = some (gf, ds) → gf < r) : ∀ (s : Stmt), s.fin < r → (s.replace g).fin < r
  | .simple _ _ _, h => h
  | .ret p f lits, h => by
    simp only [Stmt.replace]
    cases hp : g p with
    | none => exact h
    | some q => exact hg p q.1 q.2 hp
  | .gen _ _, h => h
  | .box _ _ _ _ _, h => h
  | .clause colon lits body, h => Stmts.fin_replace hg body _ _ (fun h => h) h
  | .select _ _ _, h => h
  | .label s, h => Stmt.fin_replace hg s h
theorem Stmts.fin_replace {g : Gen} {r : Nat} (hg : ∀ p gf ds, g p = some (gf, ds) → gf < r) :
    ∀ (l : Stmts) (d d' : Nat), (d < r → d' < r) → l.fin d < r → (l.replace g).fin d' < r
  | .nil, _, _, h, h' => h h'
  | .cons s rest, _, _, _, h' => Stmts.fin_replace hg rest s.fin (s.replace g).fin (Stmt.fin_replace hg s) h'
end

/-! ### Before the return -/

theorem Lits.scan_before {g : Gen} {r lo hi : Nat} (hr : hi < r) : ∀ (l : Lits), l.laid lo hi → (l.replace g).scan r = []
  | .nil, _ => rfl
  | .cons o f body rest, h => by
    obtain ⟨-, -, -, h4, h5⟩ := h
    simp only [Lits.replace, Lits.scan]
    rw [if_pos (by omega), Lits.scan_before hr rest h5]; rfl

/-- Of a statement that is over, the scan finds what it declares. -/
theorem Stmt.scan_before {g : Gen} {r : Nat} (hg : ∀ p gf ds, g p = some (gf, ds) → gf < r) {lo : Nat} :
    ∀ (s : Stmt), s.laid lo → s.fin < r → (s.replace g).scan r = values s.declares
  | .simple f ds lits, h, hr => by
    simp only [Stmt.replace, Stmt.scan, Stmt.declares]
    rw [Lits.scan_before hr lits h.2.2, List.append_nil]
  | .ret p f lits, h, hr => by
    simp only [Stmt.replace, Stmt.declares]
    cases hp : g p with
    | none => exact Lits.scan_before hr lits h.2.2
    | some q => exact if_pos (hg p q.1 q.2 hp)
  | .gen _ _, h, _ => h.elim
  | .box _ _ _ _ _, _, hr => if_pos hr
  | .clause colon lits body, h, hr => if_pos (Stmts.fin_replace hg body _ _ (fun h => h) hr)
  | .select _ _ _, _, hr => if_pos hr
  | .label s, h, hr => Stmt.scan_before hg s h hr

/-! ### After the return -/

mutual
theorem Stmt.scan_after {g : Gen} {r : Nat} (hg : ∀ p q, g p = some q → p < r) {lo : Nat} (hr : r < lo) :
    ∀ (s : Stmt), s.laid lo → ∀ d ∈ (s.replace g).scan r, r < d.pos
  | .simple f ds lits, h, d, hd => by
    simp only [Stmt.replace, Stmt.scan, List.mem_append] at hd
    rcases hd with hd | hd
    · have := (h.2.1 d (mem_values.mp hd).1).1; omega
    · exact Lits.scan_after hg (by omega) lits h.2.2 d hd
  | .ret p f lits, h, d, hd => by
    simp only [Stmt.replace] at hd
    have hp : g p = none := by
      cases hp : g p with
      | none => rfl
      | some q => have := hg p q hp; have := h.1; omega
    rw [hp] at hd
    exact Lits.scan_after hg (by have := h.1; omega) lits h.2.2 d hd
  | .gen _ _, h, _, _ => h.elim
  | .box o f hdr lits body, h, d, hd => by
    obtain ⟨h1, h2, h3, h4, h5⟩ := h
    simp only [Stmt.replace, Stmt.scan] at hd
    split at hd
    · cases hd
    · simp only [List.mem_append] at hd
      rcases hd with (hd | hd) | hd
      · have := (h2 d (mem_values.mp hd).1).1; omega
      · exact Lits.scan_after hg (by omega) lits h3 d hd
      · exact Stmts.scan_after hg (by omega) body h4 d hd
  | .clause colon lits body, h, d, hd => by
    obtain ⟨h1, h2, h3⟩ := h
    simp only [Stmt.replace, Stmt.scan] at hd
    split at hd
    · cases hd
    · simp only [List.mem_append] at hd
      rcases hd with hd | hd
      · exact Lits.scan_after hg (by omega) lits h2 d hd
      · exact Stmts.scan_after hg (by omega) body h3 d hd
  | .select o f cs, h, d, hd => by
    obtain ⟨h1, h2, h3⟩ := h
    simp only [Stmt.replace, Stmt.scan] at hd
    split at hd
    · cases hd
    · exact Comms.scan_after hg (by omega) cs h3 d hd
  | .label s, h, d, hd => Stmt.scan_after hg hr s h d hd
theorem Stmts.scan_after {g : Gen} {r : Nat} (hg : ∀ p q, g p = some q → p < r) {lo : Nat} (hr : r < lo) :
    ∀ (l : Stmts), l.laid lo → ∀ d ∈ (l.replace g).scan r, r < d.pos
  | .nil, _, _, hd => by cases hd
  | .cons s rest, h, d, hd => by
    simp only [Stmts.replace, Stmts.scan, List.mem_append] at hd
    rcases hd with hd | hd
    · exact Stmt.scan_after hg hr s h.1 d hd
    · exact Stmts.scan_after hg (by have := Stmt.lt_fin s h.1; omega) rest h.2 d hd
theorem Lits.scan_after {g : Gen} {r : Nat} (hg : ∀ p q, g p = some q → p < r) {lo hi : Nat} (hr : r ≤ lo) :
    ∀ (l : Lits), l.laid lo hi → ∀ d ∈ (l.replace g).scan r, r < d.pos
  | .nil, _, _, hd => by cases hd
  | .cons o f body rest, h, d, hd => by
    obtain ⟨h1, h2, h3, h4, h5⟩ := h
    simp only [Lits.replace, Lits.scan, List.mem_append] at hd
    rcases hd with hd | hd
    · split at hd
      · cases hd
      · exact Stmts.scan_after hg (by omega) body h2 d hd
    · exact Lits.scan_after hg hr rest h5 d hd
theorem Comms.scan_after {g : Gen} {r : Nat} (hg : ∀ p q, g p = some q → p < r) {lo hi : Nat} (hr : r < lo) :
    ∀ (l : Comms), l.laid lo hi → ∀ d ∈ (l.replace g).scan r, r < d.pos
  | .nil, _, _, hd => by cases hd
  | .cons colon ds lits body rest, h, d, hd => by
    obtain ⟨h1, h2, h3, h4, h5, h6⟩ := h
    simp only [Comms.replace, Comms.scan, List.mem_append] at hd
    rcases hd with ((hd | hd) | hd) | hd
    · have := (h2 d (mem_values.mp hd).1).1; omega
    · exact Lits.scan_after hg (by omega) lits h3 d hd
    · exact Stmts.scan_after hg (by omega) body h4 d hd
    · have := Stmts.le_fin body h4 (colon + 1) (Nat.le_refl _)
      exact Comms.scan_after hg (by omega) rest h6 d hd
end

mutual
/-- What comes after the return ends after it, replaced or not. -/
theorem Stmt.fin_after {g : Gen} {r : Nat} (hg : ∀ p q, g p = some q → p < r) {lo : Nat} (hr : r < lo) :
    ∀ (s : Stmt), s.laid lo → r ≤ (s.replace g).fin
  | .simple f ds lits, h => by have := h.1; simp only [Stmt.replace, Stmt.fin]; omega
  | .ret p f lits, h => by
    obtain ⟨h1, h2, -⟩ := h
    have hp : g p = none := by
      cases hp : g p with
      | none => rfl
      | some q => have := hg p q hp; omega
    simp only [Stmt.replace, hp, Stmt.fin]; omega
  | .gen _ _, h => h.elim
  | .box o f hdr lits body, h => by
    have := Stmt.lt_fin (.box o f hdr lits body) h
    simp only [Stmt.replace, Stmt.fin] at *; omega
  | .clause colon lits body, h => by
    obtain ⟨h1, -, h3⟩ := h
    exact Stmts.fin_after hg (by omega) body h3 (colon + 1) (by omega)
  | .select o f cs, h => by
    have := Stmt.lt_fin (.select o f cs) h
    simp only [Stmt.replace, Stmt.fin] at *; omega
  | .label s, h => Stmt.fin_after hg hr s h
theorem Stmts.fin_after {g : Gen} {r : Nat} (hg : ∀ p q, g p = some q → p < r) {lo : Nat} (hr : r < lo) :
    ∀ (l : Stmts), l.laid lo → ∀ d, r ≤ d → r ≤ (l.replace g).fin d
  | .nil, _, _, hd => hd
  | .cons s rest, h, d, hd => by
    have := Stmt.lt_fin s h.1
    exact Stmts.fin_after hg (by omega) rest h.2 _ (Stmt.fin_after hg hr s h.1)
end

/-! ### At the return -/

/-- What is known about a part with the return inside: the scope, the names the scan finds up to `r`, and the ends. -/
structure Inside (g : Gen) (r lo : Nat) (sc out : Scp) (scan : List Decl) (added : List Decl) : Prop where
  out : out = sc ++ added
  before : ∀ d ∈ added, d.pos ≤ r
  scan : ∀ d, (d ∈ scan ∧ d.pos ≤ r) ↔ d ∈ values added
  lo : lo ≤ r

mutual
theorem Stmt.inside {g : Gen} {r : Nat} (hg : ∀ p gf ds, g p = some (gf, ds) → p < r ∧ gf < r) {lo : Nat} :
    ∀ (s : Stmt), s.laid lo → ∀ {sc out}, s.scope sc r = some out →
      (∃ added, Inside g r lo sc out ((s.replace g).scan r) added) ∧ r < s.fin ∧ r ≤ (s.replace g).fin
  | .simple _ _ _, _, _, _, hs => by cases hs
  | .ret p f lits, h, sc, out, hs => by
    simp only [Stmt.scope] at hs
    split at hs
    · rename_i hp
      subst hp
      cases hs
      obtain ⟨h1, h2, h3⟩ := h
      have hp : g p = none := by
        cases hp : g p with
        | none => rfl
        | some q => have := (hg p q.1 q.2 hp).1; omega
      simp only [Stmt.replace, hp, Stmt.fin]
      refine ⟨⟨[], ⟨by simp, by simp, ?_, h1⟩⟩, h2, by omega⟩
      intro d
      simp only [Stmt.scan]
      constructor
      · rintro ⟨hd, hle⟩
        have := Lits.scan_after (fun p q hq => (hg p q.1 q.2 hq).1) (Nat.le_refl _) lits h3 d hd
        omega
      · intro hd; cases hd
    · cases hs
  | .gen _ _, h, _, _, _ => h.elim
  | .box o f hdr lits body, h, sc, out, hs => by
    obtain ⟨h1, h2, h3, h4, h5⟩ := h
    simp only [Stmt.scope] at hs
    obtain ⟨⟨added, hi⟩, h6, h7⟩ := Stmts.inside hg body h4 hs
    have h6 := h6 (o + 1)
    have hlo := hi.lo
    refine ⟨⟨hdr ++ added, ⟨by rw [hi.out, List.append_assoc], ?_, ?_, by omega⟩⟩, by simp only [Stmt.fin]; omega, by simp only [Stmt.replace, Stmt.fin]; omega⟩
    · intro d hd
      rcases List.mem_append.mp hd with hd | hd
      · have := (h2 d hd).2; omega
      · exact hi.before d hd
    · intro d
      simp only [Stmt.replace, Stmt.scan]
      rw [if_neg (by omega), Lits.scan_before (by omega) lits h3, List.append_nil, values_append, List.mem_append, List.mem_append, ← hi.scan]
      constructor
      · rintro ⟨hd | hd, hle⟩
        · exact Or.inl hd
        · exact Or.inr ⟨hd, hle⟩
      · rintro (hd | ⟨hd, hle⟩)
        · exact ⟨Or.inl hd, by have := (h2 d (mem_values.mp hd).1).2; omega⟩
        · exact ⟨Or.inr hd, hle⟩
  | .clause colon lits body, h, sc, out, hs => by
    obtain ⟨h1, h2, h3⟩ := h
    simp only [Stmt.scope] at hs
    obtain ⟨⟨added, hi⟩, h6, h7⟩ := Stmts.inside hg body h3 hs
    have hlo := hi.lo
    refine ⟨⟨added, ⟨hi.out, hi.before, ?_, by omega⟩⟩, h6 _, h7 _⟩
    intro d
    simp only [Stmt.replace, Stmt.scan]
    have := h7 (colon + 1)
    rw [if_neg (by omega), Lits.scan_before (by omega) lits h2, List.nil_append]
    exact hi.scan d
  | .select _ _ _, _, _, _, hs => by cases hs
  | .label s, h, sc, out, hs => Stmt.inside hg s h hs
theorem Stmts.inside {g : Gen} {r : Nat} (hg : ∀ p gf ds, g p = some (gf, ds) → p < r ∧ gf < r) {lo : Nat} :
    ∀ (l : Stmts), l.laid lo → ∀ {sc out}, l.scope sc r = some out →
      (∃ added, Inside g r lo sc out ((l.replace g).scan r) added) ∧ (∀ d, r < l.fin d) ∧ ∀ d, r ≤ (l.replace g).fin d
  | .nil, _, _, _, hs => by cases hs
  | .cons s rest, h, sc, out, hs => by
    have hg1 : ∀ p q, g p = some q → p < r := fun p q hq => (hg p q.1 q.2 hq).1
    have hg2 : ∀ p gf ds, g p = some (gf, ds) → gf < r := fun p gf ds hq => (hg p gf ds hq).2
    simp only [Stmts.scope] at hs
    cases hsc : s.scope sc r with
    | some o =>
      rw [hsc] at hs
      obtain rfl := Option.some.inj hs
      obtain ⟨⟨added, hi⟩, h6, h7⟩ := Stmt.inside hg s h.1 hsc
      refine ⟨⟨added, ⟨hi.out, hi.before, ?_, hi.lo⟩⟩, ?_, ?_⟩
      · intro d
        simp only [Stmts.replace, Stmts.scan, List.mem_append]
        rw [← hi.scan]
        constructor
        · rintro ⟨hd | hd, hle⟩
          · exact ⟨hd, hle⟩
          · have := Stmts.scan_after hg1 (by omega) rest h.2 d hd
            omega
        · rintro ⟨hd, hle⟩
          exact ⟨Or.inl hd, hle⟩
      · intro d
        have := Stmts.le_fin rest h.2 s.fin (by omega)
        simp only [Stmts.fin]; omega
      · intro d
        exact Stmts.fin_after hg1 (by omega) rest h.2 _ h7
    | none =>
      rw [hsc] at hs
      obtain ⟨⟨added, hi⟩, h6, h7⟩ := Stmts.inside hg rest h.2 hs
      have hlo := hi.lo
      have hlt := Stmt.lt_fin s h.1
      refine ⟨⟨s.declares ++ added, ⟨by rw [hi.out, List.append_assoc], ?_, ?_, by omega⟩⟩, fun _ => h6 _, fun _ => h7 _⟩
      · intro d hd
        rcases List.mem_append.mp hd with hd | hd
        · have := Stmt.declares_lt s h.1 d hd; omega
        · exact hi.before d hd
      · intro d
        simp only [Stmts.replace, Stmts.scan, List.mem_append]
        rw [Stmt.scan_before hg2 s h.1 (by omega), values_append, List.mem_append, ← hi.scan]
        constructor
        · rintro ⟨hd | hd, hle⟩
          · exact Or.inl hd
          · exact Or.inr ⟨hd, hle⟩
        · rintro (hd | ⟨hd, hle⟩)
          · exact ⟨Or.inl hd, by have := Stmt.declares_lt s h.1 d (mem_values.mp hd).1; omega⟩
          · exact ⟨Or.inr hd, hle⟩
end

/-! ### At the end -/

/-- A body that is over before `r`: the names of its statements. -/
theorem Stmts.at_end {g : Gen} {r : Nat} (hg : ∀ p gf ds, g p = some (gf, ds) → gf < r) {lo : Nat} : ∀ (l : Stmts), l.laid lo →
    ∀ d0, l.fin d0 < r → ∀ sc, ∃ added, l.atEnd sc = sc ++ added ∧ (∀ d ∈ added, d.pos ≤ r) ∧ (l.replace g).scan r = values added
  | .nil, _, _, _, sc => ⟨[], by simp [Stmts.atEnd], by simp, rfl⟩
  | .cons s rest, h, d0, hr, sc => by
    simp only [Stmts.fin] at hr
    have hle := Stmts.le_fin rest h.2 s.fin (by omega)
    obtain ⟨added, h1, h2, h3⟩ := Stmts.at_end hg rest h.2 s.fin hr (sc ++ s.declares)
    refine ⟨s.declares ++ added, by rw [Stmts.atEnd, h1, List.append_assoc], ?_, ?_⟩
    · intro d hd
      rcases List.mem_append.mp hd with hd | hd
      · have := Stmt.declares_lt s h.1 d hd; omega
      · exact h2 d hd
    · simp only [Stmts.replace, Stmts.scan]
      rw [Stmt.scan_before hg s h.1 (by omega), h3, values_append]

/-! ### The map of names -/

theorem insertPos_perm (d : Decl) : ∀ l, (insertPos d l).Perm (d :: l)
  | [] => .refl _
  | e :: l => by
    unfold insertPos
    split
    · exact .refl _
    · exact ((insertPos_perm d l).cons e).trans (.swap d e l)

theorem sortPos_perm : ∀ l, (sortPos l).Perm l
  | [] => .refl _
  | d :: l => (insertPos_perm d (sortPos l)).trans ((sortPos_perm l).cons d)

theorem insertPos_sorted (d : Decl) : ∀ l, l.Pairwise (fun a b => a.pos ≤ b.pos) → (insertPos d l).Pairwise fun a b => a.pos ≤ b.pos
  | [], _ => by simp [insertPos]
  | e :: l, h => by
    unfold insertPos
    have h' := List.pairwise_cons.mp h
    split
    · rename_i hle
      refine List.pairwise_cons.mpr ⟨?_, h⟩
      intro b hb
      rcases List.mem_cons.mp hb with rfl | hb
      · exact hle
      · have := h'.1 b hb; omega
    · rename_i hle
      refine List.pairwise_cons.mpr ⟨?_, insertPos_sorted d l h'.2⟩
      intro b hb
      rcases List.mem_cons.mp ((insertPos_perm d l).mem_iff.mp hb) with rfl | hb
      · omega
      · exact h'.1 b hb

theorem sortPos_sorted : ∀ l, (sortPos l).Pairwise fun a b => a.pos ≤ b.pos
  | [] => .nil
  | d :: l => insertPos_sorted d _ (sortPos_sorted l)

/-- The map holds, for each name of the list up to `r`, its last position. -/
structure Latest (r : Nat) (l m : List Decl) : Prop where
  nodup : (m.map (·.name)).Nodup
  names : ∀ x, x ∈ m.map (·.name) ↔ x ≠ "_" ∧ ∃ d ∈ l, d.name = x ∧ d.pos ≤ r
  last : ∀ c ∈ m, c ∈ l ∧ ∀ d ∈ l, d.name = c.name → d.pos ≤ r → d.pos ≤ c.pos

theorem latest_snoc {r : Nat} {l m : List Decl} (h : Latest r l m) (d : Decl) : Latest r (l ++ [d]) (addIdent r m d) := by
  unfold addIdent
  by_cases hskip : d.name = "_" ∨ d.pos > r
  · rw [if_pos hskip]
    refine ⟨h.nodup, ?_, ?_⟩
    · intro x
      rw [h.names]
      constructor
      · rintro ⟨h1, e, he, h2⟩
        exact ⟨h1, e, List.mem_append_left _ he, h2⟩
      · rintro ⟨h1, e, he, h2, h3⟩
        refine ⟨h1, e, ?_, h2, h3⟩
        rcases List.mem_append.mp he with he | he
        · exact he
        · exfalso
          rw [List.mem_singleton.mp he] at h2 h3
          rcases hskip with hs | hs
          · exact h1 (h2.symm.trans hs)
          · omega
    · intro c hc
      refine ⟨List.mem_append_left _ (h.last c hc).1, ?_⟩
      intro e he hn hle
      rcases List.mem_append.mp he with he | he
      · exact (h.last c hc).2 e he hn hle
      · exfalso
        rw [List.mem_singleton.mp he] at hn hle
        have hcn := ((h.names c.name).mp (List.mem_map.mpr ⟨c, hc, rfl⟩)).1
        rcases hskip with hs | hs
        · exact hcn (hn.symm.trans hs)
        · omega
  · rw [if_neg hskip]
    have hn0 : d.name ≠ "_" := fun hh => hskip (Or.inl hh)
    have hle0 : d.pos ≤ r := by
      by_contra hh
      exact hskip (Or.inr (by omega))
    cases hf : m.find? fun c => decide (c.name = d.name) with
    | none =>
      dsimp only
      have hnot : d.name ∉ m.map (·.name) := by
        intro hm
        obtain ⟨c, hc, he⟩ := List.mem_map.mp hm
        have := List.find?_eq_none.mp hf c hc
        simp [he] at this
      refine ⟨?_, ?_, ?_⟩
      · rw [List.map_append, List.nodup_append]
        refine ⟨h.nodup, by simp, ?_⟩
        intro a ha b hb
        rw [List.map_cons, List.map_nil, List.mem_singleton] at hb
        rintro rfl
        exact hnot (hb ▸ ha)
      · intro x
        rw [List.map_append, List.mem_append, h.names]
        constructor
        · rintro (⟨h1, e, he, h2⟩ | hx)
          · exact ⟨h1, e, List.mem_append_left _ he, h2⟩
          · have hx : x = d.name := by simpa using hx
            subst hx
            exact ⟨hn0, d, by simp, rfl, hle0⟩
        · rintro ⟨h1, e, he, h2, h3⟩
          rcases List.mem_append.mp he with he | he
          · exact Or.inl ⟨h1, e, he, h2, h3⟩
          · right
            rw [List.mem_singleton.mp he] at h2
            simp [h2]
      · intro c hc
        rcases List.mem_append.mp hc with hc | hc
        · refine ⟨List.mem_append_left _ (h.last c hc).1, ?_⟩
          intro e he hn hle
          rcases List.mem_append.mp he with he | he
          · exact (h.last c hc).2 e he hn hle
          · exfalso
            rw [List.mem_singleton.mp he] at hn
            exact hnot (List.mem_map.mpr ⟨c, hc, hn.symm⟩)
        · rw [List.mem_singleton.mp hc]
          refine ⟨by simp, ?_⟩
          intro e he hn hle
          rcases List.mem_append.mp he with he | he
          · exfalso
            exact hnot ((h.names d.name).mpr ⟨hn0, e, he, hn, hle⟩)
          · rw [List.mem_singleton.mp he]
    | some c =>
      have hc : c ∈ m := List.mem_of_find?_eq_some hf
      have hcn : c.name = d.name := by simpa using List.find?_some hf
      dsimp only
      have hnames : ∀ x, (x ≠ "_" ∧ ∃ e ∈ l ++ [d], e.name = x ∧ e.pos ≤ r) ↔ x ∈ m.map (·.name) := by
        intro x
        rw [h.names]
        constructor
        · rintro ⟨h1, e, he, h2, h3⟩
          rcases List.mem_append.mp he with he | he
          · exact ⟨h1, e, he, h2, h3⟩
          · rw [List.mem_singleton.mp he] at h2
            rw [← h2, ← hcn]
            exact (h.names c.name).mp (List.mem_map.mpr ⟨c, hc, rfl⟩)
        · rintro ⟨h1, e, he, h2⟩
          exact ⟨h1, e, List.mem_append_left _ he, h2⟩
      -- entries of the map with one name are one entry
      have uniq : ∀ e ∈ m, e.name = d.name → e = c := by
        intro e he hn
        have := List.inj_on_of_nodup_map h.nodup
        exact this he hc (hn.trans hcn.symm)
      split
      · rename_i hlt
        refine ⟨?_, ?_, ?_⟩
        · rw [List.map_cons, List.nodup_cons]
          refine ⟨?_, (List.Nodup.sublist (List.Sublist.map _ List.filter_sublist) h.nodup)⟩
          intro hm
          obtain ⟨e, he, hn⟩ := List.mem_map.mp hm
          have := (List.mem_filter.mp he).2
          simp [hn] at this
        · intro x
          rw [hnames, List.map_cons, List.mem_cons]
          constructor
          · rintro (rfl | hx)
            · rw [← hcn]; exact List.mem_map.mpr ⟨c, hc, rfl⟩
            · obtain ⟨e, he, hn⟩ := List.mem_map.mp hx
              exact List.mem_map.mpr ⟨e, (List.mem_filter.mp he).1, hn⟩
          · intro hx
            obtain ⟨e, he, rfl⟩ := List.mem_map.mp hx
            by_cases hn : e.name = d.name
            · exact Or.inl hn
            · exact Or.inr (List.mem_map.mpr ⟨e, List.mem_filter.mpr ⟨he, by simpa using hn⟩, rfl⟩)
        · intro e he
          rcases List.mem_cons.mp he with rfl | he
          · refine ⟨by simp, ?_⟩
            intro b hb hn hle
            rcases List.mem_append.mp hb with hb | hb
            · have := (h.last c hc).2 b hb (hn.trans hcn.symm) hle
              omega
            · rw [List.mem_singleton.mp hb]
          · obtain ⟨he, hne⟩ := List.mem_filter.mp he
            refine ⟨List.mem_append_left _ (h.last e he).1, ?_⟩
            intro b hb hn hle
            rcases List.mem_append.mp hb with hb | hb
            · exact (h.last e he).2 b hb hn hle
            · rw [List.mem_singleton.mp hb] at hn
              simp [hn] at hne
      · rename_i hlt
        refine ⟨h.nodup, fun x => (hnames x).symm, ?_⟩
        intro e he
        refine ⟨List.mem_append_left _ (h.last e he).1, ?_⟩
        intro b hb hn hle
        rcases List.mem_append.mp hb with hb | hb
        · exact (h.last e he).2 b hb hn hle
        · rw [List.mem_singleton.mp hb] at hn ⊢
          rw [uniq e he hn.symm]
          omega

theorem latest_fold (r : Nat) (l : List Decl) : Latest r l (l.foldl (addIdent r) []) := by
  suffices H : ∀ (l p m : List Decl), Latest r p m → Latest r (p ++ l) (l.foldl (addIdent r) m) by
    simpa using H l [] [] ⟨by simp, by simp, by simp⟩
  intro l
  induction l with
  | nil => intro p m h; simpa using h
  | cons d l ih =>
    intro p m h
    have := ih (p ++ [d]) (addIdent r m d) (latest_snoc h d)
    simpa using this

theorem latest_pos (r : Nat) (l : List Decl) : ∀ d ∈ l.foldl (addIdent r) [], d.pos ≤ r := by
  suffices H : ∀ (l m : List Decl), (∀ d ∈ m, d.pos ≤ r) → ∀ d ∈ l.foldl (addIdent r) m, d.pos ≤ r from H l [] (by simp)
  intro l
  induction l with
  | nil => intro m h; exact h
  | cons e l ih =>
    intro m h
    refine ih _ ?_
    intro d hd
    unfold addIdent at hd
    split at hd
    · exact h d hd
    · rename_i hs
      have he : e.pos ≤ r := by by_contra hh; exact hs (Or.inr (by omega))
      split at hd
      · rcases List.mem_append.mp hd with hd | hd
        · exact h d hd
        · rw [List.mem_singleton.mp hd]; exact he
      · split at hd
        · rcases List.mem_cons.mp hd with rfl | hd
          · exact he
          · exact h d (List.mem_filter.mp hd).1
        · exact h d hd

theorem mem_visible {f : Fn} {r : Nat} (hr : r ≤ f.rbrace) (x : String) : x ∈ (visible f r).map (·.name) ↔
    x ≠ "_" ∧ ∃ d, (d ∈ f.params ++ f.results ∨ d ∈ f.body.scan r) ∧ d.name = x ∧ d.pos ≤ r := by
  unfold visible
  rw [((sortPos_perm _).map _).mem_iff, (latest_fold r _).names]
  simp only [Stmt.scan]
  rw [if_neg (by omega)]
  simp [values, Lits.scan, or_assoc]

/-- With names that are declared only as types or only otherwise, a name means a value just if one of its declarations does. -/
theorem meaning_value {sc : Scp} (h : NoClash sc) (x : String) : (∃ k, meaning sc x = some k ∧ k ≠ .type) ↔ ∃ d ∈ sc, d.name = x ∧ d.kind ≠ .type := by
  unfold meaning
  constructor
  · rintro ⟨k, hk, hne⟩
    obtain ⟨d, hd, rfl⟩ := Option.map_eq_some_iff.mp hk
    exact ⟨d, List.mem_reverse.mp (List.mem_of_find?_eq_some hd), by simpa using List.find?_some hd, hne⟩
  · rintro ⟨d, hd, hn, hk⟩
    cases hf : sc.reverse.find? fun d => decide (d.name = x) with
    | none =>
      have := List.find?_eq_none.mp hf d (List.mem_reverse.mpr hd)
      simp [hn] at this
    | some e =>
      refine ⟨e.kind, rfl, ?_⟩
      intro ht
      have hen : e.name = x := by simpa using List.find?_some hf
      exact hk (h e (List.mem_reverse.mp (List.mem_of_find?_eq_some hf)) d hd (hen.trans hn.symm) ht)

end Verif.Scope
