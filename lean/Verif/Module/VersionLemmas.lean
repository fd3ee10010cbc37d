import Verif.Module.Spec

namespace Verif.Module

/-! ### Signs -/

section
variable {α : Type} [LinearOrder α]

theorem sgn_self (a : α) : sgn a a = 0 := by simp [sgn]

theorem sgn_lt {a b : α} (h : a < b) : sgn a b = -1 := by simp [sgn, h]

theorem sgn_gt {a b : α} (h : b < a) : sgn a b = 1 := by
  have h1 : ¬ a < b := not_lt_of_gt h
  have h2 : ¬ a = b := ne_of_gt h
  simp [sgn, h1, h2]

theorem sgn_swap (a b : α) : sgn b a = - sgn a b := by
  rcases lt_trichotomy a b with h | h | h
  · rw [sgn_lt h, sgn_gt h]; rfl
  · subst h; rw [sgn_self]; rfl
  · rw [sgn_gt h, sgn_lt h]

theorem sgn_zero {a b : α} : sgn a b = 0 ↔ a = b := by
  rcases lt_trichotomy a b with h | h | h
  · rw [sgn_lt h]; simp [ne_of_lt h]
  · subst h; simp [sgn_self]
  · rw [sgn_gt h]; simp [ne_of_gt h]

theorem sgn_neg {a b : α} : sgn a b < 0 ↔ a < b := by
  rcases lt_trichotomy a b with h | h | h
  · rw [sgn_lt h]; simp [h]
  · subst h; simp [sgn_self]
  · rw [sgn_gt h]; simp [le_of_lt h]

theorem sgn_le {a b : α} : sgn a b ≤ 0 ↔ a ≤ b := by
  rcases lt_trichotomy a b with h | h | h
  · rw [sgn_lt h]; simp [le_of_lt h]
  · subst h; simp [sgn_self]
  · rw [sgn_gt h]; simp [h]

theorem sgn_pos {a b : α} : 0 < sgn a b ↔ b < a := by
  rcases lt_trichotomy a b with h | h | h
  · rw [sgn_lt h]; simp [le_of_lt h]
  · subst h; simp [sgn_self]
  · rw [sgn_gt h]; simp [h]

theorem sgn_cons (a b : α) (x y : List α) : sgn (a :: x) (b :: y) = if a = b then sgn x y else sgn a b := by
  by_cases h : a = b
  · subst h
    rw [if_pos rfl]
    rcases lt_trichotomy x y with h | h | h
    · rw [sgn_lt h, sgn_lt (List.cons_lt_cons_iff.mpr (Or.inr ⟨rfl, h⟩))]
    · rw [h, sgn_self, sgn_self]
    · rw [sgn_gt h, sgn_gt (List.cons_lt_cons_iff.mpr (Or.inr ⟨rfl, h⟩))]
  · rw [if_neg h]
    rcases lt_or_gt_of_ne h with h | h
    · rw [sgn_lt h, sgn_lt (List.cons_lt_cons_iff.mpr (Or.inl h))]
    · rw [sgn_gt h, sgn_gt (List.cons_lt_cons_iff.mpr (Or.inl h))]

theorem sgn_nil_cons (a : α) (x : List α) : sgn [] (a :: x) = -1 := sgn_lt (List.nil_lt_cons _ _)

theorem sgn_cons_nil (a : α) (x : List α) : sgn (a :: x) [] = 1 := sgn_gt (List.nil_lt_cons _ _)

theorem sgn_map {β : Type} [LinearOrder β] (f : α → β) (hf : ∀ a b, a < b → f a < f b) (a b : α) : sgn (f a) (f b) = sgn a b := by
  rcases lt_trichotomy a b with h | h | h
  · rw [sgn_lt h, sgn_lt (hf _ _ h)]
  · subst h; rw [sgn_self, sgn_self]
  · rw [sgn_gt h, sgn_gt (hf _ _ h)]

end

/-! ### Numbers -/

theorem isDigit_iff (b : UInt8) : isDigit b = true ↔ 48 ≤ b.toNat ∧ b.toNat ≤ 57 := by
  unfold isDigit
  simp only [Bool.and_eq_true, decide_eq_true_eq, UInt8.le_iff_toNat_le]
  rfl

theorem isNum_iff (v : Bytes) : isNum v = true ↔ Digits v := by
  unfold isNum Digits
  rw [List.all_eq_true]
  exact forall_congr' fun b => forall_congr' fun _ => isDigit_iff b

theorem numVal_lt : ∀ {v : Bytes}, Digits v → numVal v < 10 ^ v.length
  | [], _ => by simp [numVal]
  | b :: v, h => by
      have hb := h b List.mem_cons_self
      have ih := numVal_lt (v := v) fun x hx => h x (List.mem_cons_of_mem _ hx)
      simp only [numVal, List.length_cons, Nat.pow_succ]
      have : (b.toNat - 48) * 10 ^ v.length ≤ 9 * 10 ^ v.length := Nat.mul_le_mul_right _ (by omega)
      omega

theorem numVal_ge {b : UInt8} {v : Bytes} (hb : 49 ≤ b.toNat) : 10 ^ v.length ≤ numVal (b :: v) := by
  simp only [numVal]
  have : 1 * 10 ^ v.length ≤ (b.toNat - 48) * 10 ^ v.length := Nat.mul_le_mul_right _ (by omega)
  omega

theorem strLt_numVal : ∀ {x y : Bytes}, Digits x → Digits y → x.length = y.length → (strLt x y = true ↔ numVal x < numVal y)
  | [], [], _, _, _ => by simp [strLt, numVal]
  | [], _ :: _, _, _, h => by simp at h
  | _ :: _, [], _, _, h => by simp at h
  | a :: x, b :: y, hx, hy, hl => by
      have hl' : x.length = y.length := by simpa using hl
      have dx : Digits x := fun z hz => hx z (List.mem_cons_of_mem _ hz)
      have dy : Digits y := fun z hz => hy z (List.mem_cons_of_mem _ hz)
      have ih := strLt_numVal dx dy hl'
      have ha := hx a List.mem_cons_self
      have hb := hy b List.mem_cons_self
      have lx := numVal_lt dx
      have ly := numVal_lt dy
      rw [hl'] at lx
      simp only [strLt, numVal, hl']
      rcases Nat.lt_trichotomy a.toNat b.toNat with h | h | h
      · have h1 : a < b := UInt8.lt_iff_toNat_lt.mpr h
        simp only [h1, if_true, true_iff]
        have : (a.toNat - 48 + 1) * 10 ^ y.length ≤ (b.toNat - 48) * 10 ^ y.length := Nat.mul_le_mul_right _ (by omega)
        rw [Nat.add_mul] at this
        omega
      · have h1 : ¬ a < b := fun hh => by have := UInt8.lt_iff_toNat_lt.mp hh; omega
        have h2 : ¬ b < a := fun hh => by have := UInt8.lt_iff_toNat_lt.mp hh; omega
        rw [if_neg h1, if_neg h2, ih, h]
        omega
      · have h1 : ¬ a < b := fun hh => by have := UInt8.lt_iff_toNat_lt.mp hh; omega
        have h2 : b < a := UInt8.lt_iff_toNat_lt.mpr h
        rw [if_neg h1, if_pos h2]
        have : (b.toNat - 48 + 1) * 10 ^ y.length ≤ (a.toNat - 48) * 10 ^ y.length := Nat.mul_le_mul_right _ (by omega)
        rw [Nat.add_mul] at this
        constructor
        · intro hh; cases hh
        · intro hh; omega

theorem numVal_inj : ∀ {x y : Bytes}, Digits x → Digits y → x.length = y.length → numVal x = numVal y → x = y
  | [], [], _, _, _, _ => rfl
  | [], _ :: _, _, _, h, _ => by simp at h
  | _ :: _, [], _, _, h, _ => by simp at h
  | a :: x, b :: y, hx, hy, hl, he => by
      have hl' : x.length = y.length := by simpa using hl
      have dx : Digits x := fun z hz => hx z (List.mem_cons_of_mem _ hz)
      have dy : Digits y := fun z hz => hy z (List.mem_cons_of_mem _ hz)
      have ha := hx a List.mem_cons_self
      have hb := hy b List.mem_cons_self
      have lx := numVal_lt dx
      have ly := numVal_lt dy
      rw [hl'] at lx
      simp only [numVal, hl'] at he
      have hab : a.toNat = b.toNat := by
        rcases Nat.lt_trichotomy a.toNat b.toNat with h | h | h
        · have : (a.toNat - 48 + 1) * 10 ^ y.length ≤ (b.toNat - 48) * 10 ^ y.length := Nat.mul_le_mul_right _ (by omega)
          rw [Nat.add_mul] at this
          omega
        · exact h
        · have : (b.toNat - 48 + 1) * 10 ^ y.length ≤ (a.toNat - 48) * 10 ^ y.length := Nat.mul_le_mul_right _ (by omega)
          rw [Nat.add_mul] at this
          omega
      rw [hab] at he
      rw [UInt8.toNat_inj.mp hab, numVal_inj dx dy hl' (by omega)]

/-- Digits without leading zero (the empty text is allowed). -/
def NoLead (v : Bytes) : Prop := Digits v ∧ (v.head? = some 48 → v.length = 1)

theorem numVal_shorter {x y : Bytes} (hx : NoLead x) (hy : NoLead y) (hxn : x ≠ []) (h : x.length < y.length) : numVal x < numVal y := by
  cases y with
  | nil => simp at h
  | cons b y =>
      have hxl : 1 ≤ x.length := List.length_pos_of_ne_nil hxn
      have hb : 49 ≤ b.toNat := by
        have h1 := hy.1 b List.mem_cons_self
        by_contra hlt
        have : b = 48 := UInt8.toNat_inj.mp (by show b.toNat = 48; omega)
        subst this
        have := hy.2 rfl
        have hl2 : (48 :: y : Bytes).length = 1 := this
        omega
      have l1 := numVal_lt hx.1
      have l2 := numVal_ge (v := y) hb
      have : 10 ^ x.length ≤ 10 ^ y.length := Nat.pow_le_pow_right (by omega) (by simpa using Nat.le_of_lt_succ h)
      omega

theorem goodNum_noLead {v : Bytes} (h : GoodNum v) : NoLead v := ⟨h.2.1, h.2.2⟩

theorem compareInt_spec {x y : Bytes} (hx : GoodNum x) (hy : GoodNum y) : compareInt x y = sgn (numVal x) (numVal y) := by
  unfold compareInt
  split
  · rename_i h; subst h; rw [sgn_self]
  · rename_i hne
    split
    · rename_i h
      rw [sgn_lt (numVal_shorter (goodNum_noLead hx) (goodNum_noLead hy) hx.1 h)]
    · split
      · rename_i h
        rw [sgn_gt (numVal_shorter (goodNum_noLead hy) (goodNum_noLead hx) hy.1 h)]
      · have hl : x.length = y.length := by omega
        split
        · rename_i h
          rw [sgn_lt ((strLt_numVal hx.2.1 hy.2.1 hl).mp h)]
        · rename_i h
          have h1 : ¬ numVal x < numVal y := fun hh => h ((strLt_numVal hx.2.1 hy.2.1 hl).mpr hh)
          have h2 : numVal x ≠ numVal y := fun hh => hne (numVal_inj hx.2.1 hy.2.1 hl hh)
          rw [sgn_gt (by omega)]

theorem compareInt_zero {x y : Bytes} (hx : GoodNum x) (hy : GoodNum y) : compareInt x y = 0 ↔ x = y := by
  unfold compareInt
  split
  · rename_i h; simp [h]
  · rename_i h
    simp only [h, iff_false]
    split
    · decide
    · split
      · decide
      · split <;> decide

theorem numVal_goodInj {x y : Bytes} (hx : GoodNum x) (hy : GoodNum y) (h : numVal x = numVal y) : x = y := by
  rw [← compareInt_zero hx hy, compareInt_spec hx hy, h, sgn_self]

/-! ### Words -/

theorem strLt_map : ∀ (x y : Bytes), strLt x y = true ↔ x.map (·.toNat) < y.map (·.toNat)
  | [], [] => by simp [strLt]
  | _ :: _, [] => by simp [strLt]
  | [], _ :: _ => by simp [strLt]
  | a :: x, b :: y => by
      simp only [strLt, List.map_cons, List.cons_lt_cons_iff]
      rcases Nat.lt_trichotomy a.toNat b.toNat with h | h | h
      · have h1 : a < b := UInt8.lt_iff_toNat_lt.mpr h
        simp [h1, h]
      · have h1 : ¬ a < b := fun hh => by have := UInt8.lt_iff_toNat_lt.mp hh; omega
        have h2 : ¬ b < a := fun hh => by have := UInt8.lt_iff_toNat_lt.mp hh; omega
        rw [if_neg h1, if_neg h2, strLt_map x y]
        simp [h]
      · have h1 : ¬ a < b := fun hh => by have := UInt8.lt_iff_toNat_lt.mp hh; omega
        have h2 : b < a := UInt8.lt_iff_toNat_lt.mpr h
        rw [if_neg h1, if_pos h2]
        have h3 : ¬ a.toNat < b.toNat := by omega
        have h4 : ¬ a.toNat = b.toNat := by omega
        simp only [h3, h4, false_and, or_false, iff_false]
        simp

theorem map_toNat_inj {x y : Bytes} (h : x.map (·.toNat) = y.map (·.toNat)) : x = y :=
  List.map_injective_iff.mpr (fun _ _ h => UInt8.toNat_inj.mp h) h

theorem identKey_inj {x y : Bytes} (hx : GoodIdent x) (hy : GoodIdent y) (h : identKey x = identKey y) : x = y := by
  unfold identKey at h
  by_cases dx : Digits x <;> by_cases dy : Digits y
  · simp only [dx, dy, if_true, List.cons.injEq, true_and, and_true] at h
    exact numVal_goodInj ⟨hx.1, dx, hx.2.2 dx⟩ ⟨hy.1, dy, hy.2.2 dy⟩ h
  · simp [dx, dy] at h
  · simp [dx, dy] at h
  · simp only [dx, dy, if_false, List.cons.injEq, true_and] at h
    exact map_toNat_inj h

theorem compareIdent_spec {x y : Bytes} (hx : GoodIdent x) (hy : GoodIdent y) (hne : x ≠ y) : compareIdent x y = sgn (identKey x) (identKey y) := by
  have gx : ∀ d : Digits x, GoodNum x := fun d => ⟨hx.1, d, hx.2.2 d⟩
  have gy : ∀ d : Digits y, GoodNum y := fun d => ⟨hy.1, d, hy.2.2 d⟩
  have nx := isNum_iff x
  have ny := isNum_iff y
  by_cases dx : Digits x <;> by_cases dy : Digits y
  · have e1 : isNum x = true := nx.mpr dx
    have e2 : isNum y = true := ny.mpr dy
    have hk : sgn (identKey x) (identKey y) = compareInt x y := by
      rw [compareInt_spec (gx dx) (gy dy)]
      simp only [identKey, dx, dy, if_true]
      rw [sgn_cons, if_pos rfl, sgn_cons]
      split
      · rename_i h; rw [h, sgn_self, sgn_self]
      · rfl
    rw [hk]
    simp only [compareIdent, compareInt, e1, e2, if_neg hne]
    simp
  · have e1 : isNum x = true := nx.mpr dx
    have e2 : isNum y = false := by cases h : isNum y; rfl; exact absurd (ny.mp h) dy
    simp only [identKey, dx, dy, if_true, if_false]
    rw [sgn_cons, if_neg (by decide)]
    simp [compareIdent, e1, e2, sgn]
  · have e1 : isNum x = false := by cases h : isNum x; rfl; exact absurd (nx.mp h) dx
    have e2 : isNum y = true := ny.mpr dy
    simp only [identKey, dx, dy, if_true, if_false]
    rw [sgn_cons, if_neg (by decide)]
    simp [compareIdent, e1, e2, sgn]
  · have e1 : isNum x = false := by cases h : isNum x; rfl; exact absurd (nx.mp h) dx
    have e2 : isNum y = false := by cases h : isNum y; rfl; exact absurd (ny.mp h) dy
    simp only [compareIdent, e1, e2, identKey, dx, dy, if_false]
    rw [sgn_cons, if_pos rfl]
    simp only [ne_eq, not_true_eq_false, Bool.false_eq_true, false_and, if_false]
    split
    · rename_i h
      rw [sgn_lt ((strLt_map x y).mp h)]
    · rename_i h
      have h1 : ¬ x.map (·.toNat) < y.map (·.toNat) := fun hh => h ((strLt_map x y).mpr hh)
      have h2 : x.map (·.toNat) ≠ y.map (·.toNat) := fun hh => hne (map_toNat_inj hh)
      rcases lt_trichotomy (x.map (·.toNat)) (y.map (·.toNat)) with hh | hh | hh
      · exact absurd hh h1
      · exact absurd hh h2
      · rw [sgn_gt hh]

theorem compareIdents_spec : ∀ (x y : List Bytes), (∀ p ∈ x, GoodIdent p) → (∀ p ∈ y, GoodIdent p) →
    compareIdents x y = sgn (x.map identKey) (y.map identKey)
  | [], [], _, _ => by simp [compareIdents, sgn_self]
  | [], d :: y, _, _ => by rw [List.map_cons, List.map_nil, sgn_nil_cons]; rfl
  | d :: x, [], _, _ => by rw [List.map_cons, List.map_nil, sgn_cons_nil]; rfl
  | dx :: x, dy :: y, hx, hy => by
      have gx := hx dx List.mem_cons_self
      have gy := hy dy List.mem_cons_self
      simp only [compareIdents, List.map_cons, sgn_cons]
      by_cases h : dx = dy
      · subst h
        rw [if_pos rfl, if_pos rfl]
        exact compareIdents_spec x y (fun p hp => hx p (List.mem_cons_of_mem _ hp)) (fun p hp => hy p (List.mem_cons_of_mem _ hp))
      · rw [if_neg h, if_neg (fun hk => h (identKey_inj gx gy hk)), compareIdent_spec gx gy h]

/-- The key of the prerelease part. -/
def preKey (x : List Bytes) : List (List Nat) := if x = [] then [[2]] else x.map identKey

theorem identKey_lt (p : Bytes) : identKey p < [2] := by
  unfold identKey
  split <;> exact List.cons_lt_cons_iff.mpr (Or.inl (by decide))

theorem map_identKey_inj : ∀ {x y : List Bytes}, (∀ p ∈ x, GoodIdent p) → (∀ p ∈ y, GoodIdent p) → x.map identKey = y.map identKey → x = y :=
  fun hx hy h => map_injOn_eq (P := GoodIdent) (fun _ _ ha hb hh => identKey_inj ha hb hh) hx hy h

theorem preKey_inj {x y : List Bytes} (hx : ∀ p ∈ x, GoodIdent p) (hy : ∀ p ∈ y, GoodIdent p) (h : preKey x = preKey y) : x = y := by
  unfold preKey at h
  cases x with
  | nil =>
      cases y with
      | nil => rfl
      | cons d y =>
          simp only [if_true, reduceCtorEq, if_false, List.map_cons, List.cons.injEq] at h
          exact absurd h.1 (ne_of_gt (identKey_lt d))
  | cons c x =>
      cases y with
      | nil =>
          simp only [if_true, reduceCtorEq, if_false, List.map_cons, List.cons.injEq] at h
          exact absurd h.1 (ne_of_lt (identKey_lt c))
      | cons d y =>
          simp only [reduceCtorEq, if_false] at h
          exact map_identKey_inj hx hy h

theorem comparePre_spec {x y : List Bytes} (hx : ∀ p ∈ x, GoodIdent p) (hy : ∀ p ∈ y, GoodIdent p) : comparePre x y = sgn (preKey x) (preKey y) := by
  unfold comparePre
  by_cases h : x = y
  · subst h; rw [if_pos rfl, sgn_self]
  · rw [if_neg h]
    cases x with
    | nil =>
        cases y with
        | nil => exact absurd rfl h
        | cons d y =>
            rw [if_pos rfl]
            rw [sgn_gt]
            exact List.cons_lt_cons_iff.mpr (Or.inl (identKey_lt d))
    | cons c x =>
        rw [if_neg (by simp)]
        cases y with
        | nil =>
            rw [if_pos rfl, sgn_lt]
            exact List.cons_lt_cons_iff.mpr (Or.inl (identKey_lt c))
        | cons d y =>
            rw [if_neg (by simp), compareIdents_spec _ _ hx hy]
            rfl

theorem sgn_single (a b : Nat) : sgn [a] [b] = sgn a b := by
  rw [sgn_cons]
  split
  · rename_i h; rw [h, sgn_self, sgn_self]
  · rfl

theorem compareVer_spec {p q : Ver} (hp : GoodVer p) (hq : GoodVer q) : compareVer p q = sgn (verKey p) (verKey q) := by
  have key : ∀ (a b : Bytes) (x y : List (List Nat)) (r : Int), GoodNum a → GoodNum b → r = sgn x y →
      (if compareInt a b ≠ 0 then compareInt a b else r) = sgn ([numVal a] :: x) ([numVal b] :: y) := by
    intro a b x y r ha hb hr
    rw [sgn_cons]
    by_cases h : a = b
    · subst h
      rw [if_pos rfl, if_neg (by simp [compareInt]), hr]
    · have e1 : compareInt a b ≠ 0 := fun hh => h ((compareInt_zero ha hb).mp hh)
      have e2 : ¬ [numVal a] = [numVal b] := fun hh => h (numVal_goodInj ha hb (by simpa using hh))
      rw [if_pos e1, if_neg e2, compareInt_spec ha hb, sgn_single]
  unfold compareVer verKey
  exact key _ _ _ _ _ hp.major hq.major (key _ _ _ _ _ hp.minor hq.minor (key _ _ _ _ _ hp.patch hq.patch (comparePre_spec hp.pre hq.pre)))

theorem verKey_inj {p q : Ver} (hp : GoodVer p) (hq : GoodVer q) (h : verKey p = verKey q) : p = q := by
  unfold verKey at h
  simp only [List.cons.injEq, and_true] at h
  obtain ⟨h1, h2, h3, h4⟩ := h
  cases p; cases q
  simp only [Ver.mk.injEq]
  exact ⟨numVal_goodInj hp.major hq.major h1, numVal_goodInj hp.minor hq.minor h2, numVal_goodInj hp.patch hq.patch h3,
    preKey_inj hp.pre hq.pre h4⟩

/-! ### Parsing -/

theorem takeWhile_all {p : UInt8 → Bool} {v : Bytes} : ∀ b ∈ v.takeWhile p, p b = true := fun b hb => List.all_eq_true.mp (List.all_takeWhile (p := p) (l := v)) b hb

theorem parseInt_good {v d r : Bytes} (h : parseInt v = some (d, r)) : GoodNum d ∧ v = d ++ r := by
  unfold parseInt at h
  simp only at h
  split at h
  · cases h
  · rename_i hne
    split at h
    · cases h
    · rename_i hlead
      simp only [Option.some.injEq, Prod.mk.injEq] at h
      obtain ⟨rfl, rfl⟩ := h
      refine ⟨⟨hne, fun b hb => (isDigit_iff b).mp (takeWhile_all b hb), ?_⟩, (List.takeWhile_append_dropWhile).symm⟩
      intro hh
      by_contra hl
      exact hlead ⟨hh, hl⟩

theorem parseInt_append {d r : Bytes} (hd : GoodNum d) (hr : ∀ b, r.head? = some b → isDigit b = false) : parseInt (d ++ r) = some (d, r) := by
  have h1 : (d ++ r).takeWhile isDigit = d := by
    have hall : ∀ b ∈ d, isDigit b = true := fun b hb => (isDigit_iff b).mpr (hd.2.1 b hb)
    rw [List.takeWhile_append_of_pos hall]
    cases r with
    | nil => simp
    | cons b r => simp [List.takeWhile_cons, hr b rfl]
  have h2 : (d ++ r).dropWhile isDigit = r := by
    have hall : ∀ b ∈ d, isDigit b = true := fun b hb => (isDigit_iff b).mpr (hd.2.1 b hb)
    rw [List.dropWhile_append_of_pos hall]
    cases r with
    | nil => simp
    | cons b r => simp [List.dropWhile_cons, hr b rfl]
  unfold parseInt
  simp only [h1, h2]
  rw [if_neg hd.1, if_neg]
  rintro ⟨hh, hl⟩
  exact hl (hd.2.2 hh)

theorem cutDots_mem : ∀ {v p : Bytes}, p ∈ cutDots v → ∀ b ∈ p, b ∈ v ∧ b ≠ 46
  | [], p, h, b, hb => by simp [cutDots] at h; subst h; simp at hb
  | c :: v, p, h, b, hb => by
      unfold cutDots at h
      split at h
      · rcases List.mem_cons.mp h with rfl | h
        · simp at hb
        · have := cutDots_mem h b hb
          exact ⟨List.mem_cons_of_mem _ this.1, this.2⟩
      · rename_i hc
        cases hcut : cutDots v with
        | nil =>
            rw [hcut] at h
            simp only [List.mem_singleton] at h
            subst h
            simp only [List.mem_singleton] at hb
            subst hb
            exact ⟨List.mem_cons_self, hc⟩
        | cons q qs =>
            rw [hcut] at h
            simp only [List.mem_cons] at h
            rcases h with rfl | h
            · rcases List.mem_cons.mp hb with rfl | hb
              · exact ⟨List.mem_cons_self, hc⟩
              · have := cutDots_mem (v := v) (p := q) (by rw [hcut]; simp) b hb
                exact ⟨List.mem_cons_of_mem _ this.1, this.2⟩
            · have := cutDots_mem (v := v) (p := p) (by rw [hcut]; simp [h]) b hb
              exact ⟨List.mem_cons_of_mem _ this.1, this.2⟩

theorem cutDots_ne_nil : ∀ v : Bytes, cutDots v ≠ []
  | [] => by simp [cutDots]
  | c :: v => by
      unfold cutDots
      split
      · simp
      · cases cutDots v <;> simp

theorem parsePre_good {v r : Bytes} {ps : List Bytes} (h : parsePre v = some (ps, r)) : ps ≠ [] ∧ ∀ p ∈ ps, GoodIdent p := by
  unfold parsePre at h
  simp only at h
  split at h
  · rename_i hc
    simp only [Option.some.injEq, Prod.mk.injEq] at h
    obtain ⟨rfl, rfl⟩ := h
    simp only [Bool.and_eq_true, List.all_eq_true, Bool.or_eq_true, beq_iff_eq, Bool.not_eq_eq_eq_not, Bool.not_true] at hc
    obtain ⟨h1, h2⟩ := hc
    refine ⟨cutDots_ne_nil _, ?_⟩
    intro p hp
    obtain ⟨n1, n2⟩ := h2 p hp
    refine ⟨by rintro rfl; simp at n1, ?_, ?_⟩
    · intro b hb
      obtain ⟨m1, m2⟩ := cutDots_mem hp b hb
      rcases h1 b m1 with h | h
      · exact h
      · exact absurd h m2
    · intro hd hh
      unfold isBadNum at n2
      rw [(isNum_iff p).mpr hd, hh] at n2
      simp at n2
      have : p ≠ [] := by rintro rfl; simp at n1
      have := List.length_pos_of_ne_nil this
      omega
  · cases h

theorem zero_good : GoodNum zero := ⟨by simp [zero], by decide, fun _ => rfl⟩

theorem finish_eq {w w' : Ver} {v : Bytes} (h : finish w v = some w') : w' = w := by
  unfold finish at h
  split at h
  · cases h; rfl
  · split at h
    · cases h; rfl
    · cases h
  · cases h

theorem parse_good {v : Bytes} {w : Ver} (h : parse v = some w) : GoodVer w := by
  unfold parse at h
  split at h
  · rename_i v
    split at h
    · cases h
    · rename_i ma h1
      cases h
      exact ⟨(parseInt_good h1).1, zero_good, zero_good, by simp⟩
    · rename_i ma v1 h1
      split at h
      · cases h
      · rename_i mi h2
        cases h
        exact ⟨(parseInt_good h1).1, (parseInt_good h2).1, zero_good, by simp⟩
      · rename_i mi v2 h2
        split at h
        · cases h
        · rename_i pa v3 h3
          unfold parseTail at h
          split at h
          · rename_i v4
            split at h
            · rename_i ps rest h4
              have := finish_eq h
              subst this
              exact ⟨(parseInt_good h1).1, (parseInt_good h2).1, (parseInt_good h3).1, (parsePre_good h4).2⟩
            · cases h
          · have := finish_eq h
            subst this
            exact ⟨(parseInt_good h1).1, (parseInt_good h2).1, (parseInt_good h3).1, by simp⟩
      · cases h
    · cases h
  · cases h

theorem compareSem_spec (v w : Bytes) : compareSem v w = sgn (semKey v) (semKey w) := by
  unfold compareSem semKey
  cases hv : parse v with
  | none =>
      cases hw : parse w with
      | none => simp [sgn_self]
      | some q => exact (sgn_nil_cons _ _).symm
  | some p =>
      cases hw : parse w with
      | none => exact (sgn_cons_nil _ _).symm
      | some q => exact compareVer_spec (parse_good hv) (parse_good hw)

theorem semKey_eq_iff (v w : Bytes) : semKey v = semKey w ↔ parse v = parse w := by
  unfold semKey
  cases hv : parse v with
  | none =>
      cases hw : parse w with
      | none => simp
      | some q => simp [verKey]
  | some p =>
      cases hw : parse w with
      | none => simp [verKey]
      | some q =>
          simp only [Option.some.injEq]
          exact ⟨verKey_inj (parse_good hv) (parse_good hw), fun h => by rw [h]⟩

/-! ### Text of versions -/

theorem cutDots_append {p : Bytes} (hp : (46 : UInt8) ∉ p) (v : Bytes) : cutDots (p ++ 46 :: v) = p :: cutDots v := by
  induction p with
  | nil => simp [cutDots]
  | cons b p ih =>
      simp only [List.mem_cons, not_or] at hp
      have hb : ¬ b = 46 := fun h => hp.1 h.symm
      rw [List.cons_append, cutDots, if_neg hb, ih hp.2]

theorem cutDots_single {p : Bytes} (hp : (46 : UInt8) ∉ p) : cutDots p = [p] := by
  induction p with
  | nil => simp [cutDots]
  | cons b p ih =>
      simp only [List.mem_cons, not_or] at hp
      have hb : ¬ b = 46 := fun h => hp.1 h.symm
      rw [cutDots, if_neg hb, ih hp.2]

theorem cutDots_join : ∀ {ps : List Bytes}, ps ≠ [] → (∀ p ∈ ps, (46 : UInt8) ∉ p) → cutDots (joinDots ps) = ps
  | [], h, _ => absurd rfl h
  | [p], _, hp => cutDots_single (hp p List.mem_cons_self)
  | p :: q :: ps, _, hp => by
      rw [joinDots, cutDots_append (hp p List.mem_cons_self), cutDots_join (by simp) (fun x hx => hp x (List.mem_cons_of_mem _ hx))]
      simp

theorem joinDots_mem : ∀ {ps : List Bytes} {b : UInt8}, b ∈ joinDots ps → b = 46 ∨ ∃ p ∈ ps, b ∈ p
  | [], b, h => by simp [joinDots] at h
  | [p], b, h => Or.inr ⟨p, List.mem_cons_self, h⟩
  | p :: q :: ps, b, h => by
      rw [joinDots] at h
      · rcases List.mem_append.mp h with h | h
        · exact Or.inr ⟨p, List.mem_cons_self, h⟩
        · rcases List.mem_cons.mp h with h | h
          · exact Or.inl h
          · rcases joinDots_mem h with h | ⟨x, hx, hb⟩
            · exact Or.inl h
            · exact Or.inr ⟨x, List.mem_cons_of_mem _ hx, hb⟩
      · simp

theorem identChar_ne {b : UInt8} (h : isIdentChar b = true) : b ≠ 46 ∧ b ≠ 43 := by
  constructor <;> (rintro rfl; revert h; decide)

theorem goodIdent_ok {p : Bytes} (h : GoodIdent p) : (!p.isEmpty && !isBadNum p) = true := by
  have h1 : p.isEmpty = false := by cases p; exact absurd rfl h.1; rfl
  rw [h1]
  simp only [Bool.not_false, Bool.true_and, Bool.not_eq_eq_eq_not, Bool.not_true]
  unfold isBadNum
  by_cases hd : Digits p
  · by_cases hh : p.head? = some 48
    · have := h.2.2 hd hh
      simp [this]
    · have : (p.head? == some 48) = false := by
        cases hc : (p.head? == some 48)
        · rfl
        · exact absurd (by simpa using hc) hh
      simp [this]
  · have : isNum p = false := by cases hc : isNum p; rfl; exact absurd ((isNum_iff p).mp hc) hd
    simp [this]

theorem parsePre_text {ps : List Bytes} (hne : ps ≠ []) (hp : ∀ p ∈ ps, GoodIdent p) (r : Bytes) (hr : r = [] ∨ r.head? = some 43) :
    parsePre (joinDots ps ++ r) = some (ps, r) := by
  have hchars : ∀ b ∈ joinDots ps, (isIdentChar b || b == 46) = true ∧ (b != 43) = true := by
    intro b hb
    rcases joinDots_mem hb with rfl | ⟨p, hp', hb'⟩
    · decide
    · have := (hp p hp').2.1 b hb'
      have hn := identChar_ne this
      simp [this, hn.2]
  have h1 : (joinDots ps ++ r).takeWhile (· != 43) = joinDots ps := by
    rw [List.takeWhile_append_of_pos (fun b hb => (hchars b hb).2)]
    rcases hr with rfl | hr
    · simp
    · cases r with
      | nil => simp
      | cons c r => simp only [List.head?_cons, Option.some.injEq] at hr; subst hr; simp
  have h2 : (joinDots ps ++ r).dropWhile (· != 43) = r := by
    rw [List.dropWhile_append_of_pos (fun b hb => (hchars b hb).2)]
    rcases hr with rfl | hr
    · simp
    · cases r with
      | nil => simp
      | cons c r => simp only [List.head?_cons, Option.some.injEq] at hr; subst hr; simp
  have hcut : cutDots (joinDots ps) = ps := cutDots_join hne (fun p hp' hmem => (identChar_ne ((hp p hp').2.1 46 hmem)).1 rfl)
  unfold parsePre
  simp only [h1, h2, hcut]
  rw [if_pos]
  simp only [Bool.and_eq_true, List.all_eq_true]
  exact ⟨fun b hb => (hchars b hb).1, fun p hp' => by simpa using goodIdent_ok (hp p hp')⟩

/-- A build identifier. -/
def GoodBuild (p : Bytes) : Prop := p ≠ [] ∧ ∀ b ∈ p, isIdentChar b = true

theorem buildOk_text {bs : List Bytes} (hne : bs ≠ []) (hb : ∀ p ∈ bs, GoodBuild p) : buildOk (joinDots bs) = true := by
  have hcut : cutDots (joinDots bs) = bs := cutDots_join hne (fun p hp' hmem => (identChar_ne ((hb p hp').2 46 hmem)).1 rfl)
  unfold buildOk
  rw [hcut]
  simp only [Bool.and_eq_true, List.all_eq_true]
  constructor
  · intro b hb'
    rcases joinDots_mem hb' with rfl | ⟨p, hp, hb''⟩
    · decide
    · simp [(hb p hp).2 b hb'']
  · intro p hp
    have := (hb p hp).1
    cases p
    · exact absurd rfl this
    · rfl

theorem finish_build (w : Ver) {bs : List Bytes} (hb : ∀ p ∈ bs, GoodBuild p) :
    finish w (if bs = [] then [] else 43 :: joinDots bs) = some w := by
  by_cases h : bs = []
  · rw [if_pos h]; rfl
  · rw [if_neg h]
    simp [finish, buildOk_text h hb]

theorem parse_text {w : Ver} (hw : GoodVer w) {bs : List Bytes} (hb : ∀ p ∈ bs, GoodBuild p) : parse (verText w bs) = some w := by
  have e1 : verText w bs = 118 :: (w.major ++ 46 :: (w.minor ++ 46 :: (w.patch ++ ((if w.pre = [] then [] else 45 :: joinDots w.pre) ++
      (if bs = [] then [] else 43 :: joinDots bs))))) := by simp [verText]
  have hdot : ∀ (r : Bytes) (b : UInt8), (46 :: r).head? = some b → isDigit b = false := by
    intro r b h; simp at h; subst h; decide
  have p1 := parseInt_append hw.major (hdot (w.minor ++ 46 :: (w.patch ++ ((if w.pre = [] then [] else 45 :: joinDots w.pre) ++
      (if bs = [] then [] else 43 :: joinDots bs)))))
  have p2 := parseInt_append hw.minor (hdot (w.patch ++ ((if w.pre = [] then [] else 45 :: joinDots w.pre) ++
      (if bs = [] then [] else 43 :: joinDots bs))))
  have p3 : parseInt (w.patch ++ ((if w.pre = [] then [] else 45 :: joinDots w.pre) ++ (if bs = [] then [] else 43 :: joinDots bs))) =
      some (w.patch, (if w.pre = [] then [] else 45 :: joinDots w.pre) ++ (if bs = [] then [] else 43 :: joinDots bs)) := by
    apply parseInt_append hw.patch
    intro b h
    by_cases hp : w.pre = []
    · by_cases hbs : bs = []
      · simp [hp, hbs] at h
      · simp [hp, hbs] at h; subst h; decide
    · simp [hp] at h; subst h; decide
  rw [e1]
  simp only [parse, p1, p2, p3]
  by_cases hp : w.pre = []
  · rw [if_pos hp, List.nil_append]
    have hw' : (⟨w.major, w.minor, w.patch, []⟩ : Ver) = w := by cases w; simp at hp; simp [hp]
    have : parseTail w.major w.minor w.patch (if bs = [] then [] else 43 :: joinDots bs) =
        finish ⟨w.major, w.minor, w.patch, []⟩ (if bs = [] then [] else 43 :: joinDots bs) := by
      by_cases hbs : bs = [] <;> simp [hbs, parseTail]
    rw [this, finish_build _ hb, hw']
  · rw [if_neg hp, List.cons_append]
    have := parsePre_text hp hw.pre (if bs = [] then [] else 43 :: joinDots bs) (by by_cases hbs : bs = [] <;> simp [hbs])
    simp only [parseTail, this]
    rw [finish_build _ hb]

theorem goodNum_itoa (n : Nat) : GoodNum (itoaBytes n) := by
  refine ⟨itoaBytes_ne_nil n, itoaBytes_digit n, ?_⟩
  unfold itoaBytes
  intro h
  induction n using digits10.induct with
  | case1 n hlt => rw [digits10, if_pos hlt]; rfl
  | case2 n hge ih =>
      rw [digits10, if_neg hge] at h
      have hne := digits10_ne_nil (n / 10)
      have hh : ((digits10 (n / 10)).map fun d => UInt8.ofNat (48 + d)).head? = some 48 := by
        cases hc : digits10 (n / 10) with
        | nil => exact absurd hc hne
        | cons a l => rw [hc] at h; simpa using h
      have hl := ih hh
      -- a one-digit number with digit zero is zero, but n / 10 is not
      exfalso
      have : digits10 (n / 10) = [0] := by
        cases hc : digits10 (n / 10) with
        | nil => exact absurd hc hne
        | cons a l =>
            rw [hc] at hl hh
            have hl0 : l = [] := by simpa using hl
            subst hl0
            have ha := digits10_lt (n / 10) a (by rw [hc]; simp)
            simp only [List.map_cons, List.head?_cons, Option.some.injEq] at hh
            have := congrArg UInt8.toNat hh
            rw [UInt8.toNat_ofNat_of_lt' (by show 48 + a < 256; omega)] at this
            have h48 : (48 : UInt8).toNat = 48 := rfl
            rw [h48] at this
            have : a = 0 := by omega
            rw [this]
      have hv := ofDigits10_digits10 (n / 10)
      rw [this] at hv
      simp [ofDigits10] at hv
      omega

theorem numVal_append (v : Bytes) (b : UInt8) : numVal (v ++ [b]) = numVal v * 10 + (b.toNat - 48) := by
  induction v with
  | nil => simp [numVal]
  | cons a v ih =>
      simp only [List.cons_append, numVal, List.length_append, List.length_cons, List.length_nil, ih, Nat.pow_succ, Nat.zero_add]
      ring

theorem numVal_itoa (n : Nat) : numVal (itoaBytes n) = n := by
  unfold itoaBytes
  induction n using digits10.induct with
  | case1 n hlt =>
      rw [digits10, if_pos hlt]
      simp only [List.map_cons, List.map_nil, numVal, List.length_nil, Nat.pow_zero, Nat.mul_one, Nat.add_zero]
      rw [UInt8.toNat_ofNat_of_lt' (by show 48 + n < 256; omega)]
      omega
  | case2 n hge ih =>
      rw [digits10, if_neg hge, List.map_append, List.map_singleton, numVal_append, ih,
        UInt8.toNat_ofNat_of_lt' (by show 48 + n % 10 < 256; omega)]
      omega

theorem semKey_go (a b : Nat) (c : Option Nat) : semKey (118 :: goText a b c) = [[a], [b], [c.getD 0], [2]] := by
  have hdot : ∀ (r : Bytes) (b : UInt8), (46 :: r).head? = some b → isDigit b = false := by
    intro r b h; simp at h; subst h; decide
  have hnil : ∀ (b : UInt8), ([] : Bytes).head? = some b → isDigit b = false := by simp
  have hz : numVal zero = 0 := by decide
  unfold semKey goText
  cases c with
  | none =>
      have p1 := parseInt_append (goodNum_itoa a) (hdot (itoaBytes b))
      have p2 := parseInt_append (goodNum_itoa b) hnil
      rw [List.append_nil] at p2
      have : parse (118 :: (itoaBytes a ++ 46 :: itoaBytes b ++ [])) = some ⟨itoaBytes a, itoaBytes b, zero, []⟩ := by
        rw [List.append_nil]
        simp only [parse, p1, p2]
      rw [this]
      simp [verKey, numVal_itoa, hz]
  | some c =>
      have p1 := parseInt_append (goodNum_itoa a) (hdot (itoaBytes b ++ 46 :: itoaBytes c))
      have p2 := parseInt_append (goodNum_itoa b) (hdot (itoaBytes c))
      have p3 := parseInt_append (goodNum_itoa c) hnil
      rw [List.append_nil] at p3
      have e : itoaBytes a ++ 46 :: itoaBytes b ++ 46 :: itoaBytes c = itoaBytes a ++ 46 :: (itoaBytes b ++ 46 :: itoaBytes c) := by simp
      have : parse (118 :: (itoaBytes a ++ 46 :: itoaBytes b ++ 46 :: itoaBytes c)) = some ⟨itoaBytes a, itoaBytes b, itoaBytes c, []⟩ := by
        rw [e]
        simp only [parse, p1, p2, p3, parseTail, finish]
      rw [this]
      simp [verKey, numVal_itoa]

end Verif.Module
