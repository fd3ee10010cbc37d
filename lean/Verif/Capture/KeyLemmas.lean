import Verif.Capture.Spec
import Mathlib.Data.List.Lex
import Mathlib.Data.List.Perm.Basic

namespace Verif.Capture
open Verif Verif.Wire

theorem cmpLt_swap {α : Type} {lt : α → α → Bool} (hasym : ∀ a b, lt a b = true → lt b a = false) (a b : α) :
    cmpLt lt b a = - cmpLt lt a b := by
  unfold cmpLt
  cases h1 : lt a b
  · cases h2 : lt b a <;> simp
  · simp [hasym a b h1]

theorem cmpLt_zero {α : Type} {lt : α → α → Bool} (htri : ∀ a b, lt a b = false → lt b a = false → a = b)
    (hirr : ∀ a, lt a a = false) (a b : α) : cmpLt lt a b = 0 ↔ a = b := by
  unfold cmpLt
  cases h1 : lt a b
  · cases h2 : lt b a
    · simp [htri a b h1 h2]
    · have : a ≠ b := by rintro rfl; rw [hirr] at h2; exact absurd h2 (by simp)
      simp [this]
  · have : a ≠ b := by rintro rfl; rw [hirr] at h1; exact absurd h1 (by simp)
    simp [this]

theorem cmpLt_neg {α : Type} {lt : α → α → Bool} (a b : α) : cmpLt lt a b < 0 ↔ lt a b = true := by
  unfold cmpLt
  cases h1 : lt a b
  · cases h2 : lt b a <;> simp
  · simp

abbrev bytesLt (x y : Bytes) : Bool := decide (x < y)
abbrev intLt (x y : Int) : Bool := decide (x < y)
abbrev natLt (x y : Nat) : Bool := decide (x < y)

theorem bytesLt_asym (a b : Bytes) : bytesLt a b = true → bytesLt b a = false := by
  simp only [bytesLt, decide_eq_true_eq, decide_eq_false_iff_not]; exact fun h => List.lt_asymm h
theorem bytesLt_tri (a b : Bytes) : bytesLt a b = false → bytesLt b a = false → a = b := by
  simp only [bytesLt, decide_eq_false_iff_not]
  exact fun h1 h2 => List.le_antisymm (List.not_lt.mp h2) (List.not_lt.mp h1)
theorem bytesLt_irr (a : Bytes) : bytesLt a a = false := by simp [bytesLt]
theorem bytesLt_trans (a b c : Bytes) : bytesLt a b = true → bytesLt b c = true → bytesLt a c = true := by
  simp only [bytesLt, decide_eq_true_eq]; exact fun h1 h2 => List.lt_trans h1 h2
theorem intLt_asym (a b : Int) : intLt a b = true → intLt b a = false := by simp [intLt]; omega
theorem intLt_tri (a b : Int) : intLt a b = false → intLt b a = false → a = b := by simp [intLt]; omega
theorem intLt_irr (a : Int) : intLt a a = false := by simp [intLt]
theorem natLt_asym (a b : Nat) : natLt a b = true → natLt b a = false := by simp [natLt]; omega
theorem natLt_tri (a b : Nat) : natLt a b = false → natLt b a = false → a = b := by simp [natLt]; omega
theorem natLt_irr (a : Nat) : natLt a a = false := by simp [natLt]
theorem floatLt_asym (a b : Option Int) : floatLt a b = true → floatLt b a = false := by
  cases a <;> cases b <;> simp [floatLt]; omega

variable {name : Nat → Bytes}

/-- Comparing the other way round. -/
theorem cmpKey_swap : ∀ a b : Key, cmpKey name b a = - cmpKey name a b
  | .str a, b => by cases b <;> simp only [cmpKey, Int.neg_zero]; exact cmpLt_swap bytesLt_asym _ _
  | .int a, b => by cases b <;> simp only [cmpKey, Int.neg_zero]; exact cmpLt_swap intLt_asym _ _
  | .uint a, b => by cases b <;> simp only [cmpKey, Int.neg_zero]; exact cmpLt_swap natLt_asym _ _
  | .float a, b => by cases b <;> simp only [cmpKey, Int.neg_zero]; exact cmpLt_swap floatLt_asym _ _
  | .bool a, b => by
    cases b <;> simp only [cmpKey, Int.neg_zero]
    rename_i b; cases a <;> cases b <;> rfl
  | .complex ar ai, b => by
    cases b <;> simp only [cmpKey, Int.neg_zero]
    rename_i br bi
    cases h1 : floatLt ar br
    · cases h2 : floatLt br ar
      · simpa using cmpLt_swap floatLt_asym _ _
      · simp
    · simp [floatLt_asym _ _ h1]
  | .ptr a, b => by cases b <;> simp only [cmpKey, Int.neg_zero]; exact cmpLt_swap natLt_asym _ _
  | .chan a, b => by cases b <;> simp only [cmpKey, Int.neg_zero]; exact cmpLt_swap natLt_asym _ _
  | .unit, b => by cases b <;> simp only [cmpKey, Int.neg_zero]
  | .pair a r, b => by
    cases b <;> simp only [cmpKey, Int.neg_zero]
    rename_i b s
    rw [cmpKey_swap a b, cmpKey_swap r s]
    by_cases h : cmpKey name a b = 0
    · simp [h]
    · have : ¬ (- cmpKey name a b = 0) := by omega
      simp [h]
  | .inil, b => by cases b <;> simp only [cmpKey, Int.neg_zero]; rfl
  | .iface i a, b => by
    cases b <;> simp only [cmpKey, Int.neg_zero]
    rename_i j b
    rw [cmpKey_swap a b]
    by_cases h : i = j
    · simp [h]
    · have : ¬ j = i := fun h' => h h'.symm
      simp only [ne_eq, h, not_false_eq_true, if_true, this]
      exact cmpLt_swap bytesLt_asym _ _

variable {types : Nat → KeyTy}

/-- Only equal keys compare equal. -/
theorem cmpKey_zero (hname : ∀ i j, name i = name j → i = j) : ∀ {a b : Key} {t : KeyTy}, HasTy types a t →
    HasTy types b t → NoNaN a → NoNaN b → (cmpKey name a b = 0 ↔ a = b) := by
  intro a b t ha
  induction ha generalizing b with
  | str => intro hb _ _; cases hb; simp only [cmpKey, Key.str.injEq]; exact cmpLt_zero bytesLt_tri bytesLt_irr _ _
  | int => intro hb _ _; cases hb; simp only [cmpKey, Key.int.injEq]; exact cmpLt_zero intLt_tri intLt_irr _ _
  | uint => intro hb _ _; cases hb; simp only [cmpKey, Key.uint.injEq]; exact cmpLt_zero natLt_tri natLt_irr _ _
  | float =>
    intro hb na nb; cases hb; cases na; cases nb
    simp only [cmpKey, Key.float.injEq, Option.some.injEq]
    rename_i x y
    exact cmpLt_zero intLt_tri intLt_irr x y
  | bool => intro hb _ _; cases hb; rename_i a b; cases a <;> cases b <;> simp [cmpKey]
  | complex =>
    intro hb na nb; cases hb; cases na; cases nb
    rename_i r i s j
    simp only [cmpKey, Key.complex.injEq, Option.some.injEq, floatLt, decide_eq_true_eq]
    have := cmpLt_zero intLt_tri intLt_irr i j
    have e : cmpLt floatLt (some i) (some j) = cmpLt intLt i j := rfl
    rw [e]
    by_cases h1 : r < s
    · simp [h1]; omega
    · by_cases h2 : s < r
      · simp [h1, h2]; omega
      · have : r = s := by omega
        subst this
        simpa using this
  | ptr => intro hb _ _; cases hb; simp only [cmpKey, Key.ptr.injEq]; exact cmpLt_zero natLt_tri natLt_irr _ _
  | chan => intro hb _ _; cases hb; simp only [cmpKey, Key.chan.injEq]; exact cmpLt_zero natLt_tri natLt_irr _ _
  | unit => intro hb _ _; cases hb; simp [cmpKey]
  | pair _ _ ih1 ih2 =>
    intro hb na nb; cases hb; cases na; cases nb
    rename_i h1 h2 n1 n2 n3 n4
    simp only [cmpKey, Key.pair.injEq]
    rw [← ih1 h1 n1 n3, ← ih2 h2 n2 n4]
    split <;> simp_all
  | inil => intro hb _ _; cases hb <;> simp [cmpKey]
  | iface _ ih =>
    intro hb na nb
    cases hb with
    | inil => simp [cmpKey]
    | iface hb =>
      cases na; cases nb
      rename_i i k _ j l n1 n2
      simp only [cmpKey, Key.iface.injEq]
      by_cases h : i = j
      · subst h
        simpa using ih hb n1 n2
      · simp only [ne_eq, h, not_false_eq_true, if_true, false_and, iff_false]
        intro h0
        exact h (hname i j ((cmpLt_zero bytesLt_tri bytesLt_irr _ _).mp h0))

/-- The comparison is transitive. -/
theorem cmpKey_trans (hname : ∀ i j, name i = name j → i = j) : ∀ {a b d : Key} {t : KeyTy}, HasTy types a t →
    HasTy types b t → HasTy types d t → NoNaN a → NoNaN b → NoNaN d →
    cmpKey name a b < 0 → cmpKey name b d < 0 → cmpKey name a d < 0 := by
  intro a b d t ha
  induction ha generalizing b d with
  | str =>
    intro hb hd _ _ _; cases hb; cases hd; simp only [cmpKey]; rw [cmpLt_neg, cmpLt_neg, cmpLt_neg]
    exact bytesLt_trans _ _ _
  | int => intro hb hd _ _ _; cases hb; cases hd; simp only [cmpKey, cmpLt_neg, decide_eq_true_eq]; omega
  | uint => intro hb hd _ _ _; cases hb; cases hd; simp only [cmpKey, cmpLt_neg, decide_eq_true_eq]; omega
  | float =>
    intro hb hd na nb nd; cases hb; cases hd; cases na; cases nb; cases nd
    simp only [cmpKey, cmpLt_neg, floatLt, decide_eq_true_eq]; omega
  | bool =>
    intro hb hd _ _ _; cases hb; cases hd
    simp only [cmpKey]
    repeat' split
    all_goals simp_all
  | complex =>
    intro hb hd na nb nd; cases hb; cases hd; cases na; cases nb; cases nd
    simp only [cmpKey, cmpLt, floatLt, decide_eq_true_eq]
    repeat' split
    all_goals omega
  | ptr => intro hb hd _ _ _; cases hb; cases hd; simp only [cmpKey, cmpLt_neg, decide_eq_true_eq]; omega
  | chan => intro hb hd _ _ _; cases hb; cases hd; simp only [cmpKey, cmpLt_neg, decide_eq_true_eq]; omega
  | unit => intro hb hd _ _ _; cases hb; cases hd; simp [cmpKey]
  | pair h0 h0' ih1 ih2 =>
    intro hb hd na nb nd; cases hb; cases hd; cases na; cases nb; cases nd
    rename_i hb1 hb2 _ _ hd1 hd2 na1 na2 nb1 nb2 nd1 nd2
    simp only [cmpKey]
    intro e1 e2
    have z1 := cmpKey_zero hname h0 hb1 na1 nb1
    have z2 := cmpKey_zero hname hb1 hd1 nb1 nd1
    split at e1
    · split at e2
      · have := ih1 hb1 hd1 na1 nb1 nd1 e1 e2
        rw [if_pos (by omega)]; exact this
      · rename_i h
        have h := z2.mp (not_not.mp h)
        subst h
        rw [if_pos (by omega)]; exact e1
    · rename_i h
      have h := z1.mp (not_not.mp h)
      subst h
      split at e2
      · rw [if_pos (by omega)]; exact e2
      · rename_i h'
        rw [if_neg h']
        exact ih2 hb2 hd2 na2 nb2 nd2 e1 e2
  | inil => intro hb hd _ _ _; cases hb <;> cases hd <;> simp [cmpKey]
  | iface h0 ih =>
    intro hb hd na nb nd
    cases hb with
    | inil => cases hd <;> simp [cmpKey]
    | iface hb =>
      cases hd with
      | inil => simp [cmpKey]
      | iface hd =>
        cases na; cases nb; cases nd
        rename_i i a j b l d n1 n2 n3
        simp only [cmpKey]
        intro e1 e2
        by_cases h1 : i = j
        · subst h1
          rw [if_neg (by simp)] at e1
          by_cases h2 : i = l
          · subst h2
            rw [if_neg (by simp)] at e2 ⊢
            exact ih hb hd n1 n2 n3 e1 e2
          · rw [if_pos h2] at e2 ⊢
            exact e2
        · rw [if_pos h1] at e1
          by_cases h2 : j = l
          · subst h2
            rw [if_pos h1]; exact e1
          · rw [if_pos h2] at e2
            rw [cmpLt_neg] at e1 e2
            have h3 := bytesLt_trans _ _ _ e1 e2
            have h4 : i ≠ l := by
              rintro rfl
              rw [bytesLt_irr] at h3
              exact absurd h3 (by simp)
            rw [if_pos h4, cmpLt_neg]
            exact h3

/-- Two sorted arrangements of the same elements are the same, when only equal elements compare equal. -/
theorem sorted_unique {α : Type} {less : α → α → Bool} {s t : List α} (hp : s.Perm t) (hn : s.Nodup)
    (htri : ∀ a ∈ s, ∀ b ∈ s, a ≠ b → less a b = true ∨ less b a = true)
    (hasym : ∀ a b, less a b = true → less b a = false)
    (hs : SortedBy less s) (ht : SortedBy less t) : s = t := by
  have strict : ∀ l : List α, l.Perm s → SortedBy less l → l.Pairwise fun a b => less a b = true := by
    intro l hl hsl
    have hnl : l.Nodup := hl.nodup_iff.mpr hn
    have : l.Pairwise fun a b => a ≠ b := hnl
    refine List.Pairwise.imp_of_mem ?_ (hsl.and this)
    intro a b ha hb hab
    rcases htri a (hl.mem_iff.mp ha) b (hl.mem_iff.mp hb) hab.2 with h | h
    · exact h
    · rw [hab.1] at h; exact absurd h (by simp)
  refine List.Perm.eq_of_pairwise ?_ (strict s (List.Perm.refl _) hs) (strict t hp.symm ht) hp
  intro a b _ _ h1 h2
  rw [hasym a b h1] at h2
  exact absurd h2 (by simp)

end Verif.Capture
