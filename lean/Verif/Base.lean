import Mathlib.Data.List.Nodup
import Mathlib.Data.List.Perm.Basic
import Mathlib.Tactic.ByContra
import Mathlib.Tactic.Ring

/-! Small facts used in several areas. -/

namespace Verif

/-- A statement about all bytes can be checked for the 256 byte values. -/
theorem forall_byte {P : UInt8 → Prop} (h : ∀ n : Fin 256, P (UInt8.ofNat n.val)) (b : UInt8) : P b := by
  have := h ⟨b.toNat, b.toNat_lt⟩
  simpa using this

/-! ### Decimal numbers (`strconv.Itoa` on non-negative values) -/

/-- Decimal digits, most significant first. -/
def digits10 (n : Nat) : List Nat :=
  if n < 10 then [n] else digits10 (n / 10) ++ [n % 10]
termination_by n
decreasing_by omega

/-- Reading digits back, most significant first. -/
def ofDigits10 (l : List Nat) : Nat := l.foldl (fun a d => a * 10 + d) 0

theorem ofDigits10_append (l : List Nat) (d : Nat) : ofDigits10 (l ++ [d]) = ofDigits10 l * 10 + d := by
  simp [ofDigits10]

theorem ofDigits10_digits10 (n : Nat) : ofDigits10 (digits10 n) = n := by
  induction n using digits10.induct with
  | case1 n h => rw [digits10, if_pos h]; simp [ofDigits10]
  | case2 n h ih => rw [digits10, if_neg h, ofDigits10_append, ih]; omega

theorem digits10_injective {m n : Nat} (h : digits10 m = digits10 n) : m = n := by
  rw [← ofDigits10_digits10 m, h, ofDigits10_digits10]

theorem digits10_lt (n : Nat) : ∀ d ∈ digits10 n, d < 10 := by
  induction n using digits10.induct with
  | case1 n h => rw [digits10, if_pos h]; simp [h]
  | case2 n h ih =>
    rw [digits10, if_neg h]
    intro d hd
    rcases List.mem_append.mp hd with hd | hd
    · exact ih d hd
    · simp at hd; omega

theorem digits10_ne_nil (n : Nat) : digits10 n ≠ [] := by
  rw [digits10]; split <;> simp

/-- The ASCII bytes of a decimal number. -/
def itoaBytes (n : Nat) : List UInt8 := (digits10 n).map fun d => UInt8.ofNat (48 + d)

theorem map_injOn_eq {α β} {f : α → β} {P : α → Prop} (hf : ∀ a b, P a → P b → f a = f b → a = b) :
    ∀ {l m : List α}, (∀ a ∈ l, P a) → (∀ a ∈ m, P a) → l.map f = m.map f → l = m
  | [], [], _, _, _ => rfl
  | [], _ :: _, _, _, h => by simp at h
  | _ :: _, [], _, _, h => by simp at h
  | a :: l, b :: m, hl, hm, h => by
    simp only [List.map_cons, List.cons.injEq] at h
    rw [hf a b (hl a (by simp)) (hm b (by simp)) h.1,
      map_injOn_eq hf (fun x hx => hl x (by simp [hx])) (fun x hx => hm x (by simp [hx])) h.2]

theorem itoaBytes_injective {m n : Nat} (h : itoaBytes m = itoaBytes n) : m = n := by
  refine digits10_injective (map_injOn_eq (P := (· < 10)) ?_ (digits10_lt m) (digits10_lt n) h)
  intro a b ha hb hab
  have := congrArg UInt8.toNat hab
  simp only [UInt8.toNat_ofNat'] at this
  omega

theorem itoaBytes_ne_nil (n : Nat) : itoaBytes n ≠ [] := by
  simp [itoaBytes, digits10_ne_nil]

theorem itoaBytes_digit (n : Nat) : ∀ b ∈ itoaBytes n, 48 ≤ b.toNat ∧ b.toNat ≤ 57 := by
  intro b hb
  obtain ⟨d, hd, rfl⟩ := List.mem_map.mp hb
  have := digits10_lt n d hd
  rw [UInt8.toNat_ofNat']
  omega

end Verif
