import Verif.Look.Spec
import Mathlib.Algebra.Order.Field.Basic
import Mathlib.Algebra.Order.Field.Rat
import Mathlib.Tactic.Linarith
import Mathlib.Tactic.NormNum

/-! Lemmas on colours. -/

namespace Verif.Look

theorem rank_of {a : Rat} {bars : List Rat} {whole : Rat} (hs : (a :: bars).sum = whole) (hw : 0 < whole) : Ranks (rank (a :: bars)) a whole := by
  have h1 : a < whole / 2 ↔ a / whole < 1 / 2 := by rw [div_lt_div_iff₀ hw (by norm_num : (0 : Rat) < 2)]; constructor <;> intro h <;> linarith
  have h2 : a < whole * (4 / 5) ↔ a / whole < 4 / 5 := by rw [div_lt_div_iff₀ hw (by norm_num : (0 : Rat) < 5)]; constructor <;> intro h <;> linarith
  simp only [rank, List.head?_cons, Option.getD_some, hs, h1, h2]
  constructor
  · split_ifs with h g
    · exact ⟨fun _ => h, fun _ => rfl⟩
    · exact ⟨nofun, fun h' => absurd h' h⟩
    · exact ⟨nofun, fun h' => absurd h' h⟩
  · split_ifs with h g
    · simp only [reduceCtorEq, false_iff]; rintro ⟨h', _⟩; linarith
    · exact ⟨fun _ => ⟨not_lt.mp h, g⟩, fun _ => rfl⟩
    · simp only [reduceCtorEq, false_iff]; rintro ⟨_, h'⟩; exact g h'
  · split_ifs with h g
    · simp only [reduceCtorEq, false_iff, not_le]; linarith
    · simp only [reduceCtorEq, false_iff, not_le]; exact g
    · exact ⟨fun _ => not_lt.mp g, fun _ => rfl⟩

theorem digits10_single {n : Nat} (h : n < 10) : digits10 n = [n] := by
  rw [digits10]
  simp [h]

theorem digits10_long {n : Nat} (h : 10 ≤ n) : 2 ≤ (digits10 n).length := by
  rw [digits10]
  have := digits10_ne_nil (n / 10)
  simp only [show ¬ n < 10 by omega, if_false, List.length_append, List.length_singleton]
  have : 0 < (digits10 (n / 10)).length := List.length_pos_iff.mpr this
  omega

theorem countCell_of (n : Nat) : countCell (itoaBytes n) = if n = 0 then .green else if n < 10 then .orange else .red := by
  by_cases h0 : n = 0
  · subst h0
    rw [if_pos rfl, itoaBytes, digits10_single (by decide)]
    decide
  · rw [if_neg h0]
    by_cases h : n < 10
    · rw [if_pos h, itoaBytes, digits10_single h, countCell, if_pos, if_pos]
      · simp
      · simp only [List.map_cons, List.map_nil, ne_eq, List.cons.injEq, and_true]
        intro hc
        have := congrArg UInt8.toNat hc
        rw [UInt8.toNat_ofNat', Nat.mod_eq_of_lt (by omega)] at this
        have h48 : (48 : UInt8).toNat = 48 := rfl
        omega
    · have hl := digits10_long (Nat.le_of_not_lt h)
      have hl' : 2 ≤ (itoaBytes n).length := by rw [itoaBytes, List.length_map]; exact hl
      rw [if_neg h, countCell, if_pos, if_neg (by omega)]
      rintro he
      rw [he] at hl'
      simp at hl'

end Verif.Look
