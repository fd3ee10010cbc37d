import Verif.Outside.Spec
import Verif.Util.Props

namespace Verif.Outside
open Verif Verif.Monitor
open Verif.Result (Bytes)

theorem pkgMod_eq : pkgMod = cacheDir := by decide +kernel

theorem afterFirst_first {pat root rest : List UInt8} (hp : pat ≠ []) (h : ∀ x y, root ++ pat.dropLast ≠ x ++ pat ++ y) : afterFirst pat (root ++ pat ++ rest) = some rest := by
  induction root with
  | nil =>
    match pat, hp with
    | b :: s, _ =>
      have : (b :: s).isPrefixOf (b :: s ++ rest) = true := List.isPrefixOf_iff_prefix.2 (List.prefix_append _ _)
      simp only [List.nil_append, List.cons_append, afterFirst] at *
      rw [if_pos this]
      simp
  | cons b r ih =>
    have hno : ¬ pat.isPrefixOf (b :: (r ++ pat ++ rest)) = true := by
      intro hc
      have h1 : pat <+: b :: (r ++ pat ++ rest) := List.isPrefixOf_iff_prefix.1 hc
      have h2 : (b :: r) ++ pat.dropLast <+: b :: (r ++ pat ++ rest) := by
        have e : pat = pat.dropLast ++ [pat.getLast hp] := (List.dropLast_append_getLast hp).symm
        refine ⟨[pat.getLast hp] ++ rest, ?_⟩
        conv_rhs => rw [e]
        simp
      have hl : pat.length ≤ ((b :: r) ++ pat.dropLast).length := by simp; omega
      obtain ⟨y, hy⟩ := List.prefix_of_prefix_length_le h1 h2 hl
      exact h [] y (by simpa using hy.symm)
    simp only [List.cons_append, afterFirst]
    rw [if_neg hno]
    exact ih fun x y e => h (b :: x) y (by simp [e])

theorem afterFirst_none {pat : List UInt8} (hp : pat ≠ []) : ∀ {s : List UInt8}, (∀ x y, s ≠ x ++ pat ++ y) → afterFirst pat s = none
  | [], _ => by simp [afterFirst, hp]
  | b :: s, h => by
    have hno : ¬ pat.isPrefixOf (b :: s) = true := by
      intro hc
      obtain ⟨y, hy⟩ := List.isPrefixOf_iff_prefix.1 hc
      exact h [] y (by simpa using hy.symm)
    simp only [afterFirst]
    rw [if_neg hno]
    exact afterFirst_none hp fun x y e => h (b :: x) y (by simp [e])

theorem within_no {cwd : List Bytes} {file dir : Bytes} (h : ¬ Util.Within (Util.absClean cwd file) (Util.absClean cwd dir)) : Util.fileWithinDir cwd file dir ≠ true :=
  fun e => h (Util.C58_outside_rejected cwd file dir e)

end Verif.Outside
