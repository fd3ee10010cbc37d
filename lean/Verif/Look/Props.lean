import Verif.Look.Lemmas
import Verif.Verdict.Props

/-! C151: colours and scales of the charts. -/

namespace Verif.Look

open Verif.Verdict (RowSays Table)
open Verif.Total (Ctx Test)

theorem painted {x : Ctx} {t : Test} {k : Report.Key} (h : RowSays x t k) : Painted x t k := by
  have hv : ∀ v, verdictCell (verdictText v) = match v with | .pass => .green | .fail => .red | .baseline => .orange := by intro v; cases v <;> decide
  refine ⟨?_, ?_, ?_, ?_, ?_, ?_⟩
  · rw [← h.fail, hv]; cases k.verdict <;> simp
  · rw [← h.baseline, hv]; cases k.verdict <;> simp
  · rw [← h.fail, ← h.baseline, hv]; cases k.verdict <;> simp
  · rw [← h.diff, countCell_of]; split_ifs <;> simp_all
  · rw [← h.diff, countCell_of]; split_ifs <;> simp_all
  · rw [countCell_of]; split_ifs <;> simp_all

/-- **C151.** In the table of C142 the cells have the colours of what the tests did. -/
theorem C151_table {x : Ctx} {ts : List Test} {keys : List Report.Key} (h : Table x ts keys) : ∃ shown, shown.Subperm ts ∧ List.Forall₂ (Painted x) shown keys := by
  obtain ⟨shown, left, calm, hp, hr, _⟩ := h.parts
  refine ⟨shown, ?_, hr.imp fun _ _ => painted⟩
  rw [List.append_assoc] at hp
  exact (List.sublist_append_left shown (left ++ calm)).subperm.trans hp.subperm

/-- **C151.** The colours of the gauges for fields and mutations tell the share of what did not change and of what was squashed, if there is anything. -/
theorem C151_stable (same diff : Nat) (h : 0 < same + diff) : Ranks (rank (stableBars same diff)) same (same + diff : Nat) :=
  rank_of (by simp) (by exact_mod_cast h)

theorem C151_mutations (mutations squashed : Nat) (h : 0 < mutations) : Ranks (rank (mutationBars mutations squashed)) squashed mutations :=
  rank_of (by simp) (by exact_mod_cast h)

/-- **C151** (partial). The colour of the coverage gauge tells the share of changed functions that were reached. Its label tells another one (`C151_cover_violated`). -/
theorem C151_cover_partial (reachable reached untracked : Nat) (h : 0 < reachable) : Ranks (rank (coverBars reachable reached untracked)) reached reachable :=
  rank_of (by simp) (by exact_mod_cast h)

theorem timeColour_scale {u : Rat} (hu : 0 < u) (pre post : Rat) : timeColour (pre / u) (post / u) = timeColour pre post := by
  have hd : ∀ a b : Rat, a / u < b / u ↔ a < b := fun a b => div_lt_div_iff_of_pos_right hu
  have hle : post / u ≤ pre / u ↔ post ≤ pre := div_le_div_iff_of_pos_right hu
  unfold timeColour timeBars
  by_cases h : post ≤ pre
  · rw [if_pos h, if_pos (hle.mpr h)]
  · rw [if_neg h, if_neg (fun hc => h (hle.mp hc)), if_neg h, if_neg (fun hc => h (hle.mp hc))]
    have e1 : pre / u + (post / u - pre / u) = (pre + (post - pre)) / u := by rw [← sub_div, ← add_div]
    simp only [rank, List.head?_cons, Option.getD_some, List.sum_cons, List.sum_nil, add_zero, e1]
    rw [show (pre + (post - pre)) / u / 2 = (pre + (post - pre)) / 2 / u by rw [div_right_comm],
      show (pre + (post - pre)) / u * (4 / 5) = (pre + (post - pre)) * (4 / 5) / u by rw [div_mul_eq_mul_div]]
    simp only [hd]

/-- **C151.** The colour of the performance label does not depend on the unit of time; it is black if no time is lost, red if the time more than doubles, and orange if it grows by more
than a quarter. -/
theorem C151_time (pre post : Nat) :
    (timeColourOf pre post = .black ↔ post ≤ pre) ∧ (timeColourOf pre post = .red ↔ 2 * pre < post) ∧
    (timeColourOf pre post = .orange ↔ pre < post ∧ post ≤ 2 * pre ∧ 5 * pre < 4 * post) ∧ (timeColourOf pre post = .plain ↔ pre < post ∧ 4 * post ≤ 5 * pre) := by
  have hu : 0 < Report.timeUnit (pre : Rat) (post : Rat) := by
    unfold Report.timeUnit
    split_ifs <;> norm_num
  have e : timeColourOf pre post = timeColour (pre : Rat) (post : Rat) := timeColour_scale hu _ _
  rw [e]
  unfold timeColour
  by_cases h : post ≤ pre
  · have h' : (post : Rat) ≤ (pre : Rat) := by exact_mod_cast h
    rw [if_pos h']
    refine ⟨by simp [h], ?_, ?_, ?_⟩ <;> simp only [reduceCtorEq, false_iff] <;> omega
  · have h' : ¬ (post : Rat) ≤ (pre : Rat) := fun hc => h (by exact_mod_cast hc)
    have hlt : pre < post := Nat.lt_of_not_le h
    rw [if_neg h']
    unfold timeBars
    rw [if_neg h']
    have hw : (0 : Rat) < (post : Rat) := by exact_mod_cast (by omega : 0 < post)
    have hr := rank_of (a := (pre : Rat)) (bars := [(post : Rat) - (pre : Rat)]) (whole := (post : Rat)) (by simp) hw
    have q1 : (pre : Rat) / (post : Rat) < 1 / 2 ↔ 2 * pre < post := by
      rw [div_lt_div_iff₀ hw (by norm_num)]
      rw [one_mul, mul_comm]
      exact_mod_cast Iff.rfl
    have q2 : (pre : Rat) / (post : Rat) < 4 / 5 ↔ 5 * pre < 4 * post := by
      rw [div_lt_div_iff₀ hw (by norm_num)]
      rw [mul_comm]
      exact_mod_cast Iff.rfl
    refine ⟨?_, ?_, ?_, ?_⟩
    · refine ⟨fun hc => ?_, fun hc => absurd hc h⟩
      simp only [rank] at hc
      split_ifs at hc
    · rw [hr.red, q1]
    · rw [hr.orange, ← not_lt, q1, q2]; omega
    · rw [hr.plain, ← not_lt, q2]; omega

/-- **C151** (partial). An axis up to 20000 has at most ten marks. Missing: larger numbers (`C151_axis_violated`). -/
theorem C151_axis_partial (val : Nat) (h : val ≤ 20000) : 0 < axisUnit val ∧ val / axisUnit val ≤ 10 := by
  unfold axisUnit
  split_ifs <;> omega

/-- **C151**, violated. There is no bound on the number of marks. -/
theorem C151_axis_violated (n : Nat) : ∃ val, n < val / axisUnit val := by
  refine ⟨2000 * (n + 4), ?_⟩
  have : axisUnit (2000 * (n + 4)) = 2000 := by
    unfold axisUnit
    rw [if_pos (by omega)]
  rw [this]
  omega

/-- **C151**, violated. If none of the changed functions could be watched, the coverage gauge says 100% in red. -/
theorem C151_cover_violated : ∃ reachable reached untracked, Report.coverLabel reachable reached untracked = 1000 ∧ rank (coverBars reachable reached untracked) = .red :=
  ⟨3, 0, 3, by decide +kernel, by decide +kernel⟩

/-! ### Examples -/

example : countCell (itoaBytes 12) = .red ∧ countCell (itoaBytes 7) = .orange := by decide +kernel
example : timeColourOf 100 130 = .orange ∧ timeColourOf 500000 620000 = .plain ∧ timeColourOf 3000 9000 = .red := by decide +kernel
example : rank (stableBars 9 1) = .plain ∧ rank (stableBars 7 3) = .orange ∧ rank (mutationBars 9 4) = .red := by decide +kernel
example : axisUnit 150 = 20 ∧ axisUnit 7999 = 1000 := by decide

end Verif.Look
