import Verif.Reach.Spec
import Verif.Static.Props
import Mathlib.Data.List.Chain

namespace Verif.Reach

open Verif.Static (Bytes Graph Fn Entry Reportable IsProjectTest endsWay Upward Affected DirectTestOf)

section
variable {N M : Type}

theorem upward_of_way (g : Graph N) (root : N → Bool) {s : N} : ∀ {l : List N} {y : N}, Way g (y :: l) → l.getLast? = some s → (∀ z ∈ l, root z = false) →
    Upward g.callers root s y
  | [], y, _, h, _ => by simp at h
  | [z], y, hw, h, hr => by
      simp only [List.getLast?_singleton, Option.some.injEq] at h
      subst h
      have : CallsNext g y z := by simpa [Way] using hw
      exact .caller .start (hr z (by simp)) this
  | z :: z' :: l, y, hw, h, hr => by
      have hw' : CallsNext g y z ∧ Way g (z :: z' :: l) := by simpa [Way] using hw
      refine .caller (upward_of_way g root hw'.2 (by simpa using h) (fun w hw => hr w (by simp [hw]))) (hr z (by simp)) hw'.1

theorem way_of_upward (g : Graph N) (root : N → Bool) {s y : N} (h : Upward g.callers root s y) : y = s ∨
    ∃ l, Way g (y :: l) ∧ l.getLast? = some s ∧ ∀ z ∈ l, root z = false := by
  induction h with
  | start => exact Or.inl rfl
  | @caller x y _ hr hc ih =>
      right
      rcases ih with rfl | ⟨l, h1, h2, h3⟩
      · exact ⟨[x], by simpa [Way, CallsNext] using hc, rfl, by simpa using hr⟩
      · refine ⟨x :: l, ?_, ?_, ?_⟩
        · rw [Way, List.isChain_cons_cons]; exact ⟨hc, h1⟩
        · cases l with
          | nil => simp at h2
          | cons a l => simpa using h2
        · intro z hz
          rcases List.mem_cons.mp hz with rfl | hz
          · exact hr
          · exact h3 z hz

/-- A way through copies is a way in the graph without tests. -/
theorem way_copied {g : Graph N} {gt : Graph M} {of : M → Option N} (hr : Repeated g gt of) : ∀ {l : List M}, Way gt l → (∀ x ∈ l, (of x).isSome) →
    Way g (l.filterMap of)
  | [], _, _ => by simp [Way]
  | [x], _, h => by
      obtain ⟨y, hy⟩ := Option.isSome_iff_exists.mp (h x (by simp))
      simp [Way, hy]
  | x :: y :: l, hw, h => by
      obtain ⟨x', hx⟩ := Option.isSome_iff_exists.mp (h x (by simp))
      obtain ⟨y', hy⟩ := Option.isSome_iff_exists.mp (h y (by simp))
      have hw' : CallsNext gt x y ∧ Way gt (y :: l) := by simpa [Way] using hw
      have ih := way_copied hr hw'.2 (fun z hz => h z (by simp [hz]))
      rw [List.filterMap_cons_some hy] at ih
      rw [List.filterMap_cons_some hx, List.filterMap_cons_some hy, Way, List.isChain_cons_cons]
      exact ⟨hr.calls hw'.1 hx hy, ih⟩

end

theorem recordAll_nodup {N : Type} [DecidableEq N] (es : List (Bytes × N × Bytes)) : (Static.recordAll es).keys.Nodup := by
  induction es using List.reverseRecOn with
  | nil => simp [Static.recordAll, AMap.keys]
  | append_singleton es e ih =>
      rw [Static.recordAll_snoc]
      unfold Static.record
      split
      · split
        · exact ih
        · exact AMap.nodup_set ih _ _
      · exact AMap.nodup_set ih _ _

end Verif.Reach
