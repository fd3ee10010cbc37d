import Verif.Order.Spec
import Verif.Module.Props

namespace Verif.Order
open Verif Verif.Module

variable {F : Type} {env env' : Env F} {trans : Bool} {reqs reqs' : List Change}

theorem SameEnv.symm (h : SameEnv env env') : SameEnv env' env :=
  ⟨fun n => (h.project n).symm, fun c => (h.none c).symm, fun c fs od nd fs' od' nd' h1 h2 => by
    obtain ⟨a, b, d⟩ := h.some c fs' od' nd' fs od nd h2 h1
    exact ⟨a.symm, fun n => (b n).symm, d.symm⟩⟩

theorem wanted_same (h : SameEnv env env') (hr : reqs.Perm reqs') {c : Change} (hw : Wanted env trans reqs c) : Wanted env' trans reqs' c := by
  induction hw with
  | request hc => exact .request (hr.mem_iff.1 hc)
  | @follow c d fs od nd _ hl ht hf hn ih =>
    cases hl' : env'.load c with
    | none => rw [(h.none c).2 hl'] at hl; cases hl
    | some x =>
      obtain ⟨fs', od', nd'⟩ := x
      obtain ⟨-, ho, hp⟩ := h.some c _ _ _ _ _ _ hl hl'
      refine .follow ih hl' ht ⟨hp.mem_iff.1 hf.1, ?_, ?_, hf.2.2.2⟩ fun hm => hn ((hr.map _).mem_iff.2 hm)
      · rw [← ho]; exact hf.2.1
      · rw [← h.project]; exact hf.2.2.1

/-- What holds in the levels. -/
structure WInv (env : Env F) (trans : Bool) (reqs pend : List Change) (s : AState F) : Prop where
  seen : ∀ c ∈ s.seen, Wanted env trans reqs c
  names : ∀ c ∈ reqs, c.name ∈ s.seen.map (·.name)
  pend : ∀ d ∈ pend ++ s.next, ∃ c fs od nd, Wanted env trans reqs c ∧ env.load c = some (fs, od, nd) ∧ trans = true ∧ FollowUp env.project od nd d

theorem requestLoop_wanted : ∀ (mcs : List Change) (s s' : AState F), (∀ c ∈ mcs, c ∈ reqs) → (∀ c ∈ s.seen, c ∈ reqs) →
    (∀ d ∈ s.next, ∃ c fs od nd, Wanted env trans reqs c ∧ env.load c = some (fs, od, nd) ∧ trans = true ∧ FollowUp env.project od nd d) →
    requestLoop env trans mcs s = some s' → (∀ c ∈ s'.seen, c ∈ reqs) ∧
    ∀ d ∈ s'.next, ∃ c fs od nd, Wanted env trans reqs c ∧ env.load c = some (fs, od, nd) ∧ trans = true ∧ FollowUp env.project od nd d := by
  intro mcs
  induction mcs with
  | nil =>
    intro s s' _ h1 h2 h
    simp only [requestLoop, Option.some.injEq] at h
    subst h
    exact ⟨h1, h2⟩
  | cons mc mcs ih =>
    intro s s' hm h1 h2 h
    simp only [requestLoop] at h
    split at h
    · cases h
    · rename_i fs calls seen hone
      have hmc := hm mc (by simp)
      refine ih _ _ (fun c hc => hm c (by simp [hc])) ?_ ?_ h
      · rcases analyzeOne_cases hone with ⟨_, _, _, rfl⟩ | ⟨_, rfl, _⟩
        · exact h1
        · intro c hc
          rcases List.mem_cons.1 hc with rfl | hc
          · exact hmc
          · exact h1 c hc
      · intro d hd
        rcases List.mem_append.1 hd with hd | hd
        · exact h2 d hd
        · rcases analyzeOne_cases hone with ⟨_, _, rfl, _⟩ | ⟨_, _, od, nd, hl, rfl⟩
          · simp at hd
          · cases ht : trans with
            | false => simp [ht] at hd
            | true =>
              simp only [ht, if_true] at hd
              exact ⟨mc, fs, od, nd, .request hmc, hl, rfl, (mem_followUps _ _ _ _).1 hd⟩

theorem levelLoop_wanted : ∀ (mcs : List Change) (s s' : AState F), WInv env trans reqs mcs s → levelLoop env mcs s = some s' → WInv env trans reqs [] s' := by
  intro mcs
  induction mcs with
  | nil =>
    intro s s' hi h
    simp only [levelLoop, Option.some.injEq] at h
    subst h
    exact hi
  | cons mc mcs ih =>
    intro s s' hi h
    simp only [levelLoop] at h
    split at h
    · cases h
    · rename_i fs calls seen hone
      refine ih _ _ ?_ h
      obtain ⟨c, fs', od', nd', hw, hl', ht, hf⟩ := hi.pend mc (by simp)
      have hrest : ∀ d ∈ mcs ++ s.next, ∃ c fs od nd, Wanted env trans reqs c ∧ env.load c = some (fs, od, nd) ∧ trans = true ∧ FollowUp env.project od nd d :=
        fun d hd => hi.pend d (by simpa using Or.inr (by simpa using hd))
      rcases analyzeOne_cases hone with ⟨_, rfl, rfl, rfl⟩ | ⟨hn, rfl, od, nd, hl, rfl⟩
      · exact ⟨hi.seen, hi.names, by simpa using hrest⟩
      · have hwm : Wanted env trans reqs mc := .follow hw hl' ht hf fun hm => by
          obtain ⟨r, hr, he⟩ := List.mem_map.1 hm
          exact hn (he ▸ hi.names r hr)
        refine ⟨?_, ?_, ?_⟩
        · intro x hx
          rcases List.mem_cons.1 hx with rfl | hx
          · exact hwm
          · exact hi.seen x hx
        · intro x hx
          simpa using Or.inr (by simpa using hi.names x hx)
        · intro d hd
          simp only [if_true, ← List.append_assoc, List.mem_append] at hd
          rcases hd with hd | hd
          · exact hrest d (List.mem_append.2 hd)
          · exact ⟨mc, fs, od, nd, hwm, hl, ht, (mem_followUps _ _ _ _).1 hd⟩

theorem levels_wanted : ∀ (n : Nat) (s s' : AState F), WInv env trans reqs [] s → levels env n s = .done s' → WInv env trans reqs [] s' := by
  intro n
  induction n with
  | zero =>
    intro s s' hi h
    simp only [levels] at h
    split at h
    · cases h; exact hi
    · cases h
  | succ n ih =>
    intro s s' hi h
    simp only [levels] at h
    split at h
    · cases h; exact hi
    · split at h
      · cases h
      · rename_i s1 hl
        exact ih _ _ (levelLoop_wanted s.next { s with next := [] } _ ⟨hi.seen, hi.names, by simpa using hi.pend⟩ hl) h

/-- Only wanted changes are analysed. -/
theorem analyze_wanted {n : Nat} {s : AState F} (h : analyze env trans reqs n = .done s) : ∀ c ∈ s.seen, Wanted env trans reqs c := by
  unfold analyze at h
  split at h
  · cases h
  · rename_i s1 hr
    obtain ⟨h1, h2⟩ := requestLoop_wanted reqs ⟨[], [], []⟩ s1 (fun _ hc => hc) (by simp) (by simp) hr
    have h3 := (requestLoop_inv reqs _ _ (fun _ hc => hc) init_inv hr).2.1
    exact (levels_wanted n _ _ ⟨fun c hc => .request (h1 c hc), h3, by simpa using h2⟩ h).seen

/-- If no module comes up in two versions, all wanted changes are analysed. -/
theorem wanted_analysed {n : Nat} {s : AState F} (hn : (reqs.map (·.name)).Nodup) (hs : Single env trans reqs) (h : analyze env trans reqs n = .done s) {c : Change}
    (hw : Wanted env trans reqs c) : c ∈ s.seen := by
  induction hw with
  | request hc => exact (C38_complete_partial env trans reqs n s h).1 _ hc (List.nodup_iff_count_le_one.1 hn _)
  | @follow c d fs od nd hwc hl ht hf hnr ih =>
    obtain ⟨-, -, -, hcl⟩ := C38_once env trans reqs n s h
    obtain ⟨d', hd', he⟩ := List.mem_map.1 (hcl ht c ih fs od nd hl d hf)
    have := hs d' d (analyze_wanted h d' hd') (.follow hwc hl ht hf hnr) he
    exact this ▸ hd'

end Verif.Order
