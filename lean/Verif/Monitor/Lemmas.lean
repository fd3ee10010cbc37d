import Verif.Monitor.Spec
import Verif.Result.TreeLemmas
import Verif.Util.Lemmas

namespace Verif.Monitor

open Verif.Result

/-! ### Point ids -/

/-- The ids handed out so far are 1, …, n. -/
def PInv (s : PState) : Prop :=
  ∃ n, s.out.map (·.2) = List.range' 1 n ∧ (if n = 0 then s.cur = 0 else s.cur = n + 1) ∧ n + 1 < 2 ^ 32 ∧
    (∀ i v : Nat, s.gs[i]? = some (PPhase.loaded v) → v ≤ s.cur) ∧ (s.errs ≠ [] → n = 2 ^ 32 - 2)

theorem pinv {g : Nat} {s : PState} (h : PReach (pinit g) s) : PInv s := by
  induction h with
  | refl =>
      refine ⟨0, rfl, rfl, by decide, ?_, by simp [pinit]⟩
      intro i v hi
      simp only [pinit, List.getElem?_replicate] at hi
      split at hi <;> simp at hi
  | step _ hs ih =>
      obtain ⟨n, h1, h2, h3, h4, h5⟩ := ih
      have hset : ∀ (s : PState) (i : Nat) (c' : Nat), (∀ i v : Nat, s.gs[i]? = some (PPhase.loaded v) → v ≤ s.cur) → s.cur ≤ c' →
          ∀ j v : Nat, (s.gs.set i PPhase.idle)[j]? = some (PPhase.loaded v) → v ≤ c' := by
        intro s i c' hh hc j v hj
        rw [List.getElem?_set] at hj
        split at hj
        · split at hj <;> simp at hj
        · exact (hh j v hj).trans hc
      cases hs with
      | load i hi =>
          refine ⟨n, h1, h2, h3, ?_, h5⟩
          intro j v hj
          simp only at hj
          rw [List.getElem?_set] at hj
          split at hj
          · split at hj
            · simp at hj; simp [hj]
            · simp at hj
          · exact h4 j v hj
      | casZero i hi hc =>
          have hn : n = 0 := by
            by_contra hn; rw [if_neg hn] at h2; omega
          subst hn
          refine ⟨1, by simp [h1], by simp, by decide, ?_, fun he => by have := h5 he; omega⟩
          exact hset _ i 2 h4 (by omega)
      | casZeroFail i hi hc => exact ⟨n, h1, h2, h3, hset _ i _ h4 (le_refl _), h5⟩
      | overflow i v hi hv ho =>
          refine ⟨n, h1, h2, h3, hset _ i _ h4 (le_refl _), fun _ => ?_⟩
          have hle := h4 i v hi
          split at h2 <;> omega
      | cas i v hi hv ho hc =>
          have hn : n ≠ 0 := by rintro rfl; simp at h2; omega
          rw [if_neg hn] at h2
          have hlt : n + 2 < 2 ^ 32 := by
            by_contra hc'
            have : v + 1 = 2 ^ 32 := by omega
            rw [this] at ho; exact ho (Nat.mod_self _)
          have hmod : (v + 1) % 2 ^ 32 = n + 1 + 1 := by rw [← hc, h2, Nat.mod_eq_of_lt (by omega)]
          refine ⟨n + 1, ?_, ?_, by omega, ?_, fun he => by have := h5 he; omega⟩
          · simp only [List.map_append, h1, List.map_cons, List.map_nil]
            rw [List.range'_concat, ← hc, h2]
            simp; omega
          · rw [if_neg (by omega)]; exact hmod
          · simp only [hmod]; exact hset _ i _ h4 (by omega)
      | casFail i v hi hv ho hc => exact ⟨n, h1, h2, h3, hset _ i _ h4 (le_refl _), h5⟩

/-! ### The monitor -/

variable {K M F : Type} [DecidableEq K]

theorem set_perm {α : Type} {l : List α} {i : Nat} {a : α} (h : l[i]? = some a) (b : α) :
    (l.set i b).Perm (b :: l.eraseIdx i) ∧ l.Perm (a :: l.eraseIdx i) := by
  induction l generalizing i with
  | nil => simp at h
  | cons x l ih =>
      cases i with
      | zero => simp at h; subst h; simp
      | succ i =>
          simp only [List.getElem?_cons_succ] at h
          obtain ⟨h1, h2⟩ := ih h
          simp only [List.set_cons_succ, List.eraseIdx_cons_succ]
          exact ⟨(h1.cons x).trans (List.Perm.swap _ _ _), (h2.cons x).trans (List.Perm.swap _ _ _)⟩

theorem seqFrames_snoc (build : M → List F → F) (ms : List M) (m : M) :
    seqFrames build (ms ++ [m]) = seqFrames build ms ++ [build m (seqFrames build ms)] := by
  simp [seqFrames]

/-- Jobs that took their lock. -/
def past : JPhase → Bool
  | .arrived => false
  | .dropped => false
  | _ => true

structure MonInv (c : MonCfg K M F) (s : MonState K M F) : Prop where
  wait : s.wait = s.jobs.countP fun j => j.phase ≠ .done
  log : s.log.Perm ((s.jobs.filter fun j => past j.phase).map (·.msg))
  known : ∀ j ∈ s.jobs, (c.target j.msg = none ↔ j.phase = .dropped)
  excl : ∀ (i i' : Nat) (j j' : Job M) (n : Nat), s.jobs[i]? = some j → s.jobs[i']? = some j' → holdsStripe c n j → holdsStripe c n j' → i = i'
  frames : ∀ k : Bool × K,
    (∃ (i : Nat) (m : M) (L : List M), s.jobs[i]? = some (⟨m, JPhase.locked⟩ : Job M) ∧ c.target m = some k ∧ forKey c k s.log = L ++ [m] ∧
        (s.frames.get k).getD [] = seqFrames c.build L) ∨
    ((∀ (i : Nat) (m : M), s.jobs[i]? = some (⟨m, JPhase.locked⟩ : Job M) → c.target m ≠ some k) ∧
        (s.frames.get k).getD [] = seqFrames c.build (forKey c k s.log))

theorem get_set_ne {α : Type} {l : List α} {i j : Nat} (b : α) (h : i ≠ j) : (l.set i b)[j]? = l[j]? := by
  rw [List.getElem?_set, if_neg h]

theorem get_set_eq {α : Type} {l : List α} {i : Nat} {a : α} (h : l[i]? = some a) (b : α) : (l.set i b)[i]? = some b := by
  rw [List.getElem?_set, if_pos rfl, if_pos (List.getElem?_eq_some_iff.mp h).1]

theorem mem_get {α : Type} {l : List α} {a : α} (h : a ∈ l) : ∃ i : Nat, l[i]? = some a := List.mem_iff_getElem?.mp h

theorem get_mem {α : Type} {l : List α} {i : Nat} {a : α} (h : l[i]? = some a) : a ∈ l := List.mem_iff_getElem?.mpr ⟨i, h⟩

theorem get_append_one {α : Type} {l : List α} {x : α} {i : Nat} {a : α} (h : (l ++ [x])[i]? = some a) :
    l[i]? = some a ∨ (i = l.length ∧ a = x) := by
  rw [List.getElem?_append] at h
  split at h
  · exact Or.inl h
  · right
    have : i - l.length = 0 := by
      by_contra hne
      rw [List.getElem?_eq_none (by simp; omega)] at h
      cases h
    rw [this] at h
    simp at h
    exact ⟨by omega, h.symm⟩

/-- A step of one job that keeps message, `past`-ness and holding status weaker. -/
theorem excl_set {c : MonCfg K M F} {s : MonState K M F} (h : MonInv c s) {i : Nat} {m : M} {p p' : JPhase}
    (hi : s.jobs[i]? = some ⟨m, p⟩) (hp : ∀ n, holdsStripe c n (⟨m, p'⟩ : Job M) → holdsStripe c n ⟨m, p⟩) :
    ∀ (a a' : Nat) (j j' : Job M) (n : Nat), (s.jobs.set i ⟨m, p'⟩)[a]? = some j → (s.jobs.set i ⟨m, p'⟩)[a']? = some j' →
      holdsStripe c n j → holdsStripe c n j' → a = a' := by
  have back : ∀ (a : Nat) (j : Job M) (n : Nat), (s.jobs.set i ⟨m, p'⟩)[a]? = some j → holdsStripe c n j →
      ∃ j0, s.jobs[a]? = some j0 ∧ holdsStripe c n j0 := by
    intro a j n ha hh
    by_cases hai : i = a
    · subst hai
      rw [get_set_eq hi] at ha
      cases ha
      exact ⟨_, hi, hp n hh⟩
    · rw [get_set_ne _ hai] at ha
      exact ⟨j, ha, hh⟩
  intro a a' j j' n ha ha' hh hh'
  obtain ⟨j0, h0, hh0⟩ := back a j n ha hh
  obtain ⟨j1, h1, hh1⟩ := back a' j' n ha' hh'
  exact h.excl a a' j0 j1 n h0 h1 hh0 hh1

theorem known_set {c : MonCfg K M F} {s : MonState K M F} (h : MonInv c s) {i : Nat} {m : M} {p p' : JPhase}
    (hi : s.jobs[i]? = some ⟨m, p⟩) (hp : p' = .dropped ↔ p = .dropped) :
    ∀ j ∈ s.jobs.set i ⟨m, p'⟩, (c.target j.msg = none ↔ j.phase = .dropped) := by
  intro j hj
  obtain ⟨a, ha⟩ := mem_get hj
  by_cases hai : i = a
  · subst hai
    rw [get_set_eq hi] at ha
    cases ha
    have := h.known _ (get_mem hi)
    simp only at this ⊢
    rw [this, hp]
  · rw [get_set_ne _ hai] at ha
    exact h.known j (get_mem ha)

omit [DecidableEq K] in
theorem log_set {s : MonState K M F} {i : Nat} {m : M} {p p' : JPhase} (hi : s.jobs[i]? = some ⟨m, p⟩) (hp : past p = past p') :
    ((s.jobs.set i ⟨m, p'⟩).filter fun j => past j.phase).map (·.msg) |>.Perm
      ((s.jobs.filter fun j => past j.phase).map (·.msg)) := by
  obtain ⟨h1, h2⟩ := set_perm hi ⟨m, p'⟩
  have e1 := ((h1.filter fun j : Job M => past j.phase).map (·.msg))
  have e2 := ((h2.filter fun j : Job M => past j.phase).map (·.msg))
  refine e1.trans (List.Perm.trans ?_ e2.symm)
  simp only [List.filter_cons, hp]
  split <;> simp

theorem moninv {c : MonCfg K M F} {seq : Bool} {s : MonState K M F} (h : MonReach c seq monInit s) : MonInv c s := by
  induction h with
  | refl =>
      refine ⟨rfl, by simp [monInit], by simp [monInit], by simp [monInit], ?_⟩
      intro k; right; simp [monInit, seqFrames, forKey]
  | step hr hs ih =>
      cases hs with
      | arrive m k0 ht hseq =>
          refine ⟨by simp [ih.wait, List.countP_append], by simpa [past] using ih.log, ?_, ?_, ?_⟩
          · intro j hj
            simp only [List.mem_append, List.mem_singleton] at hj
            rcases hj with hj | rfl
            · exact ih.known j hj
            · simp [ht]
          · intro a a' j j' n ha ha' hh hh'
            have nh : ∀ n, ¬ holdsStripe c n (⟨m, .arrived⟩ : Job M) := by rintro n ⟨h1 | h1, _⟩ <;> cases h1
            rcases get_append_one ha with ha | ⟨_, rfl⟩
            · rcases get_append_one ha' with ha' | ⟨_, rfl⟩
              · exact ih.excl a a' j j' n ha ha' hh hh'
              · exact absurd hh' (nh n)
            · exact absurd hh (nh n)
          · intro k
            rcases ih.frames k with ⟨i, m', L, h1, h2, h3, h4⟩ | ⟨h1, h2⟩
            · left
              refine ⟨i, m', L, ?_, h2, h3, h4⟩
              simp only
              rw [List.getElem?_append_left (List.getElem?_eq_some_iff.mp h1).1, h1]
            · right
              refine ⟨?_, h2⟩
              intro i m' hi
              rcases get_append_one hi with hi | ⟨_, hc⟩
              · exact h1 i m' hi
              · cases hc
      | arriveUnknown m ht hseq =>
          refine ⟨by simp [ih.wait, List.countP_append], by simpa [past] using ih.log, ?_, ?_, ?_⟩
          · intro j hj
            simp only [List.mem_append, List.mem_singleton] at hj
            rcases hj with hj | rfl
            · exact ih.known j hj
            · simp [ht]
          · intro a a' j j' n ha ha' hh hh'
            have nh : ∀ n, ¬ holdsStripe c n (⟨m, .dropped⟩ : Job M) := by rintro n ⟨h1 | h1, _⟩ <;> cases h1
            rcases get_append_one ha with ha | ⟨_, rfl⟩
            · rcases get_append_one ha' with ha' | ⟨_, rfl⟩
              · exact ih.excl a a' j j' n ha ha' hh hh'
              · exact absurd hh' (nh n)
            · exact absurd hh (nh n)
          · intro k
            rcases ih.frames k with ⟨i, m', L, h1, h2, h3, h4⟩ | ⟨h1, h2⟩
            · left
              refine ⟨i, m', L, ?_, h2, h3, h4⟩
              simp only
              rw [List.getElem?_append_left (List.getElem?_eq_some_iff.mp h1).1, h1]
            · right
              refine ⟨?_, h2⟩
              intro i m' hi
              rcases get_append_one hi with hi | ⟨_, hc⟩
              · exact h1 i m' hi
              · cases hc
      | lock i m k0 hi ht hfree =>
          rename_i s0
          refine ⟨?_, ?_, known_set ih hi (by simp), ?_, ?_⟩
          · have := Util.countP_set (fun j : Job M => decide (j.phase ≠ .done)) s0.jobs i _ (⟨m, .locked⟩ : Job M) hi
            simp only [ih.wait] at this ⊢
            simp at this
            simpa using this.symm
          · obtain ⟨h1, h2⟩ := set_perm hi (⟨m, .locked⟩ : Job M)
            have e1 := ((h1.filter fun j : Job M => past j.phase).map (·.msg))
            have e2 := ((h2.filter fun j : Job M => past j.phase).map (·.msg))
            simp only [List.filter_cons, past, if_true, Bool.false_eq_true, if_false, List.map_cons] at e1 e2
            refine List.Perm.trans ?_ e1.symm
            exact (List.perm_append_singleton m s0.log).trans ((ih.log.trans e2).cons m)
          · intro a a' j j' n ha ha' hh hh'
            have key : ∀ (b : Nat) (j : Job M), b ≠ i → (s0.jobs.set i ⟨m, .locked⟩)[b]? = some j → s0.jobs[b]? = some j := by
              intro b j hb hj
              rwa [get_set_ne _ (fun h => hb h.symm)] at hj
            have mine : ∀ (n : Nat) (j : Job M), (s0.jobs.set i ⟨m, .locked⟩)[i]? = some j → holdsStripe c n j → n = c.stripe k0.2 := by
              intro n j hj hh
              rw [get_set_eq hi] at hj
              cases hj
              obtain ⟨_, k, h1, h2⟩ := hh
              simp only at h1
              rw [ht] at h1; cases h1; exact h2.symm
            by_cases hai : a = i
            · subst hai
              by_cases hai' : a' = a
              · exact hai'.symm
              · have := mine n j ha hh
                subst this
                exact absurd hh' (hfree j' (get_mem (key a' j' hai' ha')))
            · by_cases hai' : a' = i
              · subst hai'
                have := mine n j' ha' hh'
                subst this
                exact absurd hh (hfree j (get_mem (key a j hai ha)))
              · exact ih.excl a a' j j' n (key a j hai ha) (key a' j' hai' ha') hh hh'
          · intro k
            by_cases hk : k = k0
            · subst hk
              left
              refine ⟨i, m, forKey c k s0.log, get_set_eq hi _, ht, by simp [forKey, ht], ?_⟩
              rcases ih.frames k with ⟨i', m', L, h1, h2, h3, h4⟩ | ⟨h1, h2⟩
              · exact absurd ⟨Or.inl rfl, k, h2, rfl⟩ (hfree _ (get_mem h1))
              · exact h2
            · have hf : forKey c k (s0.log ++ [m]) = forKey c k s0.log := by
                have : ¬ (k0 = k) := fun h => hk h.symm
                simp [forKey, ht, this]
              simp only [hf]
              rcases ih.frames k with ⟨i', m', L, h1, h2, h3, h4⟩ | ⟨h1, h2⟩
              · left
                have hne : i ≠ i' := by
                  rintro rfl; rw [hi] at h1; cases h1
                exact ⟨i', m', L, by rw [get_set_ne _ hne]; exact h1, h2, h3, h4⟩
              · right
                refine ⟨?_, h2⟩
                intro i' m' hi'
                by_cases hii : i = i'
                · subst hii
                  rw [get_set_eq hi] at hi'
                  cases hi'
                  rw [ht]; intro hc; cases hc; exact hk rfl
                · rw [get_set_ne _ hii] at hi'
                  exact h1 i' m' hi'
      | append i m k0 hi ht =>
          rename_i s0
          refine ⟨?_, ih.log.trans (log_set (p' := .appended) hi rfl).symm, known_set ih hi (by simp), excl_set ih hi ?_, ?_⟩
          · have := Util.countP_set (fun j : Job M => decide (j.phase ≠ .done)) s0.jobs i _ (⟨m, .appended⟩ : Job M) hi
            simp only [ih.wait] at this ⊢
            simp at this
            simpa using this.symm
          · rintro n ⟨_, h2⟩; exact ⟨Or.inl rfl, h2⟩
          · intro k
            have hme : holdsStripe c (c.stripe k0.2) (⟨m, .locked⟩ : Job M) := ⟨Or.inl rfl, k0, ht, rfl⟩
            by_cases hk : k = k0
            · subst hk
              right
              refine ⟨?_, ?_⟩
              · intro i' m' hi' hc
                by_cases hii : i = i'
                · subst hii; rw [get_set_eq hi] at hi'; cases hi'
                · rw [get_set_ne _ hii] at hi'
                  exact hii (ih.excl i i' _ _ _ hi hi' hme ⟨Or.inl rfl, k, hc, rfl⟩)
              · rcases ih.frames k with ⟨i', m', L, h1, h2, h3, h4⟩ | ⟨h1, h2⟩
                · have hii : i = i' := ih.excl i i' _ _ _ hi h1 hme ⟨Or.inl rfl, k, h2, rfl⟩
                  subst hii
                  rw [hi] at h1
                  cases h1
                  simp only [AMap.get_set, if_true, Option.getD_some, h4, h3, seqFrames_snoc]
                · exact absurd ht (h1 i m hi)
            · have hg : AMap.get (s0.frames.set k0 (((s0.frames.get k0).getD []) ++ [c.build m ((s0.frames.get k0).getD [])])) k = s0.frames.get k := by
                rw [AMap.get_set, if_neg hk]
              simp only [hg]
              rcases ih.frames k with ⟨i', m', L, h1, h2, h3, h4⟩ | ⟨h1, h2⟩
              · left
                have hne : i ≠ i' := by
                  rintro rfl; rw [hi] at h1; cases h1; rw [ht] at h2; cases h2; exact hk rfl
                exact ⟨i', m', L, by rw [get_set_ne _ hne]; exact h1, h2, h3, h4⟩
              · right
                refine ⟨?_, h2⟩
                intro i' m' hi'
                by_cases hii : i = i'
                · subst hii; rw [get_set_eq hi] at hi'; cases hi'
                · rw [get_set_ne _ hii] at hi'
                  exact h1 i' m' hi'
      | unlock i m hi =>
          rename_i s0
          refine ⟨?_, ih.log.trans (log_set (p' := .unlocked) hi rfl).symm, known_set ih hi (by simp), excl_set ih hi ?_, ?_⟩
          · have := Util.countP_set (fun j : Job M => decide (j.phase ≠ .done)) s0.jobs i _ (⟨m, .unlocked⟩ : Job M) hi
            simp only [ih.wait] at this ⊢
            simp at this
            simpa using this.symm
          · rintro n ⟨h1 | h1, _⟩ <;> cases h1
          · intro k
            rcases ih.frames k with ⟨i', m', L, h1, h2, h3, h4⟩ | ⟨h1, h2⟩
            · left
              have hne : i ≠ i' := by rintro rfl; rw [hi] at h1; cases h1
              exact ⟨i', m', L, by simp only; rw [get_set_ne _ hne]; exact h1, h2, h3, h4⟩
            · right
              refine ⟨?_, h2⟩
              intro i' m' hi'
              simp only at hi'
              by_cases hii : i = i'
              · subst hii; rw [get_set_eq hi] at hi'; cases hi'
              · rw [get_set_ne _ hii] at hi'
                exact h1 i' m' hi'
      | done i m hi =>
          rename_i s0
          refine ⟨?_, ih.log.trans (log_set (p' := .done) hi rfl).symm, known_set ih hi (by simp), excl_set ih hi ?_, ?_⟩
          · have := Util.countP_set (fun j : Job M => decide (j.phase ≠ .done)) s0.jobs i _ (⟨m, .done⟩ : Job M) hi
            simp only [ih.wait] at this ⊢
            simp at this
            simp only [ne_eq, decide_not] 
            omega
          · rintro n ⟨h1 | h1, _⟩ <;> cases h1
          · intro k
            rcases ih.frames k with ⟨i', m', L, h1, h2, h3, h4⟩ | ⟨h1, h2⟩
            · left
              have hne : i ≠ i' := by rintro rfl; rw [hi] at h1; cases h1
              exact ⟨i', m', L, by simp only; rw [get_set_ne _ hne]; exact h1, h2, h3, h4⟩
            · right
              refine ⟨?_, h2⟩
              intro i' m' hi'
              simp only at hi'
              by_cases hii : i = i'
              · subst hii; rw [get_set_eq hi] at hi'; cases hi'
              · rw [get_set_ne _ hii] at hi'
                exact h1 i' m' hi'
      | finish hw => exact ⟨ih.wait, ih.log, ih.known, ih.excl, ih.frames⟩

end Verif.Monitor
