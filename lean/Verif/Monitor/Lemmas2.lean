import Verif.Monitor.Lemmas
import Mathlib.Data.List.Forall2

/-!
Progress of the monitor, order of frames, stable baselines, call path keys.
-/

namespace Verif.Monitor

open Verif.Result

variable {K M F : Type} [DecidableEq K]

/-! ### A sequential client -/

theorem filter_map_set {α β : Type} (p : α → Bool) (f : α → β) : ∀ (l : List α) (i : Nat) (a b : α), l[i]? = some a →
    p a = p b → f a = f b → ((l.set i b).filter p).map f = (l.filter p).map f
  | [], i, a, b, h, _, _ => by simp at h
  | x :: l, 0, a, b, h, hp, hf => by
      simp at h; subst h
      simp only [List.set_cons_zero, List.filter_cons, hp]
      split <;> simp [hf]
  | x :: l, i + 1, a, b, h, hp, hf => by
      simp only [List.getElem?_cons_succ] at h
      have := filter_map_set p f l i a b h hp hf
      simp only [List.set_cons_succ, List.filter_cons]
      split <;> simp [this]

structure SeqInv (s : MonState K M F) : Prop where
  log : s.log = (s.jobs.filter fun j => past j.phase).map (·.msg)
  last : ∀ (i : Nat) (j : Job M), s.jobs[i]? = some j → j.phase = .arrived → i + 1 = s.jobs.length

omit [DecidableEq K] in
theorem last_set {s : MonState K M F} (h : SeqInv s) {i : Nat} {m : M} {p p' : JPhase} (hi : s.jobs[i]? = some ⟨m, p⟩) (hp : p' ≠ .arrived) :
    ∀ (a : Nat) (j : Job M), (s.jobs.set i ⟨m, p'⟩)[a]? = some j → j.phase = .arrived → a + 1 = (s.jobs.set i ⟨m, p'⟩).length := by
  intro a j ha hj
  by_cases hai : i = a
  · subst hai
    rw [get_set_eq hi] at ha
    cases ha
    exact absurd hj hp
  · rw [get_set_ne _ hai] at ha
    simpa using h.last a j ha hj

theorem seqinv {c : MonCfg K M F} {s : MonState K M F} (h : MonReach c true monInit s) : SeqInv s := by
  induction h with
  | refl => exact ⟨rfl, by simp [monInit]⟩
  | step hr hs ih =>
      cases hs with
      | arrive m k ht hseq =>
          refine ⟨by simp [ih.log, past], ?_⟩
          intro i j hi hj
          rcases get_append_one hi with hi | ⟨rfl, _⟩
          · exact absurd hj (hseq rfl j (get_mem hi))
          · simp
      | arriveUnknown m ht hseq =>
          refine ⟨by simp [ih.log, past], ?_⟩
          intro i j hi hj
          rcases get_append_one hi with hi | ⟨rfl, _⟩
          · exact absurd hj (hseq rfl j (get_mem hi))
          · simp
      | lock i m k hi ht hfree =>
          rename_i s0
          refine ⟨?_, last_set ih hi (by simp)⟩
          have hl := ih.last i _ hi rfl
          have hj : s0.jobs = s0.jobs.dropLast ++ [⟨m, .arrived⟩] := by
            have hne : s0.jobs ≠ [] := by rintro h0; rw [h0] at hi; simp at hi
            have hlast : s0.jobs.getLast hne = ⟨m, .arrived⟩ := by
              rw [List.getLast_eq_getElem]
              have := (List.getElem?_eq_some_iff.mp hi).2
              simpa [show s0.jobs.length - 1 = i by omega] using this
            rw [← hlast, List.dropLast_append_getLast]
          have hlen : s0.jobs.dropLast.length = i := by simp; omega
          have hset : s0.jobs.set i ⟨m, .locked⟩ = s0.jobs.dropLast ++ [⟨m, .locked⟩] := by
            conv_lhs => rw [hj]
            rw [List.set_append_right _ _ (by omega)]
            simp [hlen]
          simp only [hset, ih.log]
          conv_lhs => rw [hj]
          simp [past]
      | append i m k hi ht =>
          refine ⟨?_, last_set ih hi (by simp)⟩
          simp only [ih.log]
          exact (filter_map_set (fun j : Job M => past j.phase) (fun j : Job M => j.msg) _ i _ ⟨m, .appended⟩ hi rfl rfl).symm
      | unlock i m hi =>
          refine ⟨?_, last_set ih hi (by simp)⟩
          simp only [ih.log]
          exact (filter_map_set (fun j : Job M => past j.phase) (fun j : Job M => j.msg) _ i _ ⟨m, .unlocked⟩ hi rfl rfl).symm
      | done i m hi =>
          refine ⟨?_, last_set ih hi (by simp)⟩
          simp only [ih.log]
          exact (filter_map_set (fun j : Job M => past j.phase) (fun j : Job M => j.msg) _ i _ ⟨m, .done⟩ hi rfl rfl).symm
      | finish hw => exact ⟨ih.log, ih.last⟩

/-! ### Progress -/

theorem weight_set {l : List (Job M)} : ∀ {i : Nat} {m : M} {p : JPhase} (p' : JPhase), l[i]? = some ⟨m, p⟩ →
    (((l.set i ⟨m, p'⟩).map fun j => j.phase.weight).sum) + p.weight = (l.map fun j => j.phase.weight).sum + p'.weight := by
  induction l with
  | nil => intro i m p p' h; simp at h
  | cons x l ih =>
      intro i m p p' h
      cases i with
      | zero => simp at h; subst h; simp; omega
      | succ i =>
          simp only [List.getElem?_cons_succ] at h
          have := ih p' h
          simp only [List.set_cons_succ, List.map_cons, List.sum_cons]
          omega

theorem filter_length_zero {α : Type} {p : α → Bool} {l : List α} (h : l.countP p = 0) : ∀ a ∈ l, p a = false := by
  intro a ha
  rw [List.countP_eq_zero] at h
  simpa using h a ha

theorem progress_step {c : MonCfg K M F} {seq : Bool} {s : MonState K M F} (h : MonInv c s)
    (hk : ∀ j ∈ s.jobs, c.target j.msg ≠ none) (hw : s.wait ≠ 0) :
    ∃ s', MonStep c seq s s' ∧ s'.jobs.map (·.msg) = s.jobs.map (·.msg) ∧ work s' < work s := by
  have hmap : ∀ (i : Nat) (m : M) (p p' : JPhase), s.jobs[i]? = some ⟨m, p⟩ → (s.jobs.set i ⟨m, p'⟩).map (·.msg) = s.jobs.map (·.msg) := by
    intro i m p p' hi
    have := filter_map_set (fun _ => true) (fun j : Job M => j.msg) s.jobs i _ ⟨m, p'⟩ hi rfl rfl
    simpa using this
  have hdec : ∀ (i : Nat) (m : M) (p p' : JPhase), s.jobs[i]? = some ⟨m, p⟩ → p'.weight < p.weight →
      ((s.jobs.set i ⟨m, p'⟩).map fun j => j.phase.weight).sum < (s.jobs.map fun j => j.phase.weight).sum := by
    intro i m p p' hi hlt
    have := weight_set p' hi
    omega
  have hex : ∃ (i : Nat) (m : M) (p : JPhase), s.jobs[i]? = some ⟨m, p⟩ ∧ p ≠ .done := by
    by_contra hno
    apply hw
    rw [h.wait, List.countP_eq_zero]
    intro j hj
    obtain ⟨i, hi⟩ := mem_get hj
    obtain ⟨m, p⟩ := j
    by_contra hc
    exact hno ⟨i, m, p, hi, by simpa using hc⟩
  by_cases hmid : ∃ (i : Nat) (m : M) (p : JPhase), s.jobs[i]? = some ⟨m, p⟩ ∧ (p = .locked ∨ p = .appended ∨ p = .unlocked)
  · obtain ⟨i, m, p, hi, hp⟩ := hmid
    rcases hp with rfl | rfl | rfl
    · cases ht : c.target m with
      | none => exact absurd ht (hk _ (get_mem hi))
      | some k => exact ⟨_, .append s i m k hi ht, hmap i m _ _ hi, hdec i m _ _ hi (by decide)⟩
    · exact ⟨_, .unlock s i m hi, hmap i m _ _ hi, hdec i m _ _ hi (by decide)⟩
    · exact ⟨_, .done s i m hi, hmap i m _ _ hi, hdec i m _ _ hi (by decide)⟩
  · obtain ⟨i, m, p, hi, hp⟩ := hex
    cases ht : c.target m with
    | none => exact absurd ht (hk _ (get_mem hi))
    | some k =>
        have hpa : p = .arrived := by
          cases p with
          | arrived => rfl
          | locked => exact absurd ⟨i, m, _, hi, Or.inl rfl⟩ hmid
          | appended => exact absurd ⟨i, m, _, hi, Or.inr (Or.inl rfl)⟩ hmid
          | unlocked => exact absurd ⟨i, m, _, hi, Or.inr (Or.inr rfl)⟩ hmid
          | done => exact absurd rfl hp
          | dropped =>
              have := (h.known _ (get_mem hi)).mpr rfl
              exact absurd this (hk _ (get_mem hi))
        subst hpa
        refine ⟨_, .lock s i m k hi ht ?_, hmap i m _ _ hi, hdec i m _ _ hi (by decide)⟩
        rintro ⟨m', p'⟩ hj ⟨hh, _⟩
        obtain ⟨i', hi'⟩ := mem_get hj
        rcases hh with hh | hh
        · simp only at hh; subst hh; exact hmid ⟨i', m', _, hi', Or.inl rfl⟩
        · simp only at hh; subst hh; exact hmid ⟨i', m', _, hi', Or.inr (Or.inl rfl)⟩

theorem MonReach.trans {c : MonCfg K M F} {seq : Bool} {a b d : MonState K M F} (h : MonReach c seq a b) (h' : MonReach c seq b d) :
    MonReach c seq a d := by
  induction h' with
  | refl => exact h
  | step _ hs ih => exact .step ih hs

theorem progress {c : MonCfg K M F} {seq : Bool} : ∀ (n : Nat) (s : MonState K M F), work s ≤ n → MonReach c seq monInit s →
    (∀ j ∈ s.jobs, c.target j.msg ≠ none) →
    ∃ s', MonReach c seq s s' ∧ s'.jobs.map (·.msg) = s.jobs.map (·.msg) ∧ s'.wait = 0
  | n, s, hn, hr, hk => by
      by_cases hw : s.wait = 0
      · exact ⟨s, .refl, rfl, hw⟩
      · obtain ⟨s1, hs, hm, hlt⟩ := progress_step (seq := seq) (moninv hr) hk hw
        match n with
        | 0 => omega
        | n + 1 =>
            have hk1 : ∀ j ∈ s1.jobs, c.target j.msg ≠ none := by
              intro j hj
              have : j.msg ∈ s.jobs.map (·.msg) := hm ▸ List.mem_map_of_mem hj
              obtain ⟨j0, h0, he⟩ := List.mem_map.mp this
              rw [← he]; exact hk j0 h0
            obtain ⟨s2, h2, hm2, hw2⟩ := progress n s1 (by omega) (.step hr hs) hk1
            exact ⟨s2, MonReach.trans (.step .refl hs) h2, hm2.trans hm, hw2⟩

/-- A dropped job stays dropped. -/
theorem dropped_stays {c : MonCfg K M F} {seq : Bool} {s s' : MonState K M F} (h : MonReach c seq s s') {i : Nat} {m : M}
    (hi : s.jobs[i]? = some ⟨m, .dropped⟩) : s'.jobs[i]? = some ⟨m, .dropped⟩ := by
  induction h with
  | refl => exact hi
  | step hr hs ih =>
      have key : ∀ (s : MonState K M F) (a : Nat) (m' : M) (p p' : JPhase), s.jobs[i]? = some ⟨m, .dropped⟩ → s.jobs[a]? = some ⟨m', p⟩ → p ≠ .dropped →
          (s.jobs.set a ⟨m', p'⟩)[i]? = some ⟨m, .dropped⟩ := by
        intro s a m' p p' h0 ha hp
        have : a ≠ i := by rintro rfl; rw [h0] at ha; cases ha; exact hp rfl
        rw [get_set_ne _ this]; exact h0
      cases hs with
      | arrive m' k ht hseq => simp only; rw [List.getElem?_append_left (List.getElem?_eq_some_iff.mp ih).1]; exact ih
      | arriveUnknown m' ht hseq => simp only; rw [List.getElem?_append_left (List.getElem?_eq_some_iff.mp ih).1]; exact ih
      | lock a m' k ha ht hfree => exact key _ a m' _ _ ih ha (by simp)
      | append a m' k ha ht => exact key _ a m' _ _ ih ha (by simp)
      | unlock a m' ha => exact key _ a m' _ _ ih ha (by simp)
      | done a m' ha => exact key _ a m' _ _ ih ha (by simp)
      | finish hw => exact ih

/-! ### Stable fields -/

theorem wf_find : ∀ {m : FMap} {x v : Bytes} {kids : FMap}, WF m → m.find x = some (v, kids) → WF kids
  | .goNil, _, _, _, _, h => by simp [FMap.find] at h
  | .empty, _, _, _, _, h => by simp [FMap.find] at h
  | .cons k v' kids' rest, x, v, kids, hw, h => by
      simp only [FMap.find] at h
      by_cases hk : k = x
      · rw [if_pos hk] at h; cases h; exact hw.2.1
      · rw [if_neg hk] at h; exact wf_find hw.2.2 h

/-- What `stableFV` keeps of two nodes. -/
def stableNode : Option (Bytes × FMap) → Option (Bytes × FMap) → Option (Bytes × FMap)
  | some (v, kids), some (v2, kids2) =>
      if kids.isEmpty && kids2.isEmpty then (if v = v2 then some (v, .goNil) else none)
      else if !kids.isEmpty && !kids2.isEmpty then (if (stableFV kids kids2).isEmpty then none else some ([], stableFV kids kids2))
      else none
  | _, _ => none

theorem stableFV_find : ∀ (f1 f2 : FMap), WF f1 → ∀ x, (stableFV f1 f2).find x = stableNode (f1.find x) (f2.find x)
  | .goNil, f2, _, x => by simp [stableFV, FMap.find, stableNode]
  | .empty, f2, _, x => by simp [stableFV, FMap.find, stableNode]
  | .cons k v kids rest, f2, hw, x => by
      have ih := stableFV_find rest f2 hw.2.2 x
      have hrest : rest.find k = none := (find_none_iff _ _).mpr hw.1
      by_cases hk : k = x
      · subst hk
        have hn : (stableFV rest f2).find k = none := by rw [ih, hrest]; rfl
        simp only [find_head]
        rw [stableFV]
        cases h2 : f2.find k with
        | none => simp only [hn]; rfl
        | some n =>
            obtain ⟨v2, kids2⟩ := n
            simp only [stableNode]
            split
            · split
              · simp [find_head]
              · exact hn
            · split
              · split
                · exact hn
                · simp [find_head]
              · exact hn
      · have hf : (FMap.cons k v kids rest).find x = rest.find x := by simp [FMap.find, hk]
        rw [hf, ← ih]
        rw [stableFV]
        cases h2 : f2.find k with
        | none => rfl
        | some n =>
            obtain ⟨v2, kids2⟩ := n
            simp only
            split
            · split
              · simp [FMap.find, hk]
              · rfl
            · split
              · split
                · rfl
                · simp [FMap.find, hk]
              · rfl

theorem stableFV_leaf : ∀ (p : List Bytes) (f1 f2 : FMap), WF f1 → ∀ v,
    leafAt p (stableFV f1 f2) = some v ↔ leafAt p f1 = some v ∧ leafAt p f2 = some v
  | [], _, _, _, v => by simp [leafAt]
  | [k], f1, f2, hw, v => by
      simp only [leafAt, stableFV_find f1 f2 hw k]
      cases h1 : f1.find k with
      | none => simp [stableNode]
      | some n1 =>
          obtain ⟨v1, kids1⟩ := n1
          cases h2 : f2.find k with
          | none => simp [stableNode]
          | some n2 =>
              obtain ⟨v2, kids2⟩ := n2
              simp only [stableNode, Option.bind_some]
              cases e1 : kids1.isEmpty <;> cases e2 : kids2.isEmpty <;> simp
              · split <;> simp_all
              · split
                · rename_i hv; subst hv; simp [FMap.isEmpty]
                · rename_i hv
                  simp only [Option.bind_none, reduceCtorEq, false_iff, not_and]
                  intro h h'
                  exact hv (h.trans h'.symm)
  | k :: k' :: ks, f1, f2, hw, v => by
      simp only [leafAt, stableFV_find f1 f2 hw k]
      cases h1 : f1.find k with
      | none => simp [stableNode]
      | some n1 =>
          obtain ⟨v1, kids1⟩ := n1
          cases h2 : f2.find k with
          | none => simp [stableNode]
          | some n2 =>
              obtain ⟨v2, kids2⟩ := n2
              have ih := stableFV_leaf (k' :: ks) kids1 kids2 (wf_find hw h1) v
              simp only [stableNode, Option.bind_some]
              cases e1 : kids1.isEmpty <;> cases e2 : kids2.isEmpty <;> simp
              · split
                · rename_i hs
                  rw [leafAt_empty hs] at ih
                  simpa using ih
                · exact ih
              · rw [leafAt_empty e2]; simp
              · rw [leafAt_empty e1]; simp
              · rw [leafAt_empty e1]
                split <;> simp [leafAt_empty (a := .goNil) rfl]

/-! ### Sorting by time -/

theorem insertByTime_perm (f : CallFrame) : ∀ l, (insertByTime f l).Perm (f :: l)
  | [] => .refl _
  | g :: gs => by
      unfold insertByTime
      split
      · exact .refl _
      · exact ((insertByTime_perm f gs).cons g).trans (List.Perm.swap _ _ _)

theorem insertByTime_sorted {f : CallFrame} : ∀ {l : List CallFrame}, l.Pairwise (fun a b => a.time ≤ b.time) →
    (insertByTime f l).Pairwise fun a b => a.time ≤ b.time
  | [], _ => by simp [insertByTime]
  | g :: gs, h => by
      rw [List.pairwise_cons] at h
      unfold insertByTime
      split
      · rename_i hle
        refine List.pairwise_cons.mpr ⟨?_, List.pairwise_cons.mpr h⟩
        intro b hb
        rcases List.mem_cons.mp hb with rfl | hb
        · exact hle
        · exact le_trans hle (h.1 b hb)
      · rename_i hle
        refine List.pairwise_cons.mpr ⟨?_, insertByTime_sorted h.2⟩
        intro b hb
        have := (insertByTime_perm f gs).mem_iff.mp hb
        rcases List.mem_cons.mp this with rfl | hb
        · exact le_of_lt (not_le.mp hle)
        · exact h.1 b hb

theorem insertByTime_filter {f : CallFrame} (t) : ∀ {l : List CallFrame}, l.Pairwise (fun a b => a.time ≤ b.time) →
    ((insertByTime f l).filter fun g => g.time = t) = (f :: l).filter fun g => g.time = t
  | [], _ => rfl
  | g :: gs, h => by
      rw [List.pairwise_cons] at h
      unfold insertByTime
      split
      · rfl
      · rename_i hle
        rw [List.filter_cons, insertByTime_filter t h.2]
        simp only [List.filter_cons]
        by_cases h1 : g.time = t
        · have h2 : ¬ f.time = t := by intro h2; exact hle (by rw [h1, h2])
          simp [h1, h2]
        · simp [h1]

theorem sortByTime_stable : ∀ l, StableSorted l (sortByTime l)
  | [] => ⟨.refl _, by simp [sortByTime], fun _ => rfl⟩
  | f :: fs => by
      have ih := sortByTime_stable fs
      refine ⟨(insertByTime_perm f _).trans (ih.perm.cons f), insertByTime_sorted ih.sorted, ?_⟩
      intro t
      simp only [sortByTime]
      rw [insertByTime_filter t ih.sorted]
      simp only [List.filter_cons, ih.stable t]

/-! ### Occurrences -/

theorem filter_get {α : Type} (p : α → Bool) : ∀ (l : List α) (n : Nat) (g : α),
    (l.filter p)[n]? = some g ↔ ∃ j : Nat, l[j]? = some g ∧ p g = true ∧ (l.take j).countP p = n
  | [], n, g => by simp
  | x :: l, n, g => by
      have ih := filter_get p l
      simp only [List.filter_cons]
      by_cases hx : p x = true
      · rw [if_pos hx]
        cases n with
        | zero =>
            simp only [List.getElem?_cons_zero, Option.some.injEq]
            constructor
            · rintro rfl; exact ⟨0, rfl, hx, rfl⟩
            · rintro ⟨j, hj, hg, hc⟩
              cases j with
              | zero => simpa using hj
              | succ j => simp [List.countP_cons, hx] at hc
        | succ n =>
            simp only [List.getElem?_cons_succ, ih]
            constructor
            · rintro ⟨j, hj, hg, hc⟩; exact ⟨j + 1, hj, hg, by simp [List.countP_cons, hx, hc]⟩
            · rintro ⟨j, hj, hg, hc⟩
              cases j with
              | zero => simp at hc
              | succ j =>
                  refine ⟨j, hj, hg, ?_⟩
                  simp only [List.take_succ_cons, List.countP_cons, hx, if_true] at hc
                  omega
      · rw [if_neg hx, ih]
        constructor
        · rintro ⟨j, hj, hg, hc⟩; exact ⟨j + 1, hj, hg, by simp [List.countP_cons, hx, hc]⟩
        · rintro ⟨j, hj, hg, hc⟩
          cases j with
          | zero => simp at hj; subst hj; exact absurd hg hx
          | succ j =>
              refine ⟨j, hj, hg, ?_⟩
              simp only [List.take_succ_cons, List.countP_cons, hx] at hc
              simpa using hc

theorem occ_lt {α : Type} (p : α → Bool) {l : List α} {j j' : Nat} {g : α} (hj : l[j]? = some g) (hg : p g = true) (h : j < j') :
    (l.take j).countP p < (l.take j').countP p := by
  have h1 : (l.take (j + 1)).countP p = (l.take j).countP p + 1 := by
    rw [List.take_add_one, hj]; simp [hg]
  have h2 : (l.take (j + 1)).countP p ≤ (l.take j').countP p := by
    apply List.Sublist.countP_le
    exact (List.take_prefix_take_left (by omega)).sublist
  omega

theorem occ_unique {α : Type} (p : α → Bool) {l : List α} {j j' : Nat} {g g' : α} (hj : l[j]? = some g) (hj' : l[j']? = some g')
    (hg : p g = true) (hg' : p g' = true) (h : (l.take j).countP p = (l.take j').countP p) : j = j' := by
  rcases Nat.lt_trichotomy j j' with h1 | h1 | h1
  · have := occ_lt p hj hg h1; omega
  · exact h1
  · have := occ_lt p hj' hg' h1; omega

theorem stableLoop_spec (key : CallFrame → Bytes) (l2 : List CallFrame) : ∀ (fs pre : List CallFrame) (used : AMap Bytes Nat),
    (∀ f ∈ fs, WF f.fields) → (∀ k, (used.get k).getD 0 = pre.countP fun f => key f = k) →
    ∃ pairs : List (Nat × Nat), pairs.Pairwise (fun a b => a.1 < b.1) ∧
      (∀ i j, (i, j) ∈ pairs ↔ pre.length ≤ i ∧ Matched key (pre ++ fs) l2 i j) ∧
      List.Forall₂ (fun ij r => ∃ f g, (pre ++ fs)[ij.1]? = some f ∧ l2[ij.2]? = some g ∧ Combined f g r) pairs
        (stableLoop key l2 fs used)
  | [], pre, used, _, _ => by
      refine ⟨[], by simp, ?_, by simp [stableLoop]⟩
      intro i j
      simp only [List.not_mem_nil, List.append_nil, false_iff, not_and]
      rintro hi ⟨f, g, hf, _⟩
      rw [List.getElem?_eq_none hi] at hf
      cases hf
  | f :: fs, pre, used, hw, hu => by
      have hu' : ∀ k, ((used.set (key f) ((used.get (key f)).getD 0 + 1)).get k).getD 0 = (pre ++ [f]).countP fun f => key f = k := by
        intro k
        rw [AMap.get_set, List.countP_append]
        by_cases hk : k = key f
        · subst hk; simp [hu]
        · have hk' : ¬ key f = k := fun h => hk h.symm
          simp [hk, hk', hu]
      obtain ⟨pairs, hp1, hp2, hp3⟩ := stableLoop_spec key l2 fs (pre ++ [f]) _ (fun f hf => hw f (List.mem_cons_of_mem _ hf)) hu'
      rw [List.append_assoc, List.singleton_append] at hp2 hp3
      have hlen : (pre ++ [f]).length = pre.length + 1 := by simp
      rw [hlen] at hp2
      have hf0 : (pre ++ f :: fs)[pre.length]? = some f := by simp
      have hocc : ∀ k, occBefore key (pre ++ f :: fs) pre.length k = pre.countP fun f => key f = k := by
        intro k; simp [occBefore]
      have hother : ∀ i : Nat, pre.length ≤ i → (pre.length + 1 ≤ i ∨ i = pre.length) := by intro i h; omega
      simp only [stableLoop]
      cases hg : (l2.filter fun g => key g = key f)[(used.get (key f)).getD 0]? with
      | none =>
          refine ⟨pairs, hp1, ?_, hp3⟩
          intro i j
          rw [hp2]
          constructor
          · rintro ⟨h1, h2⟩; exact ⟨by omega, h2⟩
          · rintro ⟨h1, h2⟩
            refine ⟨?_, h2⟩
            by_contra hlt
            have hi : i = pre.length := by omega
            subst hi
            obtain ⟨f', g', hf', hg', hkk, hoc⟩ := h2
            rw [hf0] at hf'; cases hf'
            rw [hocc] at hoc
            have := (filter_get (fun g : CallFrame => decide (key g = key f)) l2 ((used.get (key f)).getD 0) g').mpr
              ⟨j, hg', by simp [hkk], by rw [hu]; exact hoc.symm⟩
            rw [hg] at this; cases this
      | some g =>
          obtain ⟨j0, hj0, hkg, hc0⟩ := (filter_get (fun g : CallFrame => decide (key g = key f)) l2 _ g).mp hg
          have hkg' : key g = key f := by simpa using hkg
          rw [hu] at hc0
          refine ⟨(pre.length, j0) :: pairs, ?_, ?_, ?_⟩
          · refine List.pairwise_cons.mpr ⟨?_, hp1⟩
            rintro ⟨i, j⟩ hb
            exact ((hp2 i j).mp hb).1
          · intro i j
            simp only [List.mem_cons, Prod.mk.injEq, hp2]
            constructor
            · rintro (⟨rfl, rfl⟩ | ⟨h1, h2⟩)
              · exact ⟨le_refl _, f, g, hf0, hj0, hkg'.symm, by rw [hocc]; exact hc0.symm⟩
              · exact ⟨by omega, h2⟩
            · rintro ⟨h1, h2⟩
              rcases hother i h1 with h3 | rfl
              · exact Or.inr ⟨h3, h2⟩
              · left
                refine ⟨rfl, ?_⟩
                obtain ⟨f', g', hf', hg', hkk, hoc⟩ := h2
                rw [hf0] at hf'; cases hf'
                rw [hocc] at hoc
                exact occ_unique (fun g : CallFrame => decide (key g = key f)) hg' hj0 (by simp [hkk]) hkg
                  (by rw [hc0]; exact hoc.symm)
          · refine .cons ⟨f, g, hf0, hj0, rfl, rfl, ?_⟩ hp3
            intro p v
            exact stableFV_leaf p f.fields g.fields (hw f List.mem_cons_self) v

theorem stableLoop_self (key : CallFrame → Bytes) : ∀ (fs pre : List CallFrame) (used : AMap Bytes Nat),
    (∀ f ∈ fs, WF f.fields) → (∀ k, (used.get k).getD 0 = pre.countP fun f => key f = k) →
    List.Forall₂ (fun f r => r.stack = f.stack ∧ r.time = f.time ∧ ∀ p, leafAt p r.fields = leafAt p f.fields) fs
        (stableLoop key (pre ++ fs) fs used)
  | [], pre, used, _, _ => by simp [stableLoop]
  | f :: fs, pre, used, hw, hu => by
      have hu' : ∀ k, ((used.set (key f) ((used.get (key f)).getD 0 + 1)).get k).getD 0 = (pre ++ [f]).countP fun f => key f = k := by
        intro k
        rw [AMap.get_set, List.countP_append]
        by_cases hk : k = key f
        · subst hk; simp [hu]
        · have hk' : ¬ key f = k := fun h => hk h.symm
          simp [hk, hk', hu]
      have ih := stableLoop_self key fs (pre ++ [f]) _ (fun f hf => hw f (List.mem_cons_of_mem _ hf)) hu'
      rw [List.append_assoc, List.singleton_append] at ih
      have hg : ((pre ++ f :: fs).filter fun g => key g = key f)[(used.get (key f)).getD 0]? = some f :=
        (filter_get _ _ _ _).mpr ⟨pre.length, by simp, by simp, by rw [hu]; simp⟩
      simp only [stableLoop, hg]
      refine .cons ⟨rfl, rfl, ?_⟩ ih
      intro p
      have := stableFV_leaf p f.fields f.fields (hw f List.mem_cons_self)
      apply Option.ext
      intro v
      rw [this v]; simp

theorem frameMap_get (key : CallFrame → Bytes) (m2 : List (Bytes × List CallFrame)) (k : Bytes) : ∀ m1 : List (Bytes × List CallFrame),
    AMap.get (K := Bytes) (V := List CallFrame) (stableFrameMap key m1 m2) k =
      (AMap.get (K := Bytes) (V := List CallFrame) m1 k).bind fun a => (AMap.get (K := Bytes) (V := List CallFrame) m2 k).map (stableFrames key a)
  | [] => rfl
  | (x, fs) :: m1 => by
      have ih := frameMap_get key m2 k m1
      simp only [stableFrameMap] at ih
      simp only [stableFrameMap, List.filterMap_cons]
      cases h2 : AMap.get (K := Bytes) (V := List CallFrame) m2 x with
      | none =>
          simp only [Option.map_none]
          rw [ih, AMap.get_cons]
          by_cases hk : x = k
          · subst hk
            simp [h2]
          · simp [hk]
      | some fs2 =>
          simp only [Option.map_some]
          rw [AMap.get_cons, AMap.get_cons, ih]
          by_cases hk : x = k
          · subst hk; simp [h2]
          · simp [hk]

/-! ### Panics -/

theorem sliceCounts_get (m : Bytes) : ∀ l, ((sliceCounts l).get m).getD 0 = l.count m
  | [] => rfl
  | x :: l => by
      simp only [sliceCounts, AMap.get_set, List.count_cons, sliceCounts_get m l]
      by_cases h : m = x
      · subst h; simp [sliceCounts_get m l]
      · have h' : ¬ x = m := fun e => h e.symm
        simp [h, h', sliceCounts_get m l]

theorem commonMsgs_count (m : Bytes) : ∀ (l : List Bytes) (c : AMap Bytes Nat),
    (commonMsgs l c).count m = min (l.count m) ((c.get m).getD 0)
  | [], c => by simp [commonMsgs]
  | x :: l, c => by
      unfold commonMsgs
      split
      · rename_i hpos
        rw [List.count_cons, commonMsgs_count m l, AMap.get_set, List.count_cons]
        by_cases h : m = x
        · subst h; simp; omega
        · have h' : ¬ x = m := fun e => h e.symm
          simp [h, h']
      · rename_i hpos
        rw [commonMsgs_count m l, List.count_cons]
        by_cases h : x = m
        · subst h; simp; omega
        · simp [h]

theorem commonMsgs_sublist : ∀ (l : List Bytes) (c : AMap Bytes Nat), (commonMsgs l c).Sublist l
  | [], c => .slnil
  | x :: l, c => by
      unfold commonMsgs
      split
      · exact (commonMsgs_sublist l _).cons_cons x
      · exact (commonMsgs_sublist l _).cons x

theorem panics_get (m2 : List (Bytes × List Bytes)) (k : Bytes) : ∀ m1 : List (Bytes × List Bytes), (m1.map (·.1)).Nodup →
    AMap.get (K := Bytes) (V := List Bytes) (intersectPanics m1 m2) k =
      (AMap.get (K := Bytes) (V := List Bytes) m1 k).bind fun a => (AMap.get (K := Bytes) (V := List Bytes) m2 k).bind fun b =>
        if commonMsgs a (sliceCounts b) = [] then none else some (commonMsgs a (sliceCounts b))
  | [], _ => rfl
  | (x, l) :: m1, hn => by
      simp only [List.map_cons, List.nodup_cons] at hn
      have ih := panics_get m2 k m1 hn.2
      simp only [intersectPanics] at ih
      have hnone : x = k → AMap.get (K := Bytes) (V := List Bytes) m1 k = none := by
        rintro rfl
        rw [← Option.not_isSome_iff_eq_none]
        intro hs
        obtain ⟨v, hv⟩ := Option.isSome_iff_exists.mp hs
        exact hn.1 (List.mem_map_of_mem (AMap.mem_of_get hv))
      simp only [intersectPanics, List.filterMap_cons]
      rw [AMap.get_cons]
      by_cases hk : x = k
      · have h0 := hnone hk
        subst hk
        rw [h0] at ih
        simp only [Option.bind_none] at ih
        cases h2 : AMap.get (K := Bytes) (V := List Bytes) m2 x with
        | none => simp [ih]
        | some b =>
            simp only [Option.bind_some, if_true]
            split
            · rename_i he
              split at he
              · simp [ih, *]
              · simp at he
            · rename_i he
              split at he
              · simp at he
              · simp only [Option.some.injEq] at he
                subst he
                rw [AMap.get_cons]; simp [*]
      · simp only [if_neg hk]
        split
        · exact ih
        · rename_i kv he
          cases h2 : AMap.get (K := Bytes) (V := List Bytes) m2 x with
          | none => simp [h2] at he
          | some b =>
              simp only [h2, Option.bind_some] at he
              split at he
              · simp at he
              · simp only [Option.some.injEq] at he
                subst he
                rw [AMap.get_cons, if_neg hk]; exact ih

/-! ### Call path keys -/

theorem split_unique {α : Type} {x : α} : ∀ {a b s t : List α}, x ∉ a → x ∉ b → a ++ x :: s = b ++ x :: t → a = b ∧ s = t
  | [], [], _, _, _, _, h => by simpa using h
  | [], y :: b, _, _, _, hb, h => by
      simp only [List.nil_append, List.cons_append, List.cons.injEq] at h
      exact absurd (h.1 ▸ List.mem_cons_self) hb
  | y :: a, [], _, _, ha, _, h => by
      simp only [List.nil_append, List.cons_append, List.cons.injEq] at h
      exact absurd (h.1 ▸ List.mem_cons_self) ha
  | y :: a, z :: b, s, t, ha, hb, h => by
      simp only [List.cons_append, List.cons.injEq] at h
      obtain ⟨rfl, h⟩ := h
      obtain ⟨h1, h2⟩ := split_unique (fun hc => ha (List.mem_cons_of_mem _ hc)) (fun hc => hb (List.mem_cons_of_mem _ hc)) h
      exact ⟨by rw [h1], h2⟩

/-- The names do not contain the separators. -/
def PlainFrame (f : StackFrame) : Prop := (58 : UInt8) ∉ f.file ∧ (124 : UInt8) ∉ f.func

theorem stackText_cons2 (f g : StackFrame) (fs : List StackFrame) :
    stackText (f :: g :: fs) = f.file ++ 58 :: (f.func ++ 124 :: stackText (g :: fs)) := by
  simp [stackText]

theorem stackText_inj : ∀ (a b : List StackFrame), (∀ f ∈ a, PlainFrame f) → (∀ f ∈ b, PlainFrame f) →
    stackText a = stackText b → callPath a = callPath b
  | [], [], _, _, _ => rfl
  | [], [g], _, _, h => by simp [stackText] at h
  | [], g :: g' :: b, _, _, h => by simp [stackText] at h
  | [f], [], _, _, h => by simp [stackText] at h
  | f :: f' :: a, [], _, _, h => by simp [stackText] at h
  | [f], [g], ha, hb, h => by
      obtain ⟨h1, h2⟩ := split_unique (ha f (by simp)).1 (hb g (by simp)).1 h
      simp [callPath, h1, h2]
  | [f], g :: g' :: b, ha, hb, h => by
      rw [stackText_cons2] at h
      obtain ⟨h1, h2⟩ := split_unique (ha f (by simp)).1 (hb g (by simp)).1 h
      exact absurd (by rw [h2]; simp) (ha f (by simp)).2
  | f :: f' :: a, [g], ha, hb, h => by
      rw [stackText_cons2] at h
      obtain ⟨h1, h2⟩ := split_unique (ha f (by simp)).1 (hb g (by simp)).1 h
      exact absurd (by rw [← h2]; simp) (hb g (by simp)).2
  | f :: f' :: a, g :: g' :: b, ha, hb, h => by
      rw [stackText_cons2, stackText_cons2] at h
      obtain ⟨h1, h2⟩ := split_unique (ha f (by simp)).1 (hb g (by simp)).1 h
      obtain ⟨h3, h4⟩ := split_unique (ha f (by simp)).2 (hb g (by simp)).2 h2
      have := stackText_inj (f' :: a) (g' :: b) (fun x hx => ha x (List.mem_cons_of_mem _ hx)) (fun x hx => hb x (List.mem_cons_of_mem _ hx)) h4
      simp only [callPath, List.map_cons] at this ⊢
      rw [h1, h3, this]

theorem stackText_of_path : ∀ (a b : List StackFrame), callPath a = callPath b → stackText a = stackText b
  | [], [], _ => rfl
  | [], _ :: _, h => by simp [callPath] at h
  | _ :: _, [], h => by simp [callPath] at h
  | [f], [g], h => by simp [callPath] at h; simp [stackText, h]
  | [f], g :: g' :: b, h => by simp [callPath] at h
  | f :: f' :: a, [g], h => by simp [callPath] at h
  | f :: f' :: a, g :: g' :: b, h => by
      simp only [callPath, List.map_cons, List.cons.injEq, Prod.mk.injEq] at h
      have := stackText_of_path (f' :: a) (g' :: b) (by simp [callPath, h])
      rw [stackText_cons2, stackText_cons2, this, h.1.1, h.1.2]

end Verif.Monitor
