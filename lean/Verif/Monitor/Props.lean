import Verif.Monitor.Lemmas2
import Verif.Util.Props

/-!
C22–C27, C70, C71: point ids, recording of frames, the stable baseline and call path keys.
-/

namespace Verif.Monitor

open Verif.Result

/-! ## C22: point ids -/

/-- Whatever the schedule, the ids handed out are 1, 2, 3, … in the order of the atomic updates: all distinct, none
zero, no gaps, all within 32 bits. -/
theorem C22_ids_consecutive {g : Nat} {s : PState} (h : PReach (pinit g) s) :
    s.out.map (·.2) = List.range' 1 s.out.length ∧ s.out.length < 2 ^ 32 - 1 := by
  obtain ⟨n, h1, _, h3, _⟩ := pinv h
  have hn : s.out.length = n := by simpa using congrArg List.length h1
  rw [hn]
  exact ⟨h1, by omega⟩

theorem C22_ids_distinct {g : Nat} {s : PState} (h : PReach (pinit g) s) :
    (s.out.map (·.2)).Nodup ∧ ∀ id ∈ s.out.map (·.2), id ≠ 0 ∧ id < 2 ^ 32 := by
  obtain ⟨h1, h2⟩ := C22_ids_consecutive h
  rw [h1]
  refine ⟨List.nodup_range', ?_⟩
  intro id hid
  rw [List.mem_range'_1] at hid
  exact ⟨by omega, by omega⟩

/-- The overflow error is returned only when all ids have been used. -/
theorem C22_error_only_when_exhausted {g : Nat} {s : PState} (h : PReach (pinit g) s) (he : s.errs ≠ []) :
    s.out.length = 2 ^ 32 - 2 := by
  obtain ⟨n, h1, _, _, _, h5⟩ := pinv h
  have hn : s.out.length = n := by simpa using congrArg List.length h1
  rw [hn, h5 he]

/-- A goroutine that retries does so because another one got an id in the meantime: a failed update means that the
counter differs from what was loaded, and then it is larger. -/
theorem C22_retry_means_progress {g : Nat} {s : PState} (h : PReach (pinit g) s) {i v : Nat}
    (hi : s.gs[i]? = some (PPhase.loaded v)) (hne : s.cur ≠ v) : v < s.cur := by
  obtain ⟨n, _, _, _, h4, _⟩ := pinv h
  have := h4 i v hi
  omega

/-- Two goroutines race for the first id: the loser retries and gets the next one. -/
def raceState : PState := ⟨3, [.idle, .idle], [(1, 1), (0, 2)], []⟩

theorem race_reachable : PReach (pinit 2) raceState := by
  have s0 : PReach (pinit 2) (pinit 2) := .refl
  have s1 : PReach (pinit 2) ⟨0, [.loaded 0, .idle], [], []⟩ := .step s0 (.load (pinit 2) 0 rfl)
  have s2 : PReach (pinit 2) ⟨0, [.loaded 0, .loaded 0], [], []⟩ := .step s1 (.load _ 1 rfl)
  have s3 : PReach (pinit 2) ⟨2, [.loaded 0, .idle], [(1, 1)], []⟩ := .step s2 (.casZero _ 1 rfl rfl)
  have s4 : PReach (pinit 2) ⟨2, [.idle, .idle], [(1, 1)], []⟩ := .step s3 (.casZeroFail _ 0 rfl (by decide))
  have s5 : PReach (pinit 2) ⟨2, [.loaded 2, .idle], [(1, 1)], []⟩ := .step s4 (.load _ 0 rfl)
  exact .step s5 (.cas _ 0 2 rfl (by decide) (by decide) rfl)

example : PReach (pinit 2) raceState ∧ raceState.out.map (·.2) = [1, 2] := ⟨race_reachable, rfl⟩

/-! ## C70: the highest point -/

/-- `MaxPointId` is documented as the highest point tracked, but it is the next id to hand out. -/
theorem C70_max_point_id_violated : ∃ s, PReach (pinit 2) s ∧ (∀ id ∈ s.out.map (·.2), id ≤ 2) ∧ maxPointId s = 3 :=
  ⟨raceState, race_reachable, by decide, rfl⟩

/-- It is one more than the highest id, once there is one, and 0 before. -/
theorem C70_max_point_id_partial {g : Nat} {s : PState} (h : PReach (pinit g) s) :
    maxPointId s = if s.out = [] then 0 else s.out.length + 1 := by
  obtain ⟨n, h1, h2, _⟩ := pinv h
  have hn : s.out.length = n := by simpa using congrArg List.length h1
  subst hn
  unfold maxPointId
  by_cases ho : s.out = []
  · simpa [ho] using h2
  · simpa [ho, List.length_eq_zero_iff] using h2

/-! ## C23: recording frames -/

section
variable {K M F : Type} [DecidableEq K]

/-- Whenever a result is built, every message received so far has been handled, and the frames stored under each
key are those of handling its messages one after the other, each exactly once. -/
theorem C23_result_complete {c : MonCfg K M F} {seq : Bool} {s s' : MonState K M F} (h : MonReach c seq monInit s)
    (hs : MonStep c seq s s') (h0 : s.result = none) {fr : AMap (Bool × K) (List F)} (hr : s'.result = some fr) :
    s.log.Perm (s.jobs.map (·.msg)) ∧ ∀ k, (fr.get k).getD [] = seqFrames c.build (forKey c k s.log) := by
  have hi := moninv h
  cases hs with
  | arrive m k ht hseq => simp [h0] at hr
  | arriveUnknown m ht hseq => simp [h0] at hr
  | lock i m k hi' ht hfree => simp [h0] at hr
  | append i m k hi' ht => simp [h0] at hr
  | unlock i m hi' => simp [h0] at hr
  | done i m hi' => simp [h0] at hr
  | finish hw =>
      simp only [Option.some.injEq] at hr
      subst hr
      have hdone : ∀ j ∈ s.jobs, j.phase = .done := by
        have := hi.wait
        rw [hw] at this
        have h1 := List.countP_eq_zero.mp this.symm
        intro j hj
        simpa using h1 j hj
      have hfil : (s.jobs.filter fun j => past j.phase) = s.jobs := by
        rw [List.filter_eq_self]
        intro j hj; rw [hdone j hj]; rfl
      refine ⟨by simpa [hfil] using hi.log, ?_⟩
      intro k
      rcases hi.frames k with ⟨i, m, L, h1, _⟩ | ⟨_, h2⟩
      · have := hdone _ (get_mem h1); simp at this
      · exact h2

/-- If the client sends a message only after the previous one has been answered, frames are in arrival order. -/
theorem C23_arrival_order {c : MonCfg K M F} {s s' : MonState K M F} (h : MonReach c true monInit s)
    (hs : MonStep c true s s') (h0 : s.result = none) {fr : AMap (Bool × K) (List F)} (hr : s'.result = some fr) :
    ∀ k, (fr.get k).getD [] = seqFrames c.build (forKey c k (s.jobs.map (·.msg))) := by
  obtain ⟨h1, h2⟩ := C23_result_complete h hs h0 hr
  have hq := (seqinv h).log
  have hsub : ((s.jobs.filter fun j => past j.phase)).length = s.jobs.length := by
    have := h1.length_eq
    rw [hq] at this
    simpa using this
  have hfil : (s.jobs.filter fun j => past j.phase) = s.jobs := List.filter_sublist.eq_of_length hsub
  rw [hfil] at hq
  rw [← hq]; exact h2

/-- As long as no unknown id was received, the work in progress can always be completed, after which building the
result no longer waits. -/
theorem C23_completes {c : MonCfg K M F} {seq : Bool} {s : MonState K M F} (h : MonReach c seq monInit s)
    (hk : ∀ j ∈ s.jobs, c.target j.msg ≠ none) :
    ∃ s' s'', MonReach c seq s s' ∧ s'.jobs.map (·.msg) = s.jobs.map (·.msg) ∧ MonStep c seq s' s'' ∧ s''.result ≠ none := by
  obtain ⟨s', h1, h2, h3⟩ := progress (work s) s (le_refl _) h hk
  exact ⟨s', _, h1, h2, .finish s' h3, by simp⟩

/-- No schedule postpones this forever: every step that is not a new message or a result uses up work, and there is
such a step as long as something is waited for. -/
theorem C23_no_deadlock {c : MonCfg K M F} {seq : Bool} {s : MonState K M F} (h : MonReach c seq monInit s)
    (hk : ∀ j ∈ s.jobs, c.target j.msg ≠ none) (hw : s.wait ≠ 0) :
    ∃ s', MonStep c seq s s' ∧ s'.jobs.map (·.msg) = s.jobs.map (·.msg) ∧ work s' < work s :=
  progress_step (moninv h) hk hw

theorem C23_every_step_uses_work {c : MonCfg K M F} {seq : Bool} {s s' : MonState K M F} (hs : MonStep c seq s s')
    (hl : s'.jobs.length = s.jobs.length) : work s' < work s ∨ (s'.jobs = s.jobs ∧ s'.result ≠ none) := by
  have key : ∀ (i : Nat) (m : M) (p p' : JPhase), s.jobs[i]? = some ⟨m, p⟩ → p'.weight < p.weight →
      ((s.jobs.set i ⟨m, p'⟩).map fun j => j.phase.weight).sum < (s.jobs.map fun j => j.phase.weight).sum := by
    intro i m p p' hi hlt
    have := weight_set p' hi
    omega
  cases hs with
  | arrive m k ht hseq => simp at hl
  | arriveUnknown m ht hseq => simp at hl
  | lock i m k hi ht hfree => exact Or.inl (key i m _ _ hi (by decide))
  | append i m k hi ht => exact Or.inl (key i m _ _ hi (by decide))
  | unlock i m hi => exact Or.inl (key i m _ _ hi (by decide))
  | done i m hi => exact Or.inl (key i m _ _ hi (by decide))
  | finish hw => exact Or.inr ⟨rfl, by simp⟩

/-- Two messages for keys with the same mutex are never worked on at the same time. -/
theorem C23_exclusive {c : MonCfg K M F} {seq : Bool} {s : MonState K M F} (h : MonReach c seq monInit s)
    {i i' : Nat} {j j' : Job M} {n : Nat} (hi : s.jobs[i]? = some j) (hi' : s.jobs[i']? = some j')
    (hj : holdsStripe c n j) (hj' : holdsStripe c n j') : i = i' := (moninv h).excl i i' j j' n hi hi' hj hj'

/-- One message with an unknown point id, and no result is ever built again: the handler has added to the wait group
and returns without the matching `Done`. -/
theorem C23_unknown_point_hangs_violated {c : MonCfg K M F} {seq : Bool} {s s' s'' : MonState K M F} {i : Nat} {m : M}
    (hr : MonReach c seq monInit s) (h0 : s.result = none) (hi : s.jobs[i]? = some (⟨m, .dropped⟩ : Job M))
    (h : MonReach c seq s s') (hs : MonStep c seq s' s'') : s''.result = none := by
  have hwait : ∀ t, MonReach c seq s t → t.wait ≠ 0 := by
    intro t ht hw
    have hd := dropped_stays ht hi
    have := (moninv (MonReach.trans hr ht)).wait
    rw [hw] at this
    have := List.countP_eq_zero.mp this.symm _ (get_mem hd)
    simp at this
  have hstep : ∀ t t', MonReach c seq s t → t.result = none → MonStep c seq t t' → t'.result = none := by
    intro t t' ht h1 hst
    cases hst with
    | finish hw => exact absurd hw (hwait t ht)
    | _ => exact h1
  have hall : ∀ t, MonReach c seq s t → t.result = none := by
    intro t ht
    induction ht with
    | refl => exact h0
    | step ht' hst ih => exact hstep _ _ ht' ih hst
  exact hstep s' s'' h (hall s' h) hs

end

/-- Messages are numbers; 0 has no target; keys are `m % 3`, mutexes `k % 2`. -/
def toyCfg : MonCfg Nat Nat (Nat × Nat) where
  target m := if m = 0 then none else some (false, m % 3)
  stripe k := k % 2
  build m fs := (m, fs.length)

/-- Messages 4 and 1 for the same key and 3 for another one; 1 is handled before 4, and a result is built. -/
example : ∃ s s' : MonState Nat Nat (Nat × Nat), MonReach toyCfg false monInit s ∧ MonStep toyCfg false s s' ∧ s.result = none ∧
    s.jobs.map (·.msg) = [4, 1] ∧ s'.result = some [((false, 1), [(1, 0), (4, 1)])] := by
  have h4 : toyCfg.target 4 = some (false, 1) := rfl
  have h1 : toyCfg.target 1 = some (false, 1) := rfl
  have a0 : MonReach toyCfg false monInit monInit := .refl
  have a1 : MonReach toyCfg false monInit ⟨1, [⟨4, .arrived⟩], [], [], none⟩ := .step a0 (.arrive _ 4 _ h4 (by simp))
  have a2 : MonReach toyCfg false monInit ⟨2, [⟨4, .arrived⟩, ⟨1, .arrived⟩], [], [], none⟩ := .step a1 (.arrive _ 1 _ h1 (by simp))
  have a3 : MonReach toyCfg false monInit ⟨2, [⟨4, .arrived⟩, ⟨1, .locked⟩], [], [1], none⟩ :=
    .step a2 (.lock _ 1 1 _ rfl h1 (by simp [holdsStripe]))
  have a4 : MonReach toyCfg false monInit ⟨2, [⟨4, .arrived⟩, ⟨1, .appended⟩], [((false, 1), [(1, 0)])], [1], none⟩ :=
    .step a3 (.append _ 1 1 _ rfl h1)
  have a5 : MonReach toyCfg false monInit ⟨2, [⟨4, .arrived⟩, ⟨1, .unlocked⟩], [((false, 1), [(1, 0)])], [1], none⟩ :=
    .step a4 (.unlock _ 1 1 rfl)
  have a6 : MonReach toyCfg false monInit ⟨2, [⟨4, .locked⟩, ⟨1, .unlocked⟩], [((false, 1), [(1, 0)])], [1, 4], none⟩ :=
    .step a5 (.lock _ 0 4 _ rfl h4 (by simp [holdsStripe]))
  have a7 : MonReach toyCfg false monInit ⟨2, [⟨4, .appended⟩, ⟨1, .unlocked⟩], [((false, 1), [(1, 0), (4, 1)])], [1, 4], none⟩ :=
    .step a6 (.append _ 0 4 _ rfl h4)
  have a8 : MonReach toyCfg false monInit ⟨2, [⟨4, .unlocked⟩, ⟨1, .unlocked⟩], [((false, 1), [(1, 0), (4, 1)])], [1, 4], none⟩ :=
    .step a7 (.unlock _ 0 4 rfl)
  have a9 : MonReach toyCfg false monInit ⟨1, [⟨4, .done⟩, ⟨1, .unlocked⟩], [((false, 1), [(1, 0), (4, 1)])], [1, 4], none⟩ :=
    .step a8 (.done _ 0 4 rfl)
  have a10 : MonReach toyCfg false monInit ⟨0, [⟨4, .done⟩, ⟨1, .done⟩], [((false, 1), [(1, 0), (4, 1)])], [1, 4], none⟩ :=
    .step a9 (.done _ 1 1 rfl)
  exact ⟨_, _, a10, .finish _ rfl, rfl, rfl, rfl⟩

/-- A message with an unknown id is accepted. -/
example : MonReach toyCfg true monInit ⟨1, [⟨0, .dropped⟩], [], [], none⟩ :=
  .step .refl (.arriveUnknown _ 0 rfl (by simp [monInit]))

/-! ## C24: the stable baseline -/

/-- The combination of two field trees has exactly the values at which both agree. -/
theorem C24_fields (f1 f2 : FMap) (h : WF f1) (p : List Bytes) (v : Bytes) :
    leafAt p (stableFV f1 f2) = some v ↔ leafAt p f1 = some v ∧ leafAt p f2 = some v := stableFV_leaf p f1 f2 h v

/-- Frames are put in order of time before they are matched. -/
theorem C24_sorted (l : List CallFrame) : StableSorted l (sortByTime l) := sortByTime_stable l

/-- The combined frames are one for each pair of matching calls, in the order of the first run, and each has the stack
and time of the first run's frame and exactly the field values on which both agree. -/
theorem C24_frames (key : CallFrame → Bytes) (fs1 fs2 : List CallFrame) (hw : ∀ f ∈ fs1, WF f.fields) :
    ∃ pairs : List (Nat × Nat), pairs.Pairwise (fun a b => a.1 < b.1) ∧
      (∀ i j, (i, j) ∈ pairs ↔ Matched key (sortByTime fs1) (sortByTime fs2) i j) ∧
      List.Forall₂ (fun ij r => ∃ f g, (sortByTime fs1)[ij.1]? = some f ∧ (sortByTime fs2)[ij.2]? = some g ∧ Combined f g r)
        pairs (stableFrames key fs1 fs2) := by
  have hw' : ∀ f ∈ sortByTime fs1, WF f.fields := fun f hf => hw f ((sortByTime_stable fs1).perm.mem_iff.mp hf)
  obtain ⟨pairs, h1, h2, h3⟩ := stableLoop_spec key (sortByTime fs2) (sortByTime fs1) [] [] hw' (fun k => rfl)
  refine ⟨pairs, h1, ?_, h3⟩
  intro i j
  simpa using h2 i j

/-- The frames of a result: an identifier is in the baseline if both runs have it. -/
theorem C24_result (H : Bytes → Bytes) (r1 r2 : TestResult) (k : Bytes) :
    (AMap.get (K := Bytes) (V := List CallFrame) (stableResult H r1 r2).callers k =
      (AMap.get (K := Bytes) (V := List CallFrame) r1.callers k).bind fun a =>
        (AMap.get (K := Bytes) (V := List CallFrame) r2.callers k).map (stableFrames (callerKey H) a)) ∧
    (AMap.get (K := Bytes) (V := List CallFrame) (stableResult H r1 r2).extension k =
      (AMap.get (K := Bytes) (V := List CallFrame) r1.extension k).bind fun a =>
        (AMap.get (K := Bytes) (V := List CallFrame) r2.extension k).map (stableFrames (extKey H) a)) :=
  ⟨frameMap_get _ _ k _, frameMap_get _ _ k _⟩

/-- Combining a run with itself loses no frame and no value. -/
theorem C24_self (key : CallFrame → Bytes) (fs : List CallFrame) (hw : ∀ f ∈ fs, WF f.fields) :
    List.Forall₂ (fun f r => r.stack = f.stack ∧ r.time = f.time ∧ ∀ p, leafAt p r.fields = leafAt p f.fields) (sortByTime fs)
      (stableFrames key fs fs) := by
  have hw' : ∀ f ∈ sortByTime fs, WF f.fields := fun f hf => hw f ((sortByTime_stable fs).perm.mem_iff.mp hf)
  exact stableLoop_self key (sortByTime fs) [] [] hw' (fun k => rfl)

/-- Values of `x.a` and `y` differ or are missing, `x.b` agrees. -/
example : stableFV (.cons [120] [] (.cons [97] [1] .goNil (.cons [98] [2] .goNil .empty)) (.cons [121] [3] .goNil .empty))
    (.cons [120] [] (.cons [97] [9] .goNil (.cons [98] [2] .goNil .empty)) .empty) =
    .cons [120] [] (.cons [98] [2] .goNil .empty) .empty := by decide

/-- The second run has its two calls recorded in the other order of time. -/
example :
    let st : List StackFrame := []
    let f (v : UInt8) (t : Nat) : CallFrame := ⟨.cons [120] [v] .goNil .empty, st, t⟩
    (stableFrames (fun _ => []) [f 1 10, f 2 20] [f 2 25, f 1 5]).map (fun r => (r.time, leafAt [[120]] r.fields)) =
      [(10, some [1]), (20, some [2])] := by decide

/-! ## C25: panics and failures -/

/-- Each message is kept as often as in the run with fewer occurrences, in the order of the first run. -/
theorem C25_panics (m1 m2 : List (Bytes × List Bytes)) (hn : (m1.map (·.1)).Nodup) (k msg : Bytes) :
    ((AMap.get (K := Bytes) (V := List Bytes) (intersectPanics m1 m2) k).getD []).count msg =
      min (((AMap.get (K := Bytes) (V := List Bytes) m1 k).getD []).count msg)
        (((AMap.get (K := Bytes) (V := List Bytes) m2 k).getD []).count msg) := by
  rw [panics_get m2 k m1 hn]
  cases h1 : AMap.get (K := Bytes) (V := List Bytes) m1 k with
  | none => simp
  | some a =>
      cases h2 : AMap.get (K := Bytes) (V := List Bytes) m2 k with
      | none => simp
      | some b =>
          have hc := commonMsgs_count msg a (sliceCounts b)
          rw [sliceCounts_get] at hc
          simp only [Option.bind_some, Option.getD_some]
          split
          · rename_i he; rw [he] at hc; simpa using hc
          · simpa using hc

theorem C25_panics_order (m1 m2 : List (Bytes × List Bytes)) (hn : (m1.map (·.1)).Nodup) (k : Bytes) :
    ((AMap.get (K := Bytes) (V := List Bytes) (intersectPanics m1 m2) k).getD []).Sublist
      ((AMap.get (K := Bytes) (V := List Bytes) m1 k).getD []) := by
  rw [panics_get m2 k m1 hn]
  cases h1 : AMap.get (K := Bytes) (V := List Bytes) m1 k with
  | none => simp
  | some a =>
      cases h2 : AMap.get (K := Bytes) (V := List Bytes) m2 k with
      | none => simp
      | some b =>
          simp only [Option.bind_some, Option.getD_some]
          split
          · simp
          · exact commonMsgs_sublist a _

/-- An identifier has an entry exactly if some message is common: no entry is empty. -/
theorem C25_no_empty_entry (m1 m2 : List (Bytes × List Bytes)) (hn : (m1.map (·.1)).Nodup) (k : Bytes) :
    AMap.get (K := Bytes) (V := List Bytes) (intersectPanics m1 m2) k ≠ some [] := by
  rw [panics_get m2 k m1 hn]
  cases h1 : AMap.get (K := Bytes) (V := List Bytes) m1 k with
  | none => simp
  | some a =>
      cases h2 : AMap.get (K := Bytes) (V := List Bytes) m2 k with
      | none => simp
      | some b =>
          simp only [Option.bind_some]
          split
          · simp
          · rename_i he; simpa using he

/-- The same for both kinds of panics of a result, and the baseline failed if one of the runs did. -/
theorem C25_result (H : Bytes → Bytes) (r1 r2 : TestResult) (h1 : (r1.projectPanics.map (·.1)).Nodup)
    (h2 : (r1.modulePanics.map (·.1)).Nodup) (k msg : Bytes) :
    (((AMap.get (K := Bytes) (V := List Bytes) (stableResult H r1 r2).projectPanics k).getD []).count msg =
      min (((AMap.get (K := Bytes) (V := List Bytes) r1.projectPanics k).getD []).count msg)
        (((AMap.get (K := Bytes) (V := List Bytes) r2.projectPanics k).getD []).count msg)) ∧
    (((AMap.get (K := Bytes) (V := List Bytes) (stableResult H r1 r2).modulePanics k).getD []).count msg =
      min (((AMap.get (K := Bytes) (V := List Bytes) r1.modulePanics k).getD []).count msg)
        (((AMap.get (K := Bytes) (V := List Bytes) r2.modulePanics k).getD []).count msg)) ∧
    ((stableResult H r1 r2).failure = true ↔ r1.failure = true ∨ r2.failure = true) :=
  ⟨C25_panics _ _ h1 k msg, C25_panics _ _ h2 k msg, by simp [stableResult]⟩

/-- Message 1 occurs three times and once, message 2 once and twice, identifier `b` only has different messages. -/
example : intersectPanics [([97], [[1], [2], [1], [1]]), ([98], [[5]])] [([98], [[6]]), ([97], [[2], [2], [1]])] =
    [([97], [[1], [2]])] := by decide

/-! ## C26: call path keys -/

/-- Line numbers never matter. -/
theorem C26_lines_ignored (H : Bytes → Bytes) (a b : List StackFrame) (h : callPath a = callPath b) :
    stackKey H a = stackKey H b := by
  unfold stackKey; rw [stackText_of_path a b h]

/-- Different call paths have different keys if file names contain no ':' and function names no '|', and the hash does
not collide on the two texts. -/
theorem C26_keys_identify_partial (H : Bytes → Bytes) (a b : List StackFrame) (ha : ∀ f ∈ a, PlainFrame f)
    (hb : ∀ f ∈ b, PlainFrame f)
    (hH : bytesKey H (stackText a) = bytesKey H (stackText b) → stackText a = stackText b) :
    stackKey H a = stackKey H b ↔ callPath a = callPath b :=
  ⟨fun h => stackText_inj a b ha hb (hH h), C26_lines_ignored H a b⟩

/-- With a ':' in a file name, different call paths share a key, whatever the hash. -/
theorem C26_colon_violated : ∃ a b : List StackFrame, (∀ H, stackKey H a = stackKey H b) ∧ callPath a ≠ callPath b :=
  ⟨[⟨[97, 58, 98], 1, [99]⟩], [⟨[97], 1, [98, 58, 99]⟩], fun _ => rfl, by decide⟩

/-- Two frames against one frame whose names contain the separators. -/
theorem C26_frames_merged_violated : ∃ a b : List StackFrame, (∀ H, stackKey H a = stackKey H b) ∧ a.length ≠ b.length :=
  ⟨[⟨[97], 1, [98]⟩, ⟨[99], 1, [100]⟩], [⟨[97], 1, [98, 124, 99, 58, 100]⟩], fun _ => rfl, by decide⟩

/-- Frames of a project's callers are matched by their frames in the project alone: a frame outside of the project ("./"
does not begin its file name) or in its vendored code ("./vendor/" does) can be anywhere in the stack, or missing. -/
theorem C26_callers_foreign (H : Bytes → Bytes) (f g : CallFrame) (s t : List StackFrame) (x : StackFrame)
    (hx : ¬ [46, 47] <+: x.file ∨ [46, 47, 118, 101, 110, 100, 111, 114, 47] <+: x.file) (hf : f.stack = s ++ x :: t)
    (hg : g.stack = s ++ t) : callerKey H f = callerKey H g := by
  have hn : isProjectFile x.file = false := by
    unfold isProjectFile
    rcases hx with h | h
    · have : dotSlash.isPrefixOf x.file = false := by
        rw [Bool.eq_false_iff]; exact fun e => h (List.isPrefixOf_iff_prefix.mp e)
      rw [this]; rfl
    · have : dotVendor.isPrefixOf x.file = true := List.isPrefixOf_iff_prefix.mpr h
      rw [this]; simp
  unfold callerKey projectFrames
  rw [hf, hg, List.filter_append, List.filter_append, List.filter_cons, hn]
  simp

/-- Callers whose stacks are in the project are matched exactly if their call paths agree. -/
theorem C26_callers_partial (H : Bytes → Bytes) (f g : CallFrame) (hf : ∀ x ∈ f.stack, PlainFrame x)
    (hg : ∀ x ∈ g.stack, PlainFrame x)
    (pf : ∀ x ∈ f.stack, [46, 47] <+: x.file ∧ ¬ [46, 47, 118, 101, 110, 100, 111, 114, 47] <+: x.file)
    (pg : ∀ x ∈ g.stack, [46, 47] <+: x.file ∧ ¬ [46, 47, 118, 101, 110, 100, 111, 114, 47] <+: x.file)
    (hH : bytesKey H (stackText f.stack) = bytesKey H (stackText g.stack) → stackText f.stack = stackText g.stack) :
    callerKey H f = callerKey H g ↔ callPath f.stack = callPath g.stack := by
  have own : ∀ l : List StackFrame, (∀ x ∈ l, [46, 47] <+: x.file ∧ ¬ [46, 47, 118, 101, 110, 100, 111, 114, 47] <+: x.file) →
      projectFrames l = l := by
    intro l h
    unfold projectFrames
    rw [List.filter_eq_self]
    intro x hx
    have h1 : dotSlash.isPrefixOf x.file = true := List.isPrefixOf_iff_prefix.mpr (h x hx).1
    have h2 : dotVendor.isPrefixOf x.file = false := by
      rw [Bool.eq_false_iff]; exact fun e => (h x hx).2 (List.isPrefixOf_iff_prefix.mp e)
    unfold isProjectFile
    rw [h1, h2]; rfl
  unfold callerKey
  rw [own _ pf, own _ pg]
  exact C26_keys_identify_partial H _ _ hf hg hH

/-- Frames of extension points are matched by all their frames, also those outside of the project. -/
theorem C26_extensions_partial (H : Bytes → Bytes) (f g : CallFrame) (hf : ∀ x ∈ f.stack, PlainFrame x)
    (hg : ∀ x ∈ g.stack, PlainFrame x)
    (hH : bytesKey H (stackText f.stack) = bytesKey H (stackText g.stack) → stackText f.stack = stackText g.stack) :
    extKey H f = extKey H g ↔ callPath f.stack = callPath g.stack :=
  C26_keys_identify_partial H _ _ hf hg hH

/-- The hypotheses hold for "./a.go:F|./b.go:G" and "./a.go:F", and their texts are short enough to be their own keys. -/
example :
    let b := fun (s : String) => s.toUTF8.toList
    let x : List StackFrame := [⟨b "./a.go", 3, b "F"⟩, ⟨b "./b.go", 7, b "G"⟩]
    let y : List StackFrame := [⟨b "./a.go", 3, b "F"⟩]
    (58 : UInt8) ∉ b "./a.go" ∧ (124 : UInt8) ∉ b "F" ∧ stackKey (fun _ => []) x ≠ stackKey (fun _ => []) y := by
  decide +kernel

/-! ## C27: project frames -/

/-- Files inside the project are reported relative to it. -/
theorem C27_relative_partial (cwd : List Bytes) (hc : ∀ c ∈ cwd, Util.Name c) (dir goroot file : Bytes) (hd : dir ≠ [])
    (rest : List Bytes) (hr : Util.absClean cwd file = Util.absClean cwd dir ++ rest)
    (htop : ∀ c cs, rest = c :: cs → ¬ [46, 46] <+: c) :
    trimStackFile cwd dir goroot file = some (dotSlash ++ Util.joinPath rest) := by
  have hin : Util.fileWithinDir cwd file dir = true := by
    rw [Util.C58_within_partial cwd hc file dir]
    · exact ⟨rest, hr.symm⟩
    · intro c cs h
      rw [hr] at h
      exact htop c cs (List.append_cancel_left h)
  unfold trimStackFile
  rw [if_pos ⟨hd, hin⟩, hr, Util.rel_below]

/-- So the place of the checkout does not matter. -/
theorem C27_checkout_independent_partial (cwd : List Bytes) (hc : ∀ c ∈ cwd, Util.Name c) (dir1 dir2 goroot1 goroot2 file1 file2 : Bytes)
    (hd1 : dir1 ≠ []) (hd2 : dir2 ≠ []) (rest : List Bytes) (h1 : Util.absClean cwd file1 = Util.absClean cwd dir1 ++ rest)
    (h2 : Util.absClean cwd file2 = Util.absClean cwd dir2 ++ rest) (htop : ∀ c cs, rest = c :: cs → ¬ [46, 46] <+: c) :
    trimStackFile cwd dir1 goroot1 file1 = trimStackFile cwd dir2 goroot2 file2 := by
  rw [C27_relative_partial cwd hc dir1 goroot1 file1 hd1 rest h1 htop, C27_relative_partial cwd hc dir2 goroot2 file2 hd2 rest h2 htop]

/-- Whatever is outside of the project is never taken for a project file. -/
theorem C27_external_never_project (cwd : List Bytes) (dir goroot file r : Bytes)
    (hout : ¬ Util.Within (Util.absClean cwd file) (Util.absClean cwd dir)) (h : trimStackFile cwd dir goroot file = some r) :
    isProjectFile r = false := by
  unfold trimStackFile at h
  have hno : ¬ (dir ≠ [] ∧ Util.fileWithinDir cwd file dir = true) := fun hh => hout (Util.C58_outside_rejected cwd file dir hh.2)
  rw [if_neg hno] at h
  unfold trimExternal at h
  obtain ⟨f, _, rfl⟩ := Option.map_eq_some_iff.mp h
  generalize (afterFirst pkgMod f).getD f = g
  simp only
  split
  · rename_i hp
    obtain ⟨t, rfl⟩ := List.isPrefixOf_iff_prefix.mp hp
    simp [isProjectFile, dotSlash]
  · rename_i hp
    simp [isProjectFile, hp]

theorem vendor_prefix {c : Bytes} {cs : List Bytes} (hn : (47 : UInt8) ∉ c) :
    dotVendor <+: dotSlash ++ Util.joinPath (c :: cs) ↔ c = vendorName ∧ cs ≠ [] := by
  have hv : dotVendor = dotSlash ++ (vendorName ++ [47]) := rfl
  rw [hv, List.prefix_append_right_inj]
  cases cs with
  | nil =>
      simp only [Util.joinPath, ne_eq, not_true_eq_false, and_false, iff_false]
      intro h
      exact hn (h.subset (by simp))
  | cons d ds =>
      rw [Util.joinPath_cons (by simp)]
      constructor
      · rintro ⟨t, ht⟩
        have : vendorName ++ 47 :: t = c ++ 47 :: Util.joinPath (d :: ds) := by simpa using ht
        obtain ⟨h1, _⟩ := split_unique (by decide) hn this
        exact ⟨h1.symm, by simp⟩
      · rintro ⟨rfl, _⟩
        exact ⟨Util.joinPath (d :: ds), by simp⟩

/-- A frame is kept exactly if its file is in the project and not below the project's vendor directory. -/
theorem C27_kept_partial (cwd : List Bytes) (hc : ∀ c ∈ cwd, Util.Name c) (dir goroot file r : Bytes) (hd : dir ≠ [])
    (htop : ∀ c cs, Util.absClean cwd file = Util.absClean cwd dir ++ c :: cs → ¬ [46, 46] <+: c)
    (h : trimStackFile cwd dir goroot file = some r) :
    isProjectFile r = true ↔ Util.Within (Util.absClean cwd file) (Util.absClean cwd dir) ∧
      ¬ ∃ c cs, Util.absClean cwd file = Util.absClean cwd dir ++ vendorName :: c :: cs := by
  by_cases hin : Util.Within (Util.absClean cwd file) (Util.absClean cwd dir)
  · obtain ⟨rest, hrest⟩ := hin
    have ht := C27_relative_partial cwd hc dir goroot file hd rest hrest.symm (fun c cs he => htop c cs (by rw [← hrest, he]))
    rw [ht] at h
    cases h
    have hpre : dotSlash.isPrefixOf (dotSlash ++ Util.joinPath rest) = true :=
      List.isPrefixOf_iff_prefix.mpr (List.prefix_append _ _)
    simp only [isProjectFile, hpre, Bool.true_and, Bool.not_eq_true']
    have hw : Util.Within (Util.absClean cwd file) (Util.absClean cwd dir) := ⟨rest, hrest⟩
    simp only [hw, true_and]
    cases rest with
    | nil =>
        constructor
        · rintro _ ⟨c, cs, he⟩
          rw [← hrest] at he
          simp at he
        · intro _; decide
    | cons c cs =>
        have hn : (47 : UInt8) ∉ c := (Util.absClean_names hc file c (by rw [← hrest]; simp)).2.2.2
        rw [← Bool.not_eq_true, List.isPrefixOf_iff_prefix, vendor_prefix hn, ← hrest]
        constructor
        · rintro hno ⟨d, ds, he⟩
          have := List.append_cancel_left he
          simp only [List.cons.injEq] at this
          exact hno ⟨this.1, by rw [this.2]; simp⟩
        · rintro hno ⟨rfl, hne⟩
          cases cs with
          | nil => exact hne rfl
          | cons d ds => exact hno ⟨d, ds, rfl⟩
  · constructor
    · intro hp
      rw [C27_external_never_project cwd dir goroot file r hin h] at hp
      cases hp
    · rintro ⟨hh, _⟩; exact absurd hh hin

/-- A project file in a top-level directory whose name starts with ".." is not recognised. -/
theorem C27_dotdot_name_violated : ∃ dir file r : Bytes, Util.Within (Util.absClean [] file) (Util.absClean [] dir) ∧
    trimStackFile [] dir [] file = some r ∧ isProjectFile r = false :=
  ⟨[47, 100], [47, 100, 47, 46, 46, 120], [47, 100, 47, 46, 46, 120], by unfold Util.Within; decide, by decide, by decide⟩

/-- Trimming never slices out of range if the Go root, without a final slash, is written as it is in the file's path. -/
theorem C27_no_panic_partial (cwd : List Bytes) (dir goroot file : Bytes) (h : goroot.length ≤ file.length) :
    trimStackFile cwd dir goroot file ≠ none := by
  unfold trimStackFile trimExternal trimGoroot
  split
  · simp
  · split
    · rw [if_pos (by split <;> omega)]; simp
    · simp

/-- An unclean Go root such as "/a/b/../.." makes it panic. -/
theorem C27_goroot_slice_violated : ∃ goroot file : Bytes, trimStackFile [] [47, 112] goroot file = none :=
  ⟨"/a/b/../../g".toUTF8.toList, "/g/x.go".toUTF8.toList, by decide +kernel⟩

/-- Project file, vendored file, module cache file and standard library file. -/
example :
    let b := fun (s : String) => s.toUTF8.toList
    trimStackFile [] (b "/src/p") (b "/go") (b "/src/p/x/a.go") = some (b "./x/a.go") ∧
    trimStackFile [] (b "/src/p") (b "/go") (b "/src/p/vendor/m/a.go") = some (b "./vendor/m/a.go") ∧
    trimStackFile [] (b "/src/p") (b "/go") (b "/home/u/go/pkg/mod/m@v1.0.0/a.go") = some (b "m@v1.0.0/a.go") ∧
    trimStackFile [] (b "/src/p") (b "/go/") (b "/go/src/fmt/p.go") = some (b "/src/fmt/p.go") ∧
    isProjectFile (b "./x/a.go") = true ∧ isProjectFile (b "./vendor/m/a.go") = false := by
  decide +kernel

/-! ## C71: filtering while recording -/

theorem keepNames_find (allowed : List Bytes) (x : Bytes) : ∀ m : FMap, (keepNames allowed m).find x = if x ∈ allowed then m.find x else none
  | .goNil => by simp [keepNames, FMap.find]
  | .empty => by simp [keepNames, FMap.find]
  | .cons k v kids rest => by
      have ih := keepNames_find allowed x rest
      simp only [keepNames]
      by_cases hk : k = x
      · subst hk
        by_cases ha : k ∈ allowed
        · simp [ha, FMap.find]
        · simp [ha, ih]
      · by_cases ha : k ∈ allowed
        · simp [ha, FMap.find, hk, ih]
        · simp [ha, FMap.find, hk, ih]

/-- A frame keeps a top-level field, with its value and everything below, exactly if the baseline frame with the same
call path and the same occurrence has a field of that name; without such a baseline frame it keeps nothing. -/
theorem C71_filter (key : CallFrame → Bytes) (frames recorded : List CallFrame) (k : Bytes) (fields : FMap) (x : Bytes) :
    ((∃ (i : Nat) (b : CallFrame), frames[i]? = some b ∧ key b = k ∧
        occBefore key frames i k = recorded.countP (fun f => key f = k) ∧ x ∈ b.fields.names) →
      (stableFilter key (some frames) recorded k fields).find x = fields.find x) ∧
    (¬ (∃ (i : Nat) (b : CallFrame), frames[i]? = some b ∧ key b = k ∧
        occBefore key frames i k = recorded.countP (fun f => key f = k) ∧ x ∈ b.fields.names) →
      (stableFilter key (some frames) recorded k fields).find x = none) := by
  have hcount : countKey key k recorded = recorded.countP fun f => key f = k := by
    rw [countKey, List.countP_eq_length_filter]
  constructor
  · rintro ⟨i, b, hi, hk, ho, hx⟩
    have hg : (frames.filter fun f => key f = k)[countKey key k recorded]? = some b :=
      (filter_get _ _ _ _).mpr ⟨i, hi, by simp [hk], by rw [hcount]; exact ho⟩
    simp only [stableFilter, hg, keepNames_find, hx, if_true]
  · intro hno
    simp only [stableFilter]
    cases hg : (frames.filter fun f => key f = k)[countKey key k recorded]? with
    | none => simp [keepNames_find]
    | some b =>
        obtain ⟨i, hi, hkb, ho⟩ := (filter_get _ _ _ _).mp hg
        have hx : x ∉ b.fields.names := fun hx => hno ⟨i, b, hi, by simpa using hkb, by rw [← hcount]; exact ho, hx⟩
        simp [keepNames_find, hx]

/-- A caller without baseline frames keeps nothing. -/
theorem C71_no_baseline (key : CallFrame → Bytes) (recorded : List CallFrame) (k : Bytes) (fields : FMap) (x : Bytes) :
    (stableFilter key none recorded k fields).find x = none := by
  simp [stableFilter, keepNames_find]

/-- The second call with a path is filtered by the second baseline frame with that path. -/
example :
    let fr (p : UInt8) (n : UInt8) : CallFrame := ⟨.cons [n] [1] .goNil .empty, [⟨[p], 0, []⟩], 0⟩
    let key : CallFrame → Bytes := fun f => stackText f.stack
    stableFilter key (some [fr 1 120, fr 2 121, fr 1 122]) [fr 1 120] (key (fr 1 0))
      (.cons [120] [5] .goNil (.cons [122] [6] .goNil .empty)) = .cons [122] [6] .goNil .empty := by decide

end Verif.Monitor
