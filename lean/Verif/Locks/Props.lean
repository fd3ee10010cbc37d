import Verif.Locks.Lemmas

/-! C164: edits of files never wait for each other for ever. -/

namespace Verif.Locks

/-- **C164.** Whatever goroutines run whatever operations, of however many modifiers, in whatever order: when none of them can go on, all are at their ends, the workers of all commits too, and all locks are free. -/
theorem C164_ends {n stripes mods : Nat} {sys : Nat → Routine} {ts : List Nat} {s : St} (sy : System n stripes mods sys) (h : run ts (start stripes sys) = some s) (st : Stuck s) : Ended sys s := by
  obtain ⟨H, F, iv⟩ := sy.inv.run h
  obtain ⟨B, hB⟩ := sy.below
  have hd := iv.done hB st
  have he : ∀ t ops, sys t = .editor ops → s.started t = true := by
    intro t ops e
    refine started_run h ?_
    show (match sys t with | .editor _ => true | .worker _ _ => false) = true
    rw [e]
  refine ⟨hd, he, fun t ops m ws e hm w hw => ?_, iv.free hd⟩
  have : Instr.fork w.2 ∈ (sys t).code stripes := by
    rw [e, Routine.code, List.mem_flatMap]
    refine ⟨_, hm, ?_⟩
    simp only [Op.code, holding, List.cons_append, List.mem_cons, List.mem_append, List.mem_flatMap]
    exact .inr (.inl (.inl ⟨w, hw, .inr (.inl rfl)⟩))
  rcases iv.forks t w.2 this with h' | h'
  · rw [hd t (he t ops e)] at h'
    cases h'
  · exact h'

/-- **C164.** No schedule goes on for ever: it has at most as many steps as the goroutines have instructions. -/
theorem C164_bounded {n stripes mods : Nat} {sys : Nat → Routine} {ts : List Nat} {s : St} (sy : System n stripes mods sys) (h : run ts (start stripes sys) = some s) :
    ts.length ≤ ((List.range n).map fun t => ((sys t).code stripes).length).sum := by
  have hn : ∀ u, n ≤ u → (start stripes sys).code u = [] := by
    intro u hu
    show (sys u).code stripes = []
    rw [sy.rest u hu]
    rfl
  have := (left_run hn h).1
  have e : left n (start stripes sys) = ((List.range n).map fun t => ((sys t).code stripes).length).sum := left_sum n _
  omega

/-- **C164.** Every schedule can be carried on until all is done. -/
theorem C164_progress {n stripes mods : Nat} {sys : Nat → Routine} {ts : List Nat} {s : St} (sy : System n stripes mods sys) (h : run ts (start stripes sys) = some s) :
    ∃ ts' s', run (ts ++ ts') (start stripes sys) = some s' ∧ Ended sys s' := by
  have hn : ∀ u, n ≤ u → (start stripes sys).code u = [] := by
    intro u hu
    show (sys u).code stripes = []
    rw [sy.rest u hu]
    rfl
  obtain ⟨ts', s', hr, hs⟩ := to_stuck (n := n) _ s le_rfl (left_run hn h).2
  have : run (ts ++ ts') (start stripes sys) = some s' := by
    rw [run_append, h]
    exact hr
  exact ⟨ts', s', this, C164_ends sy this hs⟩

/-- Two goroutines that edit files with the same lock, one after a commit with two workers and one buffer, and a goroutine of another modifier. -/
def busy : Nat → Routine
  | 0 => .editor [(0, .inject 5 true), (0, .commit [(none, 3), (some 3, 4)]), (0, .insert 5 true false)]
  | 1 => .editor [(0, .commitFile 5 true), (0, .restore)]
  | 2 => .editor [(1, .insert 5 true true), (1, .record), (1, .client)]
  | 3 => .worker 0 true
  | 4 => .worker 0 false
  | _ => .editor []

theorem busy_system : System 5 8081 2 busy := by
  constructor
  · intro t ops h o ho
    match t with
    | 0 =>
      cases h
      simp only [List.mem_cons, List.not_mem_nil, or_false] at ho
      rcases ho with rfl | rfl | rfl
      · exact ⟨by omega, (by omega : 5 < 8081)⟩
      · refine ⟨by omega, fun w hw => ?_, fun as w bs u e hu => ?_⟩
        · simp only [List.mem_cons, List.not_mem_nil, or_false] at hw
          rcases hw with rfl | rfl
          · exact ⟨true, rfl⟩
          · exact ⟨false, rfl⟩
        · match as, e with
          | [], e => cases e; cases hu
          | [_], e => cases e; cases hu; simp
          | [_, _], e => cases e
          | _ :: _ :: _ :: _, e => cases e
      · exact ⟨by omega, (by omega : 5 < 8081)⟩
    | 1 =>
      cases h
      simp only [List.mem_cons, List.not_mem_nil, or_false] at ho
      rcases ho with rfl | rfl
      · exact ⟨by omega, (by omega : 5 < 8081)⟩
      · exact ⟨by omega, trivial⟩
    | 2 =>
      cases h
      simp only [List.mem_cons, List.not_mem_nil, or_false] at ho
      rcases ho with rfl | rfl | rfl
      · exact ⟨by omega, (by omega : 5 < 8081)⟩
      · exact ⟨by omega, trivial⟩
      · exact ⟨by omega, trivial⟩
    | 3 => cases h
    | 4 => cases h
    | t + 5 =>
      cases h
      cases ho
  · intro t ht
    match t with
    | 0 | 1 | 2 | 3 | 4 => omega
    | t + 5 => rfl

/-- In the middle of the commit the first goroutine waits for the worker, and the second for the first. -/
example : ∃ s, run [0, 0, 0, 0, 0, 0, 1, 3] (start 8081 busy) = some s ∧ step 0 s = none ∧ step 1 s = none ∧ (step 3 s).isSome ∧ (step 2 s).isSome = false := by
  refine ⟨_, rfl, ?_, ?_, ?_, ?_⟩ <;> decide

example : ∃ ts s, run ([0, 0, 0, 0, 0, 0, 1, 3] ++ ts) (start 8081 busy) = some s ∧ Ended busy s := C164_progress busy_system (s := _) rfl

/-- Locks taken in opposite orders: with an operation that takes the lock of a file while it has `commitLock`, two goroutines would wait for each other. -/
example : ∃ s, run [0, 1] ⟨fun | 0 => holding 5 (holding 8081 []) | 1 => holding 8081 (holding 5 []) | _ => [], fun _ => none, fun _ => true⟩ = some s ∧ step 0 s = none ∧ step 1 s = none := by
  refine ⟨_, rfl, ?_, ?_⟩ <;> decide

end Verif.Locks
