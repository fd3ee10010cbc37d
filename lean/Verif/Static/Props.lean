import Verif.Static.Lemmas
import Mathlib.Data.List.TakeWhile

/-!
C42–C45 and C73–C75 for `/repo/lens/static.go`.
-/

namespace Verif.Static

section
variable {N : Type} [DecidableEq N]

/-! ### C42 -/

/-- `x` is a reportable project function from which the changed function `ch` can be reached. -/
def Affected (g : Graph N) (ch : Bytes) (x : N) : Prop :=
  ∃ start ∈ g.nodes, (g.fn start).ident = ch ∧ x ≠ start ∧ Upward g.callers (fun y => (g.fn y).mainOrInit) start x ∧ Reportable (g.fn x)

/-- C42: with as many steps as the graph has nodes the search ends, recursion or not. -/
theorem C42_terminates {S : Type} (g : Graph N) (root : N → Bool) (visit : N → S → Option S) (s : S) (start : N) (steps : Nat) (hs : start ∈ g.nodes)
    (hc : ∀ x ∈ g.nodes, ∀ y, some y ∈ g.callers x → y ∈ g.nodes) (hn : g.nodes.length ≤ steps) :
    reverseDFS g.callers root visit steps start s ≠ .cutOff := by
  refine search_cut visit g.nodes ?_ steps [] [start] [start] s (sinv_init _ _ start) (by simpa using hn)
  intro x hx
  induction hx with
  | start => exact hs
  | caller _ _ h ih => exact hc _ ih _ h

/-- C42: the callback sees exactly the nodes above the start, each once. -/
theorem C42_visits (callers : N → List (Option N)) (root : N → Bool) (start : N) (steps : Nat) (order : List N)
    (h : reverseDFS callers root (fun x out => some (out ++ [x])) steps start [] = .done order) :
    order.Nodup ∧ ∀ x, x ∈ order ↔ Upward callers root start x := by
  obtain ⟨o, h1, h2, h3⟩ := search_done _ _ _ _ _ _ _ (sinv_init callers root start) h
  have := foldlM_append (fun x out => some (out ++ [x])) (fun _ => True) (fun x => [x]) (fun x out => Or.inl rfl) _ _ _ h1
  have e : order = o := by rw [this]; simp
  rw [e]
  exact ⟨by simpa using h2, fun x => by simpa using h3 x⟩

/-- C42 when the identifier of a changed function is that of one node, or nothing reportable is above any of its nodes (package
initialisers): whatever the order in which the workers store their findings, the callers reported are exactly the affected ones,
under each identifier once, each with exactly the changes it can reach. Missing: identifiers shared by nodes with callers, see
`C42_violated`. -/
theorem C42_callers_partial (g : Graph N) (changes : List Bytes) (steps : Nat) (evs : Bytes → List (Bytes × N × Bytes)) (events : List (Bytes × N × Bytes))
    (hid : ∀ ch ∈ changes, (∀ x ∈ g.nodes, ∀ y ∈ g.nodes, (g.fn x).ident = ch → (g.fn y).ident = ch → x = y) ∨ ∀ x, ¬ Affected g ch x)
    (hw : ∀ ch ∈ changes, callerWorker g steps ch = .done (evs ch)) (hp : events.Perm (changes.flatMap evs)) (ident : Bytes) :
    ((recordAll events).get ident = none ↔ ∀ ch ∈ changes, ∀ x, Affected g ch x → (g.fn x).ident ≠ ident) ∧
    ∀ e, (recordAll events).get ident = some e → e.targets.Nodup ∧ ((g.fn e.node).ident = ident ∧ ∃ ch ∈ changes, Affected g ch e.node) ∧
      ∀ ch, ch ∈ e.targets ↔ ch ∈ changes ∧ ∃ x, Affected g ch x ∧ (g.fn x).ident = ident := by
  have hmem : ∀ e, e ∈ events ↔ e.2.2 ∈ changes ∧ Affected g e.2.2 e.2.1 ∧ e.1 = (g.fn e.2.1).ident := by
    intro e
    rw [hp.mem_iff, List.mem_flatMap]
    constructor
    · rintro ⟨ch, hch, he⟩
      obtain ⟨start, h1, h2, h3, h4, h5, h6⟩ := (callerWorker_done (hw ch hch) e).mp he
      obtain ⟨h7, h8⟩ := nodeOf_mem h1
      rw [h6]
      exact ⟨hch, ⟨start, h7, h8, h3, h2, h4⟩, h5⟩
    · rintro ⟨hch, ha, h5⟩
      refine ⟨e.2.2, hch, (callerWorker_done (hw _ hch) e).mpr ?_⟩
      rcases hid _ hch with hu | hu
      · obtain ⟨start, h7, h8, h3, h2, h4⟩ := ha
        cases hn : nodeOf g e.2.2 with
        | none => exact absurd h8 (nodeOf_none hn start h7)
        | some s =>
            obtain ⟨m1, m2⟩ := nodeOf_mem hn
            rw [hu start h7 s m1 h8 m2] at h2 h3
            exact ⟨s, rfl, h2, h3, h4, h5, rfl⟩
      · exact absurd ha (hu _)
  have hh := recordAll_holds events
  constructor
  · rw [hh.none_ ident]
    constructor
    · intro h ch hch x hx he
      exact h (ident, x, ch) ((hmem _).mpr ⟨hch, hx, he.symm⟩) rfl
    · intro h e he heq
      obtain ⟨h1, h2, h3⟩ := (hmem e).mp he
      exact h _ h1 _ h2 (by rw [← h3, heq])
  · intro e he
    obtain ⟨h1, h2, t, h3⟩ := hh.targets ident e he
    refine ⟨h1, ?_, fun ch => ?_⟩
    · obtain ⟨m1, m2, m3⟩ := (hmem _).mp h3
      exact ⟨m3.symm, t, m1, m2⟩
    · rw [h2]
      constructor
      · rintro ⟨n, hn⟩
        obtain ⟨m1, m2, m3⟩ := (hmem _).mp hn
        exact ⟨m1, n, m2, m3.symm⟩
      · rintro ⟨hch, x, hx, hi⟩
        exact ⟨x, (hmem _).mpr ⟨hch, hx, hi.symm⟩⟩

/-- C42: a search fails exactly if the file check fails for a function that would otherwise be reported or skipped by that check. -/
theorem C42_error (g : Graph N) (ch : Bytes) (start : N) (steps : Nat) (hs : nodeOf g ch = some start)
    (hc : ∀ x ∈ g.nodes, ∀ y, some y ∈ g.callers x → y ∈ g.nodes) (hn : g.nodes.length ≤ steps) :
    callerWorker g steps ch = .failed ↔ ∃ x, Upward g.callers (fun y => (g.fn y).mainOrInit) start x ∧ x ≠ start ∧ (g.fn x).hasPkg = true ∧
      (g.fn x).mainOrInit = false ∧ (g.fn x).inProject = true ∧ (g.fn x).generated = false ∧ (g.fn x).compiles = none := by
  have key : ∀ x out, visitCaller g start ch x out = none ↔ x ≠ start ∧ (g.fn x).hasPkg = true ∧
      (g.fn x).mainOrInit = false ∧ (g.fn x).inProject = true ∧ (g.fn x).generated = false ∧ (g.fn x).compiles = none := by
    intro x out
    unfold visitCaller
    cases h1 : (g.fn x).hasPkg
    · simp [h1]
    · by_cases h2 : x = start
      · simp [h1, h2]
      · cases h3 : (g.fn x).mainOrInit
        · cases h4 : (g.fn x).inProject
          · simp [h1, h2, h3, h4]
          · cases h5 : (g.fn x).generated
            · cases h6 : (g.fn x).compiles with
              | none => simp [h1, h2, h3, h4, h5, h6]
              | some b => cases b <;> cases h7 : (g.fn x).supported <;> simp [h1, h2, h3, h4, h5, h6, h7]
            · simp [h1, h2, h3, h4, h5]
        · simp [h1, h2, h3]
  unfold callerWorker
  rw [hs]
  simp only
  constructor
  · intro h
    obtain ⟨x, s', hx, hv⟩ := search_failed _ _ _ _ _ _ (sinv_init _ _ start) h
    exact ⟨x, hx, (key x s').mp hv⟩
  · rintro ⟨x, hx, hv⟩
    cases hr : reverseDFS g.callers (fun x => (g.fn x).mainOrInit) (visitCaller g start ch) steps start [] with
    | failed => rfl
    | cutOff => exact absurd hr (C42_terminates g _ _ _ start steps (nodeOf_mem hs).1 hc hn)
    | done out =>
        obtain ⟨order, o1, _, o3⟩ := search_done _ _ _ _ _ _ _ (sinv_init _ _ start) hr
        have hxo : x ∈ order := by simpa using (o3 x).mpr hx
        obtain ⟨a, b, rfl⟩ := List.append_of_mem hxo
        rw [List.foldlM_append] at o1
        cases ha : a.foldlM (fun s x => visitCaller g start ch x s) ([] : List (Bytes × N × Bytes)) with
        | none => rw [ha] at o1; cases o1
        | some s =>
            rw [ha] at o1
            simp only [Option.bind_eq_bind, Option.bind_some, List.foldlM_cons, (key x s).mpr hv, Option.bind_none] at o1
            cases o1

end

/-- A function of the project. -/
private def projFn (ident : Bytes) : Fn := ⟨ident, true, true, true, false, some true, false, false⟩
/-- A function of a module. -/
private def modFn (ident : Bytes) : Fn := ⟨ident, true, true, false, false, some true, false, false⟩

/-- Changed function 0, called by the module function 1, called by the project functions 2 and 3, which call each other; main (4)
calls 3. -/
private def g1 : Graph Nat :=
  ⟨[0, 1, 2, 3, 4], fun x => if x = 4 then { projFn [4] with mainOrInit := true } else if x < 2 then modFn [x.toUInt8] else projFn [x.toUInt8],
    fun x => match x with
      | 0 => [some 1]
      | 1 => [some 2, none, some 3]
      | 2 => [some 3]
      | 3 => [some 2, some 4]
      | _ => []⟩

example : callerWorker g1 5 [0] = .done [([3], 3, [0]), ([2], 2, [0])] := by decide +kernel
example : recordAll ([([3], 3, [0]), ([2], 2, [0])] : List (Bytes × Nat × Bytes)) = [([2], ⟨2, [[0]]⟩), ([3], ⟨3, [[0]]⟩)] := by decide +kernel
example : Affected g1 [0] 3 :=
  ⟨0, by decide, by decide, by decide, .caller (.caller .start (by decide) (y := 1) (by decide)) (by decide) (by decide), by unfold Reportable; decide⟩

/-- C42 fails for an identifier shared by two nodes: nodes 0 and 1 are both `[0]`, and the callers of node 0 are not reported. -/
theorem C42_violated :
    let g : Graph Nat := ⟨[0, 1, 2], fun x => if x < 2 then modFn [0] else projFn [x.toUInt8], fun x => if x = 0 then [some 2] else []⟩
    callerWorker g 3 [0] = .done [] ∧ Affected g [0] 2 := by
  refine ⟨by decide +kernel, 0, by decide, by decide, by decide, .caller .start (by decide) (by decide), by unfold Reportable; decide⟩

section
variable {N : Type} [DecidableEq N]

/-! ### C43 -/

/-- `x` is a test of the project from which the caller `c` is reachable in any way. -/
def TestOf (g : Graph N) (c : Bytes) (x : N) : Prop :=
  ∃ start ∈ g.nodes, (g.fn start).ident = c ∧ Calls g.callers start x ∧ IsProjectTest (g.fn x) ∧ (g.fn x).supported = true

/-- The same, along calls that do not pass through another test or entry point. -/
def DirectTestOf (g : Graph N) (c : Bytes) (x : N) : Prop :=
  ∃ start ∈ g.nodes, (g.fn start).ident = c ∧ Upward g.callers (fun y => endsWay (g.fn y)) start x ∧ IsProjectTest (g.fn x) ∧
    (g.fn x).supported = true

/-- C43, the part that holds: whatever the order in which the workers store their findings, the tests found are exactly those from
which a caller is reachable without passing through another test or entry point, under each identifier once, each with exactly the
callers so reached; and every one of them does reach its callers. Missing: tests that get there through another test or `main`, see
`C43_violated`. -/
theorem C43_tests_partial (g : Graph N) (callers : List Bytes) (steps : Nat) (evs : N × Bytes → List (Bytes × N × Bytes)) (events : List (Bytes × N × Bytes))
    (hw : ∀ w ∈ testStarts g callers, testWorker g steps w.1 w.2 = .done (evs w)) (hp : events.Perm ((testStarts g callers).flatMap evs)) (ident : Bytes) :
    ((recordAll events).get ident = none ↔ ∀ c ∈ callers, ∀ x, DirectTestOf g c x → (g.fn x).ident ≠ ident) ∧
    (∀ e, (recordAll events).get ident = some e → e.targets.Nodup ∧ ((g.fn e.node).ident = ident ∧ ∃ c ∈ callers, TestOf g c e.node) ∧
      ∀ c, c ∈ e.targets ↔ c ∈ callers ∧ ∃ x, DirectTestOf g c x ∧ (g.fn x).ident = ident) ∧
    ∀ c x, DirectTestOf g c x → TestOf g c x := by
  have hmem : ∀ e, e ∈ events ↔ e.2.2 ∈ callers ∧ DirectTestOf g e.2.2 e.2.1 ∧ e.1 = (g.fn e.2.1).ident := by
    intro e
    rw [hp.mem_iff, List.mem_flatMap]
    have hst : ∀ w : N × Bytes, w ∈ testStarts g callers ↔ w.2 ∈ callers ∧ w.1 ∈ g.nodes ∧ (g.fn w.1).ident = w.2 := by
      rintro ⟨x, c⟩
      simp only [testStarts, List.mem_flatMap, List.mem_map, List.mem_filter, decide_eq_true_eq, Prod.mk.injEq]
      constructor
      · rintro ⟨c', hc', x', ⟨hx', hi⟩, rfl, rfl⟩; exact ⟨hc', hx', hi⟩
      · rintro ⟨h1, h2, h3⟩; exact ⟨c, h1, x, ⟨h2, h3⟩, rfl, rfl⟩
    constructor
    · rintro ⟨w, hw', he⟩
      obtain ⟨h1, h2, h3, h4, h5⟩ := (testWorker_done (hw w hw') e).mp he
      obtain ⟨w1, w2, w3⟩ := (hst w).mp hw'
      rw [testRoot_eq] at h1
      rw [h5]
      exact ⟨w1, ⟨w.1, w2, w3, h1, h2, h3⟩, h4⟩
    · rintro ⟨hc, ⟨start, s1, s2, s3, s4, s5⟩, h4⟩
      have hin := (hst (start, e.2.2)).mpr ⟨hc, s1, s2⟩
      exact ⟨_, hin, (testWorker_done (hw _ hin) e).mpr ⟨by rw [testRoot_eq]; exact s3, s4, s5, h4, rfl⟩⟩
  have hcalls : ∀ c x, DirectTestOf g c x → TestOf g c x := by
    rintro c x ⟨start, s1, s2, s3, s4, s5⟩
    refine ⟨start, s1, s2, ?_, s4, s5⟩
    clear s4 s5
    induction s3 with
    | start => exact .start
    | caller _ _ h ih => exact .caller ih h
  have hh := recordAll_holds events
  refine ⟨?_, ?_, hcalls⟩
  · rw [hh.none_ ident]
    constructor
    · intro h ch hch x hx he
      exact h (ident, x, ch) ((hmem _).mpr ⟨hch, hx, he.symm⟩) rfl
    · intro h e he heq
      obtain ⟨h1, h2, h3⟩ := (hmem e).mp he
      exact h _ h1 _ h2 (by rw [← h3, heq])
  · intro e he
    obtain ⟨h1, h2, t, h3⟩ := hh.targets ident e he
    refine ⟨h1, ?_, fun ch => ?_⟩
    · obtain ⟨m1, m2, m3⟩ := (hmem _).mp h3
      exact ⟨m3.symm, t, m1, hcalls _ _ m2⟩
    · rw [h2]
      constructor
      · rintro ⟨n, hn⟩
        obtain ⟨m1, m2, m3⟩ := (hmem _).mp hn
        exact ⟨m1, n, m2, m3.symm⟩
      · rintro ⟨hch, x, hx, hi⟩
        exact ⟨x, (hmem _).mpr ⟨hch, hx, hi.symm⟩⟩

/-- C43: the searches end without error. -/
theorem C43_terminates (g : Graph N) (callers : List Bytes) (steps : Nat) (hc : ∀ x ∈ g.nodes, ∀ y, some y ∈ g.callers x → y ∈ g.nodes)
    (hn : g.nodes.length ≤ steps) : ∀ w ∈ testStarts g callers, ∃ out, testWorker g steps w.1 w.2 = .done out := by
  intro w hw
  have hin : w.1 ∈ g.nodes := by
    simp only [testStarts, List.mem_flatMap, List.mem_map, List.mem_filter] at hw
    obtain ⟨_, _, x, ⟨hx, _⟩, rfl⟩ := hw
    exact hx
  cases h : testWorker g steps w.1 w.2 with
  | done out => exact ⟨out, rfl⟩
  | cutOff => exact absurd h (C42_terminates g _ _ _ w.1 steps hin hc hn)
  | failed =>
      obtain ⟨x, s, _, hv⟩ := search_failed _ _ _ _ _ _ (sinv_init _ _ w.1) h
      rw [visitTest_spec] at hv
      cases hv

end

/-- A test of the project. -/
private def testFn (ident : Bytes) : Fn := ⟨ident, true, true, true, false, some true, false, true⟩

/-- Caller 0 (with a second node 1 for its test variant), helper 2, tests 3 and 4. -/
private def g2 : Graph Nat :=
  ⟨[0, 1, 2, 3, 4], fun x => if x < 2 then projFn [0] else if x = 2 then projFn [2] else testFn [x.toUInt8],
    fun x => match x with
      | 0 => [some 2]
      | 1 => [some 4]
      | 2 => [some 3, some 2]
      | _ => []⟩

example : testStarts g2 [[0]] = [(0, [0]), (1, [0])] ∧ testWorker g2 5 0 [0] = .done [([3], 3, [0])] ∧ testWorker g2 5 1 [0] = .done [([4], 4, [0])] := by
  decide +kernel

/-- C43 fails for tests that get to a caller through another test or through `main`: with calls 2 → 1 → 0, where 2 is a test and 1 a
test or the main function, the test 2 is not found although it calls the caller 0. -/
theorem C43_violated :
    let g (mid : Fn) : Graph Nat := ⟨[0, 1, 2], fun x => if x = 0 then projFn [0] else if x = 1 then mid else testFn [2],
      fun x => if x = 0 then [some 1] else if x = 1 then [some 2] else []⟩
    (testWorker (g (testFn [1])) 3 0 [0] = .done [([1], 1, [0])] ∧ TestOf (g (testFn [1])) [0] 2) ∧
    (testWorker (g { projFn [1] with mainOrInit := true }) 3 0 [0] = .done [] ∧ TestOf (g { projFn [1] with mainOrInit := true }) [0] 2) := by
  refine ⟨⟨by decide +kernel, 0, by decide, by decide, .caller (y := 2) (x := 1) (.caller .start (by decide)) (by decide), by unfold IsProjectTest; decide, by decide⟩,
    ⟨by decide +kernel, 0, by decide, by decide, .caller (y := 2) (x := 1) (.caller .start (by decide)) (by decide), by unfold IsProjectTest; decide, by decide⟩⟩

/-! ### C44 -/

/-- C44: identifiers tell packages, receivers and names apart. Package paths have no ':', names no '.'. -/
theorem C44_unique (pkg recv name pkg' recv' name' : Bytes) (h1 : 58 ∉ pkg) (h2 : 58 ∉ pkg') (h3 : 46 ∉ name) (h4 : 46 ∉ name')
    (h : identStr pkg recv name = identStr pkg' recv' name') : pkg = pkg' ∧ recv = recv' ∧ name = name' := by
  unfold identStr at h
  by_cases hr : recv = [] <;> by_cases hr' : recv' = []
  · simp only [hr, hr', ne_eq, not_true_eq_false, if_false] at h
    obtain ⟨e1, e2⟩ := append_inj_sep h1 h2 h
    exact ⟨e1, by rw [hr, hr'], e2⟩
  · simp only [hr, hr', ne_eq, not_true_eq_false, not_false_eq_true, if_false, if_true, List.append_assoc, List.cons_append] at h
    obtain ⟨e1, e2⟩ := append_inj_sep h1 h2 h
    exact absurd (by rw [e2]; simp) h3
  · simp only [hr, hr', ne_eq, not_true_eq_false, not_false_eq_true, if_false, if_true, List.append_assoc, List.cons_append] at h
    obtain ⟨e1, e2⟩ := append_inj_sep h1 h2 h
    exact absurd (by rw [← e2]; simp) h4
  · simp only [hr, hr', ne_eq, not_false_eq_true, if_true, List.append_assoc, List.cons_append] at h
    obtain ⟨e1, e2⟩ := append_inj_sep h1 h2 h
    obtain ⟨e3, e4⟩ := append_inj_last h3 h4 e2
    exact ⟨e1, e3, e4⟩

example : identStr [97, 47, 98] [42, 84] [77] = [97, 47, 98, 58, 42, 84, 46, 77] := by decide

/-- C44: the short form drops exactly the directory of the package path. -/
theorem C44_short (dir base recv name : Bytes) (hd : dir ≠ []) (hb : 47 ∉ base) (hr : 47 ∉ recv) (hn : 47 ∉ name) :
    shortIdent (identStr (dir ++ 47 :: base) recv name) = identStr base recv name := by
  have hrest : (47 : UInt8) ∉ identStr base recv name := by
    unfold identStr
    split <;> simp [hb, hr, hn]
  have e : identStr (dir ++ 47 :: base) recv name = dir ++ 47 :: identStr base recv name := by
    unfold identStr
    split <;> simp
  rw [e]
  unfold shortIdent
  rw [lastSlash_append hrest]
  have : dir.length > 0 := List.length_pos_iff.mpr hd
  simp only [if_pos this]
  rw [show dir.length + 1 = (dir ++ [47]).length by simp, show dir ++ 47 :: identStr base recv name = (dir ++ [47]) ++ identStr base recv name by simp]
  simp

/-- C44: an identifier of a package without directories is its own short form. -/
theorem C44_short_flat (pkg recv name : Bytes) (hb : 47 ∉ pkg) (hr : 47 ∉ recv) (hn : 47 ∉ name) : shortIdent (identStr pkg recv name) = identStr pkg recv name := by
  have hrest : (47 : UInt8) ∉ identStr pkg recv name := by
    unfold identStr
    split <;> simp [hb, hr, hn]
  have : (identStr pkg recv name).reverse.takeWhile (· != 47) = (identStr pkg recv name).reverse := by
    rw [List.takeWhile_eq_self_iff]
    intro b hb
    simp only [bne_iff_ne, ne_eq]
    rintro rfl
    exact hrest (by simpa using hb)
  unfold shortIdent lastSlash
  simp [this]

example : shortIdent (identStr [97, 47, 98] [42, 84] [77]) = [98, 58, 42, 84, 46, 77] := by decide

/-! ### C45 -/

/-- C45: whatever order of equal lines the sort chooses, merging gives each line once, ascending, with the sum of its calls. -/
theorem C45_merge (infos sorted : List Ret) (hp : sorted.Perm infos) (hs : sorted.Pairwise fun x y => x.line ≤ y.line) :
    (merge sorted).Pairwise (fun x y => x.line < y.line) ∧ (∀ line, (∃ x ∈ merge sorted, x.line = line) ↔ ∃ x ∈ infos, x.line = line) ∧
    ∀ x ∈ merge sorted, x.calls = callsOn infos x.line := by
  have hm := mergeLoop_spec hs sorted.length sorted 0 0 (minv_init sorted) (by omega)
  have hmem : ∀ x, x ∈ merge sorted ↔ ∃ j, j < (mergeLoop sorted 0 0 sorted.length).2 ∧ (mergeLoop sorted 0 0 sorted.length).1[j]? = some x := by
    intro x
    unfold merge
    simp only [List.mem_iff_getElem?, List.getElem?_take]
    constructor
    · rintro ⟨j, hj⟩
      split at hj
      · exact ⟨j, ‹_›, hj⟩
      · cases hj
    · rintro ⟨j, hj, hx⟩
      exact ⟨j, by rw [if_pos hj]; exact hx⟩
  have hpw : (merge sorted).Pairwise (fun x y => x.line < y.line) := by
    unfold merge
    rw [List.pairwise_iff_getElem]
    intro i j hi hj hij
    simp only [List.length_take] at hi hj
    refine hm.sorted i j _ _ hij (by omega) ?_ ?_
    · rw [List.getElem_take]; exact List.getElem?_eq_getElem _
    · rw [List.getElem_take]; exact List.getElem?_eq_getElem _
  refine ⟨hpw, ?_, ?_⟩
  · intro line
    constructor
    · rintro ⟨x, hx, rfl⟩
      obtain ⟨j, hj, hxj⟩ := (hmem x).mp hx
      obtain ⟨y, hy, he⟩ := hm.mem j x hj hxj
      rw [List.take_length] at hy
      exact ⟨y, hp.mem_iff.mp hy, he⟩
    · rintro ⟨y, hy, rfl⟩
      obtain ⟨j, x, hj, hx, he⟩ := hm.all y (by rw [List.take_length]; exact hp.mem_iff.mpr hy)
      exact ⟨x, (hmem x).mpr ⟨j, hj, hx⟩, he⟩
  · intro x hx
    have hsum := hm.sums x.line
    rw [List.take_length, callsOn_perm hp] at hsum
    rw [← hsum]
    change x.calls = callsOn (merge sorted) x.line
    generalize merge sorted = l at hx hpw
    have hfilt : l.filter (fun r => r.line = x.line) = [x] := by
      induction l with
      | nil => simp at hx
      | cons a l ih =>
          obtain ⟨ha, hl⟩ := List.pairwise_cons.mp hpw
          rcases List.mem_cons.mp hx with rfl | hx
          · rw [List.filter_cons, if_pos (by simp)]
            congr 1
            rw [List.filter_eq_nil_iff]
            intro r hr he
            have := ha r hr
            simp only [decide_eq_true_eq] at he
            rw [he] at this
            exact absurd this (UInt32.lt_irrefl _)
          · have hne : ¬ a.line = x.line := fun he => by
              have := ha x hx
              rw [he] at this
              exact absurd this (UInt32.lt_irrefl _)
            rw [List.filter_cons, if_neg (by simpa using hne)]
            exact ih hx hl
    unfold callsOn
    rw [hfilt]
    simp

example : merge [⟨3, 1⟩, ⟨3, 2⟩, ⟨5, 0⟩, ⟨7, 4⟩, ⟨7, 1⟩, ⟨7, 1⟩] = [⟨3, 3⟩, ⟨5, 0⟩, ⟨7, 6⟩] := by decide +kernel

/-! ### C73 -/

section
variable {N : Type} [DecidableEq N]

/-- C73 for identifiers of one declared function: the exported edges of a function are the identifiers of its callees, each once, and
only declared functions have any. Missing: identifiers shared by declared functions, see `C73_violated`. -/
theorem C73_edges_partial (g : Graph N) (callees : N → List (Option N)) (ident : Bytes) :
    ((exportEdges g callees).get ident = none ↔ ∀ x ∈ g.nodes, (g.fn x).supported = true → (g.fn x).ident ≠ ident) ∧
    ∀ x ∈ g.nodes, (g.fn x).supported = true → (g.fn x).ident = ident →
      (∀ y ∈ g.nodes, (g.fn y).supported = true → (g.fn y).ident = ident → y = x) →
      ∃ l, (exportEdges g callees).get ident = some l ∧ l.Nodup ∧ ∀ i, i ∈ l ↔ i ≠ [] ∧ ∃ y, some y ∈ callees x ∧ (g.fn y).ident = i := by
  constructor
  · rw [exportEdges_get]
    simp only [Option.map_eq_none_iff, List.getLast?_eq_none_iff, List.filter_eq_nil_iff, Bool.and_eq_true, beq_iff_eq, not_and]
  · intro x hx hs hi hu
    refine ⟨calleeIdents g callees x, ?_, ?_, ?_⟩
    · rw [exportEdges_get]
      cases hl : (g.nodes.filter fun x => (g.fn x).supported && (g.fn x).ident == ident).getLast? with
      | none =>
          rw [List.getLast?_eq_none_iff, List.filter_eq_nil_iff] at hl
          exact absurd (by simp [hs, hi]) (hl x hx)
      | some y =>
          have := List.mem_of_getLast? hl
          simp only [List.mem_filter, Bool.and_eq_true, beq_iff_eq] at this
          rw [hu y this.1 this.2.1 this.2.2]
          rfl
    · exact (List.nodup_dedup _).filter _
    · intro i
      unfold calleeIdents
      simp only [List.mem_filter, List.mem_dedup, List.mem_map, List.mem_filterMap, id_eq, decide_eq_true_eq, exists_eq_right]
      exact and_comm

end

example : exportEdges g1 (fun x => match x with | 1 => [some 0] | 2 => [some 1, some 3, some 1] | 3 => [some 1, none] | 4 => [some 3] | _ => []) =
    [([4], [[3]]), ([3], [[1]]), ([2], [[3], [1]]), ([1], [[0]]), ([0], [])] := by decide +kernel

/-- C73 fails for declared functions that share an identifier: of two `init` functions of a package only one keeps its edges, here the
other one's call of function 2 is lost. -/
theorem C73_violated :
    let init : Fn := { projFn [0] with mainOrInit := true }
    let g : Graph Nat := ⟨[0, 1, 2], fun x => if x < 2 then init else projFn [2], fun _ => []⟩
    let callees : Nat → List (Option Nat) := fun x => if x = 0 then [some 2] else []
    some 2 ∈ callees 0 ∧ (g.fn 0).supported = true ∧ (exportEdges g callees).get (g.fn 0).ident = some [] := by decide +kernel

/-! ### C74 -/

section
variable {P : Type} [DecidableEq P]

/-- C74: creating packages ends, import cycles or not. -/
theorem C74_terminates (pkg : P → Pkg P) (project univ : List P) (hu : ∀ p ∈ univ, ∀ q ∈ (pkg p).imports, q ∈ univ) (hp : ∀ p ∈ project, p ∈ univ) :
    ∃ n s, createAll pkg project n project ⟨[], []⟩ = some s := by
  refine ⟨project.length + todo pkg univ [], ?_⟩
  have := createAll_terminates pkg project univ hu (project.length + todo pkg univ []) project ⟨[], []⟩ hp (le_refl _)
  exact Option.isSome_iff_exists.mp this

/-- C74: each typed package reachable through imports is created once, and the module packages are those outside the project. -/
theorem C74_created (pkg : P → Pkg P) (project : List P) (n : Nat) (s : Created P) (h : createAll pkg project n project ⟨[], []⟩ = some s) :
    s.created.Nodup ∧ (∀ p, p ∈ s.created ↔ (pkg p).typed = true ∧ Imported pkg project p) ∧
    s.modules.Nodup ∧ ∀ p, p ∈ s.modules ↔ (pkg p).typed = true ∧ Imported pkg project p ∧ p ∉ project := by
  obtain ⟨h1, h2, h3⟩ := createAll_spec pkg project project n project ⟨[], []⟩ s (by simp) rfl (by simp) (fun p hp => .root hp) (by simp) (fun p hp _ => Or.inr hp) h
  refine ⟨h1, h3, ?_, ?_⟩
  · rw [h2]; exact h1.filter _
  · intro p
    rw [h2, List.mem_filter, h3]
    simp [and_assoc]

end

example : createAll (fun p => (⟨p != 4, if p = 0 then [1, 2, 4] else if p = 1 then [2, 3] else []⟩ : Pkg Nat)) [0, 1] 10 [0, 1] ⟨[], []⟩ =
    some ⟨[3, 2, 1, 0], [3, 2]⟩ := by decide +kernel

/-! ### C75 -/

/-- C75, the part that holds: everything `go test` runs counts as a test, and so does nothing else among functions without receiver
whose name goes on with no small letter. Missing: methods and names such as `Testify`, see `C75_violated`. -/
theorem C75_tests_partial (d : TestDecl) :
    (RunByGoTest d → isGoTest d = true) ∧
    (isGoTest d = true → d.hasRecv = false → (∀ b, d.name[4]? = some b → ¬ (97 ≤ b ∧ b ≤ 122)) → RunByGoTest d) := by
  constructor
  · rintro ⟨h1, _, ⟨rest, h3, _⟩, ⟨base, h4⟩, h5, h6⟩
    unfold isGoTest hasSuffix
    rw [h1, h3, h4, h5, h6]
    simp
  · intro h hr hn
    unfold isGoTest hasSuffix at h
    simp only [Bool.and_eq_true, List.isPrefixOf_iff_prefix, List.isSuffixOf_iff_suffix, beq_iff_eq] at h
    obtain ⟨⟨⟨⟨h1, ⟨rest, h2⟩⟩, ⟨base, h3⟩⟩, h4⟩, h5⟩ := h
    refine ⟨h1, hr, ⟨rest, h2.symm, ?_⟩, ⟨base, h3.symm⟩, h4, h5⟩
    intro b hb
    apply hn b
    rw [← h2]
    cases rest with
    | nil => simp at hb
    | cons c r => simpa using hb

example : isGoTest ⟨[84, 101, 115, 116, 65], true, false, [97, 95, 116, 101, 115, 116, 46, 103, 111], 1, true⟩ = true := by decide

/-- C75 fails for a method `TestA` with a `*testing.T` and for a function `Testify`: both count as tests, `go test` runs neither. -/
theorem C75_violated :
    let m : TestDecl := ⟨[84, 101, 115, 116, 65], true, true, [97, 95, 116, 101, 115, 116, 46, 103, 111], 1, true⟩
    let f : TestDecl := ⟨[84, 101, 115, 116, 105, 102, 121], true, false, [97, 95, 116, 101, 115, 116, 46, 103, 111], 1, true⟩
    (isGoTest m = true ∧ ¬ RunByGoTest m) ∧ isGoTest f = true ∧ ¬ RunByGoTest f := by
  refine ⟨⟨by decide, fun h => by cases h.2.1⟩, by decide, ?_⟩
  rintro ⟨_, _, ⟨rest, h1, h2⟩, _⟩
  have : rest = [105, 102, 121] := by
    have h := congrArg (List.drop 4) h1
    simpa using h.symm
  exact h2 105 (by rw [this]; rfl) (by decide)

end Verif.Static
