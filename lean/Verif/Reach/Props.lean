import Verif.Reach.Lemmas

/-! C134–C135: from changed functions to tests. -/

namespace Verif.Reach

open Verif.Static (Bytes Graph Fn Entry Reportable IsProjectTest endsWay Upward Affected DirectTestOf)

section
variable {N M : Type} [DecidableEq N] [DecidableEq M]

/-! ### C134: which tests are run -/

/-- A test is run, for a caller among others, if calls lead from it to a changed function and on the way there is a project function such that what is called
from there on is outside of test files and no entry point, and what comes before it is no other test and no entry point. Missing: tests without such a function
on the way, see `C134_direct_violated`; ways through other tests and entry points (`C43_violated`, by `Static`); identifiers that are not unique (`C42_violated`). -/
theorem C134_run_partial (g : Graph N) (gt : Graph M) (of : M → Option N) (hr : Repeated g gt of) (changes : List Bytes) (callers : AMap Bytes (Entry N))
    (tests : AMap Bytes (Entry M)) (h : Selected g gt changes callers tests) (hu : ∀ ch ∈ changes, Unique g ch)
    (t x s : M) (above below : List M) (x' : N) (hx : of x = some x') (hw : Way gt (t :: above ++ x :: below ++ [s]))
    (hin : x ∈ gt.nodes) (ht : IsProjectTest (gt.fn t)) (hsup : (gt.fn t).supported = true) (hs : (gt.fn s).ident ∈ changes)
    (hcopies : ∀ z ∈ below ++ [s], (of z).isSome ∧ (gt.fn z).mainOrInit = false)
    (hrep : Reportable (g.fn x')) (hne : (g.fn x').ident ∉ changes)
    (habove : ∀ z ∈ above ++ [x], endsWay (gt.fn z) = false) :
    ∃ e, tests.get (gt.fn t).ident = some e ∧ (gt.fn x).ident ∈ e.targets := by
  obtain ⟨⟨steps, out, updates, h1, h2, h3⟩, order, hperm, steps', out', updates', h4, h5, h6⟩ := h
  obtain ⟨s', hs'⟩ := Option.isSome_iff_exists.mp (hcopies s (by simp)).1
  have hwt : Way gt (t :: (above ++ [x])) := by
    have : Way gt ((t :: (above ++ [x])) ++ (below ++ [s])) := by simpa [Way] using hw
    exact (List.isChain_append.mp this).1
  have hwx : Way gt (x :: (below ++ [s])) := by
    have : Way gt ((t :: above) ++ (x :: (below ++ [s]))) := by simpa [Way] using hw
    exact (List.isChain_append.mp this).2.1
  have hup : Upward gt.callers (fun y => endsWay (gt.fn y)) x t := upward_of_way gt _ hwt (by simp) habove
  -- the caller is found
  have haff : Affected g (gt.fn s).ident x' := by
    obtain ⟨hn, hi, _⟩ := hr.node hs'
    refine ⟨s', hn, hi.symm, ?_, ?_, hrep⟩
    · rintro rfl
      exact hne (by rw [← hi]; exact hs)
    · have hwc := way_copied hr hwx (by
        intro z hz
        rcases List.mem_cons.mp hz with rfl | hz
        · rw [hx]; rfl
        · exact (hcopies z hz).1)
      rw [List.filterMap_cons_some hx] at hwc
      refine upward_of_way g _ hwc ?_ ?_
      · rw [List.filterMap_append]
        simp [hs']
      · intro z hz
        obtain ⟨w, hw, hwz⟩ := List.mem_filterMap.mp hz
        exact (hr.node hwz).2.2 ▸ (hcopies w hw).2
  have hcaller : (g.fn x').ident ∈ order := by
    rw [hperm.mem_iff, AMap.mem_keys, h3]
    cases hg : (Static.recordAll updates).get (g.fn x').ident with
    | some e => simp
    | none =>
        have := (Static.C42_callers_partial g changes steps out updates (fun ch hch => Or.inl (hu ch hch)) h1 h2 (g.fn x').ident).1.mp hg _ hs x' haff
        exact absurd rfl this
  have hix := (hr.node hx).2.1
  have hdir : DirectTestOf gt (g.fn x').ident t := ⟨x, hin, hix, hup, ht, hsup⟩
  obtain ⟨q1, q2, _⟩ := Static.C43_tests_partial gt order steps' out' updates' h4 h5 (gt.fn t).ident
  cases hg : (Static.recordAll updates').get (gt.fn t).ident with
  | none => exact absurd rfl (q1.mp hg _ hcaller t hdir)
  | some e =>
      refine ⟨e, by rw [h6]; exact hg, ?_⟩
      rw [hix]
      exact ((q2 e hg).2.2 _).mpr ⟨hcaller, t, hdir, rfl⟩

/-- No other tests are run: whatever is run is a test of the project, and for each caller it is run for there are calls from a test with its identifier to that
caller in the graph with tests, and from that caller to a changed function in the graph without. -/
theorem C134_only (g : Graph N) (gt : Graph M) (changes : List Bytes) (callers : AMap Bytes (Entry N)) (tests : AMap Bytes (Entry M))
    (h : Selected g gt changes callers tests) (ident : Bytes) (e : Entry M) (he : tests.get ident = some e) :
    (gt.fn e.node).ident = ident ∧ IsProjectTest (gt.fn e.node) ∧ e.targets ≠ [] ∧
    ∀ c ∈ e.targets, ∃ t x : M, ∃ x' s : N, (gt.fn t).ident = ident ∧ (gt.fn x).ident = c ∧ (g.fn x').ident = c ∧ (g.fn s).ident ∈ changes ∧ Reportable (g.fn x') ∧
      (t = x ∨ ∃ l, Way gt (t :: l) ∧ l.getLast? = some x) ∧ ∃ l, Way g (x' :: l) ∧ l.getLast? = some s := by
  obtain ⟨⟨steps, out, updates, h1, h2, h3⟩, order, hperm, steps', out', updates', h4, h5, h6⟩ := h
  rw [h6] at he
  obtain ⟨-, q2, -⟩ := Static.C43_tests_partial gt order steps' out' updates' h4 h5 ident
  obtain ⟨-, ⟨hi, c0, hc0, hto⟩, htar⟩ := q2 e he
  have hadd : ∀ c ∈ order, ∃ x' s : N, (g.fn x').ident = c ∧ (g.fn s).ident ∈ changes ∧ Reportable (g.fn x') ∧ ∃ l, Way g (x' :: l) ∧ l.getLast? = some s := by
    intro c hc
    rw [hperm.mem_iff, AMap.mem_keys, h3] at hc
    obtain ⟨e', he'⟩ := Option.isSome_iff_exists.mp hc
    obtain ⟨-, -, ch0, hev⟩ := (Static.recordAll_holds updates).targets c e' he'
    rw [h2.mem_iff, List.mem_flatMap] at hev
    obtain ⟨ch, hch, hev⟩ := hev
    obtain ⟨start, k1, k2, k3, k4, k5, k6⟩ := (Static.callerWorker_done (h1 ch hch) _).mp hev
    obtain ⟨k7, k8⟩ := Static.nodeOf_mem k1
    rcases way_of_upward g _ k2 with e1 | ⟨l, l1, l2, -⟩
    · exact absurd e1 k3
    · exact ⟨e'.node, start, k5.symm, by rw [k8]; exact hch, k4, l, l1, l2⟩
  refine ⟨hi, hto.choose_spec.2.2.2.1, ?_, ?_⟩
  · obtain ⟨-, ht, c, hc⟩ := (Static.recordAll_holds updates').targets ident e he
    intro hnil
    have := (ht c).mpr ⟨_, hc⟩
    rw [hnil] at this; cases this
  · intro c hc
    obtain ⟨hco, t, ⟨x, _, hx1, hx2, _, _⟩, hti⟩ := (htar c).mp hc
    obtain ⟨x', s, k1, k2, k3, k4⟩ := hadd c hco
    refine ⟨t, x, x', s, hti, hx1, k1, k2, k3, ?_, k4⟩
    rcases way_of_upward gt _ hx2 with e1 | ⟨l, l1, l2, -⟩
    · exact Or.inl e1
    · exact Or.inr ⟨l, l1, l2⟩

/-! ### C135: which changed functions count as reachable -/

/-- The changed functions that get entry points and are counted as reachable are exactly those called, directly or not, by a project function worth
reporting along calls that do not pass through an entry point. -/
theorem C135_reachable_partial (g : Graph N) (changes : List Bytes) (callers : AMap Bytes (Entry N)) (h : CallersFound g changes callers)
    (hu : ∀ ch ∈ changes, Unique g ch) (ch : Bytes) :
    ch ∈ reachable callers ↔ ch ∈ changes ∧ ∃ s ∈ g.nodes, (g.fn s).ident = ch ∧ ∃ x l, x ≠ s ∧ Reportable (g.fn x) ∧ Way g (x :: l) ∧ l.getLast? = some s ∧
      ∀ z ∈ l, (g.fn z).mainOrInit = false := by
  obtain ⟨steps, out, updates, h1, h2, h3⟩ := h
  have key := fun ident => Static.C42_callers_partial g changes steps out updates (fun ch hch => Or.inl (hu ch hch)) h1 h2 ident
  have hnd : callers.keys.Nodup := by rw [h3]; exact recordAll_nodup updates
  simp only [reachable, List.mem_dedup, List.mem_flatMap]
  constructor
  · rintro ⟨⟨i, e⟩, hm, ht⟩
    have hg := AMap.get_eq_some_of_mem hnd hm
    rw [h3] at hg
    obtain ⟨hc, x, ⟨s, hs, hi, hne, hup, hrep⟩, _⟩ := (((key i).2 e hg).2.2 ch).mp ht
    refine ⟨hc, s, hs, hi, x, ?_⟩
    rcases way_of_upward g _ hup with e1 | ⟨l, l1, l2, l3⟩
    · exact absurd e1 hne
    · exact ⟨l, hne, hrep, l1, l2, l3⟩
  · rintro ⟨hc, s, hs, hi, x, l, hne, hrep, l1, l2, l3⟩
    have haff : Affected g ch x := ⟨s, hs, hi, hne, upward_of_way g _ l1 l2 l3, hrep⟩
    cases hg : (Static.recordAll updates).get (g.fn x).ident with
    | none => exact absurd rfl ((key _).1.mp hg ch hc x haff)
    | some e =>
        refine ⟨((g.fn x).ident, e), ?_, (((key _).2 e hg).2.2 ch).mpr ⟨hc, x, haff, rfl⟩⟩
        rw [h3]
        exact AMap.mem_of_get hg

end

/-! ### Examples and what is not so -/

/-- A function of a module, of the project, and a test of the project. -/
def modF (i : Bytes) : Fn := ⟨i, true, true, false, false, some true, false, false⟩
def projF (i : Bytes) : Fn := ⟨i, true, true, true, false, some true, false, false⟩
def testF (i : Bytes) : Fn := ⟨i, true, true, true, false, some true, false, true⟩

/-- Without tests: changed function 0, called by module function 1, called by project function 2. -/
def small : Graph (Fin 3) := ⟨[0, 1, 2], fun x => if x < 2 then modF [x.val.toUInt8] else projF [2],
  fun x => if x = 0 then [some 1] else if x = 1 then [some 2] else []⟩

/-- With tests: the same, a copy 3 of the project function for its tests, a helper 4 in a test file that calls it, a test 5 that calls the helper, and a test 6
that calls the module function itself. -/
def large : Graph (Fin 7) := ⟨[0, 1, 2, 3, 4, 5, 6],
  fun x => if x < 2 then modF [x.val.toUInt8] else if x < 4 then projF [2] else if x = 4 then projF [4] else testF [x.val.toUInt8],
  fun x => if x = 0 then [some 1] else if x = 1 then [some 2, some 3, some 6] else if x = 3 then [some 4] else if x = 4 then [some 5] else []⟩

def copyOf : Fin 7 → Option (Fin 3)
  | 0 => some 0
  | 1 => some 1
  | 2 => some 2
  | 3 => some 2
  | _ => none

theorem repeated_example : Repeated small large copyOf where
  node := by decide +kernel
  calls := by unfold CallsNext; decide +kernel

theorem selected_example : Selected small large [[0]] [([2], ⟨2, [[0]]⟩)] [([5], ⟨5, [[2]]⟩)] where
  first := ⟨3, fun _ => [([2], 2, [0])], [([2], 2, [0])], by decide +kernel, by simp, rfl⟩
  second := ⟨[[2]], by simp [AMap.keys], 7, fun w => if w.1 = 3 then [([5], 5, [2])] else [], [([5], 5, [2])], by decide +kernel, by decide +kernel, rfl⟩

/-- Test 5 is run for the project function, along test, helper, copy of the project function, module function, changed function. -/
example : ∃ e, AMap.get (K := Bytes) [([5], (⟨5, [[2]]⟩ : Entry (Fin 7)))] (large.fn 5).ident = some e ∧ (large.fn 3).ident ∈ e.targets :=
  C134_run_partial small large copyOf repeated_example [[0]] _ _ selected_example (by unfold Unique; decide) 5 3 0 [4] [1] 2 rfl
    (by simp [Way, CallsNext, large]) (by decide) (by unfold IsProjectTest; decide) (by decide) (by decide) (by decide)
    (by unfold Reportable; decide) (by decide) (by decide)

/-- The changed function counts as reachable. -/
example : ([0] : Bytes) ∈ reachable [([2], (⟨2, [[0]]⟩ : Entry (Fin 3)))] ∧
    ∃ x l, x ≠ 0 ∧ Reportable (small.fn x) ∧ Way small (x :: l) ∧ l.getLast? = some 0 ∧ ∀ z ∈ l, (small.fn z).mainOrInit = false :=
  ⟨by decide, 2, [1, 0], by decide, by unfold Reportable; decide, by simp [Way, CallsNext, small], rfl, by decide⟩

/-- A test that reaches a changed function without a project function outside of test files in between is never run: here test 6 calls the module directly. -/
theorem C134_direct_violated : ∀ callers tests, Selected small large [[0]] callers tests →
    Way large [6, 1, 0] ∧ IsProjectTest (large.fn 6) ∧ AMap.get (K := Bytes) tests (large.fn 6).ident = none := by
  intro callers tests h
  refine ⟨by simp [Way, CallsNext, large], by unfold IsProjectTest; decide, ?_⟩
  cases hg : AMap.get (K := Bytes) tests (large.fn 6).ident with
  | none => rfl
  | some e =>
      obtain ⟨-, -, hne, hall⟩ := C134_only small large [[0]] callers tests h _ e hg
      obtain ⟨c, hc⟩ := List.exists_mem_of_ne_nil _ hne
      obtain ⟨t, x, x', s, k1, k2, k3, -, k5, k6, -⟩ := hall c hc
      have hx' : (small.fn x').inProject = true := k5.2.2.1
      have e2 : c = [2] := by
        rw [← k3]
        exact (by decide : ∀ x, (small.fn x).inProject = true → (small.fn x).ident = [2]) x' hx'
      have ht : t = 6 := (by decide : ∀ t, (large.fn t).ident = (large.fn 6).ident → t = 6) t k1
      have hnot : ∀ x, (large.fn x).ident = c → x = 2 ∨ x = 3 := by rw [e2]; decide
      subst ht
      rcases k6 with rfl | ⟨l, l1, l2⟩
      · exact absurd (hnot 6 k2) (by decide)
      · have hcl : ∀ (l : List (Fin 7)) (a : Fin 7), a = 6 ∨ a = 1 ∨ a = 0 → Way large (a :: l) → ∀ b ∈ l, b = 6 ∨ b = 1 ∨ b = 0 := by
          intro l
          induction l with
          | nil => intro a _ _ b hb; cases hb
          | cons d l ih =>
              intro a ha hw b hb
              rw [Way, List.isChain_cons_cons] at hw
              have hd : d = 6 ∨ d = 1 ∨ d = 0 :=
                (by unfold CallsNext; decide : ∀ a d, (a = 6 ∨ a = 1 ∨ a = 0) → CallsNext large a d → d = 6 ∨ d = 1 ∨ d = 0) a d ha hw.1
              rcases List.mem_cons.mp hb with rfl | hb
              · exact hd
              · exact ih d hd hw.2 b hb
        have hxm : x ∈ l := List.mem_of_getLast? l2
        have h1 := hcl l 6 (Or.inl rfl) l1 x hxm
        rcases hnot x k2 with rfl | rfl <;> exact absurd h1 (by decide)

end Verif.Reach
