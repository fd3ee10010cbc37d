import Verif.Pipeline.Lemmas2

/-! C131–C133: what is reported about a test, from the messages of its runs. -/

namespace Verif.Pipeline

open Verif.Wire (Field Val)
open Verif.Result (Bytes FMap StackFrame CallFrame TestResult flatten leafAt WF dotted)
open Verif.Fields (Lib At Last record)
open Verif.Monitor (callerKey stableResult)
open Verif.Compare (TestReport compareTest framesOf Agree Changed Mapped panicSet)

/-! ### Examples used below -/

/-- A call of `f` from nowhere in the project, with the field `a`. -/
def callA (v : Bytes) (ms : Nat) : Call := ⟨false, [102], [], ms * 1000000, [.leaf [97] [115] (.str v)]⟩

/-- Two calls in order, the second with value `v`. -/
def calm (v : Bytes) : Run := ⟨[callA [49] 1, callA v 2], [([102], [109])], [], [7, 7, 8], false⟩

theorem record_callA (c : Lib) (v : Bytes) (hv : v.length ≤ 128) (ms : Nat) : record c (callA v ms).fields = .cons [97] v .goNil .empty := by
  have : Fields.stored c [115] v = v := by
    unfold Fields.stored
    rw [if_neg]
    simp [Nat.not_lt.mpr hv]
  simp [callA, record, Fields.collectAll, Fields.collect, Fields.put, Fields.sprint, this, Fields.shouldCapture, Fields.reflectRtype, Fields.reflectFlag,
    Fields.reflectValue]

theorem at_callA (c : Lib) (v : Bytes) (hv : v.length ≤ 128) (ms : Nat) (p : List Bytes) (w : Bytes) : At c Last [] (callA v ms).fields p w ↔ p = [[97]] ∧ w = v := by
  rw [← Fields.C102_last, record_callA c v hv ms]
  match p with
  | [] => simp [leafAt]
  | [k] =>
      by_cases hk : k = [97]
      · subst hk
        simp only [leafAt, FMap.find, if_true, Option.bind_some, FMap.isEmpty, Option.some.injEq, true_and]
        exact eq_comm
      · have : ¬ ([97] : Bytes) = k := fun e => hk e.symm
        simp [leafAt, FMap.find, this, hk]
  | k :: k' :: ks =>
      by_cases hk : ([97] : Bytes) = k
      · subst hk
        cases ks <;> simp [leafAt, FMap.find]
      · simp [leafAt, FMap.find, hk]

/-- All calls of a run are of this kind. -/
def Small (r : Run) : Prop := ∀ m ∈ r.calls, ∃ v ms, v.length ≤ 128 ∧ m = callA v ms

theorem named_small (c : Lib) {r : Run} (h : Small r) : Named c r := by
  intro m hm p w hp k hk
  obtain ⟨v, ms, hv, rfl⟩ := h m hm
  obtain ⟨rfl, _⟩ := (at_callA c v hv ms p w).mp hp
  simp only [List.mem_singleton] at hk
  subst hk
  exact ⟨by simp, by decide⟩

theorem keyed_small (H : Bytes → Bytes) {rs : List Run} (h : ∀ r ∈ rs, Small r) : Keyed H rs := by
  intro r hr m hm r' hr' m' hm' _
  obtain ⟨v, ms, _, rfl⟩ := h r hr m hm
  obtain ⟨v', ms', _, rfl⟩ := h r' hr' m' hm'
  rfl

theorem small_calm {v : Bytes} (hv : v.length ≤ 128) : Small (calm v) := by
  intro m hm
  simp only [calm, List.mem_cons, List.not_mem_nil, or_false] at hm
  rcases hm with rfl | rfl
  · exact ⟨_, _, by decide, rfl⟩
  · exact ⟨_, _, hv, rfl⟩

theorem inOrder_two (v w : Bytes) (i j : Nat) (hij : i ≤ j) (hj : j < 1000) (ps : List (Bytes × Bytes)) (ns : List Nat) :
    InOrder ⟨[callA v i, callA w j], ps, [], ns, false⟩ := by
  have h1 : (callA v i).ns = i * 1000000 := rfl
  have h2 : (callA w j).ns = j * 1000000 := rfl
  constructor
  · intro m hm
    simp only [List.mem_cons, List.not_mem_nil, or_false] at hm
    rcases hm with rfl | rfl
    · rw [h1]; omega
    · rw [h2]; omega
  · intro ident
    refine List.Pairwise.filter _ ?_
    refine List.pairwise_pair.mpr ?_
    rw [h1, h2]; omega

theorem inOrder_calm (v : Bytes) : InOrder (calm v) := inOrder_two _ _ _ _ (by decide) (by decide) _ _

/-- The same with other times, and without module entry points. -/
def late (v : Bytes) : Run := ⟨[callA [49] 5, callA v 9], [([102], [109])], [], [], false⟩

theorem shown_calm (c : Lib) (v : Bytes) (hv : v.length ≤ 128) : Shown c (calm v) [102] [] 1 [[97]] v :=
  ⟨callA v 2, rfl, (at_callA c v hv 2 [[97]] v).mpr ⟨rfl, rfl⟩⟩

/-- Two calls that arrive in the wrong order. -/
def swapped : Run := ⟨[callA [49] 2, callA [50] 1], [], [], [], false⟩

/-! ### C131: no differences -/

/-- A test is reported without differences exactly if the run after the update (both runs, if two are made) shows every value on which the two runs before
agree, in the same call (function, path, number), and has the panics that both runs before had. Missing: calls of a function that arrive out of the order of
their times, see `C131_order_violated`; field names with dots (C20); paths with the same key (C26). -/
theorem C131_exact_partial (c : Lib) (H : Bytes → Bytes) (dv : Bytes → Bytes → Bytes) (mult : Nat) (force : Bool) (name : Bytes × Bytes) (r1 r2 r3 r4 : Run)
    (hk : Keyed H [r1, r2, r3, r4]) (o1 : InOrder r1) (o2 : InOrder r2) (o : force = true → InOrder r3 ∧ InOrder r4) (n1 : Named c r1) (n3 : Named c r3) :
    (analysed c H dv mult force name r1 r2 r3 r4).diff = 0 ↔
      (∀ ident path n p v, Shown c r1 ident path n p v → Shown c r2 ident path n p v → After c force r3 r4 ident path n p v) ∧
      (r1.projectPanics : Multiset (Bytes × Bytes)) ∩ r2.projectPanics = afterPanics force r3.projectPanics r4.projectPanics ∧
      (r1.modulePanics : Multiset (Bytes × Bytes)) ∩ r2.modulePanics = afterPanics force r3.modulePanics r4.modulePanics := by
  rw [analysed, monitored_base, zero_of dv mult (baseOK c name hk (by simp) (by simp) o1 o2) (postOK c name (by simp) (by simp) o _) n1 n3
    (mapped_monitored c H none false name r1 r2) (mapped_monitored c H _ force name r3 r4), (panics_base c H name r1 r2).1, (panics_base c H name r1 r2).2, (panics_post c H force name _ r3 r4).1,
    (panics_post c H force name _ r3 r4).2]

/-- The same with the results stored and loaded between the steps: loading succeeds and the report has no differences exactly as above, provided what is stored
has no collisions (C18). -/
theorem C131_stored_partial (c : Lib) (H : Bytes → Bytes) (sk : List StackFrame → Bytes) (dv : Bytes → Bytes → Bytes) (mult : Nat) (force : Bool)
    (name : Bytes × Bytes) (r1 r2 r3 r4 : Run) (hk : Keyed H [r1, r2, r3, r4]) (o1 : InOrder r1) (o2 : InOrder r2) (o : force = true → InOrder r3 ∧ InOrder r4)
    (n1 : Named c r1) (n3 : Named c r3) (s1 : Storable H sk (monitored c H none false name r1 r2))
    (s2 : ∀ fuel base, saved H sk fuel (monitored c H none false name r1 r2) = some base →
      Storable H sk (monitored c H (some base.callers) force name r3 r4)) :
    ∃ f0 rep, (∀ fuel, f0 ≤ fuel → analysedStored c H sk dv mult force name fuel r1 r2 r3 r4 = some rep) ∧ (rep.diff = 0 ↔
      (∀ ident path n p v, Shown c r1 ident path n p v → Shown c r2 ident path n p v → After c force r3 r4 ident path n p v) ∧
      (r1.projectPanics : Multiset (Bytes × Bytes)) ∩ r2.projectPanics = afterPanics force r3.projectPanics r4.projectPanics ∧
      (r1.modulePanics : Multiset (Bytes × Bytes)) ∩ r2.modulePanics = afterPanics force r3.modulePanics r4.modulePanics) := by
  obtain ⟨B, P, f0, h, hB, hP, hm, hp, eB, eP⟩ := stored_ok (dv := dv) (mult := mult) hk o1 o2 o s1 s2
  refine ⟨f0, _, h, ?_⟩
  rw [zero_of dv mult hB hP n1 n3 hm hp, eB.project, eB.modul, eP.project, eP.modul, (panics_base c H name r1 r2).1, (panics_base c H name r1 r2).2,
    (panics_post c H force name B r3 r4).1, (panics_post c H force name B r3 r4).2]

/-- A value that changes in the second call, and one that only the first run before the update shows. -/
example (c : Lib) (H : Bytes → Bytes) (dv : Bytes → Bytes → Bytes) (mult : Nat) (name : Bytes × Bytes) :
    (analysed c H dv mult false name (calm [50]) (calm [50]) (calm [51]) (calm [50])).diff ≠ 0 ∧
    (analysed c H dv mult false name (calm [50]) (calm [52]) (calm [51]) (calm [50])).diff = 0 := by
  have hs : ∀ v : UInt8, Small (calm [v]) := fun v => small_calm (by simp)
  constructor
  · intro h
    rw [C131_exact_partial c H dv mult false name _ _ _ _ (keyed_small H (by simp [hs])) (inOrder_calm _) (inOrder_calm _) (by simp) (named_small c (hs _))
      (named_small c (hs _))] at h
    obtain ⟨m, hm, ha⟩ := (h.1 [102] [] 1 [[97]] [50] (shown_calm c _ (by simp)) (shown_calm c _ (by simp))).1
    cases hm
    have := ((at_callA c [51] (by simp) 2 _ _).mp ha).2
    exact absurd this (by decide)
  · rfl

/-- All trees of a result are among these: a field `a`, or nothing. -/
def SmallTree (m : FMap) : Prop := m = .cons [97] [49] .goNil .empty ∨ m = .cons [97] [50] .goNil .empty ∨ m = .cons [97] [51] .goNil .empty ∨ m = .empty

def smallTrees : List FMap := [.cons [97] [49] .goNil .empty, .cons [97] [50] .goNil .empty, .cons [97] [51] .goNil .empty, .empty, .goNil]

theorem storable_small {r : TestResult} (h : ∀ f ∈ r.frames, SmallTree f.fields ∧ f.stack = []) : Storable Result.toyH Result.toyKey r := by
  have hm : ∀ a ∈ r.maps, a ∈ smallTrees := by
    intro a ha
    simp only [TestResult.maps, List.mem_flatMap] at ha
    obtain ⟨f, hf, ha⟩ := ha
    rcases (h f hf).1 with e | e | e | e <;> rw [e] at ha <;> simp [Result.subMaps] at ha <;> simp [smallTrees] <;> tauto
  have hn : ∀ a ∈ r.nodes, a ∈ [(([49] : Bytes), FMap.goNil), ([50], .goNil), ([51], .goNil)] := by
    intro a ha
    simp only [TestResult.nodes, List.mem_flatMap] at ha
    obtain ⟨f, hf, ha⟩ := ha
    rcases (h f hf).1 with e | e | e | e <;> rw [e] at ha <;> simp [Result.subNodes] at ha <;> simp [ha]
  have key : ∀ a ∈ smallTrees, ∀ b ∈ smallTrees, Result.toyH (Result.stream a) = Result.toyH (Result.stream b) → Result.stream a = Result.stream b := by
    decide +kernel
  have key2 : ∀ a ∈ [(([49] : Bytes), FMap.goNil), ([50], .goNil), ([51], .goNil)], ∀ b ∈ [(([49] : Bytes), FMap.goNil), ([50], .goNil), ([51], .goNil)],
      Result.bytesKey Result.toyH (Result.nodePre Result.toyH a) = Result.bytesKey Result.toyH (Result.nodePre Result.toyH b) →
      Result.nodePre Result.toyH a = Result.nodePre Result.toyH b := by decide +kernel
  have key3 : ∀ a ∈ smallTrees, ∀ b ∈ smallTrees, Result.stream a = Result.stream b → a = b ∨ (a.isEmpty = true ∧ b.isEmpty = true) := by decide +kernel
  refine ⟨?_, ⟨Result.toyH_len, fun a ha b hb => key a (hm a ha) b (hm b hb), fun a ha b hb => key2 a (hn a ha) b (hn b hb)⟩, ?_, ?_⟩
  · intro f hf
    rcases (h f hf).1 with e | e | e | e <;> rw [e] <;> simp [Result.Fits]
  · intro a ha b hb _
    simp only [TestResult.stacks, List.mem_map] at ha hb
    obtain ⟨f, hf, rfl⟩ := ha
    obtain ⟨g, hg, rfl⟩ := hb
    rw [(h f hf).2, (h g hg).2]
  · intro a ha b hb e
    rcases key3 a (hm a ha) b (hm b hb) e with rfl | ⟨h1, h2⟩
    · exact fun _ => rfl
    · exact Result.same_empties h1 h2

theorem small_run (c : Lib) (st : Option Frames) (name : Bytes × Bytes) {r : Run} (hr : ∀ m ∈ r.calls, ∃ w ∈ [([49] : Bytes), [50], [51]], ∃ ms, m = callA w ms) :
    ∀ f ∈ (testResult c Result.toyH st name r).frames, SmallTree f.fields ∧ f.stack = [] := by
  refine testResult_all name fun recorded m hm => ?_
  obtain ⟨w, hw, ms, rfl⟩ := hr m hm
  have hlen : w.length ≤ 128 := by
    simp only [List.mem_cons, List.not_mem_nil, or_false] at hw
    rcases hw with rfl | rfl | rfl <;> decide
  refine ⟨?_, by unfold newFrame; split <;> rfl⟩
  have hrec := record_callA c w hlen ms
  rcases newFrame_fields c Result.toyH st recorded (callA w ms) with h | ⟨ns, h⟩ <;> rw [h, hrec]
  · simp only [List.mem_cons, List.not_mem_nil, or_false] at hw
    rcases hw with rfl | rfl | rfl <;> simp [SmallTree]
  · simp only [Monitor.keepNames]
    split
    · simp only [List.mem_cons, List.not_mem_nil, or_false] at hw
      rcases hw with rfl | rfl | rfl <;> simp [SmallTree]
    · simp [SmallTree]

theorem small_test (c : Lib) (st : Option Frames) (name : Bytes × Bytes) {v : Bytes} (hv : v ∈ [([49] : Bytes), [50], [51]]) :
    ∀ f ∈ (testResult c Result.toyH st name (calm v)).frames, SmallTree f.fields ∧ f.stack = [] := by
  refine small_run c st name fun m hm => ?_
  simp only [calm, List.mem_cons, List.not_mem_nil, or_false] at hm
  rcases hm with rfl | rfl
  · exact ⟨[49], by simp, 1, rfl⟩
  · exact ⟨v, hv, 2, rfl⟩

/-- The two reports of the example above, with storage. -/
example (c : Lib) (dv : Bytes → Bytes → Bytes) (mult : Nat) (name : Bytes × Bytes) :
    ∃ f0 rep, (∀ fuel, f0 ≤ fuel → analysedStored c Result.toyH Result.toyKey dv mult false name fuel (calm [50]) (calm [50]) (calm [51]) (calm [50]) = some rep) ∧
      rep.diff ≠ 0 := by
  have hs : ∀ v : UInt8, Small (calm [v]) := fun v => small_calm (by simp)
  have hbase : monitored c Result.toyH none false name (calm [50]) (calm [50]) =
      ⟨name.1, name.2, [([102], [⟨.cons [97] [49] .goNil .empty, [], 1⟩, ⟨.cons [97] [50] .goNil .empty, [], 2⟩])], [([102], [[109]])], [], 2, false, []⟩ := rfl
  obtain ⟨f0, rep, h, hiff⟩ := C131_stored_partial c Result.toyH Result.toyKey dv mult false name (calm [50]) (calm [50]) (calm [51]) (calm [50])
    (keyed_small _ (by simp [hs])) (inOrder_calm _) (inOrder_calm _) (by simp) (named_small c (hs _)) (named_small c (hs _))
    (by
      rw [hbase]
      refine storable_small ?_
      intro f hf
      simp [TestResult.frames] at hf
      rcases hf with rfl | rfl <;> simp [SmallTree])
    (fun fuel base _ => storable_small (small_test c _ name (by simp)))
  refine ⟨f0, rep, h, fun hd => ?_⟩
  obtain ⟨m, hm, ha⟩ := ((hiff.mp hd).1 [102] [] 1 [[97]] [50] (shown_calm c _ (by simp)) (shown_calm c _ (by simp))).1
  cases hm
  exact absurd ((at_callA c [51] (by simp) 2 _ _).mp ha).2 (by decide)

/-! ### C132: listed changes -/

/-- A field of a function is listed as changed exactly if in some call both runs before the update show the same value for it and the run after it (both runs, if
two are made) shows another; the text is the difference of two such values. -/
theorem C132_listed_partial (c : Lib) (H : Bytes → Bytes) (dv : Bytes → Bytes → Bytes) (mult : Nat) (force : Bool) (name : Bytes × Bytes) (r1 r2 r3 r4 : Run)
    (hk : Keyed H [r1, r2, r3, r4]) (o1 : InOrder r1) (o2 : InOrder r2) (o : force = true → InOrder r3 ∧ InOrder r4) (n1 : Named c r1) (n3 : Named c r3)
    (ident x : Bytes) :
    ((∃ ch t, (analysed c H dv mult force name r1 r2 r3 r4).fieldChanges.get ident = some ch ∧ ch.get x = some t) ↔
      ∃ path n p v w, dotted p = x ∧ Shown c r1 ident path n p v ∧ Shown c r2 ident path n p v ∧ After c force r3 r4 ident path n p w ∧ v ≠ w) ∧
    ∀ ch t, (analysed c H dv mult force name r1 r2 r3 r4).fieldChanges.get ident = some ch → ch.get x = some t →
      ∃ path n p v w, dotted p = x ∧ Shown c r1 ident path n p v ∧ Shown c r2 ident path n p v ∧ After c force r3 r4 ident path n p w ∧ v ≠ w ∧ t = dv v w := by
  rw [analysed, monitored_base]
  exact listed_of dv mult (baseOK c name hk (by simp) (by simp) o1 o2) (postOK c name (by simp) (by simp) o _) n1 n3
    (mapped_monitored c H none false name r1 r2) ident x

/-- The same with the results stored and loaded between the steps. -/
theorem C132_stored_partial (c : Lib) (H : Bytes → Bytes) (sk : List StackFrame → Bytes) (dv : Bytes → Bytes → Bytes) (mult : Nat) (force : Bool)
    (name : Bytes × Bytes) (r1 r2 r3 r4 : Run) (hk : Keyed H [r1, r2, r3, r4]) (o1 : InOrder r1) (o2 : InOrder r2) (o : force = true → InOrder r3 ∧ InOrder r4)
    (n1 : Named c r1) (n3 : Named c r3) (s1 : Storable H sk (monitored c H none false name r1 r2))
    (s2 : ∀ fuel base, saved H sk fuel (monitored c H none false name r1 r2) = some base →
      Storable H sk (monitored c H (some base.callers) force name r3 r4)) :
    ∃ f0 rep, (∀ fuel, f0 ≤ fuel → analysedStored c H sk dv mult force name fuel r1 r2 r3 r4 = some rep) ∧ ∀ ident x,
      ((∃ ch t, rep.fieldChanges.get ident = some ch ∧ ch.get x = some t) ↔
        ∃ path n p v w, dotted p = x ∧ Shown c r1 ident path n p v ∧ Shown c r2 ident path n p v ∧ After c force r3 r4 ident path n p w ∧ v ≠ w) ∧
      ∀ ch t, rep.fieldChanges.get ident = some ch → ch.get x = some t →
        ∃ path n p v w, dotted p = x ∧ Shown c r1 ident path n p v ∧ Shown c r2 ident path n p v ∧ After c force r3 r4 ident path n p w ∧ v ≠ w ∧ t = dv v w := by
  obtain ⟨B, P, f0, h, hB, hP, hm, -, -, -⟩ := stored_ok (dv := dv) (mult := mult) hk o1 o2 o s1 s2
  exact ⟨f0, _, h, fun ident x => listed_of dv mult hB hP n1 n3 hm ident x⟩

/-- The changed field of the second call is listed with the difference. -/
example (c : Lib) (H : Bytes → Bytes) (dv : Bytes → Bytes → Bytes) (mult : Nat) (name : Bytes × Bytes) :
    ∃ ch, (analysed c H dv mult false name (calm [50]) (calm [50]) (calm [51]) (calm [50])).fieldChanges.get [102] = some ch ∧ ch.get [97] = some (dv [50] [51]) := by
  have hs : ∀ v : UInt8, Small (calm [v]) := fun v => small_calm (by simp)
  obtain ⟨h1, h2⟩ := C132_listed_partial c H dv mult false name (calm [50]) (calm [50]) (calm [51]) (calm [50]) (keyed_small H (by simp [hs])) (inOrder_calm _)
    (inOrder_calm _) (by simp) (named_small c (hs _)) (named_small c (hs _)) [102] [97]
  obtain ⟨ch, t, hc, ht⟩ := h1.mpr ⟨[], 1, [[97]], [50], [51], rfl, shown_calm c _ (by simp), shown_calm c _ (by simp),
    ⟨shown_calm c _ (by simp), by simp⟩, by decide⟩
  refine ⟨ch, hc, ?_⟩
  have : (analysed c H dv mult false name (calm [50]) (calm [50]) (calm [51]) (calm [50])).fieldChanges.get [102] = some [([97], dv [50] [51])] := rfl
  rw [this] at hc; cases hc; rfl

/-! ### C133: a repeated run -/

theorem repeats_shown {c : Lib} {r s : Run} (h : Repeats c r s) {ident : Bytes} {path : List (Bytes × Bytes)} {n : Nat} {p : List Bytes} {v : Bytes}
    (hs : Shown c r ident path n p v) : Shown c s ident path n p v := by
  have hal : ∀ t : Run, callsAlong t ident path = (t.calls.filter fun m => m.ext = false ∧ m.ident = ident).filter fun m => pathOf m.stack = path := by
    intro t
    unfold callsAlong
    rw [List.filter_filter]
    apply List.filter_congr
    intro m _
    by_cases h1 : m.ext = false <;> by_cases h2 : m.ident = ident <;> by_cases h3 : pathOf m.stack = path <;> simp [h1, h2, h3]
  have hf := filter_forall₂ (p := fun m => decide (pathOf m.stack = path)) (q := fun m => decide (pathOf m.stack = path))
    (fun a b hab => by rw [hab.path]) (h.calls ident)
  obtain ⟨m, hm, hv⟩ := hs
  rw [hal] at hm
  rw [List.forall₂_iff_get] at hf
  obtain ⟨hlen, hget⟩ := hf
  obtain ⟨hn, rfl⟩ := List.getElem?_eq_some_iff.mp hm
  refine ⟨((s.calls.filter fun m => m.ext = false ∧ m.ident = ident).filter fun m => pathOf m.stack = path)[n]'(by omega), ?_, ?_⟩
  · rw [hal, List.getElem?_eq_getElem]
  · exact ((hget n hn (by omega)).values p v).mp hv

/-- A run after the update that repeats one of the two before it (up to times, line numbers and the interleaving of functions), and so does the second one if it is
made: nothing is reported, provided the panics of the runs before were the same. Missing: `C133_panic_violated` and what `C131_exact_partial` excludes. -/
theorem C133_repeat_partial (c : Lib) (H : Bytes → Bytes) (dv : Bytes → Bytes → Bytes) (mult : Nat) (force : Bool) (name : Bytes × Bytes) (r1 r2 r3 r4 : Run)
    (hk : Keyed H [r1, r2, r3, r4]) (o1 : InOrder r1) (o2 : InOrder r2) (o : force = true → InOrder r3 ∧ InOrder r4) (n1 : Named c r1) (n3 : Named c r3)
    (h3 : Repeats c r1 r3 ∨ Repeats c r2 r3) (h4 : force = true → Repeats c r1 r4 ∨ Repeats c r2 r4)
    (hp : r1.projectPanics.Perm r2.projectPanics) (hq : r1.modulePanics.Perm r2.modulePanics) :
    (analysed c H dv mult force name r1 r2 r3 r4).diff = 0 ∧ (analysed c H dv mult force name r1 r2 r3 r4).regressions = 0 ∧
    ∀ ident x ch, (analysed c H dv mult force name r1 r2 r3 r4).fieldChanges.get ident = some ch → ch.get x = none := by
  have hall : ∀ ident path n p v, Shown c r1 ident path n p v → Shown c r2 ident path n p v → After c force r3 r4 ident path n p v := by
    intro ident path n p v s1 s2
    exact ⟨h3.elim (fun h => repeats_shown h s1) (fun h => repeats_shown h s2),
      fun hf => (h4 hf).elim (fun h => repeats_shown h s1) (fun h => repeats_shown h s2)⟩
  have hpan : ∀ {a b d e : List (Bytes × Bytes)}, a.Perm b → (a.Perm d ∨ b.Perm d) → (force = true → a.Perm e ∨ b.Perm e) →
      (a : Multiset (Bytes × Bytes)) ∩ b = afterPanics force d e := by
    intro a b d e hab hd he
    have e1 : (a : Multiset (Bytes × Bytes)) = b := Multiset.coe_eq_coe.mpr hab
    have e2 : (d : Multiset (Bytes × Bytes)) = b := hd.elim (fun h => (Multiset.coe_eq_coe.mpr h).symm.trans e1) (fun h => (Multiset.coe_eq_coe.mpr h).symm)
    unfold afterPanics
    rw [e1, e2]
    have hself : (b : Multiset (Bytes × Bytes)) ∩ b = b := by ext x; simp
    cases force with
    | false => simp [hself]
    | true =>
        have e3 : (e : Multiset (Bytes × Bytes)) = b := (he rfl).elim (fun h => (Multiset.coe_eq_coe.mpr h).symm.trans e1) (fun h => (Multiset.coe_eq_coe.mpr h).symm)
        simp [e3]
  refine ⟨?_, ?_, ?_⟩
  · rw [C131_exact_partial c H dv mult force name r1 r2 r3 r4 hk o1 o2 o n1 n3]
    exact ⟨hall, hpan hp (h3.imp (·.project) (·.project)) (fun hf => (h4 hf).imp (·.project) (·.project)),
      hpan hq (h3.imp (·.modul) (·.modul)) (fun hf => (h4 hf).imp (·.modul) (·.modul))⟩
  · have hr : (analysed c H dv mult force name r1 r2 r3 r4).regressions =
        if !(r1.failed || r2.failed) && (monitored c H (some (baseOf c H name r1 r2).callers) force name r3 r4).failure then 1 else 0 := rfl
    rw [hr]
    cases force with
    | false =>
        have : (monitored c H (some (baseOf c H name r1 r2).callers) false name r3 r4).failure = r3.failed := rfl
        rw [this]
        rcases h3 with h | h <;> rw [← h.failed] <;> cases r1.failed <;> cases r2.failed <;> rfl
    | true =>
        have : (monitored c H (some (baseOf c H name r1 r2).callers) true name r3 r4).failure = (r3.failed || r4.failed) := rfl
        rw [this]
        rcases h3 with h | h <;> rcases h4 rfl with h' | h' <;> rw [← h.failed, ← h'.failed] <;> cases r1.failed <;> cases r2.failed <;> rfl
  · intro ident x ch hch
    cases ht : ch.get x with
    | none => rfl
    | some t =>
        obtain ⟨path, n, p, v, w, _, s1, s2, s3, hne⟩ :=
          (C132_listed_partial c H dv mult force name r1 r2 r3 r4 hk o1 o2 o n1 n3 ident x).1.mp ⟨ch, t, hch, ht⟩
        obtain ⟨m, e, hv⟩ := (shown_iff ..).mp (hall ident path n p v s1 s2).1
        obtain ⟨m', e', hw⟩ := (shown_iff ..).mp s3.1
        rw [e] at e'; cases e'
        rw [hv] at hw; cases hw
        exact absurd rfl hne

theorem repeats_refl (c : Lib) (r : Run) : Repeats c r r :=
  ⟨fun _ => List.forall₂_same.mpr fun _ _ => ⟨rfl, fun _ _ => Iff.rfl⟩, .refl _, .refl _, rfl⟩

/-- A run repeated with other times, after a panic in both runs before the update. -/
example (c : Lib) (H : Bytes → Bytes) (dv : Bytes → Bytes → Bytes) (mult : Nat) (name : Bytes × Bytes) :
    (analysed c H dv mult true name (calm [50]) (calm [51]) (late [51]) (calm [50])).diff = 0 := by
  have hs : ∀ v : UInt8, Small (calm [v]) := fun v => small_calm (by simp)
  have h3 : Small (late [51]) := by
    intro m hm
    simp only [late, List.mem_cons, List.not_mem_nil, or_false] at hm
    rcases hm with rfl | rfl <;> exact ⟨_, _, by decide, rfl⟩
  refine (C133_repeat_partial c H dv mult true name (calm [50]) (calm [51]) (late [51]) (calm [50]) (keyed_small H (by simp [hs, h3])) (inOrder_calm _) (inOrder_calm _)
    (fun _ => ⟨inOrder_two _ _ _ _ (by decide) (by decide) _ _, inOrder_calm _⟩)
    (named_small c (hs _)) (named_small c h3) (Or.inr ?_) (fun _ => Or.inl (repeats_refl c _)) (.refl _) (.refl _)).1
  refine ⟨fun ident => ?_, .refl _, .refl _, rfl⟩
  by_cases h : ([102] : Bytes) = ident
  · simp only [calm, late, callA, h, List.filter, and_self, decide_true]
    exact .cons ⟨rfl, fun _ _ => Iff.rfl⟩ (.cons ⟨rfl, fun _ _ => Iff.rfl⟩ .nil)
  · simp [calm, late, callA, h]

/-! ### What is not so -/

/-- Three times the same run, in which two calls of a function arrive out of the order of their times (which is possible if they were made by two goroutines): the
baseline is sorted by time and the run after the update is not, so both calls are reported as changed. -/
theorem C131_order_violated (c : Lib) (H : Bytes → Bytes) (dv : Bytes → Bytes → Bytes) (mult : Nat) (name : Bytes × Bytes) :
    ∃ r : Run, Named c r ∧ Keyed H [r, r, r, r] ∧ Repeats c r r ∧ 0 < (analysed c H dv mult false name r r r r).diff := by
  have hs : Small swapped := by
    intro m hm
    simp only [swapped, List.mem_cons, List.not_mem_nil, or_false] at hm
    rcases hm with rfl | rfl <;> exact ⟨_, _, by decide, rfl⟩
  refine ⟨swapped, named_small c hs, keyed_small H (by simp [hs]), repeats_refl c _, ?_⟩
  have : (analysed c H dv mult false name swapped swapped swapped swapped).diff = 2 := rfl
  omega

/-- A panic in one of the two runs before the update and again after it is reported as a difference. -/
theorem C133_panic_violated (c : Lib) (H : Bytes → Bytes) (dv : Bytes → Bytes → Bytes) (mult : Nat) (name : Bytes × Bytes) :
    ∃ r1 r2 : Run, r1.calls = [] ∧ r2.calls = [] ∧ Repeats c r1 r1 ∧ (analysed c H dv mult false name r1 r2 r1 r1).diff = 1 := by
  refine ⟨⟨[], [([102], [109])], [], [], false⟩, ⟨[], [], [], [], false⟩, rfl, rfl, repeats_refl c _, ?_⟩
  rfl

end Verif.Pipeline
