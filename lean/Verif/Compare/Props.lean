import Verif.Compare.Lemmas

/-!
C28–C33 and C72: comparing the results before and after the update.
-/

namespace Verif.Compare

open Verif.Result (Bytes FMap StackFrame CallFrame TestResult flatten leafAt WF NamesAll)
open Verif.Monitor (Matched occBefore callerKey)

/-- The maps of a result have no duplicate keys (they are Go maps). -/
structure Mapped (r : TestResult) : Prop where
  callers : (AMap.keys (K := Bytes) (V := List CallFrame) r.callers).Nodup
  project : (AMap.keys (K := Bytes) (V := List Bytes) r.projectPanics).Nodup
  modul : (AMap.keys (K := Bytes) (V := List Bytes) r.modulePanics).Nodup

/-! ### Examples used below -/

/-- A frame with the field `a`. -/
def frameA (v : Bytes) (t : Nat) : CallFrame := ⟨.cons [97] v .empty .empty, [⟨[102], 1, [103]⟩], t⟩

/-- A frame without fields. -/
def frameE (t : Nat) : CallFrame := ⟨.empty, [⟨[102], 1, [103]⟩], t⟩

/-- A result with one caller. -/
def resultOf (fs : List CallFrame) (ps : List (Bytes × List Bytes)) (failed : Bool) : TestResult :=
  ⟨[116], [116], [([99], fs)], ps, [], 1, failed, []⟩

theorem mapped_resultOf {fs : List CallFrame} {ps : List (Bytes × List Bytes)} {b : Bool}
    (h : (AMap.keys (K := Bytes) (V := List Bytes) ps).Nodup) : Mapped (resultOf fs ps b) :=
  ⟨by simp [resultOf, AMap.keys], h, by simp [resultOf, AMap.keys]⟩

/-! ### C28: comparing with itself -/

theorem pairing_self (key : CallFrame → Bytes) (fs : List CallFrame) (f : CallFrame) (p : Option CallFrame)
    (h : (f, p) ∈ pairing key fs [] fs) : p = some f := by
  obtain ⟨i, hi⟩ := List.mem_iff_getElem?.mp h
  obtain ⟨h1, h2⟩ := (pairing_get key fs fs [] i f p).mp hi
  rw [h2]
  simp only [List.nil_append, List.length_nil, Nat.zero_add]
  exact (partner_iff key fs fs i f f h1).mpr ⟨i, h1, f, f, h1, h1, rfl, rfl⟩

theorem self_caller (dv : Bytes → Bytes → Bytes) (key : CallFrame → Bytes) (mult : Nat) (fs : List CallFrame) :
    (compareCaller dv key mult fs fs).out.diff = 0 ∧ (compareCaller dv key mult fs fs).out.changes = [] ∧
    (compareCaller dv key mult fs fs).most.diff = 0 := by
  refine ⟨?_, ?_, ?_⟩
  · rw [caller_zero]
    intro i f hf
    exact Or.inr ⟨i, f, hf, ⟨f, f, hf, hf, rfl, rfl⟩, fun _ _ h => h⟩
  · rw [compareCaller_out]
    have : ∀ x, ((pairing key fs [] fs).foldl (pairStep dv) ⟨0, 0, []⟩).changes.get x = none := by
      intro x
      by_contra hc
      obtain ⟨t, ht⟩ := Option.isSome_iff_exists.mp (Option.isSome_iff_ne_none.mpr hc)
      rcases (fold_changes dv x t _ _).1 ht with h | ⟨f, g, v, w, hm, hv, hw, hne, _⟩
      · simp [AMap.get_nil] at h
      · have := pairing_self key fs f _ hm
        cases this
        rw [hv] at hw; cases hw
        exact hne rfl
    generalize (List.foldl (pairStep dv) ⟨0, 0, []⟩ (pairing key fs [] fs)).changes = m at this
    cases m with
    | nil => rfl
    | cons e m =>
        have := this e.1
        rw [AMap.get_cons, if_pos rfl] at this
        cases this
  · rw [compareCaller_most]
    apply timeFold_self
    · apply intervals_self
      intro t ht
      simp only [pairTimes, List.mem_filterMap, Option.map_eq_some_iff] at ht
      obtain ⟨⟨f, p⟩, hm, g, hg, rfl⟩ := ht
      have := pairing_self key fs f p hm
      rw [this] at hg; cases hg
      rfl
    · rfl

theorem self_test (dv : Bytes → Bytes → Bytes) (H : Bytes → Bytes) (mult : Nat) (r : TestResult) (hr : Mapped r) :
    (compareTest dv H mult r r).diff = 0 ∧ (compareTest dv H mult r r).fieldChanges = [] ∧ (compareTest dv H mult r r).timeChanges = [] ∧
    (compareTest dv H mult r r).regressions = 0 := by
  have hself : ∀ kv ∈ r.callers, callerOut dv H mult r kv = compareCaller dv (callerKey H) mult kv.2 kv.2 := by
    intro kv hkv
    unfold callerOut
    rw [AMap.get_eq_some_of_mem hr.callers hkv]
    rfl
  refine ⟨?_, ?_, ?_, ?_⟩
  · simp only [compareTest]
    rw [panicDiffs_spec _ _ hr.project hr.project, panicDiffs_spec _ _ hr.modul hr.modul]
    rw [symDiff_self, symDiff_self, Nat.add_zero, sum_zero]
    intro x hx
    obtain ⟨kv, hkv, rfl⟩ := List.mem_map.mp hx
    rw [hself kv hkv]
    exact (self_caller dv _ mult kv.2).1
  · simp only [compareTest]
    rw [List.filter_eq_nil_iff]
    intro e he
    obtain ⟨kv, hkv, rfl⟩ := List.mem_map.mp he
    simp only [hself kv hkv, (self_caller dv _ mult kv.2).2.1]
    simp
  · simp only [compareTest]
    rw [List.filter_eq_nil_iff]
    intro e he
    obtain ⟨kv, hkv, rfl⟩ := List.mem_map.mp he
    simp only [hself kv hkv, (self_caller dv _ mult kv.2).2.2]
    simp
  · simp [compareTest]

/-- If the results after the update are the results before, the comparison succeeds and finds nothing: no changed field
or panic overall or in any test, no regression, no time change — for all results and all multipliers, even when the
products of times and multiplier overflow. -/
theorem C28_self_compare (dv : Bytes → Bytes → Bytes) (H : Bytes → Bytes) (mult : Nat) (store : Bytes → Loaded) :
    ∀ (names : List Bytes), (∀ n ∈ names, ∃ r, store n = .found r ∧ Mapped r) →
    ∃ same reports, compareLoop dv H mult store store names = some (same, 0, reports) ∧ reports.length = names.length ∧
      ∀ rep ∈ reports, rep.diff = 0 ∧ rep.fieldChanges = [] ∧ rep.timeChanges = [] ∧ rep.regressions = 0
  | [], _ => ⟨0, [], rfl, rfl, by simp⟩
  | n :: ns, h => by
      obtain ⟨r, hr, hm⟩ := h n List.mem_cons_self
      obtain ⟨same, reports, h1, h2, h3⟩ := C28_self_compare dv H mult store ns (fun x hx => h x (List.mem_cons_of_mem _ hx))
      have hs := self_test dv H mult r hm
      refine ⟨(compareTest dv H mult r r).same + same, compareTest dv H mult r r :: reports, ?_, by simp [h2], ?_⟩
      · simp only [compareLoop, hr, h1, Option.map_some, hs.1, Nat.zero_add]
      · intro rep hrep
        rcases List.mem_cons.mp hrep with rfl | hrep
        · exact hs
        · exact h3 rep hrep

example : ∃ r, (fun _ => Loaded.found (resultOf [frameA [1] 5, frameA [2] 4000000000] [([112], [[1], [1]])] true)) [116] = .found r ∧ Mapped r :=
  ⟨_, rfl, mapped_resultOf (by simp [AMap.keys])⟩

/-! ### C30: panics -/

/-- The number of panic differences is the size of the multiset symmetric difference of the panics of the two runs. -/
theorem C30_symmetric_difference (pre post : List (Bytes × List Bytes)) (h1 : (AMap.keys (K := Bytes) (V := List Bytes) pre).Nodup)
    (h2 : (AMap.keys (K := Bytes) (V := List Bytes) post).Nodup) : panicDiffs pre post = symDiff (panicSet pre) (panicSet post) :=
  panicDiffs_spec pre post h1 h2

/-- Hence exchanging the runs does not matter. -/
theorem C30_symmetric (pre post : List (Bytes × List Bytes)) (h1 : (AMap.keys (K := Bytes) (V := List Bytes) pre).Nodup)
    (h2 : (AMap.keys (K := Bytes) (V := List Bytes) post).Nodup) : panicDiffs pre post = panicDiffs post pre := by
  rw [panicDiffs_spec _ _ h1 h2, panicDiffs_spec _ _ h2 h1, symDiff, symDiff, Nat.add_comm]

/-- The order in which panics were recorded does not matter, nor does the order of the functions. -/
theorem C30_order_irrelevant (pre pre' post post' : List (Bytes × List Bytes))
    (h1 : (AMap.keys (K := Bytes) (V := List Bytes) pre).Nodup) (h1' : (AMap.keys (K := Bytes) (V := List Bytes) pre').Nodup)
    (h2 : (AMap.keys (K := Bytes) (V := List Bytes) post).Nodup) (h2' : (AMap.keys (K := Bytes) (V := List Bytes) post').Nodup)
    (hp : ∀ k m, (((AMap.get (K := Bytes) (V := List Bytes) pre k).getD []).count m) = (((AMap.get (K := Bytes) (V := List Bytes) pre' k).getD []).count m))
    (hq : ∀ k m, (((AMap.get (K := Bytes) (V := List Bytes) post k).getD []).count m) = (((AMap.get (K := Bytes) (V := List Bytes) post' k).getD []).count m)) :
    panicDiffs pre post = panicDiffs pre' post' := by
  have key : ∀ m m' : List (Bytes × List Bytes), (AMap.keys (K := Bytes) (V := List Bytes) m).Nodup →
      (AMap.keys (K := Bytes) (V := List Bytes) m').Nodup →
      (∀ k x, (((AMap.get (K := Bytes) (V := List Bytes) m k).getD []).count x) = (((AMap.get (K := Bytes) (V := List Bytes) m' k).getD []).count x)) →
      panicSet m = panicSet m' := by
    intro m m' hm hm' h
    have hcount : ∀ (m : List (Bytes × List Bytes)), (AMap.keys (K := Bytes) (V := List Bytes) m).Nodup → ∀ k x,
        (panicSet m).count (k, x) = ((AMap.get (K := Bytes) (V := List Bytes) m k).getD []).count x := by
      intro m hm k x
      rw [panicSet_del hm (k := k), Multiset.count_add, tagged_count_eq, panicSet_count_none (by rw [AMap.mem_keys, AMap.get_del]; simp)]
      rw [Multiset.coe_count, Nat.add_zero]
      congr!
    ext ⟨k, x⟩
    rw [hcount m hm, hcount m' hm', h]
  rw [panicDiffs_spec _ _ h1 h2, panicDiffs_spec _ _ h1' h2', key pre pre' h1 h1' hp, key post post' h2 h2' hq]

/-- No difference is reported exactly when the panics agree as multisets. -/
theorem C30_zero_iff (pre post : List (Bytes × List Bytes)) (h1 : (AMap.keys (K := Bytes) (V := List Bytes) pre).Nodup)
    (h2 : (AMap.keys (K := Bytes) (V := List Bytes) post).Nodup) : panicDiffs pre post = 0 ↔ panicSet pre = panicSet post := by
  rw [panicDiffs_spec _ _ h1 h2, symDiff]
  constructor
  · intro h
    have ha : panicSet pre - panicSet post = 0 := by rw [← Multiset.card_eq_zero]; omega
    have hb : panicSet post - panicSet pre = 0 := by rw [← Multiset.card_eq_zero]; omega
    ext x
    have hax := congrArg (Multiset.count x) ha
    have hbx := congrArg (Multiset.count x) hb
    simp only [Multiset.count_sub, Multiset.count_zero] at hax hbx
    omega
  · intro h
    rw [h]
    exact symDiff_self _

example : panicDiffs [([1], [[7], [8], [7]])] [([2], [[9]]), ([1], [[7]])] = 3 := by decide

/-! ### C29: counts -/

/-- In every report of a test: equal plus changed fields are the flat baseline fields of all frames plus the panic
differences. -/
theorem C29_counts (dv : Bytes → Bytes → Bytes) (H : Bytes → Bytes) (mult : Nat) (pre post : TestResult) (hp : Mapped pre) (hq : Mapped post) :
    (compareTest dv H mult pre post).same + (compareTest dv H mult pre post).diff =
      (pre.callers.map fun kv => (kv.2.map fun f => (flatten f.fields).length).sum).sum + panicChanges pre post := by
  have hsum : ∀ cs : List (Bytes × List CallFrame), (cs.map fun kv => (callerOut dv H mult post kv).out.same).sum +
      (cs.map fun kv => (callerOut dv H mult post kv).out.diff).sum = (cs.map fun kv => (kv.2.map fun f => (flatten f.fields).length).sum).sum := by
    intro cs
    induction cs with
    | nil => rfl
    | cons e cs ih =>
        have := caller_counts dv (callerKey H) mult e.2 ((AMap.get (K := Bytes) (V := List CallFrame) post.callers e.1).getD [])
        simp only [List.map_cons, List.sum_cons]
        unfold callerOut at ih ⊢
        omega
  simp only [compareTest, panicChanges, panicDiffs_spec _ _ hp.project hq.project, panicDiffs_spec _ _ hp.modul hq.modul]
  have := hsum pre.callers
  omega

/-- With plain field names, this is the number of leaves of the baseline field trees.  Missing: names that are empty or
contain a dot (compare `C20_dot_in_name_violated`). -/
theorem C29_leaf_counts_partial (dv : Bytes → Bytes → Bytes) (H : Bytes → Bytes) (mult : Nat) (pre post : TestResult) (hp : Mapped pre)
    (hq : Mapped post)
    (hf : ∀ kv ∈ pre.callers, ∀ f ∈ kv.2, WF f.fields ∧ NamesAll (fun k => k ≠ [] ∧ (46 : UInt8) ∉ k) f.fields) :
    (compareTest dv H mult pre post).same + (compareTest dv H mult pre post).diff =
      (pre.callers.map fun kv => (kv.2.map fun f => leafCount f.fields).sum).sum + panicChanges pre post := by
  rw [C29_counts dv H mult pre post hp hq]
  congr 2
  apply List.map_congr_left
  intro kv hkv
  congr 1
  apply List.map_congr_left
  intro f hf'
  exact flatten_length _ (hf kv hkv f hf').1 (hf kv hkv f hf').2

example : (compareTest (fun _ _ => []) id 10 (resultOf [frameA [1] 5, frameA [1] 9] [([112], [[7]])] false)
    (resultOf [frameA [2] 5, frameA [1] 6] [] false)).same = 1 ∧
    (compareTest (fun _ _ => []) id 10 (resultOf [frameA [1] 5, frameA [1] 9] [([112], [[7]])] false)
    (resultOf [frameA [2] 5, frameA [1] 6] [] false)).diff = 2 := by decide +kernel

/-- The totals are the sums over the reports of the tests, and there is one report per test after the update. -/
theorem C29_totals (dv : Bytes → Bytes → Bytes) (H : Bytes → Bytes) (mult : Nat) (pre post : Bytes → Loaded) :
    ∀ (names : List Bytes) (s d : Nat) (rs : List TestReport), compareLoop dv H mult pre post names = some (s, d, rs) →
      s = (rs.map (·.same)).sum ∧ d = (rs.map (·.diff)).sum ∧ rs.length = names.length
  | [], s, d, rs, h => by simp only [compareLoop, Option.some.injEq, Prod.mk.injEq] at h; obtain ⟨rfl, rfl, rfl⟩ := h; simp
  | n :: ns, s, d, rs, h => by
      have ih := C29_totals dv H mult pre post ns
      cases hp : pre n with
      | failed => simp [compareLoop, hp] at h
      | missing =>
          simp only [compareLoop, hp, Option.map_eq_some_iff] at h
          obtain ⟨⟨s', d', rs'⟩, hr, he⟩ := h
          simp only [Prod.mk.injEq] at he
          obtain ⟨rfl, rfl, rfl⟩ := he
          obtain ⟨h1, h2, h3⟩ := ih _ _ _ hr
          simp [zeroReport, h1, h2, h3]
      | found a =>
          cases hq : post n with
          | failed => simp [compareLoop, hp, hq] at h
          | missing => simp [compareLoop, hp, hq] at h
          | found b =>
              simp only [compareLoop, hp, hq, Option.map_eq_some_iff] at h
              obtain ⟨⟨s', d', rs'⟩, hr, he⟩ := h
              simp only [Prod.mk.injEq] at he
              obtain ⟨rfl, rfl, rfl⟩ := he
              obtain ⟨h1, h2, h3⟩ := ih _ _ _ hr
              simp [h1, h2, h3]

/-- A test has no changes exactly when every baseline frame with fields has a counterpart with the same values and
the panics agree. -/
theorem C29_zero_iff (dv : Bytes → Bytes → Bytes) (H : Bytes → Bytes) (mult : Nat) (pre post : TestResult) (hp : Mapped pre) (hq : Mapped post) :
    (compareTest dv H mult pre post).diff = 0 ↔
      (∀ kv ∈ pre.callers, ∀ (i : Nat) (f : CallFrame), kv.2[i]? = some f → flatten f.fields = [] ∨
        ∃ (j : Nat) (g : CallFrame), (framesOf post kv.1)[j]? = some g ∧ Matched (callerKey H) kv.2 (framesOf post kv.1) i j ∧ Agree f g) ∧
      panicSet pre.projectPanics = panicSet post.projectPanics ∧ panicSet pre.modulePanics = panicSet post.modulePanics := by
  rw [← C30_zero_iff _ _ hp.project hq.project, ← C30_zero_iff _ _ hp.modul hq.modul]
  simp only [compareTest, Nat.add_eq_zero_iff, sum_zero, List.mem_map, forall_exists_index, and_imp, forall_apply_eq_imp_iff₂]
  rw [and_assoc]
  refine and_congr ?_ Iff.rfl
  refine forall_congr' fun kv => forall_congr' fun _ => ?_
  exact caller_zero dv (callerKey H) mult kv.2 (framesOf post kv.1)

/-- The claim as stated, when every baseline frame has a field.  Missing: frames without fields
(`C29_empty_frame_violated`). -/
theorem C29_zero_iff_partial (dv : Bytes → Bytes → Bytes) (H : Bytes → Bytes) (mult : Nat) (pre post : TestResult) (hp : Mapped pre)
    (hq : Mapped post) (hne : ∀ kv ∈ pre.callers, ∀ f ∈ kv.2, flatten f.fields ≠ []) :
    (compareTest dv H mult pre post).diff = 0 ↔
      (∀ kv ∈ pre.callers, ∀ (i : Nat) (f : CallFrame), kv.2[i]? = some f →
        ∃ (j : Nat) (g : CallFrame), (framesOf post kv.1)[j]? = some g ∧ Matched (callerKey H) kv.2 (framesOf post kv.1) i j ∧ Agree f g) ∧
      panicSet pre.projectPanics = panicSet post.projectPanics ∧ panicSet pre.modulePanics = panicSet post.modulePanics := by
  rw [C29_zero_iff dv H mult pre post hp hq]
  refine and_congr ?_ Iff.rfl
  constructor
  · intro h kv hkv i f hf
    exact (h kv hkv i f hf).resolve_left (hne kv hkv f (List.mem_of_getElem? hf))
  · intro h kv hkv i f hf
    exact Or.inr (h kv hkv i f hf)

example : ∀ kv ∈ (resultOf [frameA [1] 5, frameA [1] 9] [] false).callers, ∀ f ∈ kv.2, flatten f.fields ≠ [] := by decide

/-- A call without recorded values that disappears after the update is not counted as a change. -/
theorem C29_empty_frame_violated (dv : Bytes → Bytes → Bytes) (H : Bytes → Bytes) : ∃ pre post : TestResult, Mapped pre ∧ Mapped post ∧
    framesOf pre [99] ≠ [] ∧ framesOf post [99] = [] ∧ (compareTest dv H 10 pre post).diff = 0 := by
  refine ⟨resultOf [frameE 1] [] false, resultOf [] [] false, mapped_resultOf (by simp [AMap.keys]), mapped_resultOf (by simp [AMap.keys]),
    by simp [framesOf, resultOf, AMap.get], by simp [framesOf, resultOf, AMap.get], ?_⟩
  rw [C29_zero_iff dv H 10 _ _ (mapped_resultOf (by simp [AMap.keys])) (mapped_resultOf (by simp [AMap.keys]))]
  refine ⟨?_, rfl, rfl⟩
  intro kv hkv i f hf
  left
  simp only [resultOf, List.mem_singleton] at hkv
  subst hkv
  have := List.mem_of_getElem? hf
  simp only [List.mem_singleton] at this
  subst this
  rfl

/-- The order in which the names of a frame are visited matters neither for the counts nor for the texts. -/
theorem C29_order_irrelevant (dv : Bytes → Bytes → Bytes) (pre post : AMap Bytes Bytes) (ns ns' : List Bytes) (hp : ns.Perm ns')
    (hs : ∀ n ∈ ns, (pre.get n).isSome) (o : FieldOut) :
    (fieldLoop dv pre post ns o).same = (fieldLoop dv pre post ns' o).same ∧
    (fieldLoop dv pre post ns o).diff = (fieldLoop dv pre post ns' o).diff ∧
    ∀ x, (fieldLoop dv pre post ns o).changes.get x = (fieldLoop dv pre post ns' o).changes.get x := by
  have hs' : ∀ n ∈ ns', (pre.get n).isSome := fun n hn => hs n (hp.mem_iff.mpr hn)
  obtain ⟨a1, a2⟩ := fieldLoop_counts dv pre post ns o hs
  obtain ⟨b1, b2⟩ := fieldLoop_counts dv pre post ns' o hs'
  have hd : differing pre post ns = differing pre post ns' := hp.countP_eq _
  have hl := hp.length_eq
  refine ⟨by omega, by omega, ?_⟩
  intro x
  obtain ⟨c1, c2⟩ := fieldLoop_changes dv pre post x ns o hs
  obtain ⟨d1, d2⟩ := fieldLoop_changes dv pre post x ns' o hs'
  by_cases hx : ∃ v w, x ∈ ns ∧ pre.get x = some v ∧ post.get x = some w ∧ v ≠ w
  · obtain ⟨v, w, h1, h2, h3, h4⟩ := hx
    rw [c1 v w h1 h2 h3 h4, d1 v w (hp.mem_iff.mp h1) h2 h3 h4]
  · rw [c2 hx, d2 (by rintro ⟨v, w, h1, h2⟩; exact hx ⟨v, w, hp.mem_iff.mpr h1, h2⟩)]

example : [[1], [2]].Perm [[2], ([1] : Bytes)] ∧ ∀ n ∈ [[1], ([2] : Bytes)], (AMap.get (K := Bytes) (V := Bytes) [([1], [5]), ([2], [6])] n).isSome :=
  ⟨.swap _ _ _, by decide⟩

/-! ### C31: regressions -/

/-- A test's report says "regressed" (count one) exactly when the test passed before and failed after; otherwise the count
is zero. -/
theorem C31_regression_iff (dv : Bytes → Bytes → Bytes) (H : Bytes → Bytes) (mult : Nat) (pre post : TestResult) :
    ((compareTest dv H mult pre post).regressions = 1 ↔ pre.failure = false ∧ post.failure = true) ∧
    ((compareTest dv H mult pre post).regressions = 0 ↔ ¬ (pre.failure = false ∧ post.failure = true)) := by
  cases h1 : pre.failure <;> cases h2 : post.failure <;> simp [compareTest, h1, h2]

example : (resultOf [] [] false).failure = false ∧ (resultOf [] [] true).failure = true := ⟨rfl, rfl⟩

/-- For every test with results before and after, the report at its position is about exactly these two results: same
name and identity, and same outcome. -/
theorem C31_own_report (dv : Bytes → Bytes → Bytes) (H : Bytes → Bytes) (mult : Nat) (pre post : Bytes → Loaded) :
    ∀ (names : List Bytes) (s d : Nat) (rs : List TestReport), compareLoop dv H mult pre post names = some (s, d, rs) →
      rs.length = names.length ∧
      ∀ (i : Nat) (n : Bytes) (a : TestResult), names[i]? = some n → pre n = .found a →
        ∃ b rep, post n = .found b ∧ rs[i]? = some rep ∧ rep.original.testName = a.testName ∧ rep.postUpdate.testName = b.testName ∧
          rep.original.testIdent = a.testIdent ∧ rep.postUpdate.testIdent = b.testIdent ∧
          rep.original.failure = a.failure ∧ rep.postUpdate.failure = b.failure ∧
          (rep.regressions = if a.failure = false ∧ b.failure = true then 1 else 0)
  | [], s, d, rs, h => by
      simp only [compareLoop, Option.some.injEq, Prod.mk.injEq] at h; obtain ⟨rfl, rfl, rfl⟩ := h; simp
  | n :: ns, s, d, rs, h => by
      have ih := C31_own_report dv H mult pre post ns
      cases hp : pre n with
      | failed => simp [compareLoop, hp] at h
      | missing =>
          simp only [compareLoop, hp, Option.map_eq_some_iff] at h
          obtain ⟨⟨s', d', rs'⟩, hr, he⟩ := h
          simp only [Prod.mk.injEq] at he
          obtain ⟨rfl, rfl, rfl⟩ := he
          obtain ⟨h1, h2⟩ := ih _ _ _ hr
          refine ⟨by simp [h1], ?_⟩
          intro i m a hm ha
          cases i with
          | zero =>
              simp only [List.getElem?_cons_zero, Option.some.injEq] at hm
              subst hm
              rw [hp] at ha; cases ha
          | succ i => exact h2 i m a (by simpa using hm) ha
      | found a0 =>
          cases hq : post n with
          | failed => simp [compareLoop, hp, hq] at h
          | missing => simp [compareLoop, hp, hq] at h
          | found b0 =>
              simp only [compareLoop, hp, hq, Option.map_eq_some_iff] at h
              obtain ⟨⟨s', d', rs'⟩, hr, he⟩ := h
              simp only [Prod.mk.injEq] at he
              obtain ⟨rfl, rfl, rfl⟩ := he
              obtain ⟨h1, h2⟩ := ih _ _ _ hr
              refine ⟨by simp [h1], ?_⟩
              intro i m a hm ha
              cases i with
              | zero =>
                  simp only [List.getElem?_cons_zero, Option.some.injEq] at hm
                  subst hm
                  rw [hp] at ha; cases ha
                  refine ⟨b0, compareTest dv H mult a0 b0, hq, rfl, rfl, rfl, rfl, rfl, rfl, rfl, ?_⟩
                  cases h1 : a0.failure <;> cases h2 : b0.failure <;> simp [compareTest, h1, h2]
              | succ i => exact h2 i m a (by simpa using hm) ha

/-- A test that exists only after the update leaves an empty entry in the reports: a report without any name. -/
theorem C31_ghost_entry_violated (dv : Bytes → Bytes → Bytes) (H : Bytes → Bytes) : ∃ (pre post : Bytes → Loaded) (rs : List TestReport),
    compareLoop dv H 10 pre post [[116], [117]] = some (0, 0, rs) ∧ (∃ b, post [116] = .found b ∧ b.testName = [116]) ∧
    rs.map (fun r => r.postUpdate.testName) = [[], [116]] := by
  refine ⟨fun n => if n = [116] then .missing else .found (resultOf [] [] false), fun _ => .found (resultOf [] [] false), _, rfl, ⟨_, rfl, rfl⟩, rfl⟩

/-! ### C32: times -/

/-- The 32-bit test for "more than `mult` times as long" is exact as long as the product fits into 32 bits.  Missing:
products of 2³² and more (`C32_overflow_violated`). -/
theorem C32_exact_partial (mult : Nat) (iv : Nat × Nat) (hf : FitsTimes mult iv) :
    (exceeds mult iv.1 iv.2 = true ↔ Slower mult iv) ∧ (exceeds mult iv.2 iv.1 = true ↔ Faster mult iv) :=
  ⟨exceeds_slower hf, exceeds_faster hf⟩

/-- Above that it is not: an interval of about twelve hours, unchanged, counts as regression. -/
theorem C32_overflow_violated : ∃ mult pre post : Nat, 1 ≤ mult ∧ mult ≤ 100 ∧ pre < 2 ^ 32 ∧ post < 2 ^ 32 ∧
    ¬ Slower mult (pre, post) ∧ exceeds mult pre post = true ∧ (timeStep mult noChange pre post).diff > 0 :=
  ⟨100, 42949673, 42949674, by decide, by decide, by decide, by decide, by unfold Slower; decide, by decide, by decide⟩

/-- The time change reported for a caller, for the intervals between its matched calls: something is reported exactly
when some interval is significantly slower or faster; what is reported is one of these intervals; without significant
improvements it is the largest regression, and without significant regressions the largest improvement; in general, after
the last significant change of the other kind, the largest.  Missing: overflow, and mixtures of regressions and
improvements (`C32_hidden_regression_violated`). -/
theorem C32_reported_partial (dv : Bytes → Bytes → Bytes) (H : Bytes → Bytes) (mult : Nat) (pre post : TestResult) (hp : Mapped pre)
    (hm : 1 ≤ mult) (k : Bytes) (fs : List CallFrame) (hk : AMap.get (K := Bytes) (V := List CallFrame) pre.callers k = some fs)
    (ts : List (Nat × Nat)) (ht : MatchedTimes (callerKey H) fs (framesOf post k) ts) (hf : ∀ iv ∈ intervals 0 0 ts, FitsTimes mult iv) :
    ((∃ c, (compareTest dv H mult pre post).timeChanges.get k = some c) ↔ ∃ iv ∈ intervals 0 0 ts, Slower mult iv ∨ Faster mult iv) ∧
    ∀ c, (compareTest dv H mult pre post).timeChanges.get k = some c →
      ((c.pre, c.post) ∈ intervals 0 0 ts ∧ c.diff = (c.post : Int) - c.pre ∧ (Slower mult (c.pre, c.post) ∨ Faster mult (c.pre, c.post))) ∧
      (∀ a b, intervals 0 0 ts = a ++ b → (∀ iv ∈ b, ¬ Faster mult iv) → ∀ iv ∈ b, Slower mult iv →
        Slower mult (c.pre, c.post) ∧ (iv.2 : Int) - iv.1 ≤ c.diff) ∧
      (∀ a b, intervals 0 0 ts = a ++ b → (∀ iv ∈ b, ¬ Slower mult iv) → ∀ iv ∈ b, Faster mult iv →
        Faster mult (c.pre, c.post) ∧ c.diff ≤ (iv.2 : Int) - iv.1) := by
  have hts := matchedTimes_unique ht (pairing_times _ _ _)
  have hget : (compareTest dv H mult pre post).timeChanges.get k =
      if (timeFold mult (intervals 0 0 ts) noChange).diff ≠ 0 then some (timeFold mult (intervals 0 0 ts) noChange) else none := by
    have := get_map_filter (fun kv => (callerOut dv H mult post kv).most) (fun c => decide (c.diff ≠ 0)) k pre.callers hp.callers
    simp only [compareTest]
    rw [this, hk]
    simp only [Option.bind_some, decide_eq_true_eq]
    unfold callerOut
    rw [compareCaller_most, hts]
    rfl
  have hinv : TimeInv mult (intervals 0 0 ts) (timeFold mult (intervals 0 0 ts) noChange) := by
    simpa using timeFold_inv hm (intervals 0 0 ts) [] noChange hf (timeInv_none mult)
  have hor : (timeFold mult (intervals 0 0 ts) noChange).diff ≠ 0 →
      Slower mult ((timeFold mult (intervals 0 0 ts) noChange).pre, (timeFold mult (intervals 0 0 ts) noChange).post) ∨
      Faster mult ((timeFold mult (intervals 0 0 ts) noChange).pre, (timeFold mult (intervals 0 0 ts) noChange).post) := by
    intro h0
    rcases lt_or_gt_of_ne h0 with h | h
    · exact Or.inr (hinv.fast h)
    · exact Or.inl (hinv.slow h)
  have hsplit : ∀ a b, intervals 0 0 ts = a ++ b → TimeInv mult a (timeFold mult a noChange) ∧
      timeFold mult (intervals 0 0 ts) noChange = timeFold mult b (timeFold mult a noChange) ∧ ∀ iv ∈ b, FitsTimes mult iv := by
    intro a b he
    rw [he] at hf ⊢
    refine ⟨?_, by simp [timeFold], fun iv hiv => hf iv (List.mem_append_right _ hiv)⟩
    simpa using timeFold_inv hm a [] noChange (fun iv hiv => hf iv (List.mem_append_left _ hiv)) (timeInv_none mult)
  rw [hget]
  constructor
  · constructor
    · rintro ⟨c, hc⟩
      split at hc
      · rename_i h0
        exact ⟨_, (hinv.real h0).1, hor h0⟩
      · cases hc
    · intro h
      have := timeFold_nonzero hm (intervals 0 0 ts) [] noChange hf (timeInv_none mult) (Or.inr h)
      exact ⟨_, if_pos this⟩
  · intro c hc
    split at hc
    · rename_i h0
      cases hc
      refine ⟨⟨(hinv.real h0).1, (hinv.real h0).2, hor h0⟩, ?_, ?_⟩
      · intro a b he hno iv hiv hs
        obtain ⟨ha, hb, hfb⟩ := hsplit a b he
        have := (timeFold_slow hm b a _ hfb ha hno).2 iv hiv hs
        rw [← hb] at this
        exact ⟨hinv.slow this.1, this.2⟩
      · intro a b he hno iv hiv hs
        obtain ⟨ha, hb, hfb⟩ := hsplit a b he
        have := (timeFold_fast hm b a _ hfb ha hno).2 iv hiv hs
        rw [← hb] at this
        exact ⟨hinv.fast this.1, this.2⟩
    · cases hc

example : intervals 0 0 [(5, 5), (10, 2000), (12, 2002)] = [(5, 5), (5, 1995), (2, 2)] ∧ FitsTimes 10 (5, 1995) ∧ Slower 10 (5, 1995) := by
  refine ⟨by decide, ?_, ?_⟩
  · unfold FitsTimes; decide
  · unfold Slower; decide

/-- A large regression is hidden by a small improvement in a later call of the same caller. -/
theorem C32_hidden_regression_violated (dv : Bytes → Bytes → Bytes) (H : Bytes → Bytes) : ∃ pre post : TestResult,
    (∃ ts, MatchedTimes (callerKey H) (framesOf pre [99]) (framesOf post [99]) ts ∧ (1, 5001) ∈ intervals 0 0 ts ∧ Slower 10 (1, 5001)) ∧
    (compareTest dv H 10 pre post).timeChanges.get [99] = some ⟨-11, 12, 1⟩ := by
  let P : List CallFrame := [frameA [1] 1, frameA [1] 13]
  let Q : List CallFrame := [frameA [1] 5001, frameA [1] 5002]
  have hkey : ∀ t t', callerKey H (frameA [1] t) = callerKey H (frameA [1] t') := fun _ _ => rfl
  have hfil : (Q.filter fun g => callerKey H g = callerKey H (frameA [1] 1)) = Q := by
    rw [List.filter_eq_self]
    intro g hg
    simp only [Q, List.mem_cons, List.not_mem_nil, or_false] at hg
    rcases hg with rfl | rfl <;> simp [hkey _ 1]
  have hpair : pairing (callerKey H) Q [] P = [(frameA [1] 1, some (frameA [1] 5001)), (frameA [1] 13, some (frameA [1] 5002))] := by
    simp only [P, pairing, List.countP_nil, List.nil_append, List.countP_cons, hkey 13 1, hfil]
    simp [Q]
  refine ⟨resultOf P [] false, resultOf Q [] false, ⟨[(1, 5001), (13, 5002)], ?_, by decide, by unfold Slower; decide⟩, ?_⟩
  · have h := pairing_times (callerKey H) P Q
    rw [hpair] at h
    exact h
  · have := get_map_filter (fun kv => (callerOut dv H 10 (resultOf Q [] false) kv).most) (fun c => decide (c.diff ≠ 0)) [99]
      (resultOf P [] false).callers (by simp [resultOf, AMap.keys])
    simp only [compareTest]
    rw [this]
    have hq : AMap.get (K := Bytes) (V := List CallFrame) (resultOf P [] false).callers [99] = some P := rfl
    have hm : (callerOut dv H 10 (resultOf Q [] false) ([99], P)).most = ⟨-11, 12, 1⟩ := by
      have : callerOut dv H 10 (resultOf Q [] false) ([99], P) = compareCaller dv (callerKey H) 10 P Q := rfl
      rw [this, compareCaller_most, hpair]
      decide
    rw [hq]
    simp only [Option.bind_some, hm]
    decide

/-! ### C33: value differences -/

/-- `DiffValues` reports nothing exactly when the values are equal, whatever quoting and the diff library do.  Missing: that
the text lists every changed line, which is up to the library. -/
theorem C33_diff_iff_partial (quote : Bytes → Bytes) (unified : Bytes → Bytes → Option Bytes) (v1 v2 : Bytes) :
    diffValues quote unified v1 v2 = [] ↔ v1 = v2 := by
  constructor
  · intro h
    by_contra hne
    unfold diffValues at h
    rw [if_neg hne] at h
    split at h
    · simp at h
    · split at h
      · simp [notEq] at h
      · split at h
        · simp [notEq] at h
        · split at h
          · split at h
            · rename_i ht; exact ht h
            · simp at h
          · simp at h
  · rintro rfl
    simp [diffValues]

example : diffValues id (fun _ _ => some []) [1] [2] = [9, 39, 1, 39, 10, 33, 61, 10, 9, 39, 2, 39] := by decide

/-- If the library has nothing to say (or fails), both values are shown in full. -/
theorem C33_fallback_shows_values (quote : Bytes → Bytes) (unified : Bytes → Bytes → Option Bytes) (v1 v2 : Bytes) (hne : v1 ≠ v2)
    (h1 : ¬ [118, 115, 104, 97, 49, 45] <+: v1) (h2 : ¬ [118, 115, 104, 97, 49, 45] <+: v2) (hu : unified v1 v2 = none ∨ unified v1 v2 = some []) :
    v1 <:+: diffValues quote unified v1 v2 ∧ v2 <:+: diffValues quote unified v1 v2 := by
  have e1 : hashPrefix.isPrefixOf v1 = false := by
    cases hc : hashPrefix.isPrefixOf v1
    · rfl
    · exact absurd (List.isPrefixOf_iff_prefix.mp hc) h1
  have e2 : hashPrefix.isPrefixOf v2 = false := by
    cases hc : hashPrefix.isPrefixOf v2
    · rfl
    · exact absurd (List.isPrefixOf_iff_prefix.mp hc) h2
  have : diffValues quote unified v1 v2 = [9, 39] ++ v1 ++ [39, 10, 33, 61, 10, 9, 39] ++ v2 ++ [39] := by
    unfold diffValues
    rw [if_neg hne, e1, e2]
    rcases hu with hu | hu <;> simp [hu]
  rw [this]
  constructor
  · exact ⟨[9, 39], [39, 10, 33, 61, 10, 9, 39] ++ v2 ++ [39], by simp⟩
  · exact ⟨[9, 39] ++ v1 ++ [39, 10, 33, 61, 10, 9, 39], [39], by simp⟩

example : ¬ hashPrefix <+: ([1] : Bytes) := by decide

/-- "vsha1-" -/
def large : Bytes := "vsha1-".toUTF8.toList

/-- A value recorded by its hash ("vsha1-…") is shown by the last four characters of the hash, any other value in quotes. -/
theorem C33_large (quote : Bytes → Bytes) (unified : Bytes → Bytes → Option Bytes) (a b x y v : Bytes) (ha : large <+: a ++ x) (hb : large <+: b ++ y)
    (hx : x.length = 4) (hy : y.length = 4) (hv : ¬ large <+: v) :
    let t := fun s : String => s.toUTF8.toList
    (a ++ x ≠ b ++ y → diffValues quote unified (a ++ x) (b ++ y) = t "<VALUE TOO LARGE ..." ++ x ++ t "> != <VALUE TOO LARGE ..." ++ y ++ t ">") ∧
    diffValues quote unified (a ++ x) v = t "<VALUE TOO LARGE ..." ++ x ++ t "> != " ++ quote v ∧
    diffValues quote unified v (a ++ x) = quote v ++ t " != <VALUE TOO LARGE ..." ++ x ++ t ">" := by
  have hl : large = hashPrefix := by decide +kernel
  rw [hl] at ha hb hv
  have sfx : ∀ c z : Bytes, z.length = 4 → suffix4 (c ++ z) = z := by
    intro c z hz
    unfold suffix4
    rw [if_pos (by rw [List.length_append]; omega), List.length_append, hz, Nat.add_sub_cancel, List.drop_left]
  have pa := List.isPrefixOf_iff_prefix.mpr ha
  have pb := List.isPrefixOf_iff_prefix.mpr hb
  have pv : hashPrefix.isPrefixOf v = false := by
    rw [Bool.eq_false_iff]; exact fun e => hv (List.isPrefixOf_iff_prefix.mp e)
  have e1 : "> != <VALUE TOO LARGE ...".toUTF8.toList = [62] ++ notEq ++ tooLarge := by decide +kernel
  have e2 : "> != ".toUTF8.toList = [62] ++ notEq := by decide +kernel
  have e3 : " != <VALUE TOO LARGE ...".toUTF8.toList = notEq ++ tooLarge := by decide +kernel
  have e4 : ">".toUTF8.toList = [62] := by decide +kernel
  have ne1 : a ++ x ≠ v := fun e => hv (e ▸ ha)
  simp only [e1, e2, e3, e4]
  refine ⟨fun hne => ?_, ?_, ?_⟩
  · unfold diffValues
    rw [if_neg hne, pa, pb, sfx a x hx, sfx b y hy]
    simp only [Bool.and_self, if_true, tooLarge, List.append_assoc]
  · unfold diffValues
    rw [if_neg ne1, pa, pv, sfx a x hx]
    simp only [Bool.and_false, Bool.false_eq_true, if_false, if_true, tooLarge, List.append_assoc]
  · unfold diffValues
    rw [if_neg ne1.symm, pa, pv, sfx a x hx]
    simp only [Bool.and_true, Bool.false_eq_true, if_false, if_true, tooLarge, List.append_assoc]

/-- C33 is violated for large values: hashes that differ only before their last four characters are shown as the same text on both sides. -/
theorem C33_large_violated (quote : Bytes → Bytes) (unified : Bytes → Bytes → Option Bytes) : ∃ v1 v2 side : Bytes, v1 ≠ v2 ∧
    diffValues quote unified v1 v2 = side ++ " != ".toUTF8.toList ++ side := by
  have h := (C33_large quote unified (large ++ [1]) (large ++ [2]) [97, 98, 99, 100] [97, 98, 99, 100] [] (by rw [List.append_assoc]; exact List.prefix_append ..)
    (by rw [List.append_assoc]; exact List.prefix_append ..) rfl rfl (by decide +kernel)).1 (by decide +kernel)
  refine ⟨_, _, "<VALUE TOO LARGE ...abcd>".toUTF8.toList, ?_, h.trans ?_⟩
  · decide +kernel
  · decide +kernel

/-! ### C72: which changes are shown -/

/-- A field is listed under a caller exactly when its value changed in some matched pair of calls, and the text shown is the
difference of the two values of such a pair. -/
theorem C72_field_changes (dv : Bytes → Bytes → Bytes) (H : Bytes → Bytes) (mult : Nat) (pre post : TestResult) (hp : Mapped pre)
    (k : Bytes) (fs : List CallFrame) (hk : AMap.get (K := Bytes) (V := List CallFrame) pre.callers k = some fs) (x : Bytes) :
    ((∃ c t, (compareTest dv H mult pre post).fieldChanges.get k = some c ∧ c.get x = some t) ↔
      ∃ v w, Changed (callerKey H) fs (framesOf post k) x v w) ∧
    ∀ c t, (compareTest dv H mult pre post).fieldChanges.get k = some c → c.get x = some t →
      ∃ v w, Changed (callerKey H) fs (framesOf post k) x v w ∧ t = dv v w := by
  have hget : (compareTest dv H mult pre post).fieldChanges.get k =
      if (compareCaller dv (callerKey H) mult fs (framesOf post k)).out.changes ≠ [] then
        some (compareCaller dv (callerKey H) mult fs (framesOf post k)).out.changes else none := by
    have := get_map_filter (fun kv => (callerOut dv H mult post kv).out.changes) (fun c => decide (c ≠ [])) k pre.callers hp.callers
    simp only [compareTest]
    rw [this, hk]
    simp only [Option.bind_some, decide_eq_true_eq]
    rfl
  have hsub : ∀ c t, (compareTest dv H mult pre post).fieldChanges.get k = some c → c.get x = some t →
      ∃ v w, Changed (callerKey H) fs (framesOf post k) x v w ∧ t = dv v w := by
    intro c t hc ht
    rw [hget] at hc
    split at hc
    · cases hc
      rw [compareCaller_out] at ht
      rcases (fold_changes dv x t _ _).1 ht with h | ⟨f, g, v, w, hm, hv, hw, hne, he⟩
      · simp [AMap.get_nil] at h
      · obtain ⟨i, j, h1, h2, h3⟩ := (pairing_some _ _ _ _ _).mp hm
        exact ⟨v, w, ⟨i, j, f, g, h3, h1, h2, hv, hw, hne⟩, he⟩
    · cases hc
  refine ⟨⟨?_, ?_⟩, hsub⟩
  · rintro ⟨c, t, hc, ht⟩
    obtain ⟨v, w, h, _⟩ := hsub c t hc ht
    exact ⟨v, w, h⟩
  · rintro ⟨v, w, i, j, f, g, hm, hf, hg, hv, hw, hne⟩
    obtain ⟨t, ht⟩ := (fold_changes dv x [] (pairing (callerKey H) (framesOf post k) [] fs) ⟨0, 0, []⟩).2
      (Or.inr ⟨f, g, v, w, (pairing_some _ _ _ _ _).mpr ⟨i, j, hf, hg, hm⟩, hv, hw, hne⟩)
    rw [← compareCaller_out dv (callerKey H) mult] at ht
    have hne' : (compareCaller dv (callerKey H) mult fs (framesOf post k)).out.changes ≠ [] := by
      intro h0
      rw [h0, AMap.get_nil] at ht
      cases ht
    exact ⟨_, t, by rw [hget, if_pos hne'], ht⟩

/-- Hence, with `DiffValues`, no text shown is empty. -/
theorem C72_texts_not_empty (quote : Bytes → Bytes) (unified : Bytes → Bytes → Option Bytes) (H : Bytes → Bytes) (mult : Nat)
    (pre post : TestResult) (hp : Mapped pre) (k : Bytes) (fs : List CallFrame)
    (hk : AMap.get (K := Bytes) (V := List CallFrame) pre.callers k = some fs) (x : Bytes) (c : AMap Bytes Bytes) (t : Bytes)
    (hc : (compareTest (diffValues quote unified) H mult pre post).fieldChanges.get k = some c) (ht : c.get x = some t) : t ≠ [] := by
  obtain ⟨v, w, ⟨i, j, f, g, _, _, _, _, _, hne⟩, rfl⟩ := (C72_field_changes _ H mult pre post hp k fs hk x).2 c t hc ht
  intro h
  exact hne ((C33_diff_iff_partial quote unified v w).mp h)

example : ((compareTest (fun a b => a ++ b) id 10 (resultOf [frameA [1] 5, frameA [1] 9] [] false)
    (resultOf [frameA [2] 5, frameA [1] 6] [] false)).fieldChanges.get [99]) = some [([97], [1, 2])] := by decide +kernel

end Verif.Compare
