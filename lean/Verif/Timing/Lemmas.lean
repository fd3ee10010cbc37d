import Verif.Timing.Spec
import Verif.Verdict.Lemmas

namespace Verif.Timing

open Verif.Result (Bytes CallFrame TestResult)
open Verif.Total (Ctx Test Orderly Reports alone)
open Verif.Pipeline
open Verif.Monitor (callerKey stableLoop stableFrames)
open Verif.Compare (intervals Slower Faster FitsTimes framesOf pairing pairTimes MatchedTimes TestReport compareTest)

/-! ### Lists in order -/

/-- Going through a list, with what was before. -/
def walk {α β : Type} (G : List α → α → Option β) : List α → List α → List β
  | _, [] => []
  | pre, m :: l => (G pre m).toList ++ walk G (pre ++ [m]) l

theorem walk_congr {α β : Type} {G G' : List α → α → Option β} : ∀ (l pre : List α), (∀ a m b, pre ++ l = a ++ m :: b → G a m = G' a m) → walk G pre l = walk G' pre l
  | [], _, _ => rfl
  | m :: l, pre, h => by
      rw [walk, walk, h pre m l rfl, walk_congr l (pre ++ [m]) fun a m' b e => h a m' b (by rw [← e]; simp)]

theorem walk_zipIdx {α β : Type} (G : List α → α → Option β) : ∀ (l pre : List α),
    ((l.zipIdx pre.length).filterMap fun (m, i) => G ((pre ++ l).take i) m) = walk G pre l
  | [], _ => rfl
  | m :: l, pre => by
      have ih := walk_zipIdx G l (pre ++ [m])
      rw [List.length_append, List.length_singleton, List.append_assoc, List.singleton_append] at ih
      rw [List.zipIdx_cons, List.filterMap_cons, walk, ← ih]
      dsimp only
      rw [List.take_left' rfl]
      cases G pre m <;> rfl

/-- The pairs of calls of a stable result and another one. -/
theorem stable_walk {α : Type} (key : CallFrame → Bytes) (hkey : ∀ f g, key (combine f g) = key f) (bs gs : List CallFrame) (fr : α → CallFrame) :
    ∀ (ms pre : List α) (used : AMap Bytes Nat) (out : List CallFrame), (∀ k, (used.get k).getD 0 = pre.countP fun m => key (fr m) = k) →
      (∀ k, (out.countP fun f => key f = k) = (used.get k).getD 0 ∨ nth key bs k ((used.get k).getD 0) = none) →
      pairTimes (pairing key gs out (stableLoop key bs (ms.map fr) used)) =
        walk (fun pre m => (nth key bs (key (fr m)) (pre.countP fun m' => key (fr m') = key (fr m))).bind fun _ =>
          (nth key gs (key (fr m)) (pre.countP fun m' => key (fr m') = key (fr m))).map fun g => ((fr m).time, g.time)) pre ms
  | [], pre, used, out, _, _ => rfl
  | m :: ms, pre, used, out, hu, ho => by
      have hu' : ∀ k, ((used.set (key (fr m)) ((used.get (key (fr m))).getD 0 + 1)).get k).getD 0 = (pre ++ [m]).countP fun m' => key (fr m') = k := by
        intro k
        rw [AMap.get_set, List.countP_append, ← hu k]
        by_cases e : k = key (fr m)
        · subst e
          simp
        · have e' : ¬ key (fr m) = k := fun h => e h.symm
          simp [e, e']
      have ih := stable_walk key hkey bs gs fr ms (pre ++ [m]) (used.set (key (fr m)) ((used.get (key (fr m))).getD 0 + 1))
      rw [List.map_cons, stableLoop, walk, ← hu (key (fr m))]
      have hn : (bs.filter fun g => key g = key (fr m))[(used.get (key (fr m))).getD 0]? = nth key bs (key (fr m)) ((used.get (key (fr m))).getD 0) := rfl
      rw [hn]
      cases hb : nth key bs (key (fr m)) ((used.get (key (fr m))).getD 0) with
      | none =>
          dsimp only
          rw [Option.bind_none]
          refine ih out hu' fun k => ?_
          rw [AMap.get_set]
          by_cases e : k = key (fr m)
          · subst e
            rw [if_pos rfl]
            exact .inr (nth_mono hb (Nat.le_succ _))
          · rw [if_neg e]
            exact ho k
      | some g0 =>
          dsimp only
          have hc : (out.countP fun f => key f = key (fr m)) = (used.get (key (fr m))).getD 0 := by
            rcases ho (key (fr m)) with h | h
            · exact h
            · rw [hb] at h; cases h
          have ih' := ih (out ++ [combine (fr m) g0]) hu' fun k => by
            rw [AMap.get_set, List.countP_append]
            by_cases e : k = key (fr m)
            · subst e
              rw [if_pos rfl, hc]
              exact .inl (by simp [hkey])
            · rw [if_neg e]
              have e' : ¬ key (fr m) = k := fun h => e h.symm
              rcases ho k with h | h
              · exact .inl (by simp [hkey, e', h])
              · exact .inr h
          rw [← ih', Option.bind_some]
          have hk : key (combine (fr m) g0) = key (fr m) := hkey _ _
          have hcomb : (⟨Monitor.stableFV (fr m).fields g0.fields, (fr m).stack, (fr m).time⟩ : CallFrame) = combine (fr m) g0 := rfl
          rw [hcomb, pairing, pairTimes, List.filterMap_cons]
          dsimp only
          rw [hk, hc]
          have hg : (gs.filter fun g => key g = key (fr m))[(used.get (key (fr m))).getD 0]? = nth key gs (key (fr m)) ((used.get (key (fr m))).getD 0) := rfl
          rw [hg]
          cases nth key gs (key (fr m)) ((used.get (key (fr m))).getD 0) <;> rfl

/-! ### Results that differ in their trees only -/

theorem nth_time {H : Bytes → Bytes} {as bs : List CallFrame} (h : List.Forall₂ (Result.QFrame Loaded) as bs) (k : Bytes) (n : Nat) :
    (nth (callerKey H) as k n).map (·.time) = (nth (callerKey H) bs k n).map (·.time) := by
  have hf := filter_forall₂ (p := fun f => decide (callerKey H f = k)) (q := fun f => decide (callerKey H f = k))
    (fun x y hxy => by rw [callerKey, callerKey, hxy.2.1]) h
  unfold nth
  generalize (as.filter fun f => decide (callerKey H f = k)) = l at hf ⊢
  generalize (bs.filter fun f => decide (callerKey H f = k)) = l' at hf ⊢
  clear h
  induction hf generalizing n with
  | nil => rfl
  | cons a _ ih =>
      cases n with
      | zero => simp [a.2.2]
      | succ n => simpa using ih n

theorem countP_same {H : Bytes → Bytes} {as bs : List CallFrame} (h : List.Forall₂ (Result.QFrame Loaded) as bs) (k : Bytes) :
    (as.countP fun f => callerKey H f = k) = bs.countP fun f => callerKey H f = k := by
  induction h with
  | nil => rfl
  | @cons a b _ _ hab _ ih =>
      have e : callerKey H a = callerKey H b := by rw [callerKey, callerKey, hab.2.1]
      rw [List.countP_cons, List.countP_cons, ih, e]

theorem times_same {H : Bytes → Bytes} {gs gs' : List CallFrame} (hg : List.Forall₂ (Result.QFrame Loaded) gs gs') {fs fs' : List CallFrame}
    (hf : List.Forall₂ (Result.QFrame Loaded) fs fs') : ∀ {pre pre' : List CallFrame}, List.Forall₂ (Result.QFrame Loaded) pre pre' →
      pairTimes (pairing (callerKey H) gs pre fs) = pairTimes (pairing (callerKey H) gs' pre' fs') := by
  induction hf with
  | nil => intros; rfl
  | @cons a b l l' hab _ ih =>
      intro pre pre' hp
      have e : callerKey H a = callerKey H b := by rw [callerKey, callerKey, hab.2.1]
      have ih' := ih (pre := pre ++ [a]) (pre' := pre' ++ [b]) (List.rel_append hp (.cons hab .nil))
      unfold pairTimes at ih' ⊢
      rw [pairing, pairing, List.filterMap_cons, List.filterMap_cons, ih', e, countP_same hp]
      dsimp only
      have ht := nth_time (H := H) hg (callerKey H b) (pre'.countP fun g => callerKey H g = callerKey H b)
      unfold nth at ht
      rw [hab.2.2]
      have h2 : ∀ o o' : Option CallFrame, o.map (·.time) = o'.map (·.time) → (o.map fun g => (b.time, g.time)) = o'.map fun g => (b.time, g.time) := by
        intro o o' h
        cases o <;> cases o' <;> simp_all
      rw [h2 _ _ ht]

/-! ### The runs -/

theorem framesFor_map (c : Fields.Lib) (H : Bytes → Bytes) (l : List Call) (h : ∀ m ∈ l, m.ext = false) :
    framesFor c H none l = l.map (frameAt c H none 0) := by
  induction l using List.reverseRecOn with
  | nil => rfl
  | append_singleton l m ih =>
      rw [framesFor_snoc, ih fun m hm => h m (by simp [hm]), newFrame_eq c H none _ m (h m (by simp)), List.map_append]
      rfl

theorem millis_ms {ns : Nat} (h : ns + 500000 < 2 ^ 32 * 1000000) : millis ns = ms ns := by
  unfold millis ms
  exact Nat.mod_eq_of_lt (by omega)

theorem stableLoop_nil (key : CallFrame → Bytes) : ∀ (l : List CallFrame) (used : AMap Bytes Nat), stableLoop key [] l used = []
  | [], _ => rfl
  | f :: l, used => by
      rw [stableLoop]
      exact stableLoop_nil key l _

theorem base_frames (c : Fields.Lib) (H : Bytes → Bytes) (name : Bytes × Bytes) {r1 r2 : Run} (o1 : InOrder r1) (o2 : InOrder r2) (f : Bytes) :
    framesOf (baseOf c H name r1 r2) f = stableLoop (callerKey H) ((callsOf r2 f).map (frameAt c H none 0)) ((callsOf r1 f).map (frameAt c H none 0)) [] := by
  have hsort : ∀ {r : Run}, InOrder r → Monitor.sortByTime (framesFor c H none (callsOf r f)) = (callsOf r f).map (frameAt c H none 0) := by
    intro r o
    rw [sortByTime_sorted (framesFor_sorted c H none _ (inOrder_millis o f)), framesFor_map c H _ callsOf_ext]
  unfold framesOf
  rw [stable_get]
  cases h1 : someList (callsOf r1 f) (framesFor c H none) with
  | none => rw [someList_none h1]; rfl
  | some a =>
      cases h2 : someList (callsOf r2 f) (framesFor c H none) with
      | none => rw [someList_none h2, List.map_nil, stableLoop_nil]; rfl
      | some b =>
          rw [someList_some h1, someList_some h2, ← hsort o1, ← hsort o2]
          rfl

theorem timeline_walk (x : Ctx) (t : Test) (f : Bytes) :
    timeline x t f = walk (fun pre m => times x t f m (pre.filter fun m' => pathOf m'.stack = pathOf m.stack).length) [] (callsOf t.r1 f) := by
  rw [← walk_zipIdx]
  rfl

theorem nth_frames (c : Fields.Lib) (H : Bytes → Bytes) (l : List Call) (k : Bytes) (n : Nat) :
    nth (callerKey H) (l.map (frameAt c H none 0)) k n = ((l.filter fun m => keyOf H m = k)[n]?).map (frameAt c H none 0) := by
  unfold nth
  rw [List.filter_map, List.getElem?_map]
  rfl

/-- The times compared are those of the runs. -/
theorem timeline_of {x : Ctx} {t : Test} (h : Orderly x t) (hs : ∀ m ∈ t.r3.calls, m.ns + 500000 < 2 ^ 32 * 1000000) {B P : TestResult}
    (sB : SameAs B (baseOf x.c x.H (t.ident, t.name) t.r1 t.r2)) (sP : SameAs P (postOf x.c x.H x.force (t.ident, t.name) B t.r3 t.r4)) (f : Bytes) :
    pairTimes (pairing (callerKey x.H) (framesOf P f) [] (framesOf B f)) = timeline x t f := by
  rw [times_same (frames_same sP f) (frames_same sB f) .nil, base_frames x.c x.H _ h.first h.second,
    stable_walk (callerKey x.H) (key_combine x.H) _ _ (frameAt x.c x.H none 0) _ [] [] [] (fun k => rfl) (fun k => .inl rfl), timeline_walk]
  refine walk_congr _ _ fun a m b e => ?_
  rw [List.nil_append] at e
  have hm : m ∈ callsOf t.r1 f := by rw [e]; simp
  have hm1 : m ∈ t.r1.calls := (List.mem_filter.mp hm).1
  have ha : Along x.H [t.r1, t.r2, t.r3, t.r4] f (keyOf x.H m) (pathOf m.stack) := fun r hr => along_key x.H h.keyed hr (by simp) hm1 f
  have hk : callerKey x.H (frameAt x.c x.H none 0 m) = keyOf x.H m := rfl
  have hc : (a.countP fun m' => callerKey x.H (frameAt x.c x.H none 0 m') = callerKey x.H (frameAt x.c x.H none 0 m)) =
      (a.filter fun m' => pathOf m'.stack = pathOf m.stack).length := by
    rw [← List.countP_eq_length_filter]
    refine List.countP_congr fun m' hm' => ?_
    have hm1' : m' ∈ t.r1.calls := by
      have : m' ∈ callsOf t.r1 f := by rw [e]; simp [hm']
      exact (List.mem_filter.mp this).1
    simp only [decide_eq_true_eq]
    exact ⟨h.keyed _ (by simp) _ hm1' _ (by simp) _ hm1, fun e => key_of_path x.H e⟩
  rw [hc, hk, nth_frames, ha t.r2 (by simp), post_nth (rs := [t.r1, t.r2, t.r3, t.r4]) (by simp) (by simp) h.after ha]
  generalize (a.filter fun m' => pathOf m'.stack = pathOf m.stack).length = n
  have ht : (frameAt x.c x.H none 0 m).time = ms m.ns := millis_ms (h.first.1 m hm1)
  rw [ht]
  unfold times
  cases (callsAlong t.r2 f (pathOf m.stack))[n]? with
  | none => rfl
  | some m2 =>
      cases h3 : (callsAlong t.r3 f (pathOf m.stack))[n]? with
      | none => rfl
      | some m3 =>
          have ht3 : ∀ st, (frameAt x.c x.H st n m3).time = ms m3.ns := fun st => by
            rw [← millis_ms (hs m3 (along_mem h3).1)]
            cases st <;> rfl
          cases x.force with
          | false => simp [ht3]
          | true =>
              cases (callsAlong t.r4 f (pathOf m.stack))[n]? with
              | none => simp
              | some m4 =>
                  have : (combine (frameAt x.c x.H (some B.callers) n m3) (frameAt x.c x.H none n m4)).time = ms m3.ns := ht3 _
                  simp [this]

/-! ### The list of time changes -/

/-- The time changes of one test are right. -/
structure Clocked (x : Ctx) (t : Test) (rep : TestReport) : Prop where
  sound : ∀ f c, AMap.get (K := Bytes) rep.timeChanges f = some c → Timed x t f c.diff c.pre c.post
  complete : ∀ f, (∃ iv ∈ gaps x t f, Slower x.mult iv ∨ Faster x.mult iv) → ∃ c, AMap.get (K := Bytes) rep.timeChanges f = some c

theorem clocked {x : Ctx} {t : Test} (h : Orderly x t) (hm : 1 ≤ x.mult) (hf : Fits x t) :
    ∃ f0, ∀ fuel, f0 ≤ fuel → ∃ rep, alone x fuel t = some rep ∧ Verdict.Right x t rep ∧ Clocked x t rep := by
  obtain ⟨B, P, f0, h1, _, _, mB, _, sB, sP⟩ := stored_ok (dv := x.dv) (mult := x.mult) (name := (t.ident, t.name)) h.keyed h.first h.second h.after h.store1 h.store2
  obtain ⟨f1, hr⟩ := Verdict.right h
  refine ⟨max f0 f1, fun fuel hfu => ?_⟩
  have ha : alone x fuel t = some (compareTest x.dv x.H x.mult B P) := h1 fuel (by omega)
  obtain ⟨rep, hrep, hright⟩ := hr fuel (by omega)
  rw [ha] at hrep
  cases hrep
  refine ⟨_, ha, hright, ?_⟩
  have key : ∀ f, (∃ fs, AMap.get (K := Bytes) (V := List CallFrame) B.callers f = some fs ∧ MatchedTimes (callerKey x.H) fs (framesOf P f) (timeline x t f)) ∨
      (AMap.get (K := Bytes) (V := List CallFrame) B.callers f = none ∧ timeline x t f = []) := by
    intro f
    have ht := timeline_of h hf.after sB sP f
    cases hg : AMap.get (K := Bytes) (V := List CallFrame) B.callers f with
    | none =>
        refine .inr ⟨rfl, ?_⟩
        rw [← ht]
        have : framesOf B f = [] := by unfold framesOf; rw [hg]; rfl
        rw [this]
        rfl
    | some fs =>
        refine .inl ⟨fs, rfl, ?_⟩
        have : framesOf B f = fs := by unfold framesOf; rw [hg]; rfl
        rw [← ht, this]
        exact Compare.pairing_times _ _ _
  constructor
  · intro f c hc
    rcases key f with ⟨fs, hg, hmt⟩ | ⟨hg, _⟩
    · obtain ⟨⟨e1, e2, e3⟩, e4, e5⟩ := (Compare.C32_reported_partial x.dv x.H x.mult B P mB hm f fs hg _ hmt (hf.gap f)).2 c hc
      exact ⟨e1, e2, e3, e4, e5⟩
    · exfalso
      have := Compare.get_map_filter (fun kv => (Compare.callerOut x.dv x.H x.mult P kv).most) (fun c => decide (c.diff ≠ 0)) f B.callers mB.callers
      rw [hg] at this
      simp only [compareTest] at hc
      rw [hc] at this
      cases this
  · intro f hiv
    rcases key f with ⟨fs, hg, hmt⟩ | ⟨_, e⟩
    · exact (Compare.C32_reported_partial x.dv x.H x.mult B P mB hm f fs hg _ hmt (hf.gap f)).1.mpr hiv
    · obtain ⟨iv, hi, _⟩ := hiv
      unfold gaps at hi
      rw [e] at hi
      cases hi

theorem clocked_all {x : Ctx} (hm : 1 ≤ x.mult) : ∀ {ts : List Test}, (∀ t ∈ ts, Orderly x t) → (∀ t ∈ ts, Fits x t) →
    ∃ f0, ∀ fuel, f0 ≤ fuel → ∀ t ∈ ts, ∃ rep, alone x fuel t = some rep ∧ Verdict.Right x t rep ∧ Clocked x t rep
  | [], _, _ => ⟨0, by simp⟩
  | t :: ts, h, hf => by
      obtain ⟨f0, h0⟩ := clocked (h t (by simp)) hm (hf t (by simp))
      obtain ⟨f1, h1⟩ := clocked_all hm (ts := ts) (fun t ht => h t (by simp [ht])) fun t ht => hf t (by simp [ht])
      refine ⟨max f0 f1, fun fuel hfu t' ht' => ?_⟩
      rcases List.mem_cons.mp ht' with rfl | ht'
      · exact h0 fuel (by omega)
      · exact h1 fuel (by omega) t' ht'

/-- The reports in the order of the file. -/
theorem results_eq {x : Ctx} {fuel : Nat} {ts : List Test} {same diff : Nat} {reports : List TestReport} (h : Reports x fuel ts same diff reports) :
    Report.results (reports.map Verdict.toTest) = reports.map fun r => { Verdict.toTest r with fields := Report.trimFields (Verdict.toTest r).fields } := by
  obtain ⟨sorted, hp, hs, hf⟩ := h.each
  clear hp
  have hle : (reports.map Verdict.toTest).Pairwise fun a b => Report.le a.ident b.ident = true := by
    have hid : List.Forall₂ (fun t u => u.ident = t.ident) sorted (reports.map Verdict.toTest) := by
      rw [List.forall₂_map_right_iff]
      exact hf.imp fun _ _ h => h.2.1
    have e : (reports.map Verdict.toTest).map (·.ident) = sorted.map (·.ident) := by
      clear hf hs h
      generalize reports.map Verdict.toTest = us at hid
      induction hid with
      | nil => rfl
      | cons a _ ih => rw [List.map_cons, List.map_cons, a, ih]
    have h2 : ((reports.map Verdict.toTest).map (·.ident)).Pairwise fun a b => Report.le a b = true := by
      rw [e, List.pairwise_map]
      refine hs.imp fun {a b} hab => ?_
      unfold Report.le
      exact decide_eq_true (List.le_of_lt hab)
    rwa [List.pairwise_map] at h2
  unfold Report.results
  rw [Report.sortBy_id hle, List.map_map]
  rfl

theorem perfs_eq {x : Ctx} {fuel : Nat} {ts : List Test} {same diff : Nat} {reports : List TestReport} (h : Reports x fuel ts same diff reports) (i : Report.Input) :
    (Report.metrics (Verdict.written i (same, diff, reports))).perf = reports.flatMap fun r => r.timeChanges.map fun kv =>
      ⟨r.original.testIdent, r.original.testName, kv.1, kv.2.diff, kv.2.pre, kv.2.post⟩ := by
  show (Report.results (reports.map Verdict.toTest)).flatMap Report.perfs = _
  rw [results_eq h, List.flatMap_map]
  congr 1
  funext r
  unfold Report.perfs Verdict.toTest
  dsimp only
  rw [List.map_map]
  refine List.map_congr_left fun kv _ => ?_
  show (⟨_, _, kv.1, (kv.2.diff * 1000000).tdiv 1000000, _, _⟩ : Report.Perf) = _
  rw [Int.mul_tdiv_cancel _ (by decide)]

theorem perfs_of {x : Ctx} {fuel : Nat} {ts : List Test} {same diff : Nat} {reports : List TestReport} (h : Reports x fuel ts same diff reports)
    (hr : ∀ t ∈ ts, ∃ rep, alone x fuel t = some rep ∧ Verdict.Right x t rep ∧ Clocked x t rep) (i : Report.Input) :
    Perfs x ts (Report.metrics (Verdict.written i (same, diff, reports))).perf := by
  rw [perfs_eq h]
  obtain ⟨sorted, hp, hs, hf⟩ := h.each
  have hall : List.Forall₂ (fun t rep => rep.original.testIdent = t.ident ∧ rep.original.testName = t.name ∧ (AMap.keys rep.timeChanges).Nodup ∧ Clocked x t rep) sorted reports := by
    have hr' : ∀ t ∈ sorted, ∃ rep, alone x fuel t = some rep ∧ Verdict.Right x t rep ∧ Clocked x t rep := fun t ht => hr t (hp.mem_iff.mp ht)
    clear hp hs h hr
    induction hf with
    | nil => exact .nil
    | @cons t rep l l' a _ ih =>
        obtain ⟨rep', e1, e2, e3⟩ := hr' t (by simp)
        rw [a.1] at e1
        cases e1
        exact .cons ⟨a.2.1, a.2.2.1, e2.times, e3⟩ (ih fun t ht => hr' t (by simp [ht]))
  clear hr hf h
  suffices hsorted : Perfs x sorted (reports.flatMap fun r => r.timeChanges.map fun kv => ⟨r.original.testIdent, r.original.testName, kv.1, kv.2.diff, kv.2.pre, kv.2.post⟩) by
    refine ⟨fun p hpm => ?_, fun t ht => hsorted.complete t (hp.mem_iff.mpr ht), hsorted.once⟩
    obtain ⟨t, ht, e⟩ := hsorted.sound p hpm
    exact ⟨t, hp.mem_iff.mp ht, e⟩
  clear hp
  induction hall with
  | nil => exact ⟨by simp, by simp, by simp⟩
  | @cons t rep l l' a _ ih =>
      rw [List.pairwise_cons] at hs
      have ih := ih hs.2
      rw [List.flatMap_cons]
      constructor
      · intro p hpm
        rcases List.mem_append.mp hpm with hpm | hpm
        · obtain ⟨kv, hkv, rfl⟩ := List.mem_map.mp hpm
          exact ⟨t, by simp, a.1, a.2.1, a.2.2.2.sound kv.1 kv.2 (AMap.get_eq_some_of_mem a.2.2.1 hkv)⟩
        · obtain ⟨t', ht', e⟩ := ih.sound p hpm
          exact ⟨t', by simp [ht'], e⟩
      · intro t' ht' f hiv
        rcases List.mem_cons.mp ht' with rfl | ht'
        · obtain ⟨c, hc⟩ := a.2.2.2.complete f hiv
          exact ⟨_, List.mem_append_left _ (List.mem_map.mpr ⟨_, AMap.mem_of_get hc, rfl⟩), a.1, rfl⟩
        · obtain ⟨p, hpm, e⟩ := ih.complete t' ht' f hiv
          exact ⟨p, List.mem_append_right _ hpm, e⟩
      · refine List.pairwise_append.mpr ⟨?_, ih.once, ?_⟩
        · rw [List.pairwise_map]
          have hk := a.2.2.1
          unfold AMap.keys at hk
          rw [List.Nodup, List.pairwise_map] at hk
          exact hk.imp fun hne e => hne (congrArg Prod.snd e)
        · intro p hpm q hq e
          obtain ⟨kv, _, rfl⟩ := List.mem_map.mp hpm
          obtain ⟨t', ht', e', _⟩ := ih.sound q hq
          have e1 : rep.original.testIdent = q.ident := congrArg Prod.fst e
          have := hs.1 t' ht'
          rw [← e', ← e1, a.1] at this
          exact List.lt_irrefl _ this

/-! ### JSON -/

theorem gap_small {x : Ctx} {t : Test} (hm : 1 ≤ x.mult) (hf : Fits x t) {f : Bytes} {iv : Nat × Nat} (h : iv ∈ gaps x t f) : iv.1 < 2 ^ 32 ∧ iv.2 < 2 ^ 32 := by
  obtain ⟨h1, h2⟩ := hf.gap f iv h
  have e1 : max 1 iv.1 ≤ x.mult * max 1 iv.1 := Nat.le_mul_of_pos_left _ hm
  have e2 : max 1 iv.2 ≤ x.mult * max 1 iv.2 := Nat.le_mul_of_pos_left _ hm
  omega

theorem viaFloat_id {n : Nat} (h : n < 2 ^ 32) : Report.viaFloat n = n := by
  unfold Report.viaFloat
  rw [if_pos (by omega)]

theorem through_perf {x : Ctx} {ts : List Test} (hm : 1 ≤ x.mult) (hf : ∀ t ∈ ts, Fits x t) {m : Report.Metrics} (h : Perfs x ts m.perf) {js : Bytes → Bytes}
    (hj : Survives js m.perf) : (Report.through js m).perf = m.perf := by
  show m.perf.map _ = m.perf
  conv_rhs => rw [← List.map_id m.perf]
  refine List.map_congr_left fun p hp => ?_
  obtain ⟨t, ht, _, _, hT⟩ := h.sound p hp
  obtain ⟨e1, e2, e3⟩ := hj p hp
  obtain ⟨s1, s2⟩ := gap_small hm (hf t ht) hT.gap
  have hd : Report.viaFloatInt p.diff = p.diff := by
    have := hT.amount
    unfold Report.viaFloatInt
    rw [viaFloat_id (by omega)]
    split <;> omega
  rw [e1, e2, e3, viaFloat_id s1, viaFloat_id s2, hd]
  rfl

end Verif.Timing
