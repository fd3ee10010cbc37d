import Verif.Report.Lemmas
import Verif.Engine.Lemmas
import Mathlib.Data.List.Forall2

/-! Properties C63–C66, C82–C85. -/

namespace Verif.Report
open Verif

/-! ### C63 -/

/-- The lists of functions are sorted, have each entry once, and have exactly the entries found. -/
theorem C63_functions (i : Input) : Strict (metrics i).reachable ∧ Strict (metrics i).callers ∧
    (∀ x, x ∈ (metrics i).reachable ↔ ∃ c ∈ i.callers, x ∈ c.changes) ∧ (∀ x, x ∈ (metrics i).callers ↔ ∃ c ∈ i.callers, c.ident = x) := by
  refine ⟨(keySet_spec _).1, (keySet_spec _).1, fun x => ?_, fun x => ?_⟩
  · exact ((keySet_spec _).2 x).trans List.mem_flatMap
  · exact ((keySet_spec _).2 x).trans List.mem_map

/-- The tests are sorted and are those found. Missing: each once, which needs different identifiers. -/
theorem C63_tests_partial (i : Input) : (metrics i).tests.Pairwise (· ≤ ·) ∧ (metrics i).tests.Perm (i.tests.map (·.1)) ∧
    ((i.tests.map (·.1)).Nodup → Strict (metrics i).tests) := by
  have hp : (metrics i).tests.Perm (i.tests.map (·.1)) := sortBy_perm le _
  exact ⟨sortBy_le _, hp, fun h => strict_of (sortBy_le _) (hp.nodup_iff.mpr h)⟩

/-- The details are sorted by test and there is one for every result, with its values. -/
theorem C63_details_partial (i : Input) : (metrics i).details.Pairwise (fun a b => a.ident ≤ b.ident) ∧
    (metrics i).details.Perm (i.results.map fun t => ⟨t.ident, t.name, t.before, !t.before && t.after, t.diff, t.hits, trimFields t.fields⟩) := by
  constructor
  · show ((results i.results).map detail).Pairwise _
    rw [List.pairwise_map]
    exact (results_sorted i.results).imp fun h => by simpa [le, detail] using h
  · have := (results_perm i.results).map detail
    rw [List.map_map] at this
    exact this

def t1 : Test := ⟨[116, 49], [84, 49], false, true, 3, 0, [], [([99, 49], ⟨5000000, 10, 15⟩), ([99, 50], ⟨-2500000, 9, 6⟩)]⟩
def t2 : Test := ⟨[115, 50], [84, 50], false, false, 1, 2, [([99, 49], [([120], [32, 49])])], []⟩
def input : Input := ⟨[⟨[109], [118, 49], [118, 50], false⟩], [[109]], 5, 2, 1, 40, [⟨[99, 50], [[102], [103]]⟩, ⟨[99, 49], [[102]]⟩], [([116, 49], [84, 49]), ([115, 50], [84, 50])],
  30, 2, [t1, t2], 7, 3⟩

example : (metrics input).callers = [[99, 49], [99, 50]] ∧ (metrics input).reachable = [[102], [103]] ∧ (metrics input).tests = [[115, 50], [116, 49]] ∧
    (metrics input).details.map (·.ident) = [[115, 50], [116, 49]] := by decide

/-- A test found twice is listed twice. -/
theorem C63_twice_violated : ∃ i : Input, ¬ (metrics i).tests.Nodup := ⟨{ input with tests := [([116], [84]), ([116], [84])] }, by decide⟩

/-- Time changes are listed in the order in which the map happens to be iterated. -/
theorem C63_times_violated : ∃ (i i' : Input) (t t' : Test), i.results = [t] ∧ i' = { i with results := [t'] } ∧ t' = { t with times := t'.times } ∧ t'.times.Perm t.times ∧
    (metrics i).perf ≠ (metrics i').perf :=
  ⟨{ input with results := [t1] }, { input with results := [{ t1 with times := t1.times.reverse }] }, t1, { t1 with times := t1.times.reverse }, rfl, rfl, rfl, by decide, by decide⟩

/-! ### C64 -/

theorem root_mem (ms : List Mod) : rootModule ms ∈ ms ∨ rootModule ms = ⟨[], [], [], false⟩ := by
  have loop : ∀ (ms : List Mod) (d : Mod), rootLoop ms d = d ∨ rootLoop ms d ∈ ms ∨ rootLoop ms d = ⟨[], [], [], false⟩ := by
    intro ms
    induction ms with
    | nil => intro d; exact Or.inl rfl
    | cons m ms ih =>
        intro d
        unfold rootLoop
        split
        · split
          · rcases ih m with h | h | h
            · right; left; rw [h]; simp
            · right; left; exact List.mem_cons_of_mem _ h
            · right; right; exact h
          · right; right; rfl
        · rcases ih d with h | h | h
          · left; exact h
          · right; left; exact List.mem_cons_of_mem _ h
          · right; right; exact h
  unfold rootModule
  split
  · left; simp
  · rcases loop ms ⟨[], [], [], false⟩ with h | h | h
    · right; exact h
    · left; exact h
    · right; exact h

/-- Of the changed fields, the report has every caller and field, with the text of the change without white space around it. -/
theorem C63_texts (i : Input) : ∃ F : Test → AMap Bytes (AMap Bytes Bytes),
    (metrics i).details.Perm (i.results.map fun t => ⟨t.ident, t.name, t.before, !t.before && t.after, t.diff, t.hits, F t⟩) ∧
    ∀ t ∈ i.results, List.Forall₂ (fun a b => a.1 = b.1 ∧ List.Forall₂ (fun x y => x.1 = y.1 ∧ Engine.Trimmed x.2 y.2) a.2 b.2) t.fields (F t) := by
  refine ⟨fun t => trimFields t.fields, (C63_details_partial i).2, fun t _ => ?_⟩
  unfold trimFields
  rw [List.forall₂_map_right_iff, List.forall₂_same]
  intro a _
  refine ⟨rfl, ?_⟩
  rw [List.forall₂_map_right_iff, List.forall₂_same]
  exact fun x _ => ⟨rfl, Engine.trim_trimmed x.2⟩

/-- The number of tests written by the tool is that of the tests named "TestGen_…". -/
theorem C63_generated (i : Input) :
    (metrics i).generated = (i.tests.filter fun t => decide ("TestGen_".toUTF8.toList <+: t.2)).length := by
  show (i.tests.filter fun t => genPrefix.isPrefixOf t.2).length = _
  congr 1
  apply List.filter_congr
  intro t _
  have h : "TestGen_".toUTF8.toList = genPrefix := by decide +kernel
  rw [h, Bool.eq_iff_iff, List.isPrefixOf_iff_prefix, decide_eq_true_iff]

/-- The rebuilt tests. -/
theorem rebuilt (js : Bytes → Bytes) (i : Input) (hn : (i.results.map (·.ident)).Nodup) (hk : ∀ t ∈ i.results, (AMap.keys t.times).Nodup) (ht : TextOk js i) (hc : CountsOk i) :
    ∀ t ∈ results i.results, ∃ t' : Test, rebuild (through js (metrics i)).perf
        (match detail t with | d => ⟨js d.ident, js d.name, d.baseline, d.regression, viaFloat d.diff, viaFloat d.hits, mapThrough js (mapThrough js js) d.fields⟩) = t' ∧
      t'.ident = t.ident ∧ t'.name = t.name ∧ t'.before = t.before ∧ t'.after = (!t.before && t.after) ∧ t'.diff = t.diff ∧
      (t'.times.map fun x => (x.1, x.2.pre, x.2.post)).Perm (t.times.map fun x => (x.1, x.2.pre, x.2.post)) := by
  intro t hmem
  obtain ⟨u, hu, e1, e2, e3, e4, e5, e6, e7⟩ := results_mem hmem
  have hju := ht.2.2 u hu
  have hcu := hc.2 u hu
  refine ⟨_, rfl, ?_, ?_, rfl, rfl, ?_, ?_⟩
  · show js t.ident = t.ident
    rw [e1, hju.1]
  · show js t.name = t.name
    rw [e2, hju.2.1]
  · show viaFloat t.diff = t.diff
    rw [e6, viaFloat_id hcu.1]
  · have hnr : ((results i.results).map (·.ident)).Nodup := (results_idents _).nodup_iff.mpr hn
    have hperf : (through js (metrics i)).perf =
        (results i.results).flatMap fun t => t.times.map fun c => (⟨t.ident, t.name, c.1, viaFloatInt (c.2.diff.tdiv 1000000), c.2.pre, c.2.post⟩ : Perf) := by
      show (((results i.results).flatMap perfs).map _) = _
      rw [List.map_flatMap]
      apply List.flatMap_congr
      intro x hx
      obtain ⟨v, hv, f1, f2, -, -, -, -, f7⟩ := results_mem hx
      have hjv := ht.2.2 v hv
      have hcv := hc.2 v hv
      unfold perfs
      rw [List.map_map]
      apply List.map_congr_left
      intro c hcm
      rw [f7] at hcm
      have h1 := hjv.2.2 c hcm
      have h2 := hcv.2 c hcm
      simp only [Function.comp_apply, Perf.mk.injEq]
      refine ⟨?_, ?_, h1, trivial, viaFloat_id h2.1, viaFloat_id h2.2⟩
      · rw [f1]; exact hjv.1
      · rw [f2]; exact hjv.2.1
    have hfil : (through js (metrics i)).perf.filter (fun p => p.ident = js t.ident) =
        t.times.map fun c => (⟨t.ident, t.name, c.1, viaFloatInt (c.2.diff.tdiv 1000000), c.2.pre, c.2.post⟩ : Perf) := by
      have hjt : js t.ident = t.ident := by rw [e1]; exact hju.1
      rw [hperf, hjt]
      refine filter_flatMap_one (fun t : Test => t.ident) _ (fun p : Perf => p.ident) ?_ _ hnr t hmem
      intro a b hb
      obtain ⟨c, -, rfl⟩ := List.mem_map.mp hb
      rfl
    show (List.map _ (((through js (metrics i)).perf.filter fun p => p.ident = js t.ident).foldl
      (fun m p => AMap.set m p.caller (⟨p.diff * 1000000, p.pre, p.post⟩ : Time)) [])).Perm _
    rw [hfil, foldl_set_nodup _ (fun p => ⟨p.diff * 1000000, p.pre, p.post⟩) [] (by simp [AMap.keys])]
    · rw [List.append_nil, List.map_reverse, List.map_map, List.map_map]
      exact List.reverse_perm _
    · rw [List.map_map]
      have := hk u hu
      rw [← e7] at this
      exact this

theorem viaFloatInt_id {n : Int} (h : n.natAbs ≤ 2 ^ 53) : viaFloatInt n = n := by
  unfold viaFloatInt
  rw [viaFloat_id h]
  split <;> omega

/-- Writing and reading a map whose keys are text and differ gives the same entries, with values written and read. -/
theorem mapThrough_mem {V} (js : Bytes → Bytes) (f : V → V) (m : AMap Bytes V) (hk : (AMap.keys m).Nodup) (hj : ∀ e ∈ m, js e.1 = e.1) (e : Bytes × V) :
    e ∈ mapThrough js f m ↔ ∃ v, (e.1, v) ∈ m ∧ e.2 = f v := by
  have hp : (sortBy (fun a b => le a.1 b.1) m).Perm m := sortBy_perm _ _
  have key : ∀ (l : AMap Bytes V) (acc : AMap Bytes V), (∀ e ∈ l, js e.1 = e.1) → (l.map (·.1)).Nodup → (∀ e ∈ l, e.1 ∉ acc.map (·.1)) →
      ∀ e, e ∈ l.foldl (fun m e => AMap.set m (js e.1) (f e.2)) acc ↔ e ∈ acc ∨ ∃ v, (e.1, v) ∈ l ∧ e.2 = f v := by
    intro l
    induction l with
    | nil => intro acc _ _ _ e; simp
    | cons x l ih =>
        intro acc h1 h2 h3 e
        rw [List.map_cons, List.nodup_cons] at h2
        have hx : js x.1 = x.1 := h1 x (List.mem_cons_self ..)
        have hset : AMap.set acc (js x.1) (f x.2) = (x.1, f x.2) :: acc := by
          rw [hx]
          unfold AMap.set AMap.del
          rw [List.filter_eq_self.mpr]
          intro y hy
          have : y.1 ≠ x.1 := fun e => h3 x (List.mem_cons_self ..) (e ▸ List.mem_map_of_mem hy)
          simpa using this
        rw [List.foldl_cons, hset, ih _ (fun e he => h1 e (List.mem_cons_of_mem _ he)) h2.2]
        · constructor
          · rintro (h | ⟨v, hv, hf⟩)
            · rcases List.mem_cons.mp h with rfl | h
              · exact .inr ⟨x.2, List.mem_cons_self .., rfl⟩
              · exact .inl h
            · exact .inr ⟨v, List.mem_cons_of_mem _ hv, hf⟩
          · rintro (h | ⟨v, hv, hf⟩)
            · exact .inl (List.mem_cons_of_mem _ h)
            · rcases List.mem_cons.mp hv with hv | hv
              · left
                have h1 : e.1 = x.1 := by rw [← hv]
                have h2 : v = x.2 := by rw [← hv]
                rw [← h2, ← hf, ← h1]
                exact List.mem_cons_self ..
              · exact .inr ⟨v, hv, hf⟩
        · intro y hy hm
          rw [List.map_cons] at hm
          rcases List.mem_cons.mp hm with h | h
          · exact h2.1 (h ▸ List.mem_map_of_mem hy)
          · exact h3 y (List.mem_cons_of_mem _ hy) h
  unfold mapThrough
  rw [key _ [] (fun e he => hj e (hp.mem_iff.mp he)) ((hp.map _).nodup_iff.mpr hk) (by simp)]
  simp only [List.not_mem_nil, false_or]
  exact ⟨fun ⟨v, h, h'⟩ => ⟨v, hp.mem_iff.mp h, h'⟩, fun ⟨v, h, h'⟩ => ⟨v, hp.mem_iff.mpr h, h'⟩⟩

/-- A saved report has the times and the changed fields of every test as they were, if strings are text, numbers are at most 2^53 and names in
maps differ. Missing: these conditions. -/
theorem C64_saved_partial (js : Bytes → Bytes) (m : Metrics)
    (hp : ∀ p ∈ m.perf, js p.ident = p.ident ∧ js p.name = p.name ∧ js p.caller = p.caller ∧ p.diff.natAbs ≤ 2 ^ 53 ∧ p.pre ≤ 2 ^ 53 ∧ p.post ≤ 2 ^ 53)
    (hd : ∀ d ∈ m.details, js d.ident = d.ident ∧ js d.name = d.name ∧ d.diff ≤ 2 ^ 53 ∧ d.hits ≤ 2 ^ 53 ∧ (d.fields.map (·.1)).Nodup ∧
      ∀ e ∈ d.fields, js e.1 = e.1 ∧ (e.2.map (·.1)).Nodup ∧ ∀ x ∈ e.2, js x.1 = x.1 ∧ js x.2 = x.2) :
    (through js m).perf = m.perf ∧
    List.Forall₂ (fun d d' => d'.ident = d.ident ∧ d'.name = d.name ∧ d'.baseline = d.baseline ∧ d'.regression = d.regression ∧ d'.diff = d.diff ∧
      d'.hits = d.hits ∧ ∀ c n v, (∃ fs, (c, fs) ∈ d'.fields ∧ (n, v) ∈ fs) ↔ ∃ fs, (c, fs) ∈ d.fields ∧ (n, v) ∈ fs) m.details (through js m).details := by
  constructor
  · show m.perf.map _ = m.perf
    conv => rhs; rw [← List.map_id m.perf]
    apply List.map_congr_left
    intro p h
    obtain ⟨h1, h2, h3, h4, h5, h6⟩ := hp p h
    simp only [h1, h2, h3, viaFloatInt_id h4, viaFloat_id h5, viaFloat_id h6, id_eq]
  · show List.Forall₂ _ m.details (m.details.map _)
    rw [List.forall₂_map_right_iff, List.forall₂_same]
    intro d h
    obtain ⟨h1, h2, h3, h4, h5, h6⟩ := hd d h
    refine ⟨h1, h2, rfl, rfl, viaFloat_id h3, viaFloat_id h4, fun c n v => ?_⟩
    have outer := mapThrough_mem js (mapThrough js js) d.fields h5 (fun e he => (h6 e he).1)
    constructor
    · rintro ⟨fs, hf, hx⟩
      obtain ⟨u, hu, e⟩ := (outer (c, fs)).mp hf
      refine ⟨u, hu, ?_⟩
      have h7 := h6 _ hu
      change fs = mapThrough js js u at e
      rw [e, mapThrough_mem js js u h7.2.1 (fun x hx => (h7.2.2 x hx).1)] at hx
      obtain ⟨w, hw, e'⟩ := hx
      change v = js w at e'
      rw [e', (h7.2.2 _ hw).2]
      exact hw
    · rintro ⟨fs, hf, hx⟩
      have h7 := h6 _ hf
      refine ⟨mapThrough js js fs, (outer _).mpr ⟨fs, hf, rfl⟩, ?_⟩
      exact (mapThrough_mem js js fs h7.2.1 (fun x hx => (h7.2.2 x hx).1) _).mpr ⟨v, hx, ((h7.2.2 _ hx).2).symm⟩

/-- Names that JSON does not keep apart (both have bytes that are not text) become one: the changes of the first are lost. -/
theorem C64_merged_violated (js : Bytes → Bytes) (a b : Bytes) (hj : js a = js b) (m : Metrics) (d : Detail)
    (hm : m.details = [{ d with fields := [(a, [([120], [49])]), (b, [([121], [50])])] }]) : ∃ d', (through js m).details = [d'] ∧ d'.fields.length = 1 := by
  refine ⟨_, by show m.details.map _ = _; rw [hm]; rfl, ?_⟩
  show (mapThrough js (mapThrough js js) [(a, [([120], [49])]), (b, [([121], [50])])]).length = 1
  have : ∀ (x y : Bytes × AMap Bytes Bytes) (g : AMap Bytes Bytes → AMap Bytes Bytes), js x.1 = js y.1 →
      ((sortBy (fun a b => le a.1 b.1) [x, y]).foldl (fun m e => AMap.set m (js e.1) (g e.2)) []).length = 1 := by
    intro x y g h
    simp only [sortBy, insertBy]
    split <;> simp [AMap.set, AMap.del, h]
  exact this (a, [([120], [49])]) (b, [([121], [50])]) (mapThrough js js) hj

example : ([65, 255] : Bytes) ≠ [65, 254] ∧ (fun s : Bytes => s.map fun x => if x < 128 then x else 63) [65, 255] =
    (fun s : Bytes => s.map fun x => if x < 128 then x else 63) [65, 254] := by decide

/-- Charts drawn from the saved report show the same numbers, times and rows as those drawn at the end of the run, if identifiers of tests differ, strings are text,
and counts are at most 2^53. Missing: these conditions; the texts of field changes, see C85. -/
theorem C64_charts_partial (srt : List Key → List Nat) (js : Bytes → Bytes) (i : Input) (hn : (i.results.map (·.ident)).Nodup)
    (hk : ∀ t ∈ i.results, (AMap.keys t.times).Nodup) (ht : TextOk js i) (hc : CountsOk i) :
    (chartFromJson srt (through js (metrics i))).shown = (chartDirect srt i).shown := by
  have hroot : js (rootModule i.changed).name = (rootModule i.changed).name ∧ js (rootModule i.changed).prior = (rootModule i.changed).prior ∧
      js (rootModule i.changed).next = (rootModule i.changed).next := by
    rcases root_mem i.changed with h | h
    · exact ht.1 _ h
    · rw [h]; exact ⟨ht.2.1, ht.2.1, ht.2.1⟩
  have hv : ∀ n ∈ [i.funcs, (reachableIdents i.callers).length, i.reached, i.untracked, i.same, i.diff, i.mutations, i.squashed], viaFloat n = n :=
    fun n h => viaFloat_id (hc.1 n h)
  have hr := rebuilt js i hn hk ht hc
  -- the list of rebuilt tests, in order
  obtain ⟨g, hg⟩ : ∃ g : Test → Test, g = fun t => rebuild (through js (metrics i)).perf
        (match detail t with | d => ⟨js d.ident, js d.name, d.baseline, d.regression, viaFloat d.diff, viaFloat d.hits, mapThrough js (mapThrough js js) d.fields⟩) := ⟨_, rfl⟩
  have hlist : (through js (metrics i)).details.map (rebuild (through js (metrics i)).perf) = (results i.results).map g := by
    show (((results i.results).map detail).map _).map _ = _
    rw [List.map_map, List.map_map, hg]
    rfl
  have hg' : ∀ t ∈ results i.results, (g t).ident = t.ident ∧ (g t).name = t.name ∧ (g t).before = t.before ∧ (g t).after = (!t.before && t.after) ∧ (g t).diff = t.diff ∧
      ((g t).times.map fun x => (x.1, x.2.pre, x.2.post)).Perm (t.times.map fun x => (x.1, x.2.pre, x.2.post)) := by
    intro t h
    obtain ⟨t', h1, h2⟩ := hr t h
    rw [hg]
    simp only [h1]
    exact h2
  have hsort : sortBy (fun a b => le a.ident b.ident) ((results i.results).map g) = (results i.results).map g := by
    apply sortBy_id
    rw [List.pairwise_map]
    apply (results_sorted i.results).imp_of_mem
    intro a b ha hb h
    rw [(hg' a ha).1, (hg' b hb).1]
    exact h
  have hkeys : (rows ((results i.results).map g)).map (·.key) = (rows (results i.results)).map (·.key) := by
    rw [rows_key, rows_key, List.filterMap_map]
    apply List.filterMap_congr
    intro t h
    obtain ⟨-, h2, h3, h4, h5, -⟩ := hg' t h
    simp only [Function.comp_apply, risky, h2, h3, h4, h5]
    cases t.before <;> cases t.after <;> simp
  have hsum : ∀ (f : Bytes × Nat × Nat → Nat), ∀ t ∈ results i.results,
      (((g t).times.map fun x => (x.1, x.2.pre, x.2.post)).map f).sum = ((t.times.map fun x => (x.1, x.2.pre, x.2.post)).map f).sum := by
    intro f t h
    exact ((hg' t h).2.2.2.2.2.map f).sum_eq
  have htot : totals ((results i.results).map g) = totals (results i.results) := by
    unfold totals
    rw [List.map_map, List.map_map]
    congr 2
    · apply List.map_congr_left
      intro t h
      have := hsum (fun x => x.2.1) t h
      rw [List.map_map, List.map_map] at this
      exact this
    · apply List.map_congr_left
      intro t h
      have := hsum (fun x => x.2.2) t h
      rw [List.map_map, List.map_map] at this
      exact this
  unfold chartFromJson chartDirect Chart.shown chart
  simp only
  rw [hlist, hsort, htot, table_key, table_key, hkeys]
  simp only [through, metrics, hroot, hv, List.mem_cons, true_or, or_true]

/-- Stable order by comparison. -/
def stable (ks : List Key) : List Nat := (sortBy (fun a b => decide (cmp a.1 b.1 ≤ 0)) ks.zipIdx).map (·.2)

example : TextOk id input ∧ (input.results.map (·.ident)).Nodup := by unfold TextOk; decide

example : (chartFromJson stable (through id (metrics input))).shown = (⟨[109], [118, 49], [118, 50], 5, 2, 2, 1, 30, 2, 7, 3⟩, (19, 21), [⟨[84, 49], .fail, 0⟩, ⟨[84, 50], .pass, 2⟩]) := by decide

/-- Two results of one test (a test run with several settings): their times are counted for both. -/
theorem C64_twice_violated : ∃ i : Input, TextOk id i ∧ CountsOk i ∧ (chartFromJson stable (through id (metrics i))).shown ≠ (chartDirect stable i).shown := by
  refine ⟨{ input with results := [t1, { t1 with times := [([99, 51], ⟨0, 1, 1⟩)] }] }, by unfold TextOk; decide, by unfold CountsOk; decide, by decide⟩

/-- Two callers that differ in a byte that is not text become one. -/
theorem C64_text_violated : ∃ (js : Bytes → Bytes) (i : Input), (∀ s, (∀ b ∈ s, b < 128) → js s = s) ∧ (i.results.map (·.ident)).Nodup ∧ CountsOk i ∧
    (chartFromJson stable (through js (metrics i))).shown ≠ (chartDirect stable i).shown := by
  refine ⟨fun s => s.flatMap fun b => if b < 128 then [b] else [239, 191, 189], { input with results := [{ t1 with times := [([255], ⟨0, 1, 2⟩), ([254], ⟨0, 1, 2⟩)] }] }, ?_, by decide,
    by unfold CountsOk; decide, by decide⟩
  intro s h
  induction s with
  | nil => rfl
  | cons b s ih =>
      have := h b (by simp)
      simp only [List.flatMap_cons, if_pos this]
      have := ih fun x hx => h x (by simp [hx])
      simp only at this
      rw [this]
      rfl

/-- Counts are kept to 53 bits. -/
theorem C64_count_violated : ∃ i : Input, TextOk id i ∧ (i.results.map (·.ident)).Nodup ∧ (chartFromJson stable (through id (metrics i))).shown ≠ (chartDirect stable i).shown := by
  refine ⟨{ input with same := 2 ^ 53 + 1 }, by unfold TextOk; decide, by decide, by decide⟩

/-! ### C65 -/

/-- The comparison is an order as sorting needs it. -/
theorem C65_order (a b c : Key) : (cmp a b < 0 ↔ cmp b a > 0) ∧ (cmp a b = 0 ↔ cmp b a = 0) ∧ (cmp a b ≤ 0 → cmp b c ≤ 0 → cmp a c ≤ 0) := by
  have h := cmp_neg a b
  exact ⟨by omega, by omega, cmp_trans a b c⟩

/-- Sorting is possible. -/
theorem C65_stable : IsSort stable := by
  intro ks
  have hp : (stable ks).Perm (List.range ks.length) := by
    unfold stable
    have h1 := (sortBy_perm (fun a b : Key × Nat => decide (cmp a.1 b.1 ≤ 0)) ks.zipIdx).map (·.2)
    have h2 : ks.zipIdx.map (·.2) = List.range ks.length := by rw [List.zipIdx_map_snd]; exact List.range_eq_range'.symm
    rw [h2] at h1
    exact h1
  refine ⟨hp, ?_⟩
  have hs := sortBy_sorted (f := fun a b : Key × Nat => decide (cmp a.1 b.1 ≤ 0))
    (fun a b => by simp only [decide_eq_true_eq]; have := cmp_neg a.1 b.1; omega)
    (fun a b c h h' => by simp only [decide_eq_true_eq] at *; exact cmp_trans _ _ _ h h') ks.zipIdx
  have he : (stable ks).filterMap (fun i => ks[i]?) = (sortBy (fun a b : Key × Nat => decide (cmp a.1 b.1 ≤ 0)) ks.zipIdx).map (·.1) := by
    unfold stable
    rw [List.filterMap_map, ← List.filterMap_eq_map]
    apply List.filterMap_congr
    intro x hx
    rw [(sortBy_perm _ _).mem_iff] at hx
    have := List.mem_zipIdx_iff_getElem?.mp hx
    simpa using this
  rw [he, List.pairwise_map]
  exact hs.imp fun h => by simpa using h

/-- There is a row for exactly the tests that pass no more or have changed fields, in order, stating this. -/
theorem C65_complete (ts : List Test) :
    List.Forall₂ (fun t k => k.name = t.name ∧ k.diff = t.diff ∧ (k.verdict = .fail ↔ t.before = false ∧ t.after = true) ∧ (k.verdict = .baseline ↔ t.before = true))
      (ts.filter fun t => decide (t.before = false ∧ t.after = true ∨ 0 < t.diff)) ((rows ts).map (·.key)) := by
  rw [rows_key]
  induction ts with
  | nil => exact List.Forall₂.nil
  | cons t ts ih =>
      by_cases h : t.before = false ∧ t.after = true ∨ 0 < t.diff
      · have hr : risky t = some ⟨⟨t.name, if (!t.before && t.after) then .fail else if t.before then .baseline else .pass, t.diff⟩, summary t.fields⟩ := by
          unfold risky
          simp only
          rw [if_pos (by simpa using h)]
        rw [List.filter_cons, if_pos (by simpa using h), List.filterMap_cons, hr]
        refine List.Forall₂.cons ⟨rfl, rfl, ?_, ?_⟩ ih <;> cases t.before <;> cases t.after <;> simp
      · have hr : risky t = none := by
          unfold risky
          simp only
          rw [if_neg (by simpa using h)]
        rw [List.filter_cons, if_neg (by simpa using h), List.filterMap_cons, hr]
        exact ih

/-- The rows of the table and those left out are together exactly the rows of risky tests; ten are shown or all. -/
theorem C65_rows (srt : List Key → List Nat) (hs : IsSort srt) (ts : List Test) :
    ∃ omitted, (table srt ts ++ omitted).Perm (rows ts) ∧ (table srt ts).length = min 10 (rows ts).length := by
  have hp := perm_range_get (rows ts) (p := srt ((rows ts).map (·.key))) (by have := (hs ((rows ts).map (·.key))).1; rwa [List.length_map] at this)
  refine ⟨((srt ((rows ts).map (·.key))).filterMap fun i => (rows ts)[i]?).drop 10, ?_, ?_⟩
  · unfold table
    rw [List.take_append_drop]
    exact hp
  · unfold table
    rw [List.length_take, hp.length_eq]

/-- The table is ordered by risk and no row left out is riskier than one shown, among tests written by hand and among generated ones. Missing: between these. -/
theorem C65_riskiest_partial (srt : List Key → List Nat) (hs : IsSort srt) (ts : List Test) :
    ∃ omitted, (table srt ts ++ omitted).Perm (rows ts) ∧ ((table srt ts ++ omitted).map (·.key)).Pairwise fun a b => (Generated a ↔ Generated b) → ¬ Riskier b a := by
  have hp := perm_range_get (rows ts) (p := srt ((rows ts).map (·.key))) (by have := (hs ((rows ts).map (·.key))).1; rwa [List.length_map] at this)
  refine ⟨((srt ((rows ts).map (·.key))).filterMap fun i => (rows ts)[i]?).drop 10, ?_, ?_⟩
  · unfold table
    rw [List.take_append_drop]
    exact hp
  · unfold table
    rw [List.take_append_drop]
    have h2 := (hs ((rows ts).map (·.key))).2
    have he : ((srt ((rows ts).map (·.key))).filterMap fun i => (rows ts)[i]?).map (·.key) = (srt ((rows ts).map (·.key))).filterMap fun i => ((rows ts).map (·.key))[i]? := by
      rw [List.map_filterMap]; simp
    rw [he]
    refine h2.imp ?_
    intro a b h hgen
    change genPrefix <+: a.name ↔ genPrefix <+: b.name at hgen
    rw [← List.isPrefixOf_iff_prefix, ← List.isPrefixOf_iff_prefix, Bool.eq_iff_iff.symm] at hgen
    unfold cmp at h
    simp only [hgen, bne_self_eq_false, Bool.false_eq_true, if_false] at h
    unfold Riskier
    by_cases ha : a.verdict = .fail <;> by_cases hb : b.verdict = .fail <;> simp [ha, hb] at h ⊢
    all_goals (split at h <;> omega)

/-- Ten tests with one changed field each hide a generated test that passes no more. -/
theorem C65_generated_violated : ∃ (ts : List Test) (b : Row), b ∈ rows ts ∧ b ∉ table stable ts ∧ ∀ a ∈ table stable ts, Riskier b.key a.key := by
  refine ⟨⟨[103], genPrefix, false, true, 0, 5, [], []⟩ :: List.replicate 10 ⟨[116], [84], false, false, 0, 1, [], []⟩, ⟨⟨genPrefix, .fail, 5⟩, []⟩, by decide, by decide, ?_⟩
  have : ∀ a ∈ table stable (⟨[103], genPrefix, false, true, 0, 5, [], []⟩ :: List.replicate 10 ⟨[116], [84], false, false, 0, 1, [], []⟩), a.key.verdict ≠ .fail := by decide
  intro a ha
  exact Or.inl ⟨rfl, this a ha⟩

example : (table stable [t2, t1]).map (·.key) = [⟨[84, 49], .fail, 0⟩, ⟨[84, 50], .pass, 2⟩] := by decide

/-! ### C66 -/

/-- With a difference at most 99.9 is shown, however the percentage was computed and rounded. -/
theorem C66_fields (p : Rat) (diff : Nat) (h : diff > 0) : stableLabel p diff ≤ 999 := by
  unfold stableLabel
  have key : ∀ q : Rat, q ≤ 999 / 10 → tenths q ≤ 999 := by
    intro q hq
    rcases lt_or_ge q 0 with h0 | h0
    · have := tenths_neg h0; omega
    · have := (tenths_lt h0 1000).mpr (by push_cast; linarith)
      omega
  split
  · exact key _ (le_refl _)
  · rename_i hn
    exact key _ (by by_contra hc; exact hn ⟨h, by linarith⟩)

/-- The same for surviving mutations. -/
theorem C66_mutations (p : Rat) (f : Nat) (h : f > 0) : mutationLabel p f ≤ 999 := C66_fields p f h

/-- 100 is shown exactly if there is no difference. -/
theorem C66_exact (same diff : Nat) (h : same + diff > 0) : stableLabel (stablePercent same diff) diff = 1000 ↔ diff = 0 := by
  constructor
  · intro he
    by_contra hd
    have := C66_fields (stablePercent same diff) diff (by omega)
    omega
  · rintro rfl
    have hs : (same : Rat) ≠ 0 := by
      have : same ≠ 0 := by omega
      exact_mod_cast this
    have hp : stablePercent same 0 = 100 := by unfold stablePercent; push_cast; field_simp; simp
    unfold stableLabel
    rw [if_neg (by simp), hp]
    decide +kernel

/-- Otherwise the label is off by at most a twentieth of a percent, or is the cap. -/
theorem C66_close (same diff : Nat) (h : same + diff > 0) :
    stableLabel (stablePercent same diff) diff = 999 ∨ |(stableLabel (stablePercent same diff) diff : Rat) / 10 - stablePercent same diff| ≤ 1 / 20 := by
  have h0 : 0 ≤ stablePercent same diff := by unfold stablePercent; positivity
  unfold stableLabel
  split
  · left; decide +kernel
  · right
    have h1 := (le_tenths h0 (tenths (stablePercent same diff))).mp (le_refl _)
    have h2 := (tenths_lt h0 (tenths (stablePercent same diff) + 1)).mp (by omega)
    push_cast at h2
    rw [abs_le]
    constructor <;> linarith

example : stableLabel (stablePercent 99999 1) 1 = 999 ∧ stableLabel (stablePercent 3 1) 1 = 750 := by decide +kernel

/-! ### C82 -/

/-- The title names the only module changed, or the only one required directly, or none. -/
theorem C82_root (ms : List Mod) (h : ∀ m ∈ ms, m.name ≠ []) : IsRoot ms (rootModule ms) := by
  have loop2 : ∀ (ms : List Mod) (d : Mod), d.name ≠ [] → rootLoop ms d = if (ms.filter fun m => !m.indirect) = [] then d else ⟨[], [], [], false⟩ := by
    intro ms d hd
    induction ms with
    | nil => rfl
    | cons m ms ih =>
        unfold rootLoop
        cases hm : m.indirect with
        | false => simp [hd, hm]
        | true => simp [ih, List.filter_cons, hm]
  have loop : ∀ ms : List Mod, (∀ m ∈ ms, m.name ≠ []) → ((ms.filter fun m => !m.indirect) = [rootLoop ms ⟨[], [], [], false⟩]) ∨
      ((ms.filter fun m => !m.indirect).length ≠ 1 ∧ rootLoop ms ⟨[], [], [], false⟩ = ⟨[], [], [], false⟩) := by
    intro ms
    induction ms with
    | nil => intro _; right; exact ⟨by simp, rfl⟩
    | cons m ms ih =>
        intro hms
        unfold rootLoop
        cases hm : m.indirect with
        | false =>
            rw [if_pos rfl, if_pos rfl, loop2 ms m (hms m (by simp)), List.filter_cons, if_pos (by simp [hm])]
            split
            · rename_i he; left; rw [he]
            · rename_i he
              right
              refine ⟨?_, rfl⟩
              rw [List.length_cons]
              intro hl
              exact he (List.length_eq_zero_iff.mp (by omega))
        | true =>
            rw [if_neg (by simp), List.filter_cons, if_neg (by simp [hm])]
            exact ih fun x hx => hms x (by simp [hx])
  unfold rootModule IsRoot
  split
  · exact Or.inl ⟨_, rfl, rfl⟩
  · rename_i hne
    have hl : ms.length ≠ 1 := by
      intro hl
      obtain ⟨m, hm⟩ := List.length_eq_one_iff.mp hl
      exact hne m hm
    rcases loop ms h with h1 | h1
    · exact Or.inr (Or.inl ⟨hl, h1⟩)
    · exact Or.inr (Or.inr ⟨hl, h1.1, h1.2⟩)

example : rootModule [⟨[97], [], [], true⟩, ⟨[98], [], [], false⟩] = ⟨[98], [], [], false⟩ ∧
    rootModule [⟨[97], [], [], false⟩, ⟨[98], [], [], false⟩] = ⟨[], [], [], false⟩ := by decide

/-! ### C83 -/

theorem rest_all (total f : Nat) (h0 : 0 < total) (hf : f ≤ total) : tenths (restPercent total f) = 1000 ↔ 2000 * f ≤ total := by
  have ht : (0 : Rat) < total := by exact_mod_cast h0
  have hff : (f : Rat) ≤ total := by exact_mod_cast hf
  have hp0 : 0 ≤ restPercent total f := by
    unfold restPercent
    apply div_nonneg _ ht.le
    linarith
  have hup : tenths (restPercent total f) < 1001 := by
    rw [tenths_lt hp0]
    have : restPercent total f ≤ 100 := by
      unfold restPercent
      rw [div_le_iff₀ ht]
      have : (0 : Rat) ≤ f := by positivity
      linarith
    push_cast
    linarith
  have hlow : 1000 ≤ tenths (restPercent total f) ↔ 2000 * f ≤ total := by
    rw [le_tenths hp0]
    have he : restPercent total f * 10 + 1 / 2 = (2000 * (total - f) + total) / (2 * total) := by
      unfold restPercent
      field_simp
      ring
    rw [he, le_div_iff₀ (by linarith)]
    push_cast
    constructor
    · intro hh
      have : (2000 * f : Rat) ≤ total := by linarith
      exact_mod_cast this
    · intro hh
      have : (2000 * f : Rat) ≤ total := by exact_mod_cast hh
      linarith
  constructor
  · intro he; exact hlow.mp (by omega)
  · intro hh; have := hlow.mpr hh; omega

/-- "100%" of the changed functions is shown as reachable exactly if at most one in 2000 is not. Missing: none. -/
theorem C83_impact_partial (funcs reachable : Nat) (h0 : 0 < funcs) (h : reachable ≤ funcs) : impactLabel funcs reachable = 1000 ↔ 2000 * (funcs - reachable) ≤ funcs := by
  have := rest_all funcs (funcs - reachable) h0 (by omega)
  rw [Nat.cast_sub h] at this
  exact this

/-- "100%" of the reachable functions is shown as covered exactly if at most one in 2000 was neither reached nor untracked. Missing: that all were reached. -/
theorem C83_cover_partial (reachable reached untracked : Nat) (h0 : 0 < reachable) (h : reached + untracked ≤ reachable) :
    coverLabel reachable reached untracked = 1000 ↔ 2000 * (reachable - reached - untracked) ≤ reachable := by
  have := rest_all reachable (reachable - reached - untracked) h0 (by omega)
  rw [Nat.cast_sub (by omega), Nat.cast_sub (by omega)] at this
  exact this

/-- One of 4000 changed functions is not covered: 100% is shown. -/
theorem C83_rounding_violated : ∃ reachable reached : Nat, reached < reachable ∧ coverLabel reachable reached 0 = 1000 :=
  ⟨4000, 3999, by decide, by decide +kernel⟩

/-- No function was reached in testing because all are untracked: 100% is shown. -/
theorem C83_untracked_violated : ∃ reachable untracked : Nat, reachable > 0 ∧ coverLabel reachable 0 untracked = 1000 := ⟨10, 10, by decide, by decide +kernel⟩

example : impactLabel 3 1 = 333 ∧ impactLabel 8 8 = 1000 ∧ impactLabel 1999 1998 = 999 := by decide +kernel

/-! ### C84 -/

/-- The unit is chosen once for both times and does not change their ratio, so the label is that of the measured times. -/
theorem C84_unit (pre post : Rat) : timeLabel (pre / timeUnit pre post) (post / timeUnit pre post) = timeLabel pre post := by
  have hu : 0 < timeUnit pre post := by
    unfold timeUnit
    split
    · split <;> norm_num
    · norm_num
  have hu' : timeUnit pre post ≠ 0 := ne_of_gt hu
  have h1 : pre / timeUnit pre post = 0 ↔ pre = 0 := by simp [hu']
  have h2 : post / timeUnit pre post ≤ pre / timeUnit pre post ↔ post ≤ pre := div_le_div_iff_of_pos_right hu
  have h3 : post / timeUnit pre post / (pre / timeUnit pre post) = post / pre := by
    rw [div_div_div_cancel_right₀ hu']
  unfold timeLabel
  simp only [h1, h2, h3]

/-- If less time was needed, the label says by how many percent, to a twentieth. Missing: the label when more time was needed. -/
theorem C84_faster_partial (pre post : Rat) (hp : 0 < pre) (h : post ≤ pre) :
    ∃ n : Int, timeLabel pre post = some (n, true) ∧ |(n : Rat) / 10 - 100 * (pre - post) / pre| ≤ 1 / 20 := by
  have he : 100 - post / pre * 100 = 100 * (pre - post) / pre := by field_simp
  have hq : 0 ≤ 100 * (pre - post) / pre := by
    apply div_nonneg _ hp.le
    linarith
  refine ⟨tenths (100 * (pre - post) / pre), ?_, ?_⟩
  · unfold timeLabel
    rw [if_neg (ne_of_gt hp)]
    simp only
    rw [if_pos h, he]
  · have h1 := (le_tenths hq (tenths (100 * (pre - post) / pre))).mp (le_refl _)
    have h2 := (tenths_lt hq (tenths (100 * (pre - post) / pre) + 1)).mp (by omega)
    push_cast at h2
    rw [abs_le]
    constructor <;> linarith

/-- Whenever more time was needed, the number before "slower" is not positive: half again as much time is "-50% slower". -/
theorem C84_slower_violated : (∀ pre post : Rat, 0 < pre → pre < post → ∃ n : Int, timeLabel pre post = some (n, false) ∧ n ≤ 0) ∧ timeLabel 100 150 = some (-500, false) := by
  refine ⟨fun pre post h0 h => ⟨tenths ((1 - post / pre) * 100), ?_, ?_⟩, by decide +kernel⟩
  · unfold timeLabel
    rw [if_neg (ne_of_gt h0)]
    simp only
    rw [if_neg (by linarith)]
  · apply tenths_neg
    have : 1 < post / pre := (one_lt_div h0).mpr h
    linarith

example : timeLabel 200 150 = some (250, true) := by decide +kernel

/-! ### C85 -/

/-- With at most two callers whose texts have at most 66 bytes, every changed field is named. Missing: more callers, longer texts. -/
theorem C85_summary_partial (m : AMap Bytes (AMap Bytes Bytes)) (h2 : m.length ≤ 2) (hl : ∀ e ∈ m, (fullText e.1 (sortBy le (AMap.keys e.2))).length ≤ 66) :
    summary m = List.intercalate [10] (m.map fun e => fullText e.1 (sortBy le (AMap.keys e.2))) := by
  have key : ∀ e ∈ m, entryText e.1 (sortBy le (AMap.keys e.2)) = fullText e.1 (sortBy le (AMap.keys e.2)) := by
    intro e he
    have := hl e he
    unfold fullText at this
    unfold entryText fullText
    simp only
    rw [if_neg (by omega)]
  match m, h2 with
  | [], _ => rfl
  | [a], _ =>
      have := key a (by simp)
      simp only [summary, summaryLoop, this, List.map_cons, List.map_nil, List.intercalate_singleton]
      simp
  | [a, b], _ =>
      have ha := key a (by simp)
      have hb := key b (by simp)
      simp only [summary, summaryLoop, ha, hb, List.map_cons, List.map_nil]
      simp [List.intercalate]

/-- Five fields of a third caller are counted as one. -/
theorem C85_count_violated : ∃ m : AMap Bytes (AMap Bytes Bytes), (m.map fun e => e.2.length).sum = 7 ∧
    summary m = [97, 91, 120, 93, 10, 98, 91, 120, 93, 10, 40] ++ itoaBytes 1 ++ " more field differences)".toUTF8.toList := by
  refine ⟨[([97], [([120], [])]), ([98], [([120], [])]), ([99], [([120], []), ([121], []), ([122], []), ([123], []), ([124], [])])], by decide, by decide +kernel⟩

/-- Which callers are named depends on the order in which the map happens to be iterated. -/
theorem C85_order_violated : ∃ m m' : AMap Bytes (AMap Bytes Bytes), m.Perm m' ∧ summary m ≠ summary m' :=
  ⟨[([97], [([120], [])]), ([98], [([120], [])])], [([98], [([120], [])]), ([97], [([120], [])])], by decide, by decide⟩

example : summary [([97], [([121], []), ([120], [])])] = [97, 91, 120, 124, 121, 93] := by decide

end Verif.Report
