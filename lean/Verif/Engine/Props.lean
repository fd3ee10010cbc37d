import Verif.Engine.Lemmas

/-! Properties C60, C61, C62, C69, C81. -/

namespace Verif.Engine
open Verif Verif.Util

/-! ### C61 -/

/-- An argument is accepted exactly if it is a name and a version separated by its first `@`, both not empty and the name with a dot or slash; it is then split
into these. Missing: names without dot and slash, and that the version has no further `@`, see below. -/
theorem C61_single_partial (s : Bytes) (t : Target) : parseTarget s = some t ↔ IsTarget s t := parseTarget_iff s t

/-- A list is accepted exactly if every entry, without white space around it, is; it yields the entries in order. -/
theorem C61_list (s : Bytes) (ts : List Target) : parseEach (splitComma s) = (ts, none) ↔ IsTargets s ts := by
  rw [parseEach_iff]
  exact ⟨fun h => ⟨_, splitComma_entries _, h⟩, fun ⟨es, he, h⟩ => by rw [entries_unique _ _ he] at h; exact h⟩

/-- The way to write an argument as name and version is unique, and so is the list of entries. -/
theorem C61_unique (s : Bytes) (t t' : Target) (h : IsTarget s t) (h' : IsTarget s t') : t = t' := by
  rw [← parseTarget_iff] at h h'
  rw [h] at h'
  exact Option.some.inj h'

/-- `mymod@v1`: a module path without dot and slash is legal, but not accepted. -/
theorem C61_plain_violated : ∃ n v : Bytes, n ≠ [] ∧ v ≠ [] ∧ 64 ∉ n ∧ 64 ∉ v ∧ parseTarget (n ++ 64 :: v) = none :=
  ⟨[109, 121, 109, 111, 100], [118, 49], by decide, by decide, by decide, by decide, by decide⟩

/-- `a.b@v1@v2` has two versions and is accepted. -/
theorem C61_twice_violated : ∃ (s : Bytes) (t : Target), s.count 64 = 2 ∧ parseTarget s = some t ∧ 64 ∈ t.version :=
  ⟨[97, 46, 98, 64, 118, 49, 64, 118, 50], ⟨[97, 46, 98], [118, 49, 64, 118, 50]⟩, by decide, by decide, by decide⟩

/-- ` a.b@v1 ,c/d@v2` -/
example : parseEach (splitComma [32, 97, 46, 98, 64, 118, 49, 32, 44, 99, 47, 100, 64, 118, 50]) = ([⟨[97, 46, 98], [118, 49]⟩, ⟨[99, 47, 100], [118, 50]⟩], none) := by decide

/-! ### C60 -/

/-- `Prepare` succeeds exactly if the configuration was not prepared, names a project and an update, its arguments parse, input files can be read, every option
has a documented value, and the output can be written. Missing: the chart file is checked only if there is no JSON file, see below. -/
theorem C60_valid_partial (w : World) (c : Config) :
    (prepare w c).2 = none ↔ c.prepared = false ∧ Complete c ∧ w.abs c.projectDir ≠ none ∧ (∃ ts, Wanted c ts) ∧ Readable w c ∧ InRange c ∧
      (c.json ≠ [] → w.outOk c.json = true) ∧ (c.json = [] → c.charts ≠ [] → w.outOk c.charts = true) := by
  unfold prepare Complete
  by_cases h0 : c.prepared = true
  · simp [h0]
  rw [if_neg h0]
  have h0' : c.prepared = false := by simpa using h0
  by_cases h1 : c.projectDir = []
  · simp [h1]
  rw [if_neg h1]
  by_cases h2 : c.moduleFlag = [] ∧ c.modulesFlag = [] ∧ c.gomod = [] ∧ c.gowork = []
  · rw [if_pos h2]; simp [h2]
  rw [if_neg h2]
  by_cases h3 : c.gomod ≠ [] ∧ c.gowork ≠ []
  · rw [if_pos h3]; simp [h3]
  rw [if_neg h3]
  have h2' : c.moduleFlag ≠ [] ∨ c.modulesFlag ≠ [] ∨ c.gomod ≠ [] ∨ c.gowork ≠ [] := by
    by_contra hcon
    simp only [not_or, not_not] at hcon
    exact h2 hcon
  cases ha : w.abs c.projectDir with
  | none => simp
  | some a =>
      rcases hp : parseArgs c with ⟨ts, e⟩
      cases e with
      | some e =>
          simp only [reduceCtorEq, false_iff]
          rintro ⟨-, -, -, ⟨us, hu⟩, -⟩
          rw [← parseArgs_iff, hp] at hu
          simp at hu
      | none =>
          have hw : ∃ ts, Wanted c ts := ⟨ts, (parseArgs_iff c ts).mp hp⟩
          have hk := checks_iff w c h3
          simp only
          cases hc : checks w c with
          | some e =>
              rw [hc] at hk
              simp only [reduceCtorEq, false_iff] at hk
              simp only [reduceCtorEq, false_iff]
              rintro ⟨-, -, -, -, hr⟩
              exact hk hr
          | none =>
              rw [hc] at hk
              simp only [true_iff] at hk
              simp only [true_iff]
              exact ⟨h0', ⟨h1, h2', h3⟩, by simp, hw, hk⟩

/-- After success the configuration is prepared, has the absolute directory, and its targets are those it had and then exactly the ones asked for; nothing else
has changed. -/
theorem C60_result (w : World) (c : Config) (h : (prepare w c).2 = none) :
    ∃ a ts, w.abs c.projectDir = some a ∧ Wanted c ts ∧ (prepare w c).1 = { c with absDir := a, targets := c.targets ++ ts, prepared := true } := by
  have hv := (C60_valid_partial w c).mp h
  obtain ⟨h0, ⟨h1, h2, h3⟩, -, -, hr⟩ := hv
  have hk := (checks_iff w c h3).mpr hr
  unfold prepare at h ⊢
  rw [if_neg (by simp [h0]), if_neg h1, if_neg (by rintro ⟨a, b, d, e⟩; simp_all), if_neg h3] at h ⊢
  cases ha : w.abs c.projectDir with
  | none => rw [ha] at h; simp at h
  | some a =>
      rw [ha] at h
      rcases hp : parseArgs c with ⟨ts, e⟩
      cases e with
      | some e => rw [hp] at h; simp at h
      | none =>
          refine ⟨a, ts, rfl, (parseArgs_iff c ts).mp hp, ?_⟩
          simp only [hk]

/-- A prepared configuration cannot be prepared again and is not changed by trying. -/
theorem C60_once (w w' : World) (c : Config) (h : (prepare w c).2 = none) : prepare w' (prepare w c).1 = ((prepare w c).1, some .again) := by
  obtain ⟨a, ts, -, -, he⟩ := C60_result w c h
  rw [he]
  unfold prepare
  rw [if_pos rfl]

/-- After a failure only the absolute directory and the targets may have changed, and to the targets something may only have been added.
Missing: that they are not changed. -/
theorem C60_failed_partial (w : World) (c : Config) (e : Err) (h : (prepare w c).2 = some e) :
    ∃ a ts, (prepare w c).1 = { c with absDir := a, targets := c.targets ++ ts } := by
  have base : c = { c with absDir := c.absDir, targets := c.targets ++ [] } := by simp
  unfold prepare at h ⊢
  split
  · exact ⟨_, _, base⟩
  split
  · exact ⟨_, _, base⟩
  split
  · exact ⟨_, _, base⟩
  split
  · exact ⟨_, _, base⟩
  rename_i h0 h1 h2 h3
  rw [if_neg h0, if_neg h1, if_neg h2, if_neg h3] at h
  cases ha : w.abs c.projectDir with
  | none => exact ⟨_, _, base⟩
  | some a =>
      rw [ha] at h
      rcases hp : parseArgs c with ⟨ts, e'⟩
      rw [hp] at h
      cases e' with
      | some e' => exact ⟨a, ts, rfl⟩
      | none =>
          simp only at h ⊢
          cases hc : checks w c with
          | some e'' => exact ⟨a, ts, rfl⟩
          | none => rw [hc] at h; simp at h

/-- `x.y@v1` and otherwise everything in order. -/
def good : Config :=
  ⟨[112], [120, 46, 121, 64, 118, 49], [], [], [], 44440, 20, 1024, 200, [106], [99, 46, 112, 110, 103], [108, 105, 110, 101], [102, 97, 115, 116], [102, 117, 108, 108], 2, [], [], false⟩

/-- Everything works but writing to files called `c.png`. -/
def world : World := ⟨fun p => some (47 :: p), fun _ => true, fun p => p != [99, 46, 112, 110, 103]⟩

example : prepare world good = ({ good with absDir := [47, 112], targets := [⟨[120, 46, 121], [118, 49]⟩], prepared := true }, none) := by decide

/-- With a JSON file the chart file is not checked. -/
theorem C60_charts_violated : ∃ (w : World) (c : Config), (prepare w c).2 = none ∧ c.charts ≠ [] ∧ w.outOk c.charts = false :=
  ⟨world, good, by decide, by decide, by decide⟩

/-- A chart file of unknown type, or none, passes `Prepare`; the report then fails when everything is done. -/
theorem C60_charttype_violated : ∃ (w : World) (c : Config), (prepare w c).2 = none ∧
    (∀ s ∈ [".png", ".jpg", ".jpeg", ".svg"], ¬ s.toUTF8.toList <:+ c.charts) ∧ chartType c.charts = false :=
  ⟨world, { good with charts := ".pdf".toUTF8.toList }, by decide +kernel, by decide +kernel, by decide +kernel⟩

/-- A wrong port, corrected: the module is then analysed twice. -/
theorem C60_retry_violated : ∃ (w : World) (c : Config) (fix : Config → Config), (prepare w c).2 = some .range ∧
    (∀ c', fix c' = { c' with port := 44440 }) ∧ (prepare w (fix (prepare w c).1)).2 = none ∧ (prepare w (fix (prepare w c).1)).1.targets.length = 2 ∧
    (prepare w (fix c)).1.targets.length = 1 :=
  ⟨world, { good with port := 80 }, fun c => { c with port := 44440 }, by decide, fun _ => rfl, by decide, by decide, by decide⟩

/-! ### C62 -/

/-- All cases of `Run`. -/
theorem run_cases (o : Out) (P : List Ev × Bool → Prop)
    (h : ∀ tr defs, (o.prepare = true ∧ o.tmpCopy = true ∧ o.temp = true ∧ tr = [.call .temp, .acq .temp] ∧ defs = [.temp]) ∨ (o.prepare = true ∧ o.tmpCopy = false ∧ tr = [] ∧ defs = []) →
      P (runModules o tr defs)) (h1 : o.prepare = false → P ([], false)) (h2 : o.prepare = true → o.tmpCopy = true → o.temp = false → P ([.call .temp], false)) : P (run o) := by
  unfold run
  cases hp : o.prepare with
  | false => exact h1 hp
  | true =>
      cases ht : o.tmpCopy with
      | false => exact h _ _ (Or.inr ⟨hp, ht, rfl, rfl⟩)
      | true =>
          cases hw : o.temp with
          | false => exact h2 hp ht hw
          | true => exact h _ _ (Or.inl ⟨hp, ht, hw, rfl, rfl⟩)

/-- Whatever the providers do, everything that was set up is cleaned up exactly once, the last first, and nothing else is; storage that was opened is closed. -/
theorem C62_cleanup (o : Out) : balanced [] (run o).1 = true := by
  apply run_cases o (fun r => balanced [] r.1 = true)
  · rintro tr defs (⟨-, -, -, rfl, rfl⟩ | ⟨-, -, rfl, rfl⟩)
    all_goals
      unfold runModules
      rcases o.parse with - | - | np
      · rfl
      · rfl
      rcases o.modules with - | - | nm
      · rfl
      · cases o.report <;> rfl
      rcases o.callers with - | - | nc
      · rfl
      · cases o.report <;> rfl
      simp only [runTests]
      rcases o.tests with - | - | nt
      · rfl
      · cases o.report <;> rfl
      cases o.storage
      · rfl
      rcases o.update with - | nu
      · rfl
      cases o.mutate
      · unfold runEnd
        rcases o.compare with - | ⟨cs, cd⟩ <;> rfl
      · rcases o.mutation with - | mu
        · rfl
        · unfold runEnd
          rcases o.compare with - | ⟨cs, cd⟩ <;> rfl
  · intro _; rfl
  · intro _ _ _; rfl

/-- Every provider is called only while what it works on is set up: callers after modules, tests after callers, the update with open storage, mutations after it. -/
theorem C62_order (o : Out) : ready [] (run o).1 = true := by
  apply run_cases o (fun r => ready [] r.1 = true)
  · rintro tr defs (⟨-, -, -, rfl, rfl⟩ | ⟨-, -, rfl, rfl⟩)
    all_goals
      unfold runModules
      rcases o.parse with - | - | np
      · rfl
      · rfl
      rcases o.modules with - | - | nm
      · rfl
      · cases o.report <;> rfl
      rcases o.callers with - | - | nc
      · rfl
      · cases o.report <;> rfl
      simp only [runTests]
      rcases o.tests with - | - | nt
      · rfl
      · cases o.report <;> rfl
      cases o.storage
      · rfl
      rcases o.update with - | nu
      · rfl
      cases o.mutate
      · unfold runEnd
        rcases o.compare with - | ⟨cs, cd⟩ <;> rfl
      · rcases o.mutation with - | mu
        · rfl
        · unfold runEnd
          rcases o.compare with - | ⟨cs, cd⟩ <;> rfl
  · intro _; rfl
  · intro _ _ _; rfl

/-- A run without error has written the report, once, and a run with an error has written none, at most tried. Missing: runs for which no module changes, see below. -/
theorem C62_report_partial (o : Out) (hm : o.parse ≠ some 0) :
    ((run o).2 = true ↔ ∃ r, reports (run o).1 = [(r, true)]) ∧ ((run o).2 = false → reports (run o).1 = [] ∨ ∃ r, reports (run o).1 = [(r, false)]) := by
  apply run_cases o (fun x => (x.2 = true ↔ ∃ r, reports x.1 = [(r, true)]) ∧ (x.2 = false → reports x.1 = [] ∨ ∃ r, reports x.1 = [(r, false)]))
  · rintro tr defs (⟨-, -, -, rfl, rfl⟩ | ⟨-, -, rfl, rfl⟩)
    all_goals
      unfold runModules
      rcases hpm : o.parse with - | - | np
      · simp [fin, reports]
      · exact absurd hpm hm
      rcases o.modules with - | - | nm
      · simp [fin, reports]
      · cases o.report <;> simp [fin, reports]
      rcases o.callers with - | - | nc
      · simp [fin, reports]
      · cases o.report <;> simp [fin, reports]
      simp only [runTests]
      rcases o.tests with - | - | nt
      · simp [fin, reports]
      · cases o.report <;> simp [fin, reports]
      cases o.storage
      · simp [fin, reports]
      rcases o.update with - | nu
      · simp [fin, reports]
      cases o.mutate
      · unfold runEnd
        rcases o.compare with - | ⟨cs, cd⟩
        · simp [fin, reports]
        · cases o.report <;> simp [fin, reports]
      · rcases o.mutation with - | mu
        · simp [fin, reports]
        · unfold runEnd
          rcases o.compare with - | ⟨cs, cd⟩
          · simp [fin, reports]
          · cases o.report <;> simp [fin, reports]
  · intro _; simp [reports]
  · intro _ _ _; simp [reports]

/-- When every target module is missing from the project, the run ends without error and without report. -/
theorem C62_silent_violated : ∃ o : Out, (run o).2 = true ∧ reports (run o).1 = [] :=
  ⟨⟨true, true, true, some 0, none, none, none, true, none, true, none, none, true⟩, by decide, by decide⟩

/-- An analysis that fails is not cleaned up, whatever it has set up before failing. -/
theorem C62_failing_violated : ∃ (o : Out) (r : Res), r ∈ calls (run o).1 ∧ .rel r ∉ (run o).1 :=
  ⟨⟨true, true, true, some 1, some 1, some 1, none, true, none, true, none, none, true⟩, .tests, by decide, by decide⟩

/-- Everything works. -/
def fine : Out := ⟨true, true, true, some 1, some 3, some 2, some 4, true, some 1, true, some 7, some (10, 1), true⟩

example : run fine = ([.call .temp, .acq .temp, .call .modules, .acq .modules, .call .callers, .acq .callers, .call .tests, .acq .tests, .acq .storage, .call .update, .acq .update,
    .call .mutation, .acq .mutation, .report ⟨3, 2, 4, 1, 10, 1, 7⟩ true, .rel .mutation, .rel .update, .rel .storage, .rel .tests, .rel .callers, .rel .modules, .rel .temp], true) := by decide

/-! ### C81 -/

/-- A report states the numbers the providers found: a number is zero only if it was found to be zero or the run ended before. Missing: the number of changed functions
when none of them has a caller. -/
theorem C81_counts_partial (o : Out) (r : Rep) (ok : Bool) (hr : (r, ok) ∈ reports (run o).1) (hc : o.callers ≠ some 0) :
    o.modules = some r.funcs ∧ (r.funcs ≠ 0 → o.callers = some r.callers ∧ o.tests = some r.tests ∧
      (r.tests ≠ 0 → o.update = some r.reached ∧ o.compare = some (r.same, r.diff) ∧ (o.mutate = true → o.mutation = some r.mutations) ∧ (o.mutate = false → r.mutations = 0))) := by
  refine run_cases o (fun x => (r, ok) ∈ reports x.1 → o.modules = some r.funcs ∧ (r.funcs ≠ 0 → o.callers = some r.callers ∧ o.tests = some r.tests ∧
      (r.tests ≠ 0 → o.update = some r.reached ∧ o.compare = some (r.same, r.diff) ∧ (o.mutate = true → o.mutation = some r.mutations) ∧ (o.mutate = false → r.mutations = 0)))) ?_ ?_ ?_ hr
  · rintro tr defs (⟨-, -, -, rfl, rfl⟩ | ⟨-, -, rfl, rfl⟩)
    all_goals
      unfold runModules
      rcases hpm : o.parse with - | - | np
      · simp [fin, reports]
      · simp [fin, reports]
      rcases o.modules with - | - | nm
      · simp [fin, reports]
      · simp [fin, reports]; rintro rfl -; simp
      rcases hcc : o.callers with - | - | nc
      · simp [fin, reports]
      · exact absurd hcc hc
      simp only [runTests]
      rcases o.tests with - | - | nt
      · simp [fin, reports]
      · simp [fin, reports]; rintro rfl -; simp
      cases o.storage
      · simp [fin, reports]
      rcases o.update with - | nu
      · simp [fin, reports]
      cases o.mutate
      · unfold runEnd
        rcases o.compare with - | ⟨cs, cd⟩
        · simp [fin, reports]
        · simp [fin, reports]; rintro rfl -; simp
      · rcases o.mutation with - | mu
        · simp [fin, reports]
        · unfold runEnd
          rcases o.compare with - | ⟨cs, cd⟩
          · simp [fin, reports]
          · simp [fin, reports]; rintro rfl -; simp
  · intro _; simp [reports]
  · intro _ _ _; simp [reports]

/-- Three changed functions without callers: the report says none has changed. -/
theorem C81_unreachable_violated : ∃ (o : Out) (r : Rep), o.modules = some 3 ∧ (r, true) ∈ reports (run o).1 ∧ r.funcs = 0 :=
  ⟨{ fine with callers := some 0 }, ⟨0, 0, 0, 0, 0, 0, 0⟩, rfl, by decide, rfl⟩

example : (⟨3, 2, 4, 1, 10, 1, 7⟩, true) ∈ reports (run fine).1 := by decide
/-- No tests found: the report states the functions and callers. -/
example : reports (run { fine with tests := some 0 }).1 = [(⟨3, 2, 0, 0, 0, 0, 0⟩, true)] := by decide

/-! ### C69 -/

theorem withinDir_false (file dir : Path) (h : ¬ Within file dir) : withinDir file dir = false := by
  unfold withinDir
  obtain ⟨cs, hcs⟩ := rel_outside dir file h
  rw [hcs]
  have := List.isPrefixOf_iff_prefix.mpr (joinPath_prefix [46, 46] cs)
  simp [this]

/-- When everything could be copied and the module cache is at its usual place or outside GOPATH, every path of the run lies in the copy and names the copy of what
it named before. Missing: another place inside GOPATH. -/
theorem C69_paths_partial (root : Path) (p : Paths) (w1 w2 w3 : Bool) (hm : p.modcache = p.gopath ++ [nPkg, nMod] ∨ ¬ Within p.modcache p.gopath)
    (h : (setup root p w1 w2 w3).ok = true) :
    let s := setup root p w1 w2 w3
    (∀ x ∈ [s.paths.proj, s.paths.gopath, s.paths.modcache], Within x root) ∧ CopyOf s.copies p.proj s.paths.proj ∧ CopyOf s.copies p.gopath s.paths.gopath ∧
      CopyOf s.copies p.modcache s.paths.modcache := by
  have hw : p.modcache = p.gopath ++ [nPkg, nMod] → withinDir p.modcache p.gopath = true := by
    intro he
    unfold withinDir
    rw [he, rel_below]
    decide
  have hp : ∀ l : Path, root <+: root ++ l := fun l => List.prefix_append _ _
  cases w1 with
  | false => simp [setup] at h
  | true =>
      cases w2 with
      | false => simp [setup] at h
      | true =>
          rcases hm with hm | hm
          · have he : setup root p true true w3 = ⟨⟨root ++ [nProject], root ++ [nGopath], root ++ [nGopath, nPkg, nMod]⟩, [(p.proj, root ++ [nProject]), (p.gopath, root ++ [nGopath])], true, true⟩ := by
              simp [setup, hw hm]
            simp only [he]
            refine ⟨fun x hx => ?_, ⟨p.proj, root ++ [nProject], [], by simp, by simp, by simp⟩, ⟨p.gopath, root ++ [nGopath], [], by simp, by simp, by simp⟩,
              ⟨p.gopath, root ++ [nGopath], [nPkg, nMod], by simp, hm, by simp⟩⟩
            simp only [List.mem_cons, List.not_mem_nil, or_false] at hx
            rcases hx with rfl | rfl | rfl <;> exact hp _
          · cases w3 with
            | false => simp [setup, withinDir_false _ _ hm] at h
            | true =>
                have he : setup root p true true true = ⟨⟨root ++ [nProject], root ++ [nGopath], root ++ [nModcache]⟩,
                    [(p.proj, root ++ [nProject]), (p.gopath, root ++ [nGopath]), (p.modcache, root ++ [nModcache])], true, true⟩ := by
                  simp [setup, withinDir_false _ _ hm]
                simp only [he]
                refine ⟨fun x hx => ?_, ⟨p.proj, root ++ [nProject], [], by simp, by simp, by simp⟩, ⟨p.gopath, root ++ [nGopath], [], by simp, by simp, by simp⟩,
                  ⟨p.modcache, root ++ [nModcache], [], by simp, by simp, by simp⟩⟩
                simp only [List.mem_cons, List.not_mem_nil, or_false] at hx
                rcases hx with rfl | rfl | rfl <;> exact hp _

/-- The copies go to different places, none inside another, so no copy overwrites another. -/
theorem C69_apart (root : Path) (p : Paths) (w1 w2 w3 : Bool) :
    (setup root p w1 w2 w3).copies.Pairwise fun a b => ¬ Within a.2 b.2 ∧ ¬ Within b.2 a.2 := by
  have key : ∀ a b : Bytes, a ≠ b → ¬ (root ++ [a]) <+: (root ++ [b]) := by
    intro a b hab h
    rw [List.prefix_append_right_inj, List.cons_prefix_cons] at h
    exact hab h.1
  have k1 : nProject ≠ nGopath := by decide
  have k2 : nProject ≠ nModcache := by decide
  have k3 : nGopath ≠ nModcache := by decide
  unfold setup Within
  cases w1 <;> cases w2 <;> cases w3 <;> cases withinDir p.modcache p.gopath <;>
    simp [key _ _ k1, key _ _ k2, key _ _ k3, key _ _ k1.symm, key _ _ k2.symm, key _ _ k3.symm]

/-- After a successful setup, and if it can be removed, nothing is left. Missing: failed setups. -/
theorem C69_disposable_partial (root : Path) (p : Paths) (w1 w2 w3 : Bool) (h : (setup root p w1 w2 w3).ok = true) : left (setup root p w1 w2 w3) true = false := by
  cases w1 <;> cases w2 <;> cases w3 <;> cases hw : withinDir p.modcache p.gopath <;> simp_all [setup, left]

/-- The module cache in another place inside GOPATH: the new path does not name its copy. -/
theorem C69_modcache_violated : ∃ (root : Path) (p : Paths), (setup root p true true true).ok = true ∧
    ¬ CopyOf (setup root p true true true).copies p.modcache (setup root p true true true).paths.modcache := by
  refine ⟨[[116]], ⟨[[112]], [[103]], [[103], [99]]⟩, by decide, ?_⟩
  rintro ⟨src, dst, rest, hm, h1, h2⟩
  have he : (setup [[116]] ⟨[[112]], [[103]], [[103], [99]]⟩ true true true).copies = [([[112]], [[116], nProject]), ([[103]], [[116], nGopath])] := by decide
  rw [he] at hm
  simp only [List.mem_cons, Prod.mk.injEq, List.not_mem_nil, or_false] at hm
  have hp : (setup [[116]] ⟨[[112]], [[103]], [[103], [99]]⟩ true true true).paths.modcache = [[116], nGopath, nPkg, nMod] := by decide
  rw [hp] at h2
  rcases hm with ⟨rfl, rfl⟩ | ⟨rfl, rfl⟩
  · simp at h1
  · simp only [List.cons_append, List.nil_append, List.cons.injEq, true_and] at h1 h2
    rw [← h1] at h2
    simp at h2

/-- If a copy fails, what was copied so far stays: nobody has the function to remove it. The configuration already names the copy. -/
theorem C69_leak_violated : ∃ (root : Path) (p : Paths), (setup root p true false true).ok = false ∧ left (setup root p true false true) true = true ∧
    (setup root p true false true).copies ≠ [] ∧ (setup root p true false true).paths.proj ≠ p.proj :=
  ⟨[[116]], ⟨[[112]], [[103]], [[109]]⟩, by decide, by decide, by decide, by decide⟩

/-- The usual layout. -/
example : (setup [[116]] ⟨[[112]], [[103]], [[103], nPkg, nMod]⟩ true true false).paths = ⟨[[116], nProject], [[116], nGopath], [[116], nGopath, nPkg, nMod]⟩ := by decide
example : (setup [[116]] ⟨[[112]], [[103]], [[109]]⟩ true true true).paths.modcache = [[116], nModcache] := by decide

end Verif.Engine
