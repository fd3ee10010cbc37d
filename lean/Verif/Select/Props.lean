import Verif.Select.Lemmas

/-! C122–C124: which tests are run. -/

namespace Verif.Select

/-- The text of the script: the packages in one quoted word, the declaration of the array, and one assignment for every file, in order of their names. -/
theorem C122_text (m : FileMap) (packages : List Str) : ∃ es : FileMap, es.Perm m ∧ es.Pairwise (fun a b => a.1 ≤ b.1) ∧
    scriptText m packages = "PKGS=\"".toList ++ join ' ' packages ++ "\"\ndeclare -A FILE_TEST_MAP\n".toList ++
      es.flatMap fun q => "FILE_TEST_MAP[\"".toList ++ q.1 ++ "\"]=\"".toList ++ join ' ' (q.2.insertionSort (· ≤ ·)) ++ "\"\n".toList := by
  have e1 : "PKGS=\"".toList = pkgsAssign := by decide +kernel
  have e2 : "\"\ndeclare -A FILE_TEST_MAP\n".toList = ['"', '\n'] ++ declare_ := by decide +kernel
  have e3 : "FILE_TEST_MAP[\"".toList = assign := by decide +kernel
  have e4 : "\"]=\"".toList = ['"', ']', '=', '"'] := by decide +kernel
  have e5 : "\"\n".toList = ['"', '\n'] := by decide +kernel
  refine ⟨m.insertionSort fun a b => a.1 ≤ b.1, List.perm_insertionSort _ _, ?_, ?_⟩
  · exact List.pairwise_insertionSort (fun a b : Str × List Str => a.1 ≤ b.1) m
  · rw [e1, e2, e3, e4, e5]
    have hl : line = fun q => assign ++ q.1 ++ ['"', ']', '=', '"'] ++ join ' ' (q.2.insertionSort (· ≤ ·)) ++ ['"', '\n'] := rfl
    unfold scriptText lines
    rw [hl, List.append_assoc (pkgsAssign ++ join ' ' packages)]

/-- C122 (part): for a mutant of any file the script runs exactly the tests that reach a changed function of this file, each named once, in exactly the packages
of the project, and skips the mutant if there is no such test. For names that are Go identifiers, paths without the four characters that are special within
double quotes, and package patterns that are single words. Missing: the other paths, see `C122_path_violated` and `C122_package_violated`. -/
theorem C122_tests_partial (abs : Str → Str) (ts : List TestFn) (packages : List Str) (env : Str → Str) (orig : Str)
    (hnames : ∀ t ∈ ts, Ident t.name) (hpaths : ∀ f n, Covers abs ts f n → Quotable f) (hp : packages ≠ []) (hpk : ∀ p ∈ packages, Word p ∧ Quotable p) :
    ((¬ ∃ n, Covers abs ts orig n) → plan env (scriptText (collect abs ts) packages) orig = some .skip) ∧
    ((∃ n, Covers abs ts orig n) → ∃ pat names, plan env (scriptText (collect abs ts) packages) orig = some (.test pat packages) ∧
      namesOf pat = some names ∧ names.Nodup ∧ ∀ n, n ∈ names ↔ Covers abs ts orig n) := by
  have hi := collect_inv abs ts
  generalize hm : collect abs ts = m at hi
  -- the entries in order
  have hperm := List.perm_insertionSort (fun a b : Str × List Str => a.1 ≤ b.1) m
  generalize hs : m.insertionSort (fun a b : Str × List Str => a.1 ≤ b.1) = es at hperm
  have hnd : (es.map (·.1)).Nodup := ((hperm.map (·.1)).nodup_iff).mpr hi.nodup
  have hget : ∀ f, get es f = get m f := by
    intro f
    by_cases hk : f ∈ m.map (·.1)
    · obtain ⟨q, hq, rfl⟩ := List.mem_map.mp hk
      rw [get_of_mem hi.nodup hq, get_of_mem hnd (hperm.mem_iff.mpr hq)]
    · rw [get_of_not_key hk, get_of_not_key (fun h => hk ((hperm.map (·.1)).mem_iff.mp h))]
  have hid : ∀ f n, n ∈ get m f → Ident n := by
    intro f n hn
    obtain ⟨t, ht, rfl, -⟩ := (hi.names f n).mp hn
    exact hnames t ht
  have hes : ∀ q ∈ es, Quotable q.1 ∧ ∀ t ∈ q.2, Ident t := by
    intro q hq
    have hq := hperm.mem_iff.mp hq
    have hg := get_of_mem hi.nodup hq
    refine ⟨?_, fun t ht => hid q.1 t (by rw [hg]; exact ht)⟩
    obtain ⟨n, hn⟩ := List.exists_mem_of_ne_nil _ (hi.filled q hq)
    exact hpaths q.1 n ((hi.names _ _).mp (by rw [hg]; exact hn))
  have hread : plan env (scriptText m packages) orig =
      if join ' ' ((get m orig).insertionSort (· ≤ ·)) = [] then some .skip
      else some (.test (patternOf (join ' ' ((get m orig).insertionSort (· ≤ ·)))) packages) := by
    have htext : scriptText m packages = pkgsAssign ++ (join ' ' packages ++ '"' :: (['\n'] ++ (declare_ ++ es.flatMap line))) := by
      simp [scriptText, lines, hs]
    have hj : Quotable (join ' ' packages) := quotable_words fun p hp => (hpk p hp).2
    unfold plan
    rw [htext, strip_append]
    simp only [Option.bind_eq_bind, Option.bind_some]
    rw [quoted_plain env _ _ _ hj (by simp; omega)]
    simp only [Option.bind_some]
    rw [strip_append]
    simp only [Option.bind_some]
    rw [strip_append]
    simp only [Option.bind_some]
    rw [assigns_lines env es _ (Nat.le_succ_of_le (lines_length es)) hes]
    simp only [Option.bind_some]
    rw [lookup_nodup hnd, hget, splitWords_join hp fun p h => (hpk p h).1]
    simp only [Option.bind_some]
    rfl
  rw [hread]
  constructor
  · intro hno
    have : get m orig = [] := List.eq_nil_iff_forall_not_mem.mpr fun n hn => hno ⟨n, (hi.names _ _).mp hn⟩
    rw [this]
    rfl
  · rintro ⟨n, hn⟩
    have hmem : ∀ k, k ∈ (get m orig).insertionSort (· ≤ ·) ↔ Covers abs ts orig k := fun k => (List.mem_insertionSort _).trans (hi.names orig k)
    have hne : (get m orig).insertionSort (· ≤ ·) ≠ [] := List.ne_nil_of_mem ((hmem n).mpr hn)
    have hident : ∀ k ∈ (get m orig).insertionSort (· ≤ ·), Ident k := fun k hk => hid orig k ((List.mem_insertionSort _).mp hk)
    rw [if_neg (join_ne hne fun s h => (hident s h).1)]
    exact ⟨_, _, rfl, namesOf_pattern hne hident, (List.perm_insertionSort _ _).nodup_iff.mpr (hi.distinct orig), hmem⟩

/-- Two tests of one file, one of them also of another one, and a third file without tests. -/
def exTests : List TestFn := [⟨"TestB".toList, [["/m/a.go".toList], ["/m/a.go".toList]]⟩, ⟨"TestA".toList, [["/m/a.go".toList, "/m/b.go".toList]]⟩, ⟨"TestC".toList, [[]]⟩]

example : (∀ t ∈ exTests, Ident t.name) ∧ (∃ n, Covers id exTests "/m/a.go".toList n) ∧ ¬ (∃ n, Covers id exTests "/m/c.go".toList n) ∧
    (∀ f n, Covers id exTests f n → Quotable f) ∧ (∀ p ∈ ["./...".toList, "./sub/...".toList], Word p ∧ Quotable p) := by
  refine ⟨by decide, ⟨"TestB".toList, by decide⟩, ?_, ?_, by decide⟩
  · rintro ⟨n, t, ht, -, cs, hcs, c, hc, h⟩
    revert t cs c
    decide
  · rintro f n ⟨t, ht, -, cs, hcs, c, hc, rfl⟩
    revert t cs c
    decide

example : plan (fun _ => []) (scriptText (collect id exTests) ["./...".toList]) "/m/a.go".toList = some (.test "^(TestA|TestB)$".toList ["./...".toList]) := by
  decide +kernel

/-- C122 fails for paths with a dollar sign (allowed in Go's module paths only as part of file names): bash replaces `$name` within double quotes, so the
entry gets another key and the mutant is skipped although a test reaches it. The comment in the code says that the quotes escape special characters. -/
theorem C122_path_violated : ∃ (ts : List TestFn) (orig : Str), (∀ t ∈ ts, Ident t.name) ∧ (∃ n, Covers id ts orig n) ∧
    plan (fun _ => []) (scriptText (collect id ts) ["./...".toList]) orig = some .skip :=
  ⟨[⟨"TestA".toList, [["/m/$x/a.go".toList]]⟩], "/m/$x/a.go".toList, by decide, ⟨"TestA".toList, by decide⟩, by decide +kernel⟩

/-- C122 fails for a package in a directory with a blank (from a workspace file): the pattern is split. -/
theorem C122_package_violated : ∃ (ts : List TestFn) (orig : Str) (packages pkgs : List Str) (pat : Str),
    (∀ t ∈ ts, Ident t.name) ∧ (∀ f n, Covers id ts f n → Quotable f) ∧
    plan (fun _ => []) (scriptText (collect id ts) packages) orig = some (.test pat pkgs) ∧ packages.length = 1 ∧ ∀ p ∈ packages, p ∉ pkgs :=
  ⟨[⟨"TestA".toList, [["/m/a.go".toList]]⟩], "/m/a.go".toList, ["./my sub/...".toList], ["./my".toList, "sub/...".toList], "^(TestA)$".toList,
    by decide, by rintro f n ⟨t, ht, -, cs, hcs, c, hc, rfl⟩; revert t cs c; decide, by decide +kernel, rfl, by decide⟩

/-- C123: the script depends only on which test reaches which file: whatever the order of the tests and their targets, and whatever order the map is
iterated in, the text is the same. -/
theorem C123_reproducible (abs : Str → Str) (ts ts' : List TestFn) (packages : List Str) (h : ∀ f n, Covers abs ts f n ↔ Covers abs ts' f n)
    (m m' : FileMap) (hm : m.Perm (collect abs ts)) (hm' : m'.Perm (collect abs ts')) : scriptText m packages = scriptText m' packages := by
  have hi := collect_inv abs ts
  have hi' := inv_congr (collect_inv abs ts') fun f n => (h f n).symm
  have perm_inv : ∀ {a b : FileMap} {P : Str → Str → Prop}, a.Perm b → MapInv b P → MapInv a P := by
    intro a b P hab hb
    have hnd : (a.map (·.1)).Nodup := ((hab.map (·.1)).nodup_iff).mpr hb.nodup
    have hget : ∀ f, get a f = get b f := by
      intro f
      by_cases hk : f ∈ b.map (·.1)
      · obtain ⟨q, hq, rfl⟩ := List.mem_map.mp hk
        rw [get_of_mem hb.nodup hq, get_of_mem hnd (hab.mem_iff.mpr hq)]
      · rw [get_of_not_key hk, get_of_not_key (fun h => hk ((hab.map (·.1)).mem_iff.mp h))]
    exact ⟨hnd, fun f n => by rw [hget]; exact hb.names f n, fun f => by rw [hget]; exact hb.distinct f, fun q hq => hb.filled q (hab.mem_iff.mp hq)⟩
  have ha := perm_inv hm hi
  have hb := perm_inv hm' hi'
  have hkey : ∀ {a : FileMap} {P : Str → Str → Prop}, MapInv a P → ∀ k, k ∈ a.map (·.1) ↔ ∃ n, P k n := by
    intro a P ha k
    constructor
    · intro hk
      obtain ⟨q, hq, rfl⟩ := List.mem_map.mp hk
      obtain ⟨n, hn⟩ := List.exists_mem_of_ne_nil _ (ha.filled q hq)
      exact ⟨n, (ha.names _ _).mp (by rw [get_of_mem ha.nodup hq]; exact hn)⟩
    · rintro ⟨n, hn⟩
      by_contra hk
      have := (ha.names k n).mpr hn
      rw [get_of_not_key hk] at this
      cases this
  have hl : lines m = lines m' :=
    lines_congr ha.nodup hb.nodup ((List.perm_ext_iff_of_nodup ha.nodup hb.nodup).mpr fun k => (hkey ha k).trans (hkey hb k).symm)
      fun k => (List.perm_ext_iff_of_nodup (ha.distinct k) (hb.distinct k)).mpr fun n => (ha.names k n).trans (hb.names k n).symm
  unfold scriptText
  rw [hl]

example : exTests ≠ exTests.reverse ∧ (∀ f n, Covers id exTests f n ↔ Covers id exTests.reverse f n) ∧ collect id exTests ≠ collect id exTests.reverse := by
  refine ⟨by decide, fun f n => ?_, by decide⟩
  unfold Covers
  simp only [List.mem_reverse]

/-- C124 (part): the pattern of a monitored run selects only tests with exactly the given name, and exactly one test if names are unique within the
directory. Missing: directories with a package and its external test package that both have a test of this name, see `C124_violated`. -/
theorem C124_single_partial (tests : List Test) (t : Test) (ht : t ∈ tests) (hid : Ident t.name) :
    ∃ l, ran (single t.name) tests = some l ∧ t ∈ l ∧ (∀ u ∈ l, u.name = t.name) ∧ ((tests.map (·.name)).Nodup → l = [t]) := by
  refine ⟨tests.filter fun u => u.name ∈ [t.name], by simp only [ran, namesOf_single hid, Option.map_some], by simp [ht], by simp, fun hnd => ?_⟩
  have huniq : ∀ u ∈ tests, u.name = t.name → u = t := fun u hu he => List.inj_on_of_nodup_map hnd hu ht he
  have htn : tests.Nodup := List.Nodup.of_map _ hnd
  have h1 : (tests.filter fun u => u.name ∈ [t.name]) = tests.filter fun u => u = t := by
    refine List.filter_congr fun u hu => ?_
    simp only [List.mem_singleton, decide_eq_decide]
    exact ⟨huniq u hu, fun e => by rw [e]⟩
  rw [h1]
  have h3 : tests.count t = 1 := List.count_eq_one_of_mem htn ht
  rw [(List.eq_replicate_iff (a := t)).mpr ⟨(by rw [← List.countP_eq_length_filter]; exact h3 : (tests.filter fun u => decide (u = t)).length = 1), by simp⟩]
  rfl

example : ∃ l, ran (single "TestA".toList) [⟨"p".toList, "TestA".toList⟩, ⟨"p".toList, "TestAB".toList⟩, ⟨"p_test".toList, "TestB".toList⟩] = some l ∧ l.length = 1 :=
  ⟨[⟨"p".toList, "TestA".toList⟩], by decide, rfl⟩

/-- C124 fails if a package and its external test package have a test of the same name: both run, and the values of both end up in the result of one. -/
theorem C124_violated : ∃ (tests : List Test) (t u : Test), tests.Nodup ∧ t ∈ tests ∧ Ident t.name ∧ u ≠ t ∧
    ∃ l, ran (single t.name) tests = some l ∧ u ∈ l :=
  ⟨[⟨"p".toList, "TestA".toList⟩, ⟨"p_test".toList, "TestA".toList⟩], ⟨"p".toList, "TestA".toList⟩, ⟨"p_test".toList, "TestA".toList⟩,
    by decide, by decide, by decide, by decide, [⟨"p".toList, "TestA".toList⟩, ⟨"p_test".toList, "TestA".toList⟩], by decide, by decide⟩

end Verif.Select
