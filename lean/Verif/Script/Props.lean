import Verif.Script.Lemmas

/-! Property C168. -/

namespace Verif.Script
open Verif
open Verif.Select (Str wordsOf)

/-- With targeted tests the mutant of a file is tested and the file put back whatever the paths of the file and the mutant. -/
theorem C168_quoted (o c : Str) (test : Nat) (d : Disk) (h : Ready o c d) : ∃ r, selectRun o c test d = some r ∧ Tests o c test d r :=
  run_tests (fun _ => rfl) (fun _ => rfl) (fun _ => rfl) h

/-- With all tests the same, for paths without blanks and characters for patterns. Missing: other paths. -/
theorem C168_all_partial (o c : Str) (test : Nat) (d : Disk) (h : Ready o c d) (ho : Plain o) (hc : Plain c) : ∃ r, allRun o c test d = some r ∧ Tests o c test d r :=
  run_tests (fun _ => expand_plain _ ho) (fun _ => expand_plain _ (plain_backup ho)) (fun _ => expand_plain _ hc) h

/-- Both are the script of `Verif/Mutation`, where the paths are left out, with nothing going wrong. -/
theorem C168_abstract (o c : Str) (test : Nat) (d : Disk) (h : Ready o c d) (r : Out) (y : Content) (hy : d.files.get c = some y)
    (hr : selectRun o c test d = some r ∨ (Plain o ∧ Plain c ∧ allRun o c test d = some r)) :
    Mutation.script y ⟨true, true, .ok, test, true, none⟩ ⟨d.files.get o, d.files.get (backup o)⟩ =
      ⟨⟨r.disk.files.get o, r.disk.files.get (backup o)⟩, .code r.exit, r.during.bind fun dt => dt.files.get o⟩ := by
  obtain ⟨⟨x, hx⟩, -, ha, hp⟩ := h
  have hne := backup_ne o
  have key : ∀ w : Disk → Str → List Str, (∀ d, w d o = [o]) → (∀ d, w d (backup o) = [backup o]) → (∀ d, w d c = [c]) → run w o c test d = some r →
      Mutation.script y ⟨true, true, .ok, test, true, none⟩ ⟨d.files.get o, d.files.get (backup o)⟩ =
      ⟨⟨r.disk.files.get o, r.disk.files.get (backup o)⟩, .code r.exit, r.during.bind fun dt => dt.files.get o⟩ := by
    intro w h1 h2 h3 hr
    rw [run_files h1 h2 h3 hx hy ha hp] at hr
    obtain rfl := Option.some.inj hr
    simp only [Mutation.script, hx, Mutation.trapRun, AMap.get_set, AMap.get_del, if_neg hne, if_true, Option.bind_some]
    simp
  rcases hr with hr | ⟨ho, hc, hr⟩
  · exact key _ (fun _ => rfl) (fun _ => rfl) (fun _ => rfl) hr
  · exact key _ (fun _ => expand_plain _ ho) (fun _ => expand_plain _ (plain_backup ho)) (fun _ => expand_plain _ hc) hr

/-- A file with a blank in its path is never tested with all tests: the mutant is skipped. Nothing on disk changes. (No directory is called `….mbkp`.) -/
theorem C168_blank (a b c : Str) (test : Nat) (d : Disk) (ha : ∃ x ∈ a, x ≠ ' ' ∧ x ≠ '\t' ∧ x ≠ '\n') (hp : isPattern (a ++ ' ' :: b) = false)
    (hd : ∀ q ∈ d.dirs, ¬ ".mbkp".toList <:+ q) : allRun (a ++ ' ' :: b) c test d = some ⟨d, 2, none⟩ := by
  have e1 := expand_words d hp
  have e2 := expand_words d (pattern_backup hp)
  have l1 : 1 ≤ (expand d (a ++ ' ' :: b)).length := by
    rw [e1]
    obtain ⟨x, hx, h⟩ := ha
    exact words_pos _ ⟨x, by simp [hx], h⟩
  obtain ⟨init, last, hw⟩ := wordsOf_end ['.', 'm', 'b', 'k', 'p'] (by decide) b
  have e3 : expand d (backup (a ++ ' ' :: b)) = ((wordsOf a).filter (· ≠ []) ++ init.filter (· ≠ [])) ++ [last ++ ['.', 'm', 'b', 'k', 'p']] := by
    rw [e2, backup, List.append_assoc, List.cons_append, wordsOf_blank, hw]
    simp
  have l2 := words_pos a ha
  have hl : last ++ ['.', 'm', 'b', 'k', 'p'] ∉ d.dirs := fun h => hd _ h ⟨last, rfl⟩
  have hm : command false d (expand d (a ++ ' ' :: b) ++ expand d (backup (a ++ ' ' :: b))) = some (d, false) := by
    rw [e3, ← List.append_assoc]
    exact command_many (by simp only [List.length_append]; omega) hl
  simp [allRun, run, hm]

/-- If only the path of the mutant has a blank (the directory for temporary files), mutants are skipped too, and the file is put back. -/
theorem C168_mutant (o a b : Str) (test : Nat) (d : Disk) (ho : Plain o) (hx : ∃ x, d.files.get o = some x) (hd : o ∉ d.dirs ∧ backup o ∉ d.dirs)
    (ha : ∃ x ∈ a, x ≠ ' ' ∧ x ≠ '\t' ∧ x ≠ '\n') (hb : ∃ x ∈ b, x ≠ ' ' ∧ x ≠ '\t' ∧ x ≠ '\n') (hp : isPattern (a ++ ' ' :: b) = false) :
    ∃ r, allRun o (a ++ ' ' :: b) test d = some r ∧ r.exit = 2 ∧ r.during = none ∧ ∀ p, p ≠ backup o → r.disk.files.get p = d.files.get p := by
  obtain ⟨x, hx⟩ := hx
  have hne := backup_ne o
  have s1 := command_two (keep := false) hx hd.2 (Ne.symm hne)
  simp only [Bool.false_eq_true, if_false] at s1
  have s2 : command true ⟨(d.files.del o).set (backup o) x, d.dirs⟩ (expand ⟨(d.files.del o).set (backup o) x, d.dirs⟩ (a ++ ' ' :: b) ++ [o]) =
      some (⟨(d.files.del o).set (backup o) x, d.dirs⟩, false) := by
    refine command_many ?_ hd.1
    rw [expand_words _ hp, wordsOf_blank, List.filter_append, List.length_append]
    have := words_pos a ha
    have := words_pos b hb
    omega
  have hx' : ((d.files.del o).set (backup o) x).get (backup o) = some x := by rw [AMap.get_set, if_pos rfl]
  have s3 := command_two (keep := false) (d := ⟨(d.files.del o).set (backup o) x, d.dirs⟩) hx' hd.1 hne
  simp only [Bool.false_eq_true, if_false] at s3
  refine ⟨⟨⟨(((d.files.del o).set (backup o) x).del (backup o)).set o x, d.dirs⟩, 2, none⟩, ?_, rfl, rfl, fun p h1 => ?_⟩
  · simp only [allRun, run, expand_plain _ ho, expand_plain _ (plain_backup ho), List.singleton_append, s1, s2, s3, Option.bind_eq_bind, Option.bind_some, Option.pure_def,
      Bool.true_eq_false, if_false, if_true]
  · simp only [AMap.get_set, AMap.get_del]
    by_cases h2 : p = o
    · subst h2; simp [hx]
    · simp [h1, h2]

/-- C168 fails with all tests for a path with a blank: the mutant is not tested. -/
theorem C168_blank_violated : ∃ (o c : Str) (d : Disk), Ready o c d ∧ ∀ test, allRun o c test d = some ⟨d, 2, none⟩ :=
  ⟨"/my proj/a.go".toList, "/tmp/m".toList, ⟨[("/my proj/a.go".toList, 1), ("/tmp/m".toList, 2)], ["/my proj".toList, "/tmp".toList]⟩,
    ⟨⟨1, by decide +kernel⟩, ⟨2, by decide +kernel⟩, by decide +kernel, by decide +kernel⟩,
    fun test => C168_blank "/my".toList "proj/a.go".toList _ test _ (by decide +kernel) (by decide +kernel) (by decide +kernel)⟩

/-- C168 fails with all tests for a path with brackets: if the pattern fits another file, this one is moved away, the mutant is tested, and at the end the content
of the other file is in the mutated file. The other file is gone, and so is what the mutated file had. -/
theorem C168_pattern_violated : ∃ (o p c : Str) (d : Disk) (r : Out), Ready o c d ∧ allRun o c 1 d = some r ∧ r.exit = 0 ∧
    d.files.get o = some 1 ∧ d.files.get p = some 3 ∧ r.disk.files.get o = some 3 ∧ r.disk.files.get p = none ∧ ∀ q ∈ r.disk.files, q.2 ≠ 1 :=
  ⟨"/m/[ab]/x.go".toList, "/m/a/x.go".toList, "/tmp/m".toList,
    ⟨[("/m/[ab]/x.go".toList, 1), ("/m/a/x.go".toList, 3), ("/tmp/m".toList, 2)], ["/m/[ab]".toList, "/m/a".toList, "/tmp".toList]⟩,
    ⟨⟨[("/m/[ab]/x.go".toList, 3), ("/tmp/m".toList, 2)], ["/m/[ab]".toList, "/m/a".toList, "/tmp".toList]⟩, 0,
      some ⟨[("/m/[ab]/x.go".toList, 2), ("/m/[ab]/x.go.mbkp".toList, 3), ("/tmp/m".toList, 2)], ["/m/[ab]".toList, "/m/a".toList, "/tmp".toList]⟩⟩,
    ⟨⟨1, by decide +kernel⟩, ⟨2, by decide +kernel⟩, by decide +kernel, by decide +kernel⟩, by decide +kernel, by decide +kernel, by decide +kernel, by decide +kernel,
    by decide +kernel, by decide +kernel, by decide +kernel⟩

/-! ### A case -/

/-- A file of a module in the cache, the mutant, and another file. -/
def demo : Disk := ⟨[("/c/m@v1.0.0/a.go".toList, 1), ("/tmp/a.go.0".toList, 2), ("/c/m@v1.0.0/b.go".toList, 5)], ["/c/m@v1.0.0".toList, "/tmp".toList]⟩

example : Ready "/c/m@v1.0.0/a.go".toList "/tmp/a.go.0".toList demo ∧ Plain "/c/m@v1.0.0/a.go".toList ∧ Plain "/tmp/a.go.0".toList :=
  ⟨⟨⟨1, by decide +kernel⟩, ⟨2, by decide +kernel⟩, by decide +kernel, by decide +kernel⟩, by decide +kernel, by decide +kernel⟩

example : (allRun "/c/m@v1.0.0/a.go".toList "/tmp/a.go.0".toList 0 demo).map (fun r => (r.exit, r.disk.files.get "/c/m@v1.0.0/a.go".toList,
    r.during.bind fun dt => dt.files.get "/c/m@v1.0.0/a.go".toList)) = some (1, some 1, some 2) := by decide +kernel

example : (∃ x ∈ "/my".toList, x ≠ ' ' ∧ x ≠ '\t' ∧ x ≠ '\n') ∧ isPattern ("/my".toList ++ ' ' :: "proj/a.go".toList) = false := by decide +kernel

example : fits 100 "/m/*_test.go".toList "/m/a_test.go".toList ∧ ¬ fits 100 "/m/*.go".toList "/m/a/b.go".toList ∧ fits 100 "/?/x".toList "/a/x".toList := by decide +kernel

end Verif.Script
