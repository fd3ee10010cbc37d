import Verif.Target.Lemmas

/-!
C154: a mutant is run against the tests that reach a changed function of its file.
-/

namespace Verif.Target

open Verif.Report (Bytes sortBy le)

/-- C154. A mutant is skipped if and only if no test reaches a changed function of its file. -/
theorem C154_skipped (tests : List Test) (hn : ∀ t ∈ tests, Name t.name) (file : Bytes) : pattern tests file = none ↔ ∀ t ∈ tests, ¬ t.Reaches file := by
  have hm := mem_table tests file
  have hw : ∀ n ∈ names (fileToTests tests) file, n ≠ [] := fun n h => by
    obtain ⟨t, ht, rfl, -⟩ := (hm n).1 h
    exact (hn t ht).1
  have key : lookup (fileToTests tests) file = [] ↔ names (fileToTests tests) file = [] := by
    unfold lookup names at *
    cases hg : (fileToTests tests).get file with
    | none => simp
    | some l =>
      simp only [hg, Option.getD_some] at hw ⊢
      unfold entry
      have hp := Verif.Report.sortBy_perm le l
      rw [join_nil fun n h => hw n (hp.mem_iff.1 h)]
      constructor
      · intro h; rw [h] at hp; exact hp.nil_eq.symm
      · rintro rfl; rfl
  unfold pattern
  simp only
  rw [ite_eq_left_iff]
  simp only [List.isEmpty_iff, reduceCtorEq, imp_false, not_not]
  rw [key]
  constructor
  · intro h t ht hr
    have := (hm t.name).2 ⟨t, ht, rfl, hr⟩
    rw [h] at this
    cases this
  · intro h
    rw [List.eq_nil_iff_forall_not_mem]
    intro n hn'
    obtain ⟨t, ht, -, hr⟩ := (hm n).1 hn'
    exact h t ht hr

/-- C154. Otherwise the tests that are run are those with the name of a test that reaches one. Partial: the name of another test in another package may be the same. -/
theorem C154_run_partial (tests : List Test) (hn : ∀ t ∈ tests, Name t.name) (file pat : Bytes) (h : pattern tests file = some pat) (t : Test) :
    Runs pat t ↔ ∃ u ∈ tests, u.name = t.name ∧ u.Reaches file := by
  have hm := mem_table tests file
  rw [← hm]
  unfold pattern at h
  simp only at h
  split at h
  · cases h
  · rename_i hne
    simp only [Option.some.injEq] at h
    subst h
    unfold lookup at hne ⊢
    unfold names at *
    cases hg : (fileToTests tests).get file with
    | none => simp [hg] at hne
    | some l =>
      simp only [hg, Option.getD_some] at hne hm ⊢
      have hp := Verif.Report.sortBy_perm le l
      have hN : ∀ n ∈ sortBy le l, Name n := fun n h => by
        obtain ⟨u, hu, rfl, -⟩ := (hm n).1 (hp.mem_iff.1 h)
        exact hn u hu
      have hne' : sortBy le l ≠ [] := fun e => hne (by simp [entry, e, join])
      have hb : bars (entry l) = join 124 (sortBy le l) := bars_join _ fun n h => (hN n h).2.1
      rw [hb, ← hp.mem_iff, ← alternative_join _ _ (fun n h => (hN n h).2.2.1) hne']
      unfold Runs
      constructor
      · rintro ⟨text, he, ha⟩
        have : join 124 (sortBy le l) = text := by
          rw [List.append_assoc, List.append_assoc] at he
          exact List.append_cancel_right (List.append_cancel_left he)
        rwa [this]
      · exact fun ha => ⟨_, rfl, ha⟩

/-- C154. So every test that reaches a changed function of the file is run, and with names used once no other. -/
theorem C154_reaching (tests : List Test) (hn : ∀ t ∈ tests, Name t.name) (file pat : Bytes) (h : pattern tests file = some pat) (t : Test) (ht : t ∈ tests) :
    (t.Reaches file → Runs pat t) ∧ ((tests.map (·.name)).Nodup → Runs pat t → t.Reaches file) := by
  refine ⟨fun hr => (C154_run_partial tests hn file pat h t).2 ⟨t, ht, rfl, hr⟩, fun hd hr => ?_⟩
  obtain ⟨u, hu, he, hur⟩ := (C154_run_partial tests hn file pat h t).1 hr
  have : u = t := List.inj_on_of_nodup_map hd hu ht he
  exact this ▸ hur

/-- Tests of one name in two packages: both are run though one does not reach the file. -/
theorem C154_same_name_violated : ∃ (tests : List Test) (file pat : Bytes) (t : Test), (∀ t ∈ tests, Name t.name) ∧ t ∈ tests ∧ pattern tests file = some pat ∧
    Runs pat t ∧ ¬ t.Reaches file := by
  let a : Test := ⟨[97], [84, 49], [[[102]]]⟩
  let b : Test := ⟨[98], [84, 49], [[[103]]]⟩
  have hn : ∀ t ∈ [a, b], Name t.name := by
    intro t ht
    simp only [List.mem_cons, List.not_mem_nil, or_false] at ht
    rcases ht with rfl | rfl <;> (unfold Name; decide)
  have hp : pattern [a, b] [102] = some [94, 40, 84, 49, 41, 36] := by decide +kernel
  refine ⟨[a, b], [102], _, b, hn, by simp, hp, (C154_run_partial _ hn _ _ hp b).2 ⟨a, by simp, rfl, ⟨[[102]], by simp [a], by simp⟩⟩, ?_⟩
  rintro ⟨fs, h1, h2⟩
  simp [b] at h1
  subst h1
  simp at h2

/-! ### A case -/

/-- Two tests that reach a file, one of them twice, and one that does not: `^(T1|T2)$`. -/
example : pattern [⟨[97], [84, 50], [[[102], [103]], [[102]]]⟩, ⟨[97], [84, 51], [[[103]]]⟩, ⟨[97], [84, 49], [[[102]]]⟩] [102] =
    some [94, 40, 84, 49, 124, 84, 50, 41, 36] := by decide +kernel

end Verif.Target
