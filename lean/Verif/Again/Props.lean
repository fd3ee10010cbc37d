import Verif.Again.Lemmas

/-! Property C169. -/

namespace Verif.Again
open Verif

/-- Engines that are run once each, one after the other or side by side: from start to end every run has a storage that can be used, no two runs have the same one, and
the directories on disk are those from before and the ones of runs under way. Missing: engines that are run again, and providers that are given a path. -/
theorem C169_once_partial (s : State) (ops : List Op) (h : Fresh s ops) (ho : Once ops) :
    (∀ r, Active ops r → Usable (ops.foldl step s) r) ∧
    (∀ r r' e e' i, (ops.foldl step s).runs.get r = some (e, i) → (ops.foldl step s).runs.get r' = some (e', i) → r = r') ∧
    (∀ p, p ∉ names ops → (ops.foldl step s).world.dirs.get p = s.world.dirs.get p) ∧
    ((∀ r, ¬ Active ops r) → ∀ p, (ops.foldl step s).world.dirs.get p = s.world.dirs.get p) := by
  have hi := inv_all ops [] s (inv_init h) ho h.providers h.unused
  rw [List.nil_append] at hi
  refine ⟨fun r hr => ?_, hi.inj, fun p hp => ?_, fun hr p => ?_⟩
  · have := (hi.runs r).2 hr
    cases hg : (ops.foldl step s).runs.get r with
    | none => simp [hg] at this
    | some v =>
      obtain ⟨p, hp⟩ := hi.live r v.1 v.2 hg
      exact ⟨v.1, v.2, p, hg, hp, by rw [hi.dirs, if_pos (List.mem_iff_getElem?.2 ⟨_, hp⟩)]; rfl⟩
  · rw [hi.dirs, if_neg]
    exact fun hm => hp (hi.paths ▸ List.mem_map.2 ⟨_, hm, rfl⟩)
  · rw [hi.dirs, if_neg]
    intro hm
    obtain ⟨i, hp⟩ := List.mem_iff_getElem?.1 hm
    obtain ⟨r, e, hg⟩ := hi.held i p hp
    exact hr r ((hi.runs r).1 (by simp [hg]))

/-- An engine that has been run is given its closed storage in every later run, whatever has happened since. -/
theorem C169_again (s : State) (e i : Nat) (pr : Provider) (p : Path) (h : s.world.providers.get e = some pr) (hs : pr.store = some i)
    (hc : s.world.dbs[i]? = some ⟨p, false⟩) (r : Nat) (fresh : Path) : ¬ Usable (step s (.start r e fresh)) r := by
  rintro ⟨e', i', p', h1, h2, -⟩
  have : step s (.start r e fresh) = ⟨s.world, s.runs.set r (e, i)⟩ := by simp [step, newStorage, h, hs]
  rw [this] at h1 h2
  simp only [AMap.get_set, if_true, Option.some.injEq, Prod.mk.injEq] at h1
  rw [← h1.2, hc] at h2
  simp at h2

/-- C169 fails for an engine that is run twice: the second run has a closed storage. -/
theorem C169_again_violated : ∃ (s : State) (ops : List Op) (r : Nat), Fresh s ops ∧ (started ops).Nodup ∧ (names ops).Nodup ∧ Active ops r ∧
    ¬ Usable (ops.foldl step s) r := by
  refine ⟨⟨⟨[], [], [(7, ⟨none, none⟩)]⟩, []⟩, [.start 0 7 10, .finish 0, .start 1 7 11], 1, ⟨rfl, rfl, by decide, by decide⟩, by decide, by decide,
    ⟨[.start 0 7 10, .finish 0], [], 7, 11, rfl, by decide⟩, ?_⟩
  rintro ⟨e, i, p, h1, h2, h3⟩
  revert h1 h2 h3
  have : (List.foldl step ⟨⟨[], [], [(7, ⟨none, none⟩)]⟩, []⟩ [.start 0 7 10, .finish 0, .start 1 7 11]) =
    ⟨⟨[], [⟨10, false⟩], [(7, ⟨some 10, some 0⟩)]⟩, [(1, (7, 0))]⟩ := by decide
  rw [this]
  intro h1 h2 h3
  simp at h3

/-- C169 fails for an engine that is run twice at the same time: the end of one run closes the storage of the other. -/
theorem C169_shared_violated : ∃ (s : State) (ops : List Op) (r : Nat), Fresh s ops ∧ (started ops).Nodup ∧ (names ops).Nodup ∧ Active ops r ∧
    ¬ Usable (ops.foldl step s) r := by
  refine ⟨⟨⟨[], [], [(7, ⟨none, none⟩)]⟩, []⟩, [.start 0 7 10, .start 1 7 11, .finish 0], 1, ⟨rfl, rfl, by decide, by decide⟩, by decide, by decide,
    ⟨[.start 0 7 10], [.finish 0], 7, 11, rfl, by decide⟩, ?_⟩
  rintro ⟨e, i, p, h1, h2, h3⟩
  revert h1 h2 h3
  have : (List.foldl step ⟨⟨[], [], [(7, ⟨none, none⟩)]⟩, []⟩ [.start 0 7 10, .start 1 7 11, .finish 0]) =
    ⟨⟨[], [⟨10, false⟩], [(7, ⟨some 10, some 0⟩)]⟩, [(1, (7, 0))]⟩ := by decide
  rw [this]
  intro h1 h2 h3
  simp at h3

/-- C169 fails for a provider that is given a directory with files: the directory is deleted with them. -/
theorem C169_given_violated : ∃ (s : State) (ops : List Op) (p : Path), s.runs = [] ∧ s.world.dbs = [] ∧ Once ops ∧ (∀ r, ¬ Active ops r) ∧
    s.world.dirs.get p = some 3 ∧ (ops.foldl step s).world.dirs.get p = none := by
  refine ⟨⟨⟨[(4, 3)], [], [(7, ⟨some 4, none⟩)]⟩, []⟩, [.start 0 7 10, .finish 0], 4, rfl, rfl, ⟨by decide, by decide, by decide⟩, ?_, by decide, by decide⟩
  rintro r ⟨a, b, e, p, hab, hb⟩
  match a, hab with
  | [], hab =>
    simp at hab
    obtain ⟨⟨rfl, -, -⟩, rfl⟩ := hab
    simp at hb
  | [x], hab => simp at hab
  | x :: y :: a, hab => simp at hab

/-! ### A case -/

/-- Two engines side by side and a third later, on a disk with two directories. -/
def demo : State := ⟨⟨[(1, 5), (2, 0)], [], [(7, ⟨none, none⟩), (8, ⟨none, none⟩), (9, ⟨none, none⟩)]⟩, []⟩
def demoOps : List Op := [.start 0 7 10, .start 1 8 11, .finish 0, .start 2 9 12, .finish 1]

example : Fresh demo demoOps ∧ Once demoOps := ⟨⟨rfl, rfl, by decide, by decide⟩, ⟨by decide, by decide, by decide⟩⟩
example : Active demoOps 2 := ⟨[.start 0 7 10, .start 1 8 11, .finish 0], [.finish 1], 9, 12, rfl, by decide⟩
example : (demoOps.foldl step demo).world.dirs = [(12, 0), (1, 5), (2, 0)] := by decide

/-- A directory that an open database uses is refused to any other engine: the run does not start, and neither directories nor databases change. -/
theorem C169_refused (s : State) (r e : Nat) (fresh p : Path) (h : s.world.providers.get e = some ⟨some p, none⟩) (ho : ⟨p, true⟩ ∈ s.world.dbs) :
    (step s (.start r e fresh)).runs = s.runs ∧ (step s (.start r e fresh)).world.dirs = s.world.dirs ∧ (step s (.start r e fresh)).world.dbs = s.world.dbs := by
  simp [step, newStorage, newBadger, h, ho]

/-- The start of a run takes nothing from any directory. -/
theorem C169_start_kept (s : State) (r e : Nat) (fresh p : Path) (n : Nat) (h : s.world.dirs.get p = some n) :
    (step s (.start r e fresh)).world.dirs.get p = some n := by
  simp only [step, newStorage]
  cases hp : s.world.providers.get e with
  | none => simpa using h
  | some pr =>
    cases hs : pr.store with
    | some i => simpa [hs] using h
    | none =>
      by_cases ho : ⟨pr.path.getD fresh, true⟩ ∈ s.world.dbs
      · simpa [hs, newBadger, ho] using h
      · simp only [newBadger, ho, hs, if_false]
        by_cases hq : p = pr.path.getD fresh
        · subst hq
          simp [h]
        · split_ifs
          · exact h
          · rw [AMap.get_set, if_neg hq]
            exact h

/-- Engine 1 was given directory 7, which a database uses that is open. -/
example : (step ⟨⟨[(7, 3)], [⟨7, true⟩], [(1, ⟨some 7, none⟩)]⟩, []⟩ (.start 0 1 9)).runs = [] ∧
    (step ⟨⟨[(7, 3)], [], [(1, ⟨some 7, none⟩)]⟩, []⟩ (.start 0 1 9)).world.dirs.get 7 = some 3 := by decide

end Verif.Again
