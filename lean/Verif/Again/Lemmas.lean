import Verif.Again.Spec

namespace Verif.Again
open Verif

theorem engines_append : ∀ a b : List Op, engines (a ++ b) = engines a ++ engines b
  | [], b => rfl
  | .start _ _ _ :: a, b => by simp [engines, engines_append a b]
  | .finish _ :: a, b => by simp [engines, engines_append a b]

theorem started_append : ∀ a b : List Op, started (a ++ b) = started a ++ started b
  | [], b => rfl
  | .start _ _ _ :: a, b => by simp [started, started_append a b]
  | .finish _ :: a, b => by simp [started, started_append a b]

theorem names_append : ∀ a b : List Op, names (a ++ b) = names a ++ names b
  | [], b => rfl
  | .start _ _ _ :: a, b => by simp [names, names_append a b]
  | .finish _ :: a, b => by simp [names, names_append a b]

/-- What holds after the steps `done`, from the state `s0`. -/
structure Inv (s0 : State) (done : List Op) (s : State) : Prop where
  paths : s.world.dbs.map (·.path) = names done
  live : ∀ r e i, s.runs.get r = some (e, i) → ∃ p, s.world.dbs[i]? = some ⟨p, true⟩
  inj : ∀ r r' e e' i, s.runs.get r = some (e, i) → s.runs.get r' = some (e', i) → r = r'
  held : ∀ i p, s.world.dbs[i]? = some ⟨p, true⟩ → ∃ r e, s.runs.get r = some (e, i)
  dirs : ∀ p, s.world.dirs.get p = if ⟨p, true⟩ ∈ s.world.dbs then some 0 else s0.world.dirs.get p
  runs : ∀ r, (s.runs.get r).isSome ↔ Active done r
  known : ∀ r, (s.runs.get r).isSome → r ∈ started done
  providers : ∀ e, e ∉ engines done → s.world.providers.get e = s0.world.providers.get e

theorem inv_start {s0 s : State} {done : List Op} {r e : Nat} {p : Path} (h : Inv s0 done s) (he : e ∉ engines done) (hr : r ∉ started done) (hp : p ∉ names done)
    (hpr : s0.world.providers.get e = some ⟨none, none⟩) (hd : s0.world.dirs.get p = none) : Inv s0 (done ++ [.start r e p]) (step s (.start r e p)) := by
  have hnot : ∀ b, (⟨p, b⟩ : Db) ∉ s.world.dbs := fun b hm => hp (h.paths ▸ List.mem_map.2 ⟨_, hm, rfl⟩)
  have hdp : s.world.dirs.get p = none := by rw [h.dirs, if_neg (hnot _), hd]
  have hs : step s (.start r e p) = ⟨⟨s.world.dirs.set p 0, s.world.dbs ++ [⟨p, true⟩], (s.world.providers.set e ⟨some p, none⟩).set e ⟨some p, some s.world.dbs.length⟩⟩,
      s.runs.set r (e, s.world.dbs.length)⟩ := by
    simp [step, newStorage, h.providers e he, hpr, newBadger, hnot, hdp]
  rw [hs]
  have hnr : s.runs.get r = none := by
    cases hg : s.runs.get r with
    | none => rfl
    | some v => exact absurd (h.known r (by simp [hg])) hr
  have hlt : ∀ r' e' i, s.runs.get r' = some (e', i) → i < s.world.dbs.length := fun r' e' i hg => by
    obtain ⟨q, hq⟩ := h.live r' e' i hg
    exact (List.getElem?_eq_some_iff.1 hq).1
  refine ⟨?_, ?_, ?_, ?_, ?_, ?_, ?_, ?_⟩
  · simp [names_append, names, h.paths]
  · intro r' e' i hg
    simp only [AMap.get_set] at hg
    split at hg
    · obtain ⟨rfl, rfl⟩ := Prod.mk.inj (Option.some.inj hg)
      exact ⟨p, by simp⟩
    · obtain ⟨q, hq⟩ := h.live r' e' i hg
      exact ⟨q, by rw [List.getElem?_append_left (hlt r' e' i hg)]; exact hq⟩
  · intro r1 r2 e1 e2 i h1 h2
    simp only [AMap.get_set] at h1 h2
    split at h1 <;> split at h2
    · simp_all
    · obtain ⟨rfl, rfl⟩ := Prod.mk.inj (Option.some.inj h1)
      exact absurd (hlt _ _ _ h2) (by omega)
    · obtain ⟨rfl, rfl⟩ := Prod.mk.inj (Option.some.inj h2)
      exact absurd (hlt _ _ _ h1) (by omega)
    · exact h.inj r1 r2 e1 e2 i h1 h2
  · intro i q hq
    by_cases hi : i < s.world.dbs.length
    · simp only [List.getElem?_append_left hi] at hq
      obtain ⟨r', e', hg⟩ := h.held i q hq
      refine ⟨r', e', ?_⟩
      simp only [AMap.get_set]
      rw [if_neg ?_, hg]
      rintro rfl
      rw [hnr] at hg
      cases hg
    · have hi2 : i = s.world.dbs.length := by
        have := (List.getElem?_eq_some_iff.1 hq).1
        simp at this
        omega
      subst hi2
      exact ⟨r, e, by simp [AMap.get_set]⟩
  · intro q
    simp only [AMap.get_set, List.mem_append, List.mem_singleton, Db.mk.injEq, and_true]
    by_cases hq : q = p
    · simp [hq]
    · simp [hq, h.dirs q]
  · intro r'
    simp only [AMap.get_set]
    constructor
    · intro hg
      by_cases hrr : r' = r
      · subst hrr; exact ⟨done, [], e, p, rfl, by simp⟩
      · rw [if_neg hrr] at hg
        obtain ⟨a, b, e', p', rfl, hb⟩ := (h.runs r').1 hg
        exact ⟨a, b ++ [.start r e p], e', p', by simp, by simp [hb]⟩
    · rintro ⟨a, b, e', p', hab, hb⟩
      by_cases hrr : r' = r
      · simp [hrr]
      · rw [if_neg hrr]
        refine (h.runs r').2 ?_
        rcases List.eq_nil_or_concat b with rfl | ⟨b', x, rfl⟩
        · have := (List.append_inj' hab rfl).2
          simp at this
          exact absurd this.1.symm hrr
        · rw [List.concat_eq_append, ← List.cons_append, ← List.append_assoc] at hab
          obtain ⟨h1, h2⟩ := List.append_inj' hab rfl
          exact ⟨a, b', e', p', h1, fun hm => hb (by simp [hm])⟩
  · intro r' hg
    simp only [AMap.get_set] at hg
    rw [started_append]
    by_cases hrr : r' = r
    · simp [started, hrr]
    · rw [if_neg hrr] at hg
      exact List.mem_append_left _ (h.known r' hg)
  · intro e' he'
    simp only [engines_append, engines, List.mem_append, List.mem_singleton, not_or] at he'
    simp only [AMap.get_set, if_neg he'.2]
    exact h.providers e' he'.1

theorem inv_finish {s0 s : State} {done : List Op} {r : Nat} (h : Inv s0 done s) (hn : (names done).Nodup) (hu : ∀ p ∈ names done, s0.world.dirs.get p = none) :
    Inv s0 (done ++ [.finish r]) (step s (.finish r)) := by
  have hact : ∀ r', Active (done ++ [.finish r]) r' ↔ r' ≠ r ∧ Active done r' := by
    intro r'
    constructor
    · rintro ⟨a, b, e', p', hab, hb⟩
      rcases List.eq_nil_or_concat b with rfl | ⟨b', x, rfl⟩
      · have := (List.append_inj' hab rfl).2
        simp at this
      · rw [List.concat_eq_append, ← List.cons_append, ← List.append_assoc] at hab
        obtain ⟨h1, h2⟩ := List.append_inj' hab rfl
        simp only [List.cons.injEq, and_true] at h2
        subst h2
        refine ⟨?_, a, b', e', p', h1, fun hm => hb (by simp [hm])⟩
        rintro rfl
        exact hb (by simp)
    · rintro ⟨hne, a, b, e', p', rfl, hb⟩
      exact ⟨a, b ++ [.finish r], e', p', by simp, by simp [hb, hne]⟩
  cases hg : s.runs.get r with
  | none =>
    have hs : step s (.finish r) = s := by simp [step, hg]
    rw [hs]
    refine ⟨by simpa [names_append, names] using h.paths, h.live, h.inj, h.held, h.dirs, fun r' => ?_, fun r' hr' => ?_, fun e he => ?_⟩
    · rw [hact, ← h.runs]
      constructor
      · intro hr'
        refine ⟨?_, hr'⟩
        rintro rfl
        simp [hg] at hr'
      · exact fun hr' => hr'.2
    · rw [started_append]; exact List.mem_append_left _ (h.known r' hr')
    · rw [engines_append] at he; exact h.providers e fun hm => he (List.mem_append_left _ hm)
  | some v =>
    obtain ⟨e, i⟩ := v
    obtain ⟨p, hp⟩ := h.live r e i hg
    have hs : step s (.finish r) = ⟨⟨s.world.dirs.del p, s.world.dbs.set i ⟨p, false⟩, s.world.providers⟩, s.runs.del r⟩ := by simp [step, hg, close, hp]
    rw [hs]
    obtain ⟨hi, hpe⟩ := List.getElem?_eq_some_iff.1 hp
    have hne : ∀ r' e' j, s.runs.get r' = some (e', j) → r' ≠ r → j ≠ i := by
      rintro r' e' j hg' hr' rfl
      exact hr' (h.inj _ _ _ _ _ hg' hg)
    have huniq : ∀ j b, s.world.dbs[j]? = some ⟨p, b⟩ → j = i := by
      intro j b hj
      rw [← h.paths] at hn
      obtain ⟨hjl, hje⟩ := List.getElem?_eq_some_iff.1 hj
      exact (List.Nodup.getElem_inj_iff hn (hi := by simpa using hjl) (hj := by simpa using hi)).1 (by simp [hje, hpe])
    have hmem : ∀ q, (⟨q, true⟩ : Db) ∈ s.world.dbs.set i ⟨p, false⟩ ↔ q ≠ p ∧ ⟨q, true⟩ ∈ s.world.dbs := by
      intro q
      constructor
      · intro hm
        obtain ⟨j, hj⟩ := List.mem_iff_getElem?.1 hm
        rw [List.getElem?_set] at hj
        split at hj
        · simp at hj
        · rename_i hij
          refine ⟨?_, List.mem_iff_getElem?.2 ⟨j, hj⟩⟩
          rintro rfl
          exact hij (huniq j _ hj).symm
      · rintro ⟨hq, hm⟩
        obtain ⟨j, hj⟩ := List.mem_iff_getElem?.1 hm
        refine List.mem_iff_getElem?.2 ⟨j, ?_⟩
        rw [List.getElem?_set, if_neg ?_, hj]
        rintro rfl
        rw [hp] at hj
        simp at hj
        exact hq hj.symm
    refine ⟨?_, ?_, ?_, ?_, ?_, ?_, ?_, ?_⟩
    · have : (s.world.dbs.set i ⟨p, false⟩).map (·.path) = s.world.dbs.map (·.path) := by
        rw [List.map_set]
        have : p = (s.world.dbs.map (·.path))[i]'(by simpa using hi) := by simp [hpe]
        conv_lhs => rw [show (⟨p, false⟩ : Db).path = p from rfl, this]
        exact List.set_getElem_self _
      simpa [names_append, names, this] using h.paths
    · intro r' e' j hg'
      simp only [AMap.get_del] at hg'
      split at hg'
      · cases hg'
      · rename_i hr'
        obtain ⟨q, hq⟩ := h.live r' e' j hg'
        exact ⟨q, by rw [List.getElem?_set, if_neg (Ne.symm (hne r' e' j hg' hr')), hq]⟩
    · intro r1 r2 e1 e2 j h1 h2
      simp only [AMap.get_del] at h1 h2
      split at h1
      · cases h1
      · split at h2
        · cases h2
        · exact h.inj r1 r2 e1 e2 j h1 h2
    · intro j q hq
      rw [List.getElem?_set] at hq
      split at hq
      · simp at hq
      · rename_i hij
        obtain ⟨r', e', hg'⟩ := h.held j q hq
        refine ⟨r', e', ?_⟩
        rw [AMap.get_del, if_neg ?_, hg']
        rintro rfl
        rw [hg] at hg'
        simp at hg'
        exact hij hg'.2
    · intro q
      simp only [AMap.get_del, hmem]
      by_cases hq : q = p
      · subst hq
        simp only [if_true, ne_eq, not_true_eq_false, false_and, if_false]
        exact (hu _ (h.paths ▸ List.mem_map.2 ⟨_, List.mem_iff_getElem?.2 ⟨i, hp⟩, rfl⟩)).symm
      · simp [hq, h.dirs q]
    · intro r'
      rw [hact, ← h.runs, AMap.get_del]
      by_cases hr' : r' = r <;> simp [hr']
    · intro r' hr'
      rw [AMap.get_del] at hr'
      rw [started_append]
      split at hr'
      · cases hr'
      · exact List.mem_append_left _ (h.known r' hr')
    · intro e he; rw [engines_append] at he; exact h.providers e fun hm => he (List.mem_append_left _ hm)

theorem inv_all {s0 : State} : ∀ (todo done : List Op) (s : State), Inv s0 done s → Once (done ++ todo) →
    (∀ e ∈ engines (done ++ todo), s0.world.providers.get e = some ⟨none, none⟩) → (∀ p ∈ names (done ++ todo), s0.world.dirs.get p = none) →
    Inv s0 (done ++ todo) (todo.foldl step s)
  | [], done, s, h, _, _, _ => by simpa using h
  | op :: todo, done, s, h, ho, hp, hu => by
    rw [show done ++ op :: todo = (done ++ [op]) ++ todo by simp] at ho hp hu ⊢
    refine inv_all todo (done ++ [op]) (step s op) ?_ ho hp hu
    cases op with
    | start r e p =>
      refine inv_start h ?_ ?_ ?_ ?_ ?_
      · intro hm
        have := ho.engines
        rw [engines_append, engines_append] at this
        exact (List.nodup_append.1 (List.nodup_append.1 this).1).2.2 e hm e (by simp [engines]) rfl
      · intro hm
        have := ho.started
        rw [started_append, started_append] at this
        exact (List.nodup_append.1 (List.nodup_append.1 this).1).2.2 r hm r (by simp [started]) rfl
      · intro hm
        have := ho.names
        rw [names_append, names_append] at this
        exact (List.nodup_append.1 (List.nodup_append.1 this).1).2.2 p hm p (by simp [names]) rfl
      · exact hp e (by simp [engines_append, engines])
      · exact hu p (by simp [names_append, names])
    | finish r =>
      refine inv_finish h ?_ ?_
      · have := ho.names
        rw [names_append, names_append] at this
        exact (List.nodup_append.1 (List.nodup_append.1 this).1).1
      · exact fun p hm => hu p (by simp [names_append, hm])

theorem inv_init {s : State} {ops : List Op} (h : Fresh s ops) : Inv s [] s := by
  refine ⟨by simp [h.dbs, names], ?_, ?_, ?_, ?_, ?_, ?_, fun _ _ => rfl⟩
  · intro r e i hg; simp [h.runs] at hg
  · intro r r' e e' i hg; simp [h.runs] at hg
  · intro i p hp; simp [h.dbs] at hp
  · intro p; simp [h.dbs]
  · intro r
    simp only [h.runs, AMap.get_nil, Option.isSome_none, Bool.false_eq_true, false_iff]
    rintro ⟨a, b, e, p, hab, -⟩
    simp at hab
  · intro r hg; simp [h.runs] at hg

end Verif.Again
