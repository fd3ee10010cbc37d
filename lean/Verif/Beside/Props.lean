import Verif.Beside.Lemmas

/-! # C159: reports beside other goroutines -/

namespace Verif.Beside

/-- C159 (nothing else): whatever the instrumented program does, the original program could do: all goroutines have the same results, and all maps and mutexes are the same. -/
theorem C159_genuine {code : Code} {watch : Watch} {store : Nat → Nat} {i : Inst} (h : IReach code watch store i) : Reach code store i.st := h.good.reach

/-- C159 (waiting): a report never waits: a goroutine of the instrumented program that can make no step waits for its operation in the original program too, or is at its end. -/
theorem C159_waits {code : Code} {watch : Watch} {i : Inst} {t : Nat} (h : istep code watch t i = none) : step code t i.st = none := by
  unfold istep at h
  split at h
  · cases h
  · split at h
    · cases h
    · split at h <;> cases h
  · split at h
    · next hs => exact hs
    · cases h
    · cases h

/-- C159 (crashes): the instrumented program can crash exactly if the original one can, or a goroutine can get to a report of a map just as another is writing to it. -/
theorem C159_crashes (code : Code) (watch : Watch) (store : Nat → Nat) : ICrashes code watch store ↔ Crashes code store ∨ Meets code watch store := by
  constructor
  · rintro ⟨i, t, hr, hc⟩
    have g := hr.good
    unfold istep at hc
    split at hc
    · cases hc
    · next o rest hn =>
      split at hc
      · cases hc
      · next u hu =>
        split at hc
        · cases hc
        · next hut =>
          refine .inr ⟨i.st, t, u, o, g.reach, (g.suffix t _ hn).subset (.head _), hu, hut, fun o' ho' => ?_⟩
          have := g.past o' t ho'
          rw [hn] at this
          cases this
    · split at hc
      · cases hc
      · next hs => exact .inl ⟨i.st, t, g.reach, hs⟩
      · cases hc
  · rintro (⟨s, t, hr, hc⟩ | ⟨s, t, u, o, hr, ho, hu, hut, hi⟩)
    · rcases follow (watch := watch) hr with h | ⟨todo, h, hl⟩
      · exact h
      · rcases ready h hl t with h | h
        · exact h
        · refine ⟨_, t, h, ?_⟩
          unfold istep
          simp only [put_self, hc]
    · rcases follow (watch := watch) hr with h | ⟨todo, h, hl⟩
      · exact h
      · rcases hl t with hn | ⟨-, o', ho'⟩
        · have hn : todo t = none := hn
          have k : istep code watch t ⟨s, todo⟩ = some (.next ⟨s, put todo t (some (watch t (s.done t)))⟩) := by
            unfold istep
            simp only [hn]
          rcases through s _ _ (h.step k) (put_self _ _ _) with h | ⟨-, h⟩
          · exact h.1
          · exact absurd (h o ho u hu) hut
        · exact absurd ho' (hi o')

theorem no_meets {code : Code} {watch : Watch} (hs : Safe code watch) (store : Nat → Nat) : ¬ Meets code watch store := by
  rintro ⟨s, t, u, o, hr, ho, hu, hut, -⟩
  obtain ⟨v, hv⟩ := hr.writer o u hu
  rcases hs t _ o ho with h | ⟨m, ⟨hown, hg⟩, hm⟩
  · exact h u _ v hut hv
  · have h1 := (hr.held hown t).mp hm
    have h2 := (hr.held hown u).mp (hg u _ v hv)
    rw [h1] at h2
    exact hut (Option.some.inj h2).symm

/-- C159 (safe reports): if reports are made only of maps that no other goroutine writes to or whose mutex the goroutine has, then the instrumented program crashes only if the original one can,
and it can do all that the original one can. Missing: maps that are reported without their mutex, see `C159_unlocked_violated`. -/
theorem C159_same_partial {code : Code} {watch : Watch} (hs : Safe code watch) (store : Nat → Nat) (hc : ¬ Crashes code store) :
    ¬ ICrashes code watch store ∧ ∀ s, Reach code store s ↔ ∃ todo, IReach code watch store ⟨s, todo⟩ := by
  have hn : ¬ ICrashes code watch store := fun h => ((C159_crashes code watch store).mp h).elim hc (no_meets hs store)
  refine ⟨hn, fun s => ⟨fun h => ?_, fun ⟨todo, h⟩ => C159_genuine h⟩⟩
  rcases follow (watch := watch) h with h | ⟨todo, h, -⟩
  · exact absurd h hn
  · exact ⟨todo, h⟩

theorem synchronised {code : Code} (h : Synchronised code) (store : Nat → Nat) : ¬ Crashes code store := by
  obtain ⟨hown, lockOf, hl⟩ := h
  rintro ⟨s, t, hr, hc⟩
  have excl : ∀ o u, s.writer o = some u → (code t (s.done t) = some (.read o) ∨ ∃ v, code t (s.done t) = some (.write o v)) → u = t := fun o u hu ha => by
    obtain ⟨v, hv⟩ := hr.writer o u hu
    have h1 := (hr.held (hown (lockOf o)) u).mp (hl u _ o (.inr ⟨v, hv⟩))
    have h2 := (hr.held (hown (lockOf o)) t).mp (hl t _ o ha)
    rw [h1] at h2
    exact Option.some.inj h2
  unfold step at hc
  split at hc
  · cases hc
  · split at hc <;> cases hc
  · next m hm =>
    split at hc
    · next hf =>
      have := (hr.held (hown m) t).mp (hown m t _ hm)
      rw [hf] at this; cases this
    · cases hc
  · next o ho =>
    split at hc
    · cases hc
    · next u hu =>
      have := excl o u hu (.inl ho)
      subst this
      obtain ⟨v, hv⟩ := hr.writer o u hu
      rw [ho] at hv; cases hv
  · next o v ho =>
    split at hc
    · cases hc
    · next u hu =>
      split at hc
      · cases hc
      · next hut => exact hut (excl o u hu (.inr ⟨v, ho⟩))

/-- C159 (races): a program whose goroutines use maps only with a mutex does not crash, and neither does it if it is instrumented where the goroutine has the mutexes of all reported maps. -/
theorem C159_synchronised_partial {code : Code} (h : Synchronised code) {watch : Watch} (hs : Safe code watch) (store : Nat → Nat) : ¬ Crashes code store ∧ ¬ ICrashes code watch store :=
  ⟨synchronised h store, (C159_same_partial hs store (synchronised h store)).1⟩

/-- Two goroutines that each add to a map: `mu.Lock(); m[k] = v; mu.Unlock(); return`. -/
def twice : Code := fun t h => if t < 2 then [Op.lock 0, .write 0 (t + 1), .unlock 0][h.length]? else none

theorem twice_some {t : Nat} {h : List Nat} {o : Op} (k : twice t h = some o) : (h.length = 0 ∧ o = .lock 0) ∨ (h.length = 1 ∧ o = .write 0 (t + 1)) ∨ (h.length = 2 ∧ o = .unlock 0) := by
  unfold twice at k
  split at k
  · match hh : h.length with
    | 0 => rw [hh] at k; cases k; exact .inl ⟨rfl, rfl⟩
    | 1 => rw [hh] at k; cases k; exact .inr (.inl ⟨rfl, rfl⟩)
    | 2 => rw [hh] at k; cases k; exact .inr (.inr ⟨rfl, rfl⟩)
    | n + 3 => rw [hh] at k; cases k
  · cases k

theorem twice_holds {t : Nat} {h : List Nat} {o : Op} (k : twice t h = some o) (hl : h.length = 1 ∨ h.length = 2) : holds twice t 0 h = true := by
  have ht : t < 2 := by
    unfold twice at k
    split at k
    · assumption
    · cases k
  rcases hl with e | e
  · match h, e with
    | [a], _ => simp [holds, List.range_succ, twice, after, ht]
  · match h, e with
    | [a, b], _ => simp [holds, List.range_succ, twice, after, ht]

theorem twice_synchronised : Synchronised twice := by
  refine ⟨fun m u h k => ?_, fun _ => 0, fun u h o k => ?_⟩
  · rcases twice_some k with ⟨_, e⟩ | ⟨_, e⟩ | ⟨e', e⟩
    · cases e
    · cases e
    · cases e; exact twice_holds k (.inr e')
  · rcases k with k | ⟨v, k⟩
    · rcases twice_some k with ⟨_, e⟩ | ⟨_, e⟩ | ⟨_, e⟩ <;> cases e
    · rcases twice_some k with ⟨_, e⟩ | ⟨e', e⟩ | ⟨_, e⟩
      · cases e
      · exact twice_holds k (.inl e')
      · cases e

/-- Reports of the map while the goroutine has the mutex (as with `defer mu.Unlock()`). -/
def inside : Watch := fun t h => if h.length = 2 ∧ t < 2 then [0, 0] else []

example : Safe twice inside ∧ inside 1 [0, 0] ≠ [] := by
  refine ⟨fun t h o ho => .inr ⟨0, ⟨twice_synchronised.1 0, fun u h v k => ?_⟩, ?_⟩, by decide⟩
  · unfold inside at ho
    split at ho
    · next e => rcases List.mem_cons.mp ho with rfl | ho
                · rcases twice_some k with ⟨_, e⟩ | ⟨e', e⟩ | ⟨_, e⟩
                  · cases e
                  · exact twice_holds k (.inl e')
                  · cases e
                · cases List.mem_singleton.mp ho
                  rcases twice_some k with ⟨_, e⟩ | ⟨e', e⟩ | ⟨_, e⟩
                  · cases e
                  · exact twice_holds k (.inl e')
                  · cases e
    · cases ho
  · unfold inside at ho
    split at ho
    · next e => exact twice_holds (o := .unlock 0) (by simp [twice, e.1, e.2]) (.inr e.1)
    · cases ho

/-- The report at the end of the function, which has unlocked the mutex: the map is still one of the values reported. -/
def atReturn : Watch := fun t h => if h.length = 3 ∧ t < 2 then [0, 0] else []

/-- A program free of races crashes once it is instrumented: a function that returns after unlocking is reported with the map, just as the other goroutine adds to it. -/
theorem C159_unlocked_violated : Synchronised twice ∧ ¬ Crashes twice (fun _ => 0) ∧ ICrashes twice atReturn (fun _ => 0) := by
  refine ⟨twice_synchronised, synchronised twice_synchronised _, ?_⟩
  have h : ∃ i, irun twice atReturn [0, 0, 0, 0, 0, 0, 0, 0, 1, 1, 1, 1] (istart fun _ => 0) = some i ∧ istep twice atReturn 0 i = some .crash := ⟨_, rfl, rfl⟩
  obtain ⟨i, h1, h2⟩ := h
  exact ⟨i, 0, ⟨_, h1⟩, h2⟩

end Verif.Beside
