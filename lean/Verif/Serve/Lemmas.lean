import Verif.Serve.Spec

/-! Lemmas for `Verif.Serve.Props`. -/

namespace Verif.Serve

@[simp] theorem put_self {α : Type} (f : Nat → α) (i : Nat) (a : α) : put f i a i = a := by simp [put]
theorem put_ne {α : Type} (f : Nat → α) {i j : Nat} (a : α) (h : j ≠ i) : put f i a j = f j := by simp [put, h]

theorem exec_induct {n : Nat} {free : Nat → Bool} {P : St → Prop} (hs : ∀ s x s', P s → step n free s x = some s' → P s') : ∀ (xs : List Step) (s s' : St), P s → exec n free xs s = some s' → P s'
  | [], s, s', h, k => by cases k; exact h
  | x :: xs, s, s', h, k => by
    rw [exec] at k
    cases hx : step n free s x with
    | none => rw [hx] at k; cases k
    | some t => rw [hx] at k; exact exec_induct hs xs t s' (hs _ _ _ h hx) k

theorem exec_inTime {n : Nat} {free : Nat → Bool} {P : St → Prop}
    (hs : ∀ s x s', P s → (∀ i, x = .wake → s.main = .waits i → s.status i ≠ .starting) → step n free s x = some s' → P s') :
    ∀ (xs : List Step) (s s' : St), P s → InTime n free xs s → exec n free xs s = some s' → P s'
  | [], s, s', h, _, k => by cases k; exact h
  | x :: xs, s, s', h, ht, k => by
    rw [exec] at k
    cases hx : step n free s x with
    | none => rw [hx] at k; cases k
    | some t => rw [hx] at k; exact exec_inTime hs xs t s' (hs _ _ _ h ht.1 hx) (ht.2 t hx) k

theorem stopAll_cases (n : Nat) (st : Nat → Status) (i : Nat) : stopAll n st i = st i ∨ stopAll n st i = .stopped := by
  unfold stopAll
  split
  · split
    · exact .inr rfl
    · exact .inr rfl
    · exact .inl rfl
  · exact .inl rfl

/-- What holds of all states. -/
structure Sound (n : Nat) (free : Nat → Bool) (s : St) : Prop where
  failed : ∀ i, s.status i = .failed → free i = false
  listening : ∀ i, s.status i = .listening → free i = true
  runs : ∀ r ∈ s.runs, r.2 ≠ .failed ∧ r.1 < n
  over : s.main = .error ∨ s.main = .done → ∀ i, s.status i ≠ .starting ∧ s.status i ≠ .listening
  bound : ∀ i, s.main = .waits i → i < n
  later : ∀ i, s.status i ≠ .unborn → i < n
  beyond : ∀ i j, s.main = .waits i → i < j → s.status j = .unborn
  cause : s.main = .error → ∃ i, i < n ∧ free i = false

theorem Sound.step {n : Nat} {free : Nat → Bool} {s s' : St} {x : Step} (ih : Sound n free s) (k : step n free s x = some s') : Sound n free s' := by
  cases x with
  | bind i =>
    simp only [Serve.step] at k
    split at k
    · next hst =>
      cases k
      refine ⟨fun j hj => ?_, fun j hj => ?_, ih.runs, fun ho j => ?_, ih.bound, fun j hj => ?_, fun a j ha hj => ?_, ih.cause⟩
      · by_cases e : j = i
        · subst e; dsimp only at hj; rw [put_self] at hj; cases hf : free j <;> simp_all
        · dsimp only at hj; rw [put_ne _ _ e] at hj; exact ih.failed j hj
      · by_cases e : j = i
        · subst e; dsimp only at hj; rw [put_self] at hj; cases hf : free j <;> simp_all
        · dsimp only at hj; rw [put_ne _ _ e] at hj; exact ih.listening j hj
      · exact absurd hst (ih.over ho i).1
      · by_cases e : j = i
        · subst e; exact ih.later j (by rw [hst]; decide)
        · dsimp only at hj; rw [put_ne _ _ e] at hj; exact ih.later j hj
      · have := ih.beyond a j ha hj
        by_cases e : j = i
        · subst e; rw [hst] at this; cases this
        · dsimp only; rw [put_ne _ _ e]; exact this
    · cases k
  | wake =>
    simp only [Serve.step] at k
    split at k
    · next i hm =>
      split at k
      · next hf =>
        cases k
        refine ⟨fun j hj => ?_, fun j hj => ?_, ih.runs, fun _ j => ?_, fun j hj => (by cases hj), fun j hj => ?_, fun a j ha => (by cases ha), fun _ => ⟨i, ih.bound i hm, ih.failed i hf⟩⟩
        · rcases stopAll_cases i s.status j with e | e
          · exact ih.failed j (e ▸ hj)
          · dsimp only at hj; rw [e] at hj; cases hj
        · rcases stopAll_cases i s.status j with e | e
          · exact ih.listening j (e ▸ hj)
          · dsimp only at hj; rw [e] at hj; cases hj
        · dsimp only
          unfold stopAll
          split
          · split
            · exact ⟨by decide, by decide⟩
            · exact ⟨by decide, by decide⟩
            · next h1 h2 => exact ⟨h1, h2⟩
          · next hji =>
            by_cases e : j = i
            · subst e; rw [hf]; exact ⟨by decide, by decide⟩
            · rw [ih.beyond i j hm (by omega)]; exact ⟨by decide, by decide⟩
        · refine ih.later j fun e => hj ?_
          dsimp only
          unfold stopAll
          rw [e]
          split <;> rfl
      · split at k
        · next hn =>
          cases k
          refine ⟨fun j hj => ?_, fun j hj => ?_, ih.runs, fun ho => ?_, fun j hj => ?_, fun j hj => ?_, fun a j ha hj => ?_, fun h => (by cases h)⟩
          · by_cases e : j = i + 1
            · subst e; dsimp only at hj; rw [put_self] at hj; cases hj
            · dsimp only at hj; rw [put_ne _ _ e] at hj; exact ih.failed j hj
          · by_cases e : j = i + 1
            · subst e; dsimp only at hj; rw [put_self] at hj; cases hj
            · dsimp only at hj; rw [put_ne _ _ e] at hj; exact ih.listening j hj
          · rcases ho with h | h <;> cases h
          · cases hj; exact hn
          · by_cases e : j = i + 1
            · subst e; exact hn
            · dsimp only at hj; rw [put_ne _ _ e] at hj; exact ih.later j hj
          · cases ha
            dsimp only
            rw [put_ne _ _ (by omega)]
            exact ih.beyond i j hm (by omega)
        · cases k
          exact ⟨ih.failed, ih.listening, ih.runs, fun ho => (by rcases ho with h | h <;> cases h), fun j hj => (by cases hj), ih.later, fun a j ha => (by cases ha), fun h => (by cases h)⟩
    · cases k
  | run i =>
    simp only [Serve.step] at k
    split at k
    · next hr =>
      split at k
      · next hf =>
        cases k
        refine ⟨fun j hj => ?_, fun j hj => ?_, ih.runs, fun _ j => ?_, fun j hj => (by cases hj), fun j hj => ?_, fun a j ha => (by cases ha), fun _ => ⟨i, hr.2, ih.failed i hf⟩⟩
        · rcases stopAll_cases n s.status j with e | e
          · exact ih.failed j (e ▸ hj)
          · dsimp only at hj; rw [e] at hj; cases hj
        · rcases stopAll_cases n s.status j with e | e
          · exact ih.listening j (e ▸ hj)
          · dsimp only at hj; rw [e] at hj; cases hj
        · dsimp only
          unfold stopAll
          split
          · split
            · exact ⟨by decide, by decide⟩
            · exact ⟨by decide, by decide⟩
            · next h1 h2 => exact ⟨h1, h2⟩
          · next hji =>
            have : s.status j = .unborn := Classical.byContradiction fun h => hji (ih.later j h)
            rw [this]; exact ⟨by decide, by decide⟩
        · refine ih.later j fun e => hj ?_
          dsimp only
          unfold stopAll
          rw [e]
          split <;> rfl
      · next hf =>
        cases k
        refine ⟨ih.failed, ih.listening, fun r hr' => ?_, ih.over, ih.bound, ih.later, ih.beyond, ih.cause⟩
        rcases List.mem_append.mp hr' with h | h
        · exact ih.runs r h
        · cases List.mem_singleton.mp h
          exact ⟨hf, hr.2⟩
    · cases k
  | finish =>
    simp only [Serve.step] at k
    split at k
    · cases k
      refine ⟨fun j hj => ?_, fun j hj => ?_, ih.runs, fun _ j => ?_, fun j hj => (by cases hj), fun j hj => ?_, fun a j ha => (by cases ha), fun h => (by cases h)⟩
      · rcases stopAll_cases n s.status j with e | e
        · exact ih.failed j (e ▸ hj)
        · dsimp only at hj; rw [e] at hj; cases hj
      · rcases stopAll_cases n s.status j with e | e
        · exact ih.listening j (e ▸ hj)
        · dsimp only at hj; rw [e] at hj; cases hj
      · dsimp only
        unfold stopAll
        split
        · split
          · exact ⟨by decide, by decide⟩
          · exact ⟨by decide, by decide⟩
          · next h1 h2 => exact ⟨h1, h2⟩
        · next hji =>
          have : s.status j = .unborn := Classical.byContradiction fun h => hji (ih.later j h)
          rw [this]; exact ⟨by decide, by decide⟩
      · refine ih.later j fun e => hj ?_
        dsimp only
        unfold stopAll
        rw [e]
        split <;> rfl
    · cases k

theorem sound_start (n : Nat) (free : Nat → Bool) : Sound n free (start n) := by
  unfold start
  split
  · exact ⟨fun _ h => (by cases h), fun _ h => (by cases h), fun _ h => (by cases h), fun h => (by rcases h with h | h <;> cases h), fun _ h => (by cases h), fun _ h => absurd rfl h,
      fun _ _ h => (by cases h), fun h => (by cases h)⟩
  · next hn =>
    refine ⟨fun i h => ?_, fun i h => ?_, fun _ h => (by cases h), fun h => (by rcases h with h | h <;> cases h), fun i h => (by cases h; omega), fun i h => ?_, fun a j h hj => ?_, fun h => (by cases h)⟩
    · dsimp only at h; unfold put at h; split at h <;> cases h
    · dsimp only at h; unfold put at h; split at h <;> cases h
    · dsimp only at h; unfold put at h
      split at h
      · omega
      · exact absurd rfl h
    · cases h
      dsimp only; rw [put_ne _ _ (by omega)]


theorem Reach.sound {n : Nat} {free : Nat → Bool} {s : St} (h : Reach n free s) : Sound n free s := by
  obtain ⟨xs, hx⟩ := h
  exact exec_induct (P := Sound n free) (fun _ _ _ ih k => ih.step k) xs _ _ (sound_start n free) hx

/-- What holds if listening is decided in time: all servers before the one being started listen. -/
structure Timely (n : Nat) (free : Nat → Bool) (s : St) : Prop where
  sound : Sound n free s
  before : ∀ i j, s.main = .waits i → j < i → s.status j = .listening
  running : s.main = .running → ∀ j, j < n → s.status j = .listening
  all : ∀ r ∈ s.runs, r.2 = .listening
  tried : ∀ i, s.main = .waits i → s.status i ≠ .unborn ∧ s.status i ≠ .stopped

theorem Timely.step {n : Nat} {free : Nat → Bool} {s s' : St} {x : Step} (ih : Timely n free s) (hw : ∀ i, x = .wake → s.main = .waits i → s.status i ≠ .starting)
    (k : step n free s x = some s') : Timely n free s' := by
  have hsound := ih.sound.step k
  cases x with
  | bind i =>
    simp only [Serve.step] at k
    split at k
    · next hst =>
      cases k
      have keep : ∀ j, s.status j = .listening → put s.status i (if free i then .listening else .failed) j = .listening := fun j hj => by
        rw [put_ne _ _ (fun e => by subst e; rw [hst] at hj; cases hj)]; exact hj
      refine ⟨hsound, fun a j ha hj => keep j (ih.before a j ha hj), fun hr j hj => keep j (ih.running hr j hj), ih.all, fun a ha => ?_⟩
      dsimp only
      by_cases e : a = i
      · subst e; rw [put_self]; split <;> exact ⟨by decide, by decide⟩
      · rw [put_ne _ _ e]; exact ih.tried a ha
    · cases k
  | wake =>
    simp only [Serve.step] at k
    split at k
    · next i hm =>
      have hli : s.status i ≠ .failed → s.status i = .listening := fun hf => by
        have h1 := hw i rfl hm
        have h2 := ih.tried i hm
        cases hs : s.status i <;> simp_all
      have upto : s.status i ≠ .failed → ∀ j, j < i + 1 → s.status j = .listening := fun hf j hj => by
        by_cases e : j = i
        · subst e; exact hli hf
        · exact ih.before i j hm (by omega)
      split at k
      · cases k
        exact ⟨hsound, fun a j ha => (by cases ha), fun hr => (by cases hr), ih.all, fun a ha => (by cases ha)⟩
      · next hf =>
        split at k
        · cases k
          refine ⟨hsound, fun a j ha hj => ?_, fun hr => (by cases hr), ih.all, fun a ha => ?_⟩
          · cases ha
            dsimp only
            rw [put_ne _ _ (by omega)]
            exact upto hf j hj
          · cases ha
            dsimp only
            rw [put_self]
            exact ⟨by decide, by decide⟩
        · cases k
          exact ⟨hsound, fun a j ha => (by cases ha), fun _ j hj => upto hf j (by omega), ih.all, fun a ha => (by cases ha)⟩
    · cases k
  | run i =>
    simp only [Serve.step] at k
    split at k
    · next hr =>
      split at k
      · cases k
        exact ⟨hsound, fun a j ha => (by cases ha), fun hr => (by cases hr), ih.all, fun a ha => (by cases ha)⟩
      · cases k
        refine ⟨hsound, ih.before, ih.running, fun r hr' => ?_, ih.tried⟩
        rcases List.mem_append.mp hr' with h | h
        · exact ih.all r h
        · cases List.mem_singleton.mp h
          exact ih.running hr.1 i hr.2
    · cases k
  | finish =>
    simp only [Serve.step] at k
    split at k
    · cases k
      exact ⟨hsound, fun a j ha => (by cases ha), fun hr => (by cases hr), ih.all, fun a ha => (by cases ha)⟩
    · cases k

theorem timely_start (n : Nat) (free : Nat → Bool) : Timely n free (start n) := by
  refine ⟨sound_start n free, ?_, ?_, ?_, ?_⟩ <;> unfold start <;> split
  · intro i j h; cases h
  · intro i j h hj; cases h; omega
  · intro _ j hj; omega
  · intro h; cases h
  · intro r h; cases h
  · intro r h; cases h
  · intro i h; cases h
  · intro i h; cases h; dsimp only; rw [put_self]; exact ⟨by decide, by decide⟩

theorem failed_step {n : Nat} {free : Nat → Bool} {s s' : St} {x : Step} {i : Nat} (h : Sound n free s) (hf : s.status i = .failed) (k : step n free s x = some s') :
    s'.status i = .failed ∧ ∃ more, s'.runs = s.runs ++ more ∧ ∀ r ∈ more, r.1 ≠ i := by
  have hstop : ∀ m, stopAll m s.status i = .failed := fun m => by
    unfold stopAll
    rw [hf]
    split <;> rfl
  have none : ∃ more, s.runs = s.runs ++ more ∧ ∀ r ∈ more, r.1 ≠ i := ⟨[], by simp, by simp⟩
  cases x with
  | bind j =>
    simp only [step] at k
    split at k
    · next hst =>
      cases k
      refine ⟨?_, none⟩
      dsimp only
      rw [put_ne _ _ (fun e => by subst e; rw [hst] at hf; cases hf)]
      exact hf
    · cases k
  | wake =>
    simp only [step] at k
    split at k
    · next j hm =>
      split at k
      · cases k; exact ⟨hstop _, none⟩
      · split at k
        · cases k
          refine ⟨?_, none⟩
          dsimp only
          rw [put_ne _ _ (fun e => by subst e; rw [h.beyond j _ hm (by omega)] at hf; cases hf)]
          exact hf
        · cases k; exact ⟨hf, none⟩
    · cases k
  | run j =>
    simp only [step] at k
    split at k
    · split at k
      · cases k; exact ⟨hstop _, none⟩
      · next hj =>
        cases k
        refine ⟨hf, [(j, s.status j)], rfl, fun r hr => ?_⟩
        cases List.mem_singleton.mp hr
        exact fun (e : j = i) => hj (e ▸ hf)
    · cases k
  | finish =>
    simp only [step] at k
    split at k
    · cases k; exact ⟨hstop _, none⟩
    · cases k

theorem failed_exec {n : Nat} {free : Nat → Bool} {i : Nat} : ∀ (xs : List Step) {s s' : St}, Sound n free s → s.status i = .failed → exec n free xs s = some s' →
    ∃ more, s'.runs = s.runs ++ more ∧ ∀ r ∈ more, r.1 ≠ i
  | [], s, s', _, _, k => by cases k; exact ⟨[], by simp, by simp⟩
  | x :: xs, s, s', h, hf, k => by
    rw [exec] at k
    cases hx : step n free s x with
    | none => rw [hx] at k; cases k
    | some t =>
      rw [hx] at k
      obtain ⟨hf', m1, e1, h1⟩ := failed_step h hf hx
      obtain ⟨m2, e2, h2⟩ := failed_exec xs (h.step hx) hf' k
      refine ⟨m1 ++ m2, by rw [e2, e1, List.append_assoc], fun r hr => ?_⟩
      rcases List.mem_append.mp hr with a | a
      · exact h1 r a
      · exact h2 r a

end Verif.Serve
