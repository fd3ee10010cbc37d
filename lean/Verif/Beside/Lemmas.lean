import Verif.Beside.Spec

namespace Verif.Beside

@[simp] theorem put_self {α : Type} (f : Nat → α) (i : Nat) (a : α) : put f i a i = a := by simp [put]
theorem put_ne {α : Type} (f : Nat → α) {i j : Nat} (a : α) (h : j ≠ i) : put f i a j = f j := by simp [put, h]

theorem run_append {code : Code} : ∀ (a b : List Nat) (s : St), run code (a ++ b) s = (run code a s).bind (run code b)
  | [], b, s => rfl
  | t :: a, b, s => by
    rw [List.cons_append, run, run]
    split
    · exact run_append a b _
    · rfl

theorem irun_append {code : Code} {watch : Watch} : ∀ (a b : List Nat) (s : Inst), irun code watch (a ++ b) s = (irun code watch a s).bind (irun code watch b)
  | [], b, s => rfl
  | t :: a, b, s => by
    rw [List.cons_append, irun, irun]
    split
    · exact irun_append a b _
    · rfl

theorem Reach.step {code : Code} {store : Nat → Nat} {s s' : St} {t : Nat} (h : Reach code store s) (k : step code t s = some (.next s')) : Reach code store s' := by
  obtain ⟨o, ho⟩ := h
  refine ⟨o ++ [t], ?_⟩
  rw [run_append, ho]
  simp [run, k]

theorem IReach.step {code : Code} {watch : Watch} {store : Nat → Nat} {s s' : Inst} {t : Nat} (h : IReach code watch store s) (k : istep code watch t s = some (.next s')) :
    IReach code watch store s' := by
  obtain ⟨o, ho⟩ := h
  refine ⟨o ++ [t], ?_⟩
  rw [irun_append, ho]
  simp [irun, k]

theorem run_induct {code : Code} {P : St → Prop} (hs : ∀ s t s', P s → step code t s = some (.next s') → P s') : ∀ (o : List Nat) (s s' : St), P s → run code o s = some s' → P s'
  | [], s, s', h, k => by cases k; exact h
  | t :: o, s, s', h, k => by
    rw [run] at k
    split at k
    · next x hx => exact run_induct hs o _ _ (hs _ _ _ h hx) k
    · cases k

theorem Reach.induct {code : Code} {store : Nat → Nat} {P : St → Prop} (h0 : P (start store)) (hs : ∀ s t s', P s → Beside.step code t s = some (.next s') → P s') {s : St}
    (h : Reach code store s) : P s := by
  obtain ⟨o, ho⟩ := h
  exact run_induct hs o _ _ h0 ho

theorem Reach.induct' {code : Code} {store : Nat → Nat} {P : St → Prop} (h0 : P (start store)) (hs : ∀ s t s', Reach code store s → P s → Beside.step code t s = some (.next s') → P s') {s : St}
    (h : Reach code store s) : P s :=
  (Reach.induct (P := fun s => Reach code store s ∧ P s) ⟨⟨[], rfl⟩, h0⟩ (fun _ _ _ h k => ⟨h.1.step k, hs _ _ _ h.1 h.2 k⟩) h).2

theorem irun_induct {code : Code} {watch : Watch} {P : Inst → Prop} (hs : ∀ s t s', P s → istep code watch t s = some (.next s') → P s') :
    ∀ (o : List Nat) (s s' : Inst), P s → irun code watch o s = some s' → P s'
  | [], s, s', h, k => by cases k; exact h
  | t :: o, s, s', h, k => by
    rw [irun] at k
    split at k
    · next x hx => exact irun_induct hs o _ _ (hs _ _ _ h hx) k
    · cases k

theorem IReach.induct {code : Code} {watch : Watch} {store : Nat → Nat} {P : Inst → Prop} (h0 : P (istart store))
    (hs : ∀ s t s', P s → istep code watch t s = some (.next s') → P s') {s : Inst} (h : IReach code watch store s) : P s := by
  obtain ⟨o, ho⟩ := h
  exact irun_induct hs o _ _ h0 ho

/-! ### Steps of the original program -/

/-- The kinds of steps. -/
inductive Kind (code : Code) (t : Nat) (s s' : St) : Prop where
  | lock (m : Nat) (h : code t (s.done t) = some (.lock m)) (f : s.held m = none) (e : s' = { s.result t 0 with held := put s.held m (some t) })
  | unlock (m : Nat) (h : code t (s.done t) = some (.unlock m)) (e : s' = { s.result t 0 with held := put s.held m none })
  | read (o : Nat) (h : code t (s.done t) = some (.read o)) (f : s.writer o = none) (e : s' = s.result t (s.store o))
  | begin (o v : Nat) (h : code t (s.done t) = some (.write o v)) (f : s.writer o = none) (e : s' = { s with writer := put s.writer o (some t) })
  | finish (o v : Nat) (h : code t (s.done t) = some (.write o v)) (f : s.writer o = some t) (e : s' = { s.result t 0 with store := put s.store o v, writer := put s.writer o none })

theorem kind {code : Code} {t : Nat} {s s' : St} (h : step code t s = some (.next s')) : Kind code t s s' := by
  unfold step at h
  split at h
  · cases h
  · next m hm => split at h
                 · next f => cases h; exact .lock m hm f rfl
                 · cases h
  · next m hm => split at h
                 · cases h
                 · cases h; exact .unlock m hm rfl
  · next o ho => split at h
                 · next f => cases h; exact .read o ho f rfl
                 · cases h
  · next o v ho =>
    split at h
    · next f => cases h; exact .begin o v ho f rfl
    · next u f => split at h
                  · next e => subst e; cases h; exact .finish o v ho f rfl
                  · cases h

/-- The goroutine in the midst of a write is at that write. -/
theorem Reach.writer {code : Code} {store : Nat → Nat} {s : St} (h : Reach code store s) : ∀ o u, s.writer o = some u → ∃ v, code u (s.done u) = some (.write o v) := by
  refine Reach.induct (P := fun s => ∀ o u, s.writer o = some u → ∃ v, code u (s.done u) = some (.write o v)) (by intro o u h; cases h) ?_ h
  intro s t s' ih k o u hw
  have other : ∀ w : Nat, u ≠ t → (put s.done t (s.done t ++ [w])) u = s.done u := fun w hne => put_ne _ _ hne
  cases kind k with
  | lock m h f e =>
    subst e
    obtain ⟨v, hv⟩ := ih o u hw
    by_cases hut : u = t
    · subst hut; rw [h] at hv; cases hv
    · exact ⟨v, by show code u (put s.done t _ u) = _; rw [put_ne _ _ hut]; exact hv⟩
  | unlock m h e =>
    subst e
    obtain ⟨v, hv⟩ := ih o u hw
    by_cases hut : u = t
    · subst hut; rw [h] at hv; cases hv
    · exact ⟨v, by show code u (put s.done t _ u) = _; rw [put_ne _ _ hut]; exact hv⟩
  | read p h f e =>
    subst e
    obtain ⟨v, hv⟩ := ih o u hw
    by_cases hut : u = t
    · subst hut; rw [h] at hv; cases hv
    · exact ⟨v, by show code u (put s.done t _ u) = _; rw [put_ne _ _ hut]; exact hv⟩
  | begin p v h f e =>
    subst e
    by_cases hp : o = p
    · subst hp
      have : u = t := by have : put s.writer o (some t) o = some u := hw
                         rw [put_self] at this; exact (Option.some.inj this).symm
      subst this
      exact ⟨v, h⟩
    · exact ih o u (by have : put s.writer p (some t) o = some u := hw
                       rwa [put_ne _ _ hp] at this)
  | finish p v h f e =>
    subst e
    by_cases hp : o = p
    · subst hp
      have : put s.writer o none o = some u := hw
      rw [put_self] at this; cases this
    · have hw' : s.writer o = some u := by have : put s.writer p none o = some u := hw
                                           rwa [put_ne _ _ hp] at this
      obtain ⟨v', hv⟩ := ih o u hw'
      by_cases hut : u = t
      · subst hut; rw [h] at hv; cases hv; exact absurd rfl hp
      · exact ⟨v', by show code u (put s.done t _ u) = _; rw [put_ne _ _ hut]; exact hv⟩

theorem foldl_range_congr {β : Type} {f g : β → Nat → β} : ∀ (n : Nat) (b : β), (∀ b i, i < n → f b i = g b i) → (List.range n).foldl f b = (List.range n).foldl g b
  | 0, _, _ => rfl
  | n + 1, b, h => by
    rw [List.range_succ, List.foldl_append, List.foldl_append, foldl_range_congr n b fun b i hi => h b i (by omega)]
    exact h _ n (by omega)

theorem holds_snoc (code : Code) (t m : Nat) (h : List Nat) (v : Nat) : holds code t m (h ++ [v]) = after m (holds code t m h) (code t h) := by
  unfold holds
  rw [List.length_append, List.length_singleton, List.range_succ, List.foldl_append]
  rw [foldl_range_congr h.length false (g := fun b i => after m b (code t (h.take i))) (fun b i hi => by rw [List.take_append_of_le_length (by omega)])]
  show after m _ (code t ((h ++ [v]).take h.length)) = _
  rw [List.take_left]

/-- Goroutines have the mutexes that they locked. -/
theorem Reach.held {code : Code} {store : Nat → Nat} {m : Nat} (ho : Owned code m) {s : St} (h : Reach code store s) : ∀ u, holds code u m (s.done u) = true ↔ s.held m = some u := by
  refine Reach.induct (P := fun s => ∀ u, holds code u m (s.done u) = true ↔ s.held m = some u) (by intro u; simp [start, holds]) ?_ h
  intro s t s' ih k u
  have same : ∀ (w : Nat) (held' : Nat → Option Nat), held' m = s.held m →
      (holds code t m (s.done t ++ [w]) = holds code t m (s.done t)) → (holds code u m (put s.done t (s.done t ++ [w]) u) = true ↔ held' m = some u) := fun w held' e1 e2 => by
    rw [e1]
    by_cases hut : u = t
    · subst hut; rw [put_self, e2]; exact ih u
    · rw [put_ne _ _ hut]; exact ih u
  cases kind k with
  | lock n h f e =>
    subst e
    by_cases hn : n = m
    · subst hn
      show holds code u n (put s.done t _ u) = true ↔ put s.held n (some t) n = some u
      rw [put_self]
      by_cases hut : u = t
      · subst hut; rw [put_self, holds_snoc, h]; simp [after]
      · rw [put_ne _ _ hut, ih u, f]; simp [Ne.symm hut]
    · exact same 0 _ (put_ne _ _ (Ne.symm hn)) (by rw [holds_snoc, h]; simp [after, hn])
  | unlock n h e =>
    subst e
    by_cases hn : n = m
    · subst hn
      show holds code u n (put s.done t _ u) = true ↔ put s.held n none n = some u
      rw [put_self]
      have ht := (ih t).mp (ho t _ h)
      by_cases hut : u = t
      · subst hut; rw [put_self, holds_snoc, h]; simp [after]
      · rw [put_ne _ _ hut, ih u, ht]; simp [Ne.symm hut]
    · exact same 0 _ (put_ne _ _ (Ne.symm hn)) (by rw [holds_snoc, h]; simp [after, hn])
  | read p h f e => subst e; exact same _ _ rfl (by rw [holds_snoc, h]; rfl)
  | begin p v h f e => subst e; exact ih u
  | finish p v h f e => subst e; exact same 0 _ rfl (by rw [holds_snoc, h]; rfl)

/-! ### Steps of the instrumented program -/

/-- What is left of a report belongs to it, and a goroutine in the midst of a write is done with its report. -/
structure Good (code : Code) (watch : Watch) (store : Nat → Nat) (i : Inst) : Prop where
  reach : Reach code store i.st
  suffix : ∀ t l, i.todo t = some l → l <:+ watch t (i.st.done t)
  past : ∀ o t, i.st.writer o = some t → i.todo t = some []

theorem step_done {code : Code} {t : Nat} {s s' : St} (k : step code t s = some (.next s')) : (s'.done = s.done ∧ ∃ o, s'.writer = put s.writer o (some t)) ∨
    (∃ v, s'.done = put s.done t (s.done t ++ [v])) ∧ ∀ o u, s'.writer o = some u → s.writer o = some u := by
  cases kind k with
  | lock n h f e => subst e; exact .inr ⟨⟨_, rfl⟩, fun _ _ h => h⟩
  | unlock n h e => subst e; exact .inr ⟨⟨_, rfl⟩, fun _ _ h => h⟩
  | read p h f e => subst e; exact .inr ⟨⟨_, rfl⟩, fun _ _ h => h⟩
  | begin p v h f e => subst e; exact .inl ⟨rfl, p, rfl⟩
  | finish p v h f e =>
    subst e
    refine .inr ⟨⟨_, rfl⟩, fun o u hw => ?_⟩
    have hw' : put s.writer p none o = some u := hw
    by_cases hp : o = p
    · subst hp; rw [put_self] at hw'; cases hw'
    · rwa [put_ne _ _ hp] at hw'

/-- After an operation that gives a result the goroutine is in the midst of no write. -/
theorem step_idle {code : Code} {store : Nat → Nat} {t : Nat} {s s' : St} (hr : Reach code store s) (k : step code t s = some (.next s')) (hd : s'.done ≠ s.done) (o : Nat) : s'.writer o ≠ some t := by
  intro hw
  have hr' := hr.step k
  cases kind k with
  | lock n h f e => subst e; obtain ⟨v, hv⟩ := hr.writer o t hw; rw [h] at hv; cases hv
  | unlock n h e => subst e; obtain ⟨v, hv⟩ := hr.writer o t hw; rw [h] at hv; cases hv
  | read p h f e => subst e; obtain ⟨v, hv⟩ := hr.writer o t hw; rw [h] at hv; cases hv
  | begin p v h f e => subst e; exact hd rfl
  | finish p v h f e =>
    subst e
    have hw' : put s.writer p none o = some t := hw
    by_cases hp : o = p
    · subst hp; rw [put_self] at hw'; cases hw'
    · rw [put_ne _ _ hp] at hw'
      obtain ⟨v', hv⟩ := hr.writer o t hw'
      rw [h] at hv; cases hv; exact hp rfl

theorem append_ne {h : List Nat} {v : Nat} : h ++ [v] ≠ h := fun e => by have := congrArg List.length e; simp at this

theorem IReach.good {code : Code} {watch : Watch} {store : Nat → Nat} {i : Inst} (h : IReach code watch store i) : Good code watch store i := by
  refine IReach.induct (P := Good code watch store) ⟨⟨[], rfl⟩, fun t l h => (by cases h), fun o t h => (by cases h)⟩ ?_ h
  intro i t i' ih k
  unfold istep at k
  split at k
  · next hn =>
    cases k
    refine ⟨ih.reach, fun u l hl => ?_, fun o u hw => ?_⟩
    · dsimp only at hl ⊢
      by_cases hut : u = t
      · subst hut; rw [put_self] at hl; cases hl; exact List.suffix_refl _
      · rw [put_ne _ _ hut] at hl; exact ih.suffix u l hl
    · have := ih.past o u hw
      dsimp only
      by_cases hut : u = t
      · subst hut; rw [hn] at this; cases this
      · rw [put_ne _ _ hut]; exact this
  · next o rest hn =>
    have key : Good code watch store { i with todo := put i.todo t (some rest) } := by
      refine ⟨ih.reach, fun u l hl => ?_, fun o u hw => ?_⟩
      · dsimp only at hl ⊢
        by_cases hut : u = t
        · subst hut; rw [put_self] at hl; cases hl; exact (List.suffix_cons _ _).trans (ih.suffix u _ hn)
        · rw [put_ne _ _ hut] at hl; exact ih.suffix u l hl
      · have := ih.past o u hw
        dsimp only
        by_cases hut : u = t
        · subst hut; rw [hn] at this; cases this
        · rw [put_ne _ _ hut]; exact this
    split at k
    · cases k; exact key
    · split at k
      · cases k; exact key
      · cases k
  · next hn =>
    split at k
    · cases k
    · cases k
    · next s hs =>
      cases k
      have hr := ih.reach.step hs
      rcases step_done hs with ⟨hd, o, hw⟩ | ⟨⟨v, hd⟩, hw⟩
      · have : s.done t = i.st.done t := by rw [hd]
        refine ⟨hr, fun u l hl => ?_, fun p u hp => ?_⟩
        · dsimp only at hl
          rw [if_pos this] at hl
          show l <:+ watch u (s.done u)
          rw [hd]; exact ih.suffix u l hl
        · show (if s.done t = i.st.done t then i.todo else _) u = _
          rw [if_pos this]
          have hp' : s.writer p = some u := hp
          rw [hw] at hp'
          by_cases hpo : p = o
          · subst hpo; rw [put_self] at hp'; cases hp'; exact hn
          · rw [put_ne _ _ hpo] at hp'; exact ih.past p u hp'
      · have : s.done t ≠ i.st.done t := by rw [hd, put_self]; exact append_ne
        have hne : s.done ≠ i.st.done := fun e => this (by rw [e])
        refine ⟨hr, fun u l hl => ?_, fun p u hp => ?_⟩
        · dsimp only at hl
          rw [if_neg this] at hl
          by_cases hut : u = t
          · subst hut; rw [put_self] at hl; cases hl
          · rw [put_ne _ _ hut] at hl
            show l <:+ watch u (s.done u)
            rw [hd, put_ne _ _ hut]; exact ih.suffix u l hl
        · show (if s.done t = i.st.done t then i.todo else _) u = _
          rw [if_neg this]
          have hut : u ≠ t := fun e => by subst e; exact step_idle ih.reach hs hne p hp
          rw [put_ne _ _ hut]
          exact ih.past p u (hw p u hp)

/-- Goroutines have begun with their report only if they are at their operation. -/
def Lazy (i : Inst) : Prop := ∀ t, i.todo t = none ∨ i.todo t = some [] ∧ ∃ o, i.st.writer o = some t

/-- A goroutine gets through its report, or the program crashes. -/
theorem through {code : Code} {watch : Watch} {store : Nat → Nat} {t : Nat} (s : St) : ∀ (l : List Nat) (todo : Nat → Option (List Nat)), IReach code watch store ⟨s, todo⟩ → todo t = some l →
    (ICrashes code watch store ∧ ∃ o ∈ l, ∃ u, s.writer o = some u ∧ u ≠ t) ∨ IReach code watch store ⟨s, put todo t (some [])⟩ ∧ ∀ o ∈ l, ∀ u, s.writer o = some u → u = t
  | [], todo, hr, ht => .inr ⟨by
      have : put todo t (some []) = todo := by
        funext u
        by_cases hut : u = t
        · subst hut; rw [put_self, ht]
        · rw [put_ne _ _ hut]
      rwa [this], fun _ h => (by cases h)⟩
  | o :: l, todo, hr, ht => by
    have e : istep code watch t ⟨s, todo⟩ = match s.writer o with
        | none => some (.next ⟨s, put todo t (some l)⟩)
        | some u => if u = t then some (.next ⟨s, put todo t (some l)⟩) else some .crash := by
      unfold istep
      cases hw : s.writer o <;> simp only [ht, hw]
    have go : (∀ u, s.writer o = some u → u = t) → IReach code watch store ⟨s, put todo t (some l)⟩ := fun hu => by
      refine hr.step (t := t) ?_
      rw [e]
      cases hw : s.writer o with
      | none => rfl
      | some u => simp [hu u hw]
    have pp : put (put todo t (some l)) t (some []) = put todo t (some ([] : List Nat)) := by
      funext u
      by_cases hut : u = t
      · subst hut; rw [put_self, put_self]
      · rw [put_ne _ _ hut, put_ne _ _ hut, put_ne _ _ hut]
    by_cases hu : ∀ u, s.writer o = some u → u = t
    · rcases through s l _ (go hu) (put_self _ _ _) with ⟨h, o', ho', hx⟩ | ⟨h, h'⟩
      · exact .inl ⟨h, o', .tail _ ho', hx⟩
      · rw [pp] at h
        refine .inr ⟨h, fun o' ho' => ?_⟩
        rcases List.mem_cons.mp ho' with rfl | ho'
        · exact hu
        · exact h' o' ho'
    · have : ∃ u, s.writer o = some u ∧ u ≠ t := Classical.byContradiction fun hc => hu fun u h => Classical.byContradiction fun h' => hc ⟨u, h, h'⟩
      obtain ⟨u, h1, h2⟩ := this
      exact .inl ⟨⟨_, t, hr, by rw [e, h1]; simp [h2]⟩, o, .head _, u, h1, h2⟩

/-- A goroutine that is to make an operation can get to it. -/
theorem ready {code : Code} {watch : Watch} {store : Nat → Nat} {s : St} {todo : Nat → Option (List Nat)} (hr : IReach code watch store ⟨s, todo⟩) (hl : Lazy ⟨s, todo⟩) (t : Nat) :
    ICrashes code watch store ∨ IReach code watch store ⟨s, put todo t (some [])⟩ := by
  rcases hl t with h | ⟨h, -⟩
  · have h : todo t = none := h
    have k : istep code watch t ⟨s, todo⟩ = some (.next ⟨s, put todo t (some (watch t (s.done t)))⟩) := by
      unfold istep
      simp only [h]
    have pp : put (put todo t (some (watch t (s.done t)))) t (some []) = put todo t (some ([] : List Nat)) := by
      funext u
      by_cases hut : u = t
      · subst hut; rw [put_self, put_self]
      · rw [put_ne _ _ hut, put_ne _ _ hut, put_ne _ _ hut]
    rcases through s _ _ (hr.step k) (put_self _ _ _) with h | h
    · exact .inl h.1
    · rw [pp] at h
      exact .inr h.1
  · rcases through s _ _ hr h with h | h
    · exact .inl h.1
    · exact .inr h.1

/-- The instrumented program gets to each state of the original one, or crashes. -/
theorem follow {code : Code} {watch : Watch} {store : Nat → Nat} {s : St} (h : Reach code store s) : ICrashes code watch store ∨ ∃ todo, IReach code watch store ⟨s, todo⟩ ∧ Lazy ⟨s, todo⟩ := by
  refine Reach.induct' (P := fun s => ICrashes code watch store ∨ ∃ todo, IReach code watch store ⟨s, todo⟩ ∧ Lazy ⟨s, todo⟩) (.inr ⟨fun _ => none, ⟨[], rfl⟩, fun _ => .inl rfl⟩) ?_ h
  intro s t s' hreach ih k
  rcases ih with ih | ⟨todo, hr, hl⟩
  · exact .inl ih
  · rcases ready hr hl t with h | h
    · exact .inl h
    · refine .inr ?_
      have e : istep code watch t ⟨s, put todo t (some [])⟩ = some (.next ⟨s', if s'.done t = s.done t then put todo t (some []) else put (put todo t (some [])) t none⟩) := by
        unfold istep
        simp only [put_self, k]
      refine ⟨_, h.step e, fun u => ?_⟩
      show (if s'.done t = s.done t then put todo t (some []) else put (put todo t (some [])) t none) u = none ∨ (if s'.done t = s.done t then put todo t (some []) else put (put todo t (some [])) t none) u = some [] ∧ ∃ o, s'.writer o = some u
      have later : u ≠ t → ∀ o, s.writer o = some u → s'.writer o = some u := fun hut o ho => by
        cases kind k with
        | lock n h f e => subst e; exact ho
        | unlock n h e => subst e; exact ho
        | read p h f e => subst e; exact ho
        | begin p v h f e =>
          subst e
          show put s.writer p (some t) o = some u
          by_cases hp : o = p
          · subst hp; rw [f] at ho; cases ho
          · rw [put_ne _ _ hp]; exact ho
        | finish p v h f e =>
          subst e
          show put s.writer p none o = some u
          by_cases hp : o = p
          · subst hp; rw [f] at ho; cases ho; exact absurd rfl hut
          · rw [put_ne _ _ hp]; exact ho
      by_cases hut : u = t
      · subst hut
        rcases step_done k with ⟨hd, o, hw⟩ | ⟨⟨v, hd⟩, hw⟩
        · rw [if_pos (by rw [hd]), put_self]
          exact .inr ⟨rfl, o, by rw [hw, put_self]⟩
        · rw [if_neg (by rw [hd, put_self]; exact append_ne), put_self]
          exact .inl rfl
      · have : (if s'.done t = s.done t then put todo t (some []) else put (put todo t (some [])) t none) u = todo u := by
          split
          · exact put_ne _ _ hut
          · rw [put_ne _ _ hut, put_ne _ _ hut]
        rw [this]
        rcases hl u with h | ⟨h1, o, h2⟩
        · exact .inl h
        · exact .inr ⟨h1, o, later hut o h2⟩

end Verif.Beside
