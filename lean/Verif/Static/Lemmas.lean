import Verif.Static.Spec
import Mathlib.Data.List.Induction

namespace Verif.Static

section
variable {N : Type} [DecidableEq N]

/-! ### Search -/

theorem pushCallers_spec : ∀ (es : List (Option N)) (st vi : List N), vi.Nodup →
    ∃ l, pushCallers es st vi = (l ++ st, l ++ vi) ∧ (l ++ vi).Nodup ∧ (∀ x ∈ l, some x ∈ es) ∧ ∀ c, some c ∈ es → c ∈ l ++ vi := by
  intro es
  induction es with
  | nil => intro st vi h; exact ⟨[], rfl, h, by simp, by simp⟩
  | cons e es ih =>
      intro st vi h
      cases e with
      | none =>
          obtain ⟨l, h1, h2, h3, h4⟩ := ih st vi h
          exact ⟨l, h1, h2, fun x hx => List.mem_cons_of_mem _ (h3 x hx), fun c hc => h4 c (by simpa using hc)⟩
      | some c =>
          by_cases hc : c ∈ vi
          · obtain ⟨l, h1, h2, h3, h4⟩ := ih st vi h
            refine ⟨l, by simp [pushCallers, hc, h1], h2, fun x hx => List.mem_cons_of_mem _ (h3 x hx), ?_⟩
            intro d hd
            rcases List.mem_cons.mp hd with hd | hd
            · cases hd; exact List.mem_append_right _ hc
            · exact h4 d hd
          · obtain ⟨l, h1, h2, h3, h4⟩ := ih (c :: st) (c :: vi) (List.nodup_cons.mpr ⟨hc, h⟩)
            refine ⟨l ++ [c], by simp [pushCallers, hc, h1], by simpa using h2, ?_, ?_⟩
            · intro x hx
              rcases List.mem_append.mp hx with hx | hx
              · exact List.mem_cons_of_mem _ (h3 x hx)
              · simp only [List.mem_singleton] at hx; rw [hx]; exact List.mem_cons_self
            · intro d hd
              have : d ∈ l ++ (c :: vi) := by
                rcases List.mem_cons.mp hd with hd | hd
                · cases hd; simp
                · exact h4 d hd
              simpa using this

/-- What holds between steps of the search. -/
structure SInv (callers : N → List (Option N)) (root : N → Bool) (start : N) (popped stack visited : List N) : Prop where
  perm : visited.Perm (popped ++ stack)
  nodup : visited.Nodup
  up : ∀ x ∈ visited, Upward callers root start x
  closed : ∀ y ∈ popped, root y = false → ∀ c, some c ∈ callers y → c ∈ visited
  has : start ∈ visited

theorem sinv_step {callers : N → List (Option N)} {root : N → Bool} {start x : N} {popped stack visited : List N}
    (h : SInv callers root start popped (x :: stack) visited) :
    (root x = true → SInv callers root start (popped ++ [x]) stack visited) ∧
    (root x = false → SInv callers root start (popped ++ [x]) (pushCallers (callers x) stack visited).1 (pushCallers (callers x) stack visited).2) := by
  have hx : x ∈ visited := h.perm.mem_iff.mpr (by simp)
  constructor
  · intro hr
    refine ⟨by simpa using h.perm, h.nodup, h.up, ?_, h.has⟩
    intro y hy hry
    rcases List.mem_append.mp hy with hy | hy
    · exact h.closed y hy hry
    · simp only [List.mem_singleton] at hy
      rw [hy, hr] at hry; cases hry
  · intro hr
    obtain ⟨l, h1, h2, h3, h4⟩ := pushCallers_spec (callers x) stack visited h.nodup
    rw [h1]
    refine ⟨?_, h2, ?_, ?_, List.mem_append_right _ h.has⟩
    · have : (popped ++ [x] ++ (l ++ stack)).Perm (l ++ (popped ++ x :: stack)) := by
        have e : popped ++ [x] ++ (l ++ stack) = (popped ++ [x]) ++ l ++ stack := by simp
        rw [e]
        have e2 : l ++ (popped ++ x :: stack) = l ++ (popped ++ [x]) ++ stack := by simp
        rw [e2]
        exact List.Perm.append_right _ List.perm_append_comm
      exact (List.Perm.append_left l h.perm).trans this.symm
    · intro y hy
      rcases List.mem_append.mp hy with hy | hy
      · exact .caller (h.up x hx) hr (h3 y hy)
      · exact h.up y hy
    · intro y hy hry c hc
      rcases List.mem_append.mp hy with hy | hy
      · exact List.mem_append_right _ (h.closed y hy hry c hc)
      · simp only [List.mem_singleton] at hy
        subst hy
        exact h4 c hc

theorem search_done {S : Type} {callers : N → List (Option N)} {root : N → Bool} {start : N} (visit : N → S → Option S) :
    ∀ (n : Nat) (popped stack visited : List N) (s s' : S), SInv callers root start popped stack visited →
    search callers root visit n stack visited s = .done s' →
    ∃ order, order.foldlM (fun s x => visit x s) s = some s' ∧ (popped ++ order).Nodup ∧ ∀ x, x ∈ popped ++ order ↔ Upward callers root start x := by
  intro n
  induction n with
  | zero =>
      intro popped stack visited s s' hi h
      cases stack with
      | cons x stack => simp [search] at h
      | nil =>
          simp only [search, Search.done.injEq] at h
          subst h
          refine ⟨[], rfl, by simpa using hi.perm.nodup_iff.mp hi.nodup, ?_⟩
          intro x
          rw [List.append_nil]
          have hp : ∀ y, y ∈ visited ↔ y ∈ popped := fun y => by simpa using hi.perm.mem_iff (a := y)
          refine ⟨fun hx => hi.up x ((hp x).mpr hx), fun hx => ?_⟩
          induction hx with
          | start => exact (hp _).mp hi.has
          | caller _ hr hc ih => exact (hp _).mp (hi.closed _ ih hr _ hc)
  | succ n ih =>
      intro popped stack visited s s' hi h
      cases stack with
      | nil =>
          simp only [search, Search.done.injEq] at h
          subst h
          refine ⟨[], rfl, by simpa using hi.perm.nodup_iff.mp hi.nodup, ?_⟩
          intro x
          rw [List.append_nil]
          have hp : ∀ y, y ∈ visited ↔ y ∈ popped := fun y => by simpa using hi.perm.mem_iff (a := y)
          refine ⟨fun hx => hi.up x ((hp x).mpr hx), fun hx => ?_⟩
          induction hx with
          | start => exact (hp _).mp hi.has
          | caller _ hr hc ih => exact (hp _).mp (hi.closed _ ih hr _ hc)
      | cons x stack =>
          simp only [search] at h
          cases hv : visit x s with
          | none => rw [hv] at h; cases h
          | some s1 =>
              rw [hv] at h
              simp only at h
              have step : ∀ st vi, SInv callers root start (popped ++ [x]) st vi → search callers root visit n st vi s1 = .done s' →
                  ∃ order, order.foldlM (fun s x => visit x s) s = some s' ∧ (popped ++ order).Nodup ∧
                    ∀ x, x ∈ popped ++ order ↔ Upward callers root start x := by
                intro st vi hi' h'
                obtain ⟨order, o1, o2, o3⟩ := ih _ _ _ _ _ hi' h'
                refine ⟨x :: order, by simp [List.foldlM_cons, hv, o1], by simpa using o2, fun y => by simpa using o3 y⟩
              cases hr : root x with
              | true => rw [if_pos hr] at h; exact step _ _ ((sinv_step hi).1 hr) h
              | false => rw [if_neg (by simp [hr])] at h; exact step _ _ ((sinv_step hi).2 hr) h

theorem search_cut {S : Type} {callers : N → List (Option N)} {root : N → Bool} {start : N} (visit : N → S → Option S) (univ : List N)
    (hu : ∀ x, Upward callers root start x → x ∈ univ) :
    ∀ (n : Nat) (popped stack visited : List N) (s : S), SInv callers root start popped stack visited → univ.length ≤ n + popped.length →
    search callers root visit n stack visited s ≠ .cutOff := by
  intro n
  induction n with
  | zero =>
      intro popped stack visited s hi hn
      cases stack with
      | nil => simp [search]
      | cons x stack =>
          exfalso
          have hnd := hi.perm.nodup_iff.mp hi.nodup
          have hsub : (popped ++ x :: stack) ⊆ univ := fun y hy => hu y (hi.up y (hi.perm.mem_iff.mpr hy))
          have := (List.subperm_of_subset hnd hsub).length_le
          simp at this
          omega
  | succ n ih =>
      intro popped stack visited s hi hn
      cases stack with
      | nil => simp [search]
      | cons x stack =>
          simp only [search]
          cases hv : visit x s with
          | none => simp
          | some s1 =>
              simp only
              cases hr : root x with
              | true => rw [if_pos rfl]; exact ih _ _ _ _ ((sinv_step hi).1 hr) (by simp; omega)
              | false => rw [if_neg (by simp)]; exact ih _ _ _ _ ((sinv_step hi).2 hr) (by simp; omega)

theorem search_failed {S : Type} {callers : N → List (Option N)} {root : N → Bool} {start : N} (visit : N → S → Option S) :
    ∀ (n : Nat) (popped stack visited : List N) (s : S), SInv callers root start popped stack visited →
    search callers root visit n stack visited s = .failed → ∃ x s', Upward callers root start x ∧ visit x s' = none := by
  intro n
  induction n with
  | zero =>
      intro popped stack visited s hi h
      cases stack <;> simp [search] at h
  | succ n ih =>
      intro popped stack visited s hi h
      cases stack with
      | nil => simp [search] at h
      | cons x stack =>
          simp only [search] at h
          cases hv : visit x s with
          | none => exact ⟨x, s, hi.up x (hi.perm.mem_iff.mpr (by simp)), hv⟩
          | some s1 =>
              rw [hv] at h
              simp only at h
              cases hr : root x with
              | true => rw [if_pos hr] at h; exact ih _ _ _ _ ((sinv_step hi).1 hr) h
              | false => rw [if_neg (by simp [hr])] at h; exact ih _ _ _ _ ((sinv_step hi).2 hr) h

theorem sinv_init (callers : N → List (Option N)) (root : N → Bool) (start : N) : SInv callers root start [] [start] [start] :=
  ⟨by simp, by simp, by simp [Upward.start], by simp, by simp⟩

/-! ### Callbacks -/

/-- The updates of a callback that only appends. -/
theorem foldlM_append {α β : Type} (visit : α → List β → Option (List β)) (ok : α → Prop) (ev : α → List β)
    (h : ∀ x out, visit x out = some (out ++ ev x) ∨ (visit x out = none ∧ ¬ ok x)) :
    ∀ (order : List α) (out out' : List β), order.foldlM (fun s x => visit x s) out = some out' → out' = out ++ order.flatMap ev := by
  intro order
  induction order with
  | nil => intro out out' h'; simpa using h'.symm
  | cons x order ih =>
      intro out out' h'
      rw [List.foldlM_cons] at h'
      rcases h x out with hx | ⟨hx, _⟩
      · rw [hx] at h'
        rw [ih _ _ h']
        simp
      · rw [hx] at h'; cases h'

open Classical in
/-- The update made for a node by `visitCaller`. -/
noncomputable def callerEvents (g : Graph N) (start : N) (target : Bytes) (x : N) : List (Bytes × N × Bytes) :=
  if x ≠ start ∧ Reportable (g.fn x) then [((g.fn x).ident, x, target)] else []

theorem visitCaller_spec (g : Graph N) (start : N) (target : Bytes) (x : N) (out : List (Bytes × N × Bytes)) :
    visitCaller g start target x out = some (out ++ callerEvents g start target x) ∨
      (visitCaller g start target x out = none ∧ ¬ (g.fn x).compiles.isSome) := by
  unfold visitCaller callerEvents Reportable
  cases h1 : (g.fn x).hasPkg
  · simp [h1]
  · by_cases h2 : x = start
    · simp [h2]
    · cases h3 : (g.fn x).mainOrInit
      · cases h4 : (g.fn x).inProject
        · simp [h1, h2, h3, h4]
        · cases h5 : (g.fn x).generated
          · cases h6 : (g.fn x).compiles with
            | none => simp [h1, h2, h3, h4, h5, h6]
            | some b =>
                cases b
                · simp [h1, h2, h3, h4, h5, h6]
                · cases h7 : (g.fn x).supported
                  · simp [h1, h2, h3, h4, h5, h6, h7]
                  · simp [h1, h2, h3, h4, h5, h6, h7]
          · simp [h1, h2, h3, h4, h5]
      · simp [h1, h2, h3]

theorem callerWorker_done {g : Graph N} {steps : Nat} {ch : Bytes} {out : List (Bytes × N × Bytes)} (h : callerWorker g steps ch = .done out)
    (e : Bytes × N × Bytes) :
    e ∈ out ↔ ∃ start, nodeOf g ch = some start ∧ Upward g.callers (fun x => (g.fn x).mainOrInit) start e.2.1 ∧ e.2.1 ≠ start ∧
      Reportable (g.fn e.2.1) ∧ e.1 = (g.fn e.2.1).ident ∧ e.2.2 = ch := by
  unfold callerWorker at h
  cases hn : nodeOf g ch with
  | none => rw [hn] at h; cases h; simp
  | some start =>
      rw [hn] at h
      obtain ⟨order, o1, _, o3⟩ := search_done _ _ _ _ _ _ _ (sinv_init _ _ start) h
      have := foldlM_append (visitCaller g start ch) (fun x => (g.fn x).compiles.isSome) (callerEvents g start ch) (visitCaller_spec g start ch) _ _ _ o1
      rw [this, List.nil_append, List.mem_flatMap]
      simp only [List.nil_append] at o3
      constructor
      · rintro ⟨x, hx, he⟩
        unfold callerEvents at he
        split at he
        · rename_i hc
          simp only [List.mem_singleton] at he
          subst he
          exact ⟨start, rfl, (o3 x).mp hx, hc.1, hc.2, rfl, rfl⟩
        · simp at he
      · rintro ⟨start', hs, hup, hne, hrep, h1, h2⟩
        cases hs
        refine ⟨e.2.1, (o3 _).mpr hup, ?_⟩
        unfold callerEvents
        rw [if_pos ⟨hne, hrep⟩, ← h1, ← h2]
        simp

open Classical in
/-- The update made for a node by `visitTest`. -/
noncomputable def testEvents (g : Graph N) (target : Bytes) (x : N) : List (Bytes × N × Bytes) :=
  if IsProjectTest (g.fn x) ∧ (g.fn x).supported = true then [((g.fn x).ident, x, target)] else []

theorem visitTest_spec (g : Graph N) (target : Bytes) (x : N) (out : List (Bytes × N × Bytes)) :
    visitTest g target x out = some (out ++ testEvents g target x) := by
  unfold visitTest testEvents IsProjectTest
  cases h1 : (g.fn x).isTest <;> cases h2 : (g.fn x).inProject <;> cases h3 : (g.fn x).supported <;> simp [h1, h2, h3]

theorem testWorker_done {g : Graph N} {steps : Nat} {start : N} {c : Bytes} {out : List (Bytes × N × Bytes)} (h : testWorker g steps start c = .done out)
    (e : Bytes × N × Bytes) :
    e ∈ out ↔ Upward g.callers (testRoot g) start e.2.1 ∧ IsProjectTest (g.fn e.2.1) ∧ (g.fn e.2.1).supported = true ∧
      e.1 = (g.fn e.2.1).ident ∧ e.2.2 = c := by
  unfold testWorker at h
  obtain ⟨order, o1, _, o3⟩ := search_done _ _ _ _ _ _ _ (sinv_init _ _ start) h
  have := foldlM_append (visitTest g c) (fun _ => True) (testEvents g c) (fun x out => Or.inl (visitTest_spec g c x out)) _ _ _ o1
  rw [this, List.nil_append, List.mem_flatMap]
  simp only [List.nil_append] at o3
  constructor
  · rintro ⟨x, hx, he⟩
    unfold testEvents at he
    split at he
    · rename_i hc
      simp only [List.mem_singleton] at he
      subst he
      exact ⟨(o3 x).mp hx, hc.1, hc.2, rfl, rfl⟩
    · simp at he
  · rintro ⟨hup, h1, h2, h3, h4⟩
    refine ⟨e.2.1, (o3 _).mpr hup, ?_⟩
    unfold testEvents
    rw [if_pos ⟨h1, h2⟩, ← h3, ← h4]
    simp

omit [DecidableEq N] in
theorem testRoot_eq (g : Graph N) : testRoot g = fun y => endsWay (g.fn y) := by
  funext y
  unfold testRoot endsWay
  cases (g.fn y).isTest <;> simp

/-! ### Shared results -/

theorem recordAll_snoc (es : List (Bytes × N × Bytes)) (e : Bytes × N × Bytes) : recordAll (es ++ [e]) = record (recordAll es) e := by
  simp [recordAll]

/-- What the map holds after some updates. -/
structure Holds (m : AMap Bytes (Entry N)) (es : List (Bytes × N × Bytes)) : Prop where
  none_ : ∀ k, m.get k = none ↔ ∀ e ∈ es, e.1 ≠ k
  targets : ∀ k x, m.get k = some x → x.targets.Nodup ∧ (∀ t, t ∈ x.targets ↔ ∃ n, (k, n, t) ∈ es) ∧ ∃ t, (k, x.node, t) ∈ es

theorem recordAll_holds (es : List (Bytes × N × Bytes)) : Holds (recordAll es) es := by
  induction es using List.reverseRecOn with
  | nil => exact ⟨by simp [recordAll], by simp [recordAll]⟩
  | append_singleton es e ih =>
      rw [recordAll_snoc]
      obtain ⟨k, n, t⟩ := e
      unfold record
      cases hg : (recordAll es).get k with
      | none =>
          simp only
          have hno := (ih.none_ k).mp hg
          refine ⟨?_, ?_⟩
          · intro k'
            rw [AMap.get_set]
            by_cases hk : k' = k
            · rw [if_pos hk]
              refine ⟨fun h => (by cases h), fun h => absurd hk.symm (h (k, n, t) (by simp))⟩
            · rw [if_neg hk, ih.none_ k']
              simp only [List.mem_append, List.mem_singleton, or_imp, forall_and, forall_eq]
              exact ⟨fun h => ⟨h, fun hh => hk hh.symm⟩, fun h => h.1⟩
          · intro k' x hx
            rw [AMap.get_set] at hx
            by_cases hk : k' = k
            · subst hk
              simp only [if_true, Option.some.injEq] at hx
              subst hx
              refine ⟨by simp, ?_, t, by simp⟩
              intro t'
              simp only [List.mem_singleton, List.mem_append, Prod.mk.injEq, true_and]
              constructor
              · intro h; exact ⟨n, Or.inr ⟨rfl, h⟩⟩
              · rintro ⟨n', h | h⟩
                · exact absurd rfl (hno _ h)
                · exact h.2
            · rw [if_neg hk] at hx
              obtain ⟨a1, a2, t', a3⟩ := ih.targets k' x hx
              refine ⟨a1, ?_, t', by simp [a3]⟩
              intro t''
              rw [a2]
              simp [hk]
      | some x =>
          simp only
          obtain ⟨a1, a2, t0, a3⟩ := ih.targets k x hg
          have hsome : ∃ e ∈ es, e.1 = k := ⟨_, a3, rfl⟩
          by_cases ht : t ∈ x.targets
          · rw [if_pos ht]
            obtain ⟨n0, hn0⟩ := (a2 t).mp ht
            refine ⟨?_, ?_⟩
            · intro k'
              rw [ih.none_ k']
              simp only [List.mem_append, List.mem_singleton, or_imp, forall_and, forall_eq]
              refine ⟨fun h => ⟨h, fun hh => ?_⟩, fun h => h.1⟩
              exact h _ hn0 hh
            · intro k' x' hx'
              obtain ⟨b1, b2, t', b3⟩ := ih.targets k' x' hx'
              refine ⟨b1, ?_, t', by simp [b3]⟩
              intro t''
              rw [b2]
              simp only [List.mem_append, List.mem_singleton, Prod.mk.injEq]
              constructor
              · rintro ⟨n', h⟩; exact ⟨n', Or.inl h⟩
              · rintro ⟨n', h | ⟨rfl, _, rfl⟩⟩
                · exact ⟨n', h⟩
                · exact ⟨n0, hn0⟩
          · rw [if_neg ht]
            refine ⟨?_, ?_⟩
            · intro k'
              rw [AMap.get_set]
              by_cases hk : k' = k
              · rw [if_pos hk]
                refine ⟨fun h => (by cases h), fun h => absurd hk.symm (h (k, n, t) (by simp))⟩
              · rw [if_neg hk, ih.none_ k']
                simp only [List.mem_append, List.mem_singleton, or_imp, forall_and, forall_eq]
                exact ⟨fun h => ⟨h, fun hh => hk hh.symm⟩, fun h => h.1⟩
            · intro k' x' hx'
              rw [AMap.get_set] at hx'
              by_cases hk : k' = k
              · subst hk
                simp only [if_true, Option.some.injEq] at hx'
                subst hx'
                refine ⟨?_, ?_, t0, by simp [a3]⟩
                · exact List.nodup_append.mpr ⟨a1, by simp, by intro a ha b hb; simp only [List.mem_singleton] at hb; rintro rfl; exact ht (hb ▸ ha)⟩
                · intro t'
                  simp only [List.mem_append, List.mem_singleton, a2, Prod.mk.injEq, true_and]
                  constructor
                  · rintro (⟨n', h⟩ | h)
                    · exact ⟨n', Or.inl h⟩
                    · exact ⟨n, Or.inr ⟨rfl, h⟩⟩
                  · rintro ⟨n', h | h⟩
                    · exact Or.inl ⟨n', h⟩
                    · exact Or.inr h.2
              · rw [if_neg hk] at hx'
                obtain ⟨b1, b2, t', b3⟩ := ih.targets k' x' hx'
                refine ⟨b1, ?_, t', by simp [b3]⟩
                intro t''
                rw [b2]
                simp [hk]

omit [DecidableEq N] in
theorem holds_perm {m : AMap Bytes (Entry N)} {es es' : List (Bytes × N × Bytes)} (h : Holds m es) (hp : ∀ e, e ∈ es ↔ e ∈ es') : Holds m es' := by
  refine ⟨fun k => ?_, fun k x hx => ?_⟩
  · rw [h.none_ k]
    exact forall_congr' fun e => by rw [hp e]
  · obtain ⟨a1, a2, t, a3⟩ := h.targets k x hx
    refine ⟨a1, fun t' => ?_, t, (hp _).mp a3⟩
    rw [a2 t']
    exact exists_congr fun n => hp _

omit [DecidableEq N] in
theorem nodeOf_mem {g : Graph N} {ident : Bytes} {x : N} (h : nodeOf g ident = some x) : x ∈ g.nodes ∧ (g.fn x).ident = ident := by
  unfold nodeOf at h
  have := List.mem_of_getLast? h
  simpa using this

omit [DecidableEq N] in
theorem nodeOf_none {g : Graph N} {ident : Bytes} (h : nodeOf g ident = none) : ∀ x ∈ g.nodes, (g.fn x).ident ≠ ident := by
  unfold nodeOf at h
  rw [List.getLast?_eq_none_iff, List.filter_eq_nil_iff] at h
  intro x hx he
  exact h x hx (by simpa using he)

/-! ### Edges -/

theorem exportEdges_get (g : Graph N) (callees : N → List (Option N)) (k : Bytes) :
    (exportEdges g callees).get k = ((g.nodes.filter fun x => (g.fn x).supported && (g.fn x).ident == k).getLast?).map (calleeIdents g callees) := by
  unfold exportEdges
  generalize g.nodes = l
  induction l using List.reverseRecOn with
  | nil => simp
  | append_singleton l x ih =>
      rw [List.foldl_append]
      simp only [List.foldl_cons, List.foldl_nil, List.filter_append, List.filter_cons, List.filter_nil]
      cases hs : (g.fn x).supported with
      | false => simp [ih]
      | true =>
          simp only [if_true, AMap.get_set]
          by_cases hk : k = (g.fn x).ident
          · simp [hk]
          · have : ((g.fn x).ident == k) = false := by simpa using fun h => hk h.symm
            simp [hk, this, ih]

end

/-! ### Packages -/

section
variable {P : Type} [DecidableEq P]

theorem createAll_spec (pkg : P → Pkg P) (project roots : List P) : ∀ (n : Nat) (st : List P) (s s' : Created P),
    s.created.Nodup → s.modules = s.created.filter (fun p => p ∉ project) → (∀ p ∈ s.created, (pkg p).typed = true ∧ Imported pkg roots p) →
    (∀ p ∈ st, Imported pkg roots p) →
    (∀ p ∈ s.created, ∀ q ∈ (pkg p).imports, (pkg q).typed = true → q ∈ s.created ∨ q ∈ st) →
    (∀ p ∈ roots, (pkg p).typed = true → p ∈ s.created ∨ p ∈ st) →
    createAll pkg project n st s = some s' →
    s'.created.Nodup ∧ s'.modules = s'.created.filter (fun p => p ∉ project) ∧ ∀ p, p ∈ s'.created ↔ (pkg p).typed = true ∧ Imported pkg roots p := by
  intro n
  induction n with
  | zero =>
      intro st s s' h1 h2 h3 _ h5 h6 h
      cases st with
      | cons p st => simp [createAll] at h
      | nil =>
          simp only [createAll, Option.some.injEq] at h
          subst h
          refine ⟨h1, h2, fun p => ⟨h3 p, ?_⟩⟩
          rintro ⟨ht, hi⟩
          induction hi with
          | root hp => simpa using h6 _ hp ht
          | import_ _ htp hq ih => simpa using h5 _ (ih htp) _ hq ht
  | succ n ih =>
      intro st s s' h1 h2 h3 h4 h5 h6 h
      cases st with
      | nil =>
          simp only [createAll, Option.some.injEq] at h
          subst h
          refine ⟨h1, h2, fun p => ⟨h3 p, ?_⟩⟩
          rintro ⟨ht, hi⟩
          induction hi with
          | root hp => simpa using h6 _ hp ht
          | import_ _ htp hq ih => simpa using h5 _ (ih htp) _ hq ht
      | cons p st =>
          simp only [createAll] at h
          have h4' : ∀ q ∈ st, Imported pkg roots q := fun q hq => h4 q (List.mem_cons_of_mem _ hq)
          by_cases hty : (pkg p).typed = true
          · rw [if_neg (by simp [hty])] at h
            by_cases hc : p ∈ s.created
            · rw [if_pos hc] at h
              refine ih st s s' h1 h2 h3 h4' ?_ ?_ h
              · intro q hq r hr ht
                rcases h5 q hq r hr ht with h | h
                · exact Or.inl h
                · rcases List.mem_cons.mp h with rfl | h
                  · exact Or.inl hc
                  · exact Or.inr h
              · intro r hr ht
                rcases h6 r hr ht with h | h
                · exact Or.inl h
                · rcases List.mem_cons.mp h with rfl | h
                  · exact Or.inl hc
                  · exact Or.inr h
            · rw [if_neg hc] at h
              refine ih _ _ s' (List.nodup_cons.mpr ⟨hc, h1⟩) ?_ ?_ ?_ ?_ ?_ h
              · simp only [List.filter_cons]
                by_cases hp : p ∈ project
                · simp [hp, h2]
                · simp [hp, h2]
              · intro q hq
                rcases List.mem_cons.mp hq with rfl | hq
                · exact ⟨hty, h4 q List.mem_cons_self⟩
                · exact h3 q hq
              · intro q hq
                rcases List.mem_append.mp hq with hq | hq
                · exact .import_ (h4 p List.mem_cons_self) hty hq
                · exact h4' q hq
              · intro q hq r hr ht
                rcases List.mem_cons.mp hq with rfl | hq
                · exact Or.inr (List.mem_append_left _ hr)
                · rcases h5 q hq r hr ht with h | h
                  · exact Or.inl (List.mem_cons_of_mem _ h)
                  · rcases List.mem_cons.mp h with rfl | h
                    · exact Or.inl List.mem_cons_self
                    · exact Or.inr (List.mem_append_right _ h)
              · intro r hr ht
                rcases h6 r hr ht with h | h
                · exact Or.inl (List.mem_cons_of_mem _ h)
                · rcases List.mem_cons.mp h with rfl | h
                  · exact Or.inl List.mem_cons_self
                  · exact Or.inr (List.mem_append_right _ h)
          · rw [if_pos (by simp [hty])] at h
            refine ih st s s' h1 h2 h3 h4' ?_ ?_ h
            · intro q hq r hr ht
              rcases h5 q hq r hr ht with h | h
              · exact Or.inl h
              · rcases List.mem_cons.mp h with rfl | h
                · exact absurd ht hty
                · exact Or.inr h
            · intro r hr ht
              rcases h6 r hr ht with h | h
              · exact Or.inl h
              · rcases List.mem_cons.mp h with rfl | h
                · exact absurd ht hty
                · exact Or.inr h

/-- Steps needed: one per stack entry; every package not created yet may push its imports once. -/
def todo (pkg : P → Pkg P) (univ created : List P) : Nat := ((univ.filter fun p => p ∉ created).map fun p => (pkg p).imports.length).sum

theorem todo_cons (pkg : P → Pkg P) (univ created : List P) (p : P) (hp : p ∈ univ) (hc : p ∉ created) :
    todo pkg univ (p :: created) + (pkg p).imports.length ≤ todo pkg univ created := by
  unfold todo
  induction univ with
  | nil => simp at hp
  | cons a univ ih =>
      have mono : ∀ l : List P, ((l.filter fun q => q ∉ p :: created).map fun q => (pkg q).imports.length).sum ≤
          ((l.filter fun q => q ∉ created).map fun q => (pkg q).imports.length).sum := by
        intro l
        induction l with
        | nil => simp
        | cons b l ihl =>
            simp only [List.filter_cons]
            by_cases hb : b ∈ created
            · simp only [hb, List.mem_cons, or_true, not_true_eq_false, decide_false, Bool.false_eq_true, if_false]
              simpa using ihl
            · by_cases hbp : b = p
              · have e : (decide (b ∉ p :: created)) = false := by simp [hbp]
                rw [e]
                simp only [hb, not_false_eq_true, decide_true, if_true, Bool.false_eq_true, if_false, List.map_cons, List.sum_cons]
                omega
              · have e : (decide (b ∉ p :: created)) = true := by simp [hbp, hb]
                rw [e]
                simp only [hb, not_false_eq_true, decide_true, if_true, List.map_cons, List.sum_cons]
                omega
      simp only [List.filter_cons]
      by_cases ha : a = p
      · subst ha
        have e : (decide (a ∉ a :: created)) = false := by simp
        rw [e]
        simp only [hc, not_false_eq_true, decide_true, if_true, Bool.false_eq_true, if_false, List.map_cons, List.sum_cons]
        have := mono univ
        omega
      · have hp' : p ∈ univ := by
          rcases List.mem_cons.mp hp with h | h
          · exact absurd h.symm ha
          · exact h
        have ih := ih hp'
        by_cases hac : a ∈ created
        · have e : (decide (a ∉ p :: created)) = false := by simp [hac]
          rw [e]
          simp only [hac, not_true_eq_false, decide_false, Bool.false_eq_true, if_false]
          exact ih
        · have e : (decide (a ∉ p :: created)) = true := by simp [hac, ha]
          rw [e]
          simp only [hac, not_false_eq_true, decide_true, if_true, List.map_cons, List.sum_cons]
          omega

theorem createAll_terminates (pkg : P → Pkg P) (project univ : List P) (hu : ∀ p ∈ univ, ∀ q ∈ (pkg p).imports, q ∈ univ) :
    ∀ (n : Nat) (st : List P) (s : Created P), (∀ p ∈ st, p ∈ univ) → st.length + todo pkg univ s.created ≤ n → (createAll pkg project n st s).isSome := by
  intro n
  induction n with
  | zero =>
      intro st s _ h
      cases st with
      | nil => simp [createAll]
      | cons p st => simp at h
  | succ n ih =>
      intro st s hst h
      cases st with
      | nil => simp [createAll]
      | cons p st =>
          simp only [List.length_cons] at h
          have hst' : ∀ q ∈ st, q ∈ univ := fun q hq => hst q (List.mem_cons_of_mem _ hq)
          simp only [createAll]
          split
          · exact ih st s hst' (by omega)
          · split
            · exact ih st s hst' (by omega)
            · rename_i hc
              refine ih _ _ ?_ ?_
              · intro q hq
                rcases List.mem_append.mp hq with hq | hq
                · exact hu p (hst p List.mem_cons_self) q hq
                · exact hst' q hq
              · have := todo_cons pkg univ s.created p (hst p List.mem_cons_self) hc
                simp only [List.length_append]
                omega

end

/-! ### Return points -/

theorem callsOn_nil (line : UInt32) : callsOn [] line = 0 := rfl

theorem callsOn_append (a b : List Ret) (line : UInt32) : callsOn (a ++ b) line = callsOn a line + callsOn b line := by
  unfold callsOn
  rw [List.filter_append, List.map_append, List.foldr_append]
  generalize ((b.filter fun r => r.line = line).map (·.calls)).foldr (· + ·) 0 = z
  generalize (a.filter fun r => r.line = line).map (·.calls) = l
  induction l with
  | nil => simp
  | cons x l ih => simp only [List.foldr_cons, ih, UInt32.add_assoc]

theorem callsOn_single (r : Ret) (line : UInt32) : callsOn [r] line = if r.line = line then r.calls else 0 := by
  unfold callsOn
  by_cases h : r.line = line <;> simp [h]

theorem callsOn_perm {a b : List Ret} (h : a.Perm b) (line : UInt32) : callsOn a line = callsOn b line := by
  induction h with
  | nil => rfl
  | cons x _ ih => rw [← List.singleton_append, callsOn_append, ih, ← callsOn_append, List.singleton_append]
  | swap x y l =>
      rw [← List.singleton_append, ← List.singleton_append (l := l), callsOn_append, callsOn_append,
        ← List.singleton_append (l := y :: l), ← List.singleton_append (l := l), callsOn_append, callsOn_append, ← UInt32.add_assoc, ← UInt32.add_assoc,
        UInt32.add_comm (callsOn [y] line)]
  | trans _ _ ih1 ih2 => exact ih1.trans ih2

/-- State of the merge: the first `u` entries are merged, the entries from `i` on are still those of the sorted list, and so is the line
of the entry before. -/
structure MInv (s a : List Ret) (i u : Nat) : Prop where
  len : a.length = s.length
  le : u ≤ i
  pos : 0 < i → 0 < u
  rest : ∀ j, i ≤ j → a[j]? = s[j]?
  prev : ∀ j, j + 1 = i → (a[j]?).map (·.line) = (s[j]?).map (·.line)
  last : ∀ j k, j + 1 = i → k + 1 = u → (a[k]?).map (·.line) = (s[j]?).map (·.line)
  sorted : ∀ j k x y, j < k → k < u → a[j]? = some x → a[k]? = some y → x.line < y.line
  mem : ∀ j x, j < u → a[j]? = some x → ∃ y ∈ s.take i, y.line = x.line
  sums : ∀ line, callsOn (a.take u) line = callsOn (s.take i) line
  all : ∀ y ∈ s.take i, ∃ j x, j < u ∧ a[j]? = some x ∧ x.line = y.line

theorem take_succ_snoc {α : Type} {l : List α} {i : Nat} {x : α} (h : l[i]? = some x) : l.take (i + 1) = l.take i ++ [x] := by
  rw [List.take_add_one, h]; rfl

theorem merge_step {s a : List Ret} {i u : Nat} {x : Ret} (hs : s.Pairwise fun x y => x.line ≤ y.line) (h : MInv s a i u) (hx : a[i]? = some x) :
    ((i = 0 ∨ x.line ≠ (a[i - 1]?.getD ⟨0, 0⟩).line) → MInv s (a.set u x) (i + 1) (u + 1)) ∧
    (¬ (i = 0 ∨ x.line ≠ (a[i - 1]?.getD ⟨0, 0⟩).line) → MInv s (a.modify (u - 1) fun y => ⟨y.line, y.calls + x.calls⟩) (i + 1) u) := by
  have hsx : s[i]? = some x := by rw [← h.rest i (le_refl _)]; exact hx
  have hil : i < s.length := by
    rcases Nat.lt_or_ge i s.length with hl | hl
    · exact hl
    · rw [List.getElem?_eq_none hl] at hsx; cases hsx
  have htake := take_succ_snoc hsx
  have hul := h.le
  have hsget : ∀ (j k : Nat) (y z : Ret), j < k → s[j]? = some y → s[k]? = some z → y.line ≤ z.line := by
    intro j k y z hjk hy hz
    obtain ⟨h1, rfl⟩ := List.getElem?_eq_some_iff.mp hy
    obtain ⟨h2, rfl⟩ := List.getElem?_eq_some_iff.mp hz
    exact (List.pairwise_iff_getElem.mp hs) j k h1 h2 hjk
  constructor
  · intro hnew
    -- entries before `u` are unchanged
    have hget : ∀ j, j < u → (a.set u x)[j]? = a[j]? := fun j hj => by rw [List.getElem?_set_ne (by omega)]
    have hu : (a.set u x)[u]? = some x := by rw [List.getElem?_set_self (by rw [h.len]; omega)]
    have htk : (a.set u x).take (u + 1) = a.take u ++ [x] := by
      rw [take_succ_snoc hu]
      congr 1
      apply List.ext_getElem?
      intro j
      rw [List.getElem?_take, List.getElem?_take]
      split
      · exact hget j ‹_›
      · rfl
    -- the line is new
    have hlt : ∀ (j : Nat) (y : Ret), j < u → a[j]? = some y → y.line < x.line := by
      intro j y hj hy
      have hi0 : 0 < i := by omega
      obtain ⟨i', rfl⟩ : ∃ i', i = i' + 1 := ⟨i - 1, by omega⟩
      obtain ⟨u', rfl⟩ : ∃ u', u = u' + 1 := ⟨u - 1, by omega⟩
      have hp := h.prev i' rfl
      have hl := h.last i' u' rfl rfl
      have hi'l : i' < s.length := by omega
      have hsi : s[i']? = some s[i'] := List.getElem?_eq_getElem hi'l
      rw [hsi] at hp hl
      have hne : x.line ≠ s[i'].line := by
        rcases hnew with h0 | hne
        · omega
        · intro heq
          apply hne
          simp only [Nat.add_sub_cancel]
          cases ha : a[i']? with
          | none => rw [ha] at hp; cases hp
          | some z => rw [ha] at hp; simp at hp; simp [hp, heq]
      have hle := hsget i' (i' + 1) _ _ (by omega) hsi hsx
      have hlt : s[i'].line < x.line := by
        rcases UInt32.lt_or_eq_of_le hle with hh | hh
        · exact hh
        · exact absurd hh.symm hne
      cases hau : a[u']? with
      | none => rw [hau] at hl; cases hl
      | some z =>
          rw [hau] at hl
          simp only [Option.map_some, Option.some.injEq] at hl
          rcases Nat.lt_or_ge j u' with hju | hju
          · have := h.sorted j u' y z hju (by omega) hy hau
            rw [hl] at this
            exact UInt32.lt_trans this hlt
          · have : j = u' := by omega
            subst this
            rw [hau] at hy; cases hy
            rw [hl]; exact hlt
    refine ⟨by simp [h.len], by omega, fun _ => by omega, ?_, ?_, ?_, ?_, ?_, ?_, ?_⟩
    · intro j hj
      rw [List.getElem?_set_ne (by omega)]
      exact h.rest j (by omega)
    · intro j hj
      have : j = i := by omega
      subst this
      by_cases hui : u = j
      · subst hui; rw [hu, hsx]
      · rw [List.getElem?_set_ne hui, hx, hsx]
    · intro j k hj hk
      have h1 : j = i := by omega
      have h2 : k = u := by omega
      subst h1; subst h2
      rw [hu, hsx]
    · intro j k y z hjk hk hy hz
      rcases Nat.lt_or_ge k u with hku | hku
      · rw [hget k hku] at hz
        rw [hget j (by omega)] at hy
        exact h.sorted j k y z hjk hku hy hz
      · have : k = u := by omega
        subst this
        rw [hu] at hz; cases hz
        rw [hget j hjk] at hy
        exact hlt j y hjk hy
    · intro j y hj hy
      rw [htake]
      rcases Nat.lt_or_ge j u with hju | hju
      · rw [hget j hju] at hy
        obtain ⟨z, hz, he⟩ := h.mem j y hju hy
        exact ⟨z, List.mem_append_left _ hz, he⟩
      · have : j = u := by omega
        subst this
        rw [hu] at hy; cases hy
        exact ⟨x, by simp, rfl⟩
    · intro line
      rw [htk, htake, callsOn_append, callsOn_append, h.sums]
    · intro y hy
      rw [htake] at hy
      rcases List.mem_append.mp hy with hy | hy
      · obtain ⟨j, z, hj, hz, he⟩ := h.all y hy
        exact ⟨j, z, by omega, by rw [hget j hj]; exact hz, he⟩
      · simp only [List.mem_singleton] at hy
        subst hy
        exact ⟨u, y, by omega, hu, rfl⟩
  · intro hold
    have hi0 : i ≠ 0 := fun hh => hold (Or.inl hh)
    have heq : x.line = (a[i - 1]?.getD ⟨0, 0⟩).line := by
      by_contra hh; exact hold (Or.inr hh)
    obtain ⟨i', rfl⟩ : ∃ i', i = i' + 1 := ⟨i - 1, by omega⟩
    have hup := h.pos (by omega)
    obtain ⟨u', rfl⟩ : ∃ u', u = u' + 1 := ⟨u - 1, by omega⟩
    simp only [Nat.add_sub_cancel] at heq ⊢
    have hp := h.prev i' rfl
    have hl := h.last i' u' rfl rfl
    have hsi : s[i']? = some s[i'] := List.getElem?_eq_getElem (by omega)
    have hal : i' < a.length := by rw [h.len]; omega
    have hau' : u' < a.length := by rw [h.len]; omega
    have hai : a[i']? = some a[i'] := List.getElem?_eq_getElem hal
    have hau : a[u']? = some a[u'] := List.getElem?_eq_getElem hau'
    rw [hsi, hai] at hp
    rw [hsi, hau] at hl
    simp only [Option.map_some, Option.some.injEq] at hp hl
    rw [hai] at heq
    simp only [Option.getD_some] at heq
    have hlx : a[u'].line = x.line := by rw [hl, ← hp, ← heq]
    have hget : ∀ j : Nat, j ≠ u' → (a.modify u' fun y => ⟨y.line, y.calls + x.calls⟩)[j]? = a[j]? := fun j hj => by
      rw [List.getElem?_modify]
      have hj' : ¬ u' = j := fun hh => hj hh.symm
      simp only [if_neg hj']
      cases a[j]? <;> rfl
    have hu : (a.modify u' fun y => ⟨y.line, y.calls + x.calls⟩)[u']? = some ⟨a[u'].line, a[u'].calls + x.calls⟩ := by
      rw [List.getElem?_modify, hau]; simp
    have hline : ∀ j : Nat, ((a.modify u' fun y => ⟨y.line, y.calls + x.calls⟩)[j]?).map (·.line) = (a[j]?).map (·.line) := by
      intro j
      by_cases hj : j = u'
      · subst hj; rw [hu, hau]; rfl
      · rw [hget j hj]
    have htk : (a.modify u' fun y => ⟨y.line, y.calls + x.calls⟩).take (u' + 1) = a.take u' ++ [⟨a[u'].line, a[u'].calls + x.calls⟩] := by
      rw [take_succ_snoc hu]
      congr 1
      apply List.ext_getElem?
      intro j
      rw [List.getElem?_take, List.getElem?_take]
      split
      · exact hget j (by omega)
      · rfl
    refine ⟨by simp [h.len], by omega, fun _ => by omega, ?_, ?_, ?_, ?_, ?_, ?_, ?_⟩
    · intro j hj
      rw [hget j (by omega)]
      exact h.rest j (by omega)
    · intro j hj
      have : j = i' + 1 := by omega
      subst this
      rw [hline, hx, hsx]
    · intro j k hj hk
      have h1 : j = i' + 1 := by omega
      have h2 : k = u' := by omega
      subst h1; subst h2
      rw [hline, hau, hsx]
      simp [hlx]
    · intro j k y z hjk hk hy hz
      have hy' := hline j
      have hz' := hline k
      rw [hy] at hy'
      rw [hz] at hz'
      cases haj : a[j]? with
      | none => rw [haj] at hy'; cases hy'
      | some y0 =>
          cases hak : a[k]? with
          | none => rw [hak] at hz'; cases hz'
          | some z0 =>
              rw [haj] at hy'
              rw [hak] at hz'
              simp only [Option.map_some, Option.some.injEq] at hy' hz'
              rw [hy', hz']
              exact h.sorted j k y0 z0 hjk hk haj hak
    · intro j y hj hy
      rw [htake]
      have hy' := hline j
      rw [hy] at hy'
      cases haj : a[j]? with
      | none => rw [haj] at hy'; cases hy'
      | some y0 =>
          rw [haj] at hy'
          simp only [Option.map_some, Option.some.injEq] at hy'
          obtain ⟨z, hz, he⟩ := h.mem j y0 hj haj
          exact ⟨z, List.mem_append_left _ hz, by rw [he, hy']⟩
    · intro line
      rw [htk, htake, callsOn_append, callsOn_append, ← h.sums, take_succ_snoc hau, callsOn_append, callsOn_single, callsOn_single, callsOn_single, hlx]
      by_cases hh : x.line = line
      · simp only [hh, if_true, UInt32.add_assoc]
      · simp [hh]
    · intro y hy
      rw [htake] at hy
      have key : ∃ j z, j < u' + 1 ∧ a[j]? = some z ∧ z.line = y.line := by
        rcases List.mem_append.mp hy with hy | hy
        · exact h.all y hy
        · simp only [List.mem_singleton] at hy
          subst hy
          exact ⟨u', a[u'], by omega, hau, hlx⟩
      obtain ⟨j, z, hj, hz, he⟩ := key
      by_cases hju : j = u'
      · subst hju
        rw [hau] at hz; cases hz
        exact ⟨j, _, hj, hu, he⟩
      · exact ⟨j, z, hj, by rw [hget j hju]; exact hz, he⟩

theorem mergeLoop_spec {s : List Ret} (hs : s.Pairwise fun x y => x.line ≤ y.line) : ∀ (n : Nat) (a : List Ret) (i u : Nat), MInv s a i u → i + n = s.length →
    MInv s (mergeLoop a i u n).1 s.length (mergeLoop a i u n).2 := by
  intro n
  induction n with
  | zero => intro a i u h hn; simp only [mergeLoop]; rw [show s.length = i by omega]; exact h
  | succ n ih =>
      intro a i u h hn
      have hx : a[i]? = some (a[i]'(by rw [h.len]; omega)) := List.getElem?_eq_getElem _
      have st := merge_step hs h hx
      simp only [mergeLoop, hx]
      split
      · rename_i hc
        exact ih _ _ _ (st.1 hc) (by omega)
      · rename_i hc
        exact ih _ _ _ (st.2 hc) (by omega)

theorem minv_init (s : List Ret) : MInv s s 0 0 :=
  ⟨rfl, le_refl _, by omega, fun _ _ => rfl, by omega, by omega, by omega, by omega, by simp, by simp⟩

/-! ### Identifiers -/

theorem append_inj_sep {sep : UInt8} : ∀ {a b x y : Bytes}, sep ∉ a → sep ∉ b → a ++ sep :: x = b ++ sep :: y → a = b ∧ x = y
  | [], [], _, _, _, _, h => by simpa using h
  | [], c :: b, _, _, _, hb, h => by
      simp only [List.nil_append, List.cons_append, List.cons.injEq] at h
      exact absurd (by simp [h.1] : sep ∈ c :: b) hb
  | c :: a, [], _, _, ha, _, h => by
      simp only [List.nil_append, List.cons_append, List.cons.injEq] at h
      exact absurd (by simp [h.1] : sep ∈ c :: a) ha
  | c :: a, d :: b, _, _, ha, hb, h => by
      simp only [List.cons_append, List.cons.injEq] at h
      simp only [List.mem_cons, not_or] at ha hb
      obtain ⟨h1, h2⟩ := append_inj_sep ha.2 hb.2 h.2
      exact ⟨by rw [h.1, h1], h2⟩

theorem append_inj_last {sep : UInt8} {a b x y : Bytes} (hx : sep ∉ x) (hy : sep ∉ y) (h : a ++ sep :: x = b ++ sep :: y) : a = b ∧ x = y := by
  have h' := congrArg List.reverse h
  simp only [List.reverse_append, List.reverse_cons, List.append_assoc, List.singleton_append] at h'
  obtain ⟨h1, h2⟩ := append_inj_sep (by simpa using hx) (by simpa using hy) h'
  exact ⟨List.reverse_injective h2, List.reverse_injective h1⟩

theorem lastSlash_append {dir rest : Bytes} (h : (47 : UInt8) ∉ rest) : lastSlash (dir ++ 47 :: rest) = some dir.length := by
  have hr : (dir ++ 47 :: rest).reverse.takeWhile (· != 47) = rest.reverse := by
    simp only [List.reverse_append, List.reverse_cons, List.append_assoc, List.singleton_append]
    rw [List.takeWhile_append_of_pos]
    · simp
    · intro b hb
      simp only [bne_iff_ne, ne_eq]
      rintro rfl
      exact h (by simpa using hb)
  unfold lastSlash
  simp only [hr, List.length_reverse, List.length_append, List.length_cons]
  rw [if_neg (by omega)]
  congr 1
  omega

end Verif.Static
