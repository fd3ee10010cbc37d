import Verif.Runs.Spec

namespace Verif.Runs

variable {B : Type}

/-! ### Lists -/

theorem split_set {α : Type} {l : List α} {i : Nat} {q : α} (h : l[i]? = some q) (p : α) :
    ∃ a b, l = a ++ q :: b ∧ l.set i p = a ++ p :: b ∧ a.length = i := by
  induction l generalizing i with
  | nil => simp at h
  | cons x l ih =>
    cases i with
    | zero =>
      simp only [List.getElem?_cons_zero, Option.some.injEq] at h
      subst h
      exact ⟨[], l, rfl, rfl, rfl⟩
    | succ i =>
      simp only [List.getElem?_cons_succ] at h
      obtain ⟨a, b, h1, h2, h3⟩ := ih h
      exact ⟨x :: a, b, by rw [h1]; rfl, by rw [List.set_cons_succ, h2]; rfl, by simp [h3]⟩

theorem get_set {α : Type} {l : List α} {i : Nat} {q : α} (h : l[i]? = some q) (p : α) (j : Nat) :
    (l.set i p)[j]? = if i = j then some p else l[j]? := by
  have hlt : i < l.length := (List.getElem?_eq_some_iff.mp h).1
  rw [List.getElem?_set]
  split
  · simp_all
  · rfl

theorem filterMap_inj {α β : Type} {f : α → Option β} : ∀ {l : List α}, (l.filterMap f).Nodup → ∀ {i j : Nat} {x y : α} {s : β},
    l[i]? = some x → l[j]? = some y → f x = some s → f y = some s → i = j
  | [], _, i, j, x, y, s, h1, _, _, _ => by simp at h1
  | z :: l, hn, i, j, x, y, s, h1, h2, h3, h4 => by
    have mem : ∀ {k : Nat} {w : α}, l[k]? = some w → f w = some s → s ∈ l.filterMap f :=
      fun hk hw => List.mem_filterMap.mpr ⟨_, List.mem_of_getElem? hk, hw⟩
    have hn' : (l.filterMap f).Nodup := by
      rw [List.filterMap_cons] at hn
      split at hn
      · exact hn
      · exact (List.nodup_cons.mp hn).2
    cases i with
    | zero =>
      cases j with
      | zero => rfl
      | succ j =>
        simp only [List.getElem?_cons_zero, Option.some.injEq] at h1
        subst h1
        rw [List.filterMap_cons, h3] at hn
        exact absurd (mem h2 h4) (List.nodup_cons.mp hn).1
    | succ i =>
      cases j with
      | zero =>
        simp only [List.getElem?_cons_zero, Option.some.injEq] at h2
        subst h2
        rw [List.filterMap_cons, h4] at hn
        exact absurd (mem h1 h3) (List.nodup_cons.mp hn).1
      | succ j => rw [filterMap_inj hn' h1 h2 h3 h4]

/-- Replacing a phase without a server by one with, or the other way round. -/
theorem srv_set {ph : List (Phase B)} {i : Nat} {q : Phase B} (h : ph[i]? = some q) (p : Phase B) :
    ∃ a b, ph.filterMap Phase.srv = a ++ (q.srv.toList ++ b) ∧ (ph.set i p).filterMap Phase.srv = a ++ (p.srv.toList ++ b) := by
  obtain ⟨a, b, h1, h2, -⟩ := split_set h p
  refine ⟨a.filterMap Phase.srv, b.filterMap Phase.srv, ?_, ?_⟩
  · rw [h1, List.filterMap_append, List.filterMap_cons]
    cases q.srv <;> rfl
  · rw [h2, List.filterMap_append, List.filterMap_cons]
    cases p.srv <;> rfl

theorem srv_same {ph : List (Phase B)} {i : Nat} {q p : Phase B} (h : ph[i]? = some q) (hs : p.srv = q.srv) :
    (ph.set i p).filterMap Phase.srv = ph.filterMap Phase.srv := by
  obtain ⟨a, b, h1, h2⟩ := srv_set h p
  rw [h1, h2, hs]

/-! ### Servers -/

/-- Every server is in the channel or with exactly one test. -/
theorem servers_inv {c : Cfg B} {clean : Bool} {n : Nat} {st : St B} (h : Reach c clean n st) :
    (st.chan ++ st.ph.filterMap Phase.srv).Perm (List.range c.servers) := by
  induction h with
  | init =>
    have : (List.replicate n (Phase.waiting : Phase B)).filterMap Phase.srv = [] := by
      rw [List.filterMap_eq_nil_iff]
      intro p hp
      rw [(List.mem_replicate.mp hp).2]; rfl
    simp only [init, this, List.append_nil]
    exact .refl _
  | step _ hs ih =>
    have back : ∀ {st : St B} {i s : Nat} {q p : Phase B}, st.ph[i]? = some q → q.srv = some s → p.srv = none →
        (st.chan ++ [s] ++ (st.ph.set i p).filterMap Phase.srv).Perm (st.chan ++ st.ph.filterMap Phase.srv) := by
      intro st i s q p hq hs hp
      obtain ⟨a, b, h1, h2⟩ := srv_set hq p
      rw [h1, h2, hs, hp]
      simp only [Option.toList_some, Option.toList_none, List.nil_append, List.append_assoc]
      refine List.Perm.append_left _ ?_
      exact (List.perm_middle (a := s) (l₁ := a) (l₂ := b)).symm
    cases hs with
    | start i h1 h2 h3 => dsimp only; rw [srv_same h1 (by rfl)]; exact ih
    | take i s rest h1 h2 =>
      dsimp only
      obtain ⟨a, b, h3, h4⟩ := srv_set h1 (Phase.holds s)
      rw [h2, h3] at ih
      rw [h4]
      refine List.Perm.trans ?_ ih
      simp only [Phase.srv, Option.toList_some, Option.toList_none, List.nil_append, List.cons_append]
      rw [← List.append_assoc, ← List.append_assoc]
      exact List.perm_middle
    | first i s h1 => dsimp only; rw [srv_same h1 (by rfl)]; exact ih
    | post => exact ih
    | load => exact ih
    | record => exact ih
    | exit i s prev h1 h2 => dsimp only; rw [srv_same h1 (by rfl)]; exact ih
    | result1 i s h1 => dsimp only; rw [srv_same h1 (by rfl)]; exact ih
    | second i s one h1 h2 => dsimp only; rw [srv_same h1 (by rfl)]; exact ih
    | result2 i s one h1 => dsimp only; rw [srv_same h1 (by rfl)]; exact ih
    | save i s one two h1 h2 => dsimp only; rw [srv_same h1 (by rfl)]; exact ih
    | count i s one two h1 => dsimp only; rw [srv_same h1 (by rfl)]; exact ih
    | release i s one two h1 => exact (back h1 rfl rfl).trans ih
    | fail i s p h1 h2 h3 => exact (back h1 h2 rfl).trans ih

theorem held_nodup {c : Cfg B} {clean : Bool} {n : Nat} {st : St B} (h : Reach c clean n st) : (st.ph.filterMap Phase.srv).Nodup :=
  (List.nodup_append.mp ((servers_inv h).nodup_iff.mpr List.nodup_range)).2.1

theorem exclusive {c : Cfg B} {clean : Bool} {n : Nat} {st : St B} (h : Reach c clean n st) {i j s : Nat} {p q : Phase B}
    (hi : st.ph[i]? = some p) (hj : st.ph[j]? = some q) (hp : p.srv = some s) (hq : q.srv = some s) : i = j :=
  filterMap_inj (held_nodup h) hi hj hp hq

/-! ### Handlers -/

/-- The process of `i` is running, or has ended, with server `s`. -/
def Live (st : St B) (i s : Nat) (prev : Option (List B)) : Prop := st.ph[i]? = some (.running s prev) ∨ st.ph[i]? = some (.exited s prev)

theorem handler_inv {c : Cfg B} {clean : Bool} {n : Nat} {st : St B} (h : Reach c clean n st) :
    ∀ i s prev, Live st i s prev → st.handler s = some ⟨i, prev.isSome⟩ := by
  induction h with
  | init =>
    intro i s prev hl
    have : ∀ p, (List.replicate n (Phase.waiting : Phase B))[i]? = some p → p = .waiting := by
      intro p hp; exact (List.mem_replicate.mp (List.mem_of_getElem? hp)).2
    rcases hl with hl | hl <;> cases this _ hl
  | @step st0 st1 h hs ih =>
    have excl := @exclusive B c clean n _ h
    -- steps that put test `k` into a phase without a process, or keep it
    have keep : ∀ {st' : St B} {k : Nat} {q p : Phase B}, st0.ph[k]? = some q → st'.ph = st0.ph.set k p → st'.handler = st0.handler →
        (∀ s prev, p = .running s prev ∨ p = .exited s prev → q = .running s prev ∨ q = .exited s prev) →
        ∀ i s prev, Live st' i s prev → st'.handler s = some ⟨i, prev.isSome⟩ := by
      intro st' k q p hq hph hh hp i s prev hl
      unfold Live at hl
      rw [hph, get_set hq, hh] at *
      by_cases hk : k = i
      · subst hk
        simp only [if_true, Option.some.injEq] at hl
        refine ih k s prev ?_
        unfold Live
        rw [hq]
        simpa using hp s prev hl
      · simp only [hk, if_false] at hl
        exact ih i s prev hl
    have setH : ∀ {st' : St B} {k s0 : Nat} {q : Phase B} {r : Option (List B)}, st0.ph[k]? = some q → q.srv = some s0 →
        st'.ph = st0.ph.set k (.running s0 r) → st'.handler = setHandler st0.handler s0 ⟨k, r.isSome⟩ →
        ∀ i s prev, Live st' i s prev → st'.handler s = some ⟨i, prev.isSome⟩ := by
      intro st' k s0 q r hq hs0 hph hh i s prev hl
      unfold Live at hl
      rw [hph, get_set hq] at hl
      rw [hh]
      unfold setHandler
      by_cases hk : k = i
      · subst hk
        simp only [if_true, Option.some.injEq] at hl
        rcases hl with hl | hl
        · cases hl; simp
        · cases hl
      · simp only [hk, if_false] at hl
        have hne : s ≠ s0 := by
          rintro rfl
          rcases hl with hl | hl
          · exact hk (excl hq hl hs0 rfl)
          · exact hk (excl hq hl hs0 rfl)
        rw [if_neg hne]
        exact ih i s prev hl
    cases hs with
    | start i h1 h2 h3 => exact keep h1 rfl rfl (by simp)
    | take i s rest h1 h2 => exact keep h1 rfl rfl (by simp)
    | first i s h1 => exact setH h1 rfl rfl rfl
    | post i s prev b h1 => exact ih
    | load => exact ih
    | record => exact ih
    | exit i s prev h1 h2 => exact keep h1 rfl rfl (by rintro s' prev' (h | h) <;> cases h; exact Or.inl rfl)
    | result1 i s h1 => exact keep h1 rfl rfl (by simp)
    | second i s one h1 h2 => exact setH h1 rfl rfl rfl
    | result2 i s one h1 => exact keep h1 rfl rfl (by simp)
    | save i s one two h1 h2 => exact keep h1 rfl rfl (by simp)
    | count i s one two h1 => exact keep h1 rfl rfl (by simp)
    | release i s one two h1 => exact keep h1 rfl rfl (by simp)
    | fail i s p h1 h2 h3 => exact keep h1 rfl rfl (by simp)

/-! ### Messages -/

/-- The content of a run's result. -/
theorem recorded_eq (l : List (Tag × B)) (t : Tag) : recorded l t = (l.filter fun e => e.1 = t).map (·.2) := by
  unfold recorded
  induction l with
  | nil => rfl
  | cons e l ih =>
    by_cases h : e.1 = t <;> simp [List.filterMap_cons, List.filter_cons, h, ih]

theorem sentBy_eq (st : St B) (i : Nat) (r : Bool) : sentBy st i r = recorded st.sent ⟨i, r⟩ := by
  rw [recorded_eq]
  unfold sentBy
  congr 1
  refine List.filter_congr ?_
  intro e _
  obtain ⟨⟨a, b⟩, x⟩ := e
  simp only [Bool.decide_eq_true, Tag.mk.injEq, Bool.decide_and]
  by_cases h : a = i <;> by_cases h' : b = r <;> simp [h, h']

theorem recorded_perm {l m : List (Tag × B)} (h : l.Perm m) (t : Tag) : (recorded l t).Perm (recorded m t) := h.filterMap _

theorem recorded_append (l m : List (Tag × B)) (t : Tag) : recorded (l ++ m) t = recorded l t ++ recorded m t := List.filterMap_append

theorem recorded_nil {l : List (Tag × B)} {t : Tag} (h : ∀ e ∈ l, e.1 ≠ t) : recorded l t = [] := by
  unfold recorded
  rw [List.filterMap_eq_nil_iff]
  intro e he
  rw [if_neg (h e he)]

/-- With processes that wait for answers: a message on its way belongs to a running process on the server of that process, and the handler chosen for
it is that of the run. Nothing is lost. -/
structure Clean (st : St B) : Prop where
  flight : ∀ f ∈ st.flight, ∃ prev, st.ph[f.src.test]? = some (.running f.srv prev) ∧ prev.isSome = f.src.second ∧
    ∀ t, f.target = some t → t = f.src
  all : st.sent.Perm (st.recd ++ st.flight.map fun f => (f.src, f.body))

theorem clean_inv {c : Cfg B} {n : Nat} {st : St B} (h : Reach c true n st) : Clean st := by
  induction h with
  | init => exact ⟨by simp [init], by simp [init]⟩
  | @step st0 st1 h hs ih =>
    -- steps that change one phase, which is not one with a process sending messages
    have keep : ∀ {st' : St B} {k : Nat} {q p : Phase B}, st0.ph[k]? = some q → st'.ph = st0.ph.set k p → st'.flight = st0.flight →
        st'.recd = st0.recd → st'.sent = st0.sent → (∀ f ∈ st0.flight, f.src.test = k → ∀ prev, q = .running f.srv prev →
          prev.isSome = f.src.second → False) → Clean st' := by
      intro st' k q p hq hph h1 h2 h3 hp
      refine ⟨?_, by rw [h1, h2, h3]; exact ih.all⟩
      intro f hf
      rw [h1] at hf
      obtain ⟨prev, h4, h5, h6⟩ := ih.flight f hf
      refine ⟨prev, ?_, h5, h6⟩
      rw [hph, get_set hq]
      by_cases hk : k = f.src.test
      · exfalso
        rw [← hk, hq] at h4
        exact hp f hf hk.symm prev (Option.some.inj h4) h5
      · rw [if_neg hk]; exact h4
    cases hs with
    | start i h1 h2 h3 => exact keep h1 rfl rfl rfl rfl (by simp)
    | take i s rest h1 h2 => exact keep h1 rfl rfl rfl rfl (by simp)
    | first i s h1 => exact keep h1 rfl rfl rfl rfl (by simp)
    | post i s prev b h1 =>
      refine ⟨?_, ?_⟩
      · intro f hf
        rcases List.mem_append.mp hf with hf | hf
        · exact ih.flight f hf
        · rw [List.mem_singleton.mp hf]
          exact ⟨prev, h1, rfl, by simp⟩
      · dsimp only
        rw [List.map_append, ← List.append_assoc]
        exact ih.all.append (by simp)
    | load f l1 l2 t h1 h2 h3 =>
      have hm : f ∈ st0.flight := by rw [h1]; simp
      obtain ⟨prev, h4, h5, -⟩ := ih.flight f hm
      have ht : t = f.src := by
        have := handler_inv h _ _ _ (Or.inl h4)
        rw [h3] at this
        rw [Option.some.inj this, h5]
      refine ⟨?_, ?_⟩
      · intro g hg
        dsimp only at hg
        rcases List.mem_append.mp hg with hg | hg
        · exact ih.flight g (by rw [h1]; simp [hg])
        · rcases List.mem_cons.mp hg with rfl | hg
          · exact ⟨prev, h4, h5, fun t' ht' => by rw [← Option.some.inj ht']; exact ht⟩
          · exact ih.flight g (by rw [h1]; simp [hg])
      · have := ih.all
        rw [h1] at this
        simpa using this
    | record f l1 l2 t h1 h2 =>
      have hm : f ∈ st0.flight := by rw [h1]; simp
      obtain ⟨prev, h4, h5, h6⟩ := ih.flight f hm
      have ht : t = f.src := h6 t h2
      refine ⟨?_, ?_⟩
      · intro g hg
        exact ih.flight g (by
          rw [h1]
          rcases List.mem_append.mp hg with hg | hg <;> simp [hg])
      · have := ih.all
        rw [h1] at this
        dsimp only
        refine this.trans ?_
        rw [ht, List.map_append, List.map_cons, List.map_append, List.append_assoc]
        refine List.Perm.append_left _ ?_
        simpa using List.perm_middle
    | exit i s prev h1 h2 =>
      refine keep h1 rfl rfl rfl rfl ?_
      intro f hf hi prev' he hp
      obtain ⟨rfl, rfl⟩ := Phase.running.inj he
      refine h2 rfl f hf ?_
      rw [hp, ← hi]
    | result1 i s h1 => exact keep h1 rfl rfl rfl rfl (by simp)
    | second i s one h1 h2 => exact keep h1 rfl rfl rfl rfl (by simp)
    | result2 i s one h1 => exact keep h1 rfl rfl rfl rfl (by simp)
    | save i s one two h1 h2 => exact keep h1 rfl rfl rfl rfl (by simp)
    | count i s one two h1 => exact keep h1 rfl rfl rfl rfl (by simp)
    | release i s one two h1 => exact keep h1 rfl rfl rfl rfl (by simp)
    | fail i s p h1 h2 h3 =>
      refine keep h1 rfl rfl rfl rfl ?_
      rintro f hf hi prev he -
      rcases h3 with h3 | ⟨one, two, h3⟩ <;> rw [h3] at he <;> cases he

/-- Once the process of a run has ended, what is recorded for the run is what it sent. -/
theorem recorded_all {c : Cfg B} {n : Nat} {st : St B} (h : Reach c true n st) {i s : Nat} {prev : Option (List B)}
    (hp : st.ph[i]? = some (.exited s prev)) : (recorded st.recd ⟨i, prev.isSome⟩).Perm (sentBy st i prev.isSome) := by
  have hc := clean_inv h
  rw [sentBy_eq]
  have h1 := recorded_perm hc.all ⟨i, prev.isSome⟩
  rw [recorded_append, recorded_nil (l := st.flight.map _), List.append_nil] at h1
  · exact h1.symm
  · intro e he
    obtain ⟨f, hf, rfl⟩ := List.mem_map.mp he
    intro hs
    obtain ⟨q, h2, -, -⟩ := hc.flight f hf
    dsimp only at hs
    rw [hs, hp] at h2
    cases h2

/-! ### Results -/

/-- The results a test function has so far. -/
def Phase.one : Phase B → Option (List B)
  | .running _ prev | .exited _ prev => prev
  | .ended _ one _ | .saved _ one _ | .counted _ one _ | .done one _ => some one
  | _ => none

def Phase.two : Phase B → Option (List B)
  | .ended _ _ two | .saved _ _ two | .counted _ _ two | .done _ two => two
  | _ => none

/-- The results are the messages sent; further messages belong to another run. -/
theorem results_inv {c : Cfg B} {n : Nat} {st : St B} (h : Reach c true n st) : ∀ (i : Nat) (p : Phase B), st.ph[i]? = some p →
    (∀ one, p.one = some one → one.Perm (sentBy st i false)) ∧ ∀ two, p.two = some two → two.Perm (sentBy st i true) := by
  induction h with
  | init =>
    intro i p hp
    have : p = .waiting := (List.mem_replicate.mp (List.mem_of_getElem? hp)).2
    subst this
    exact ⟨fun _ h => (by cases h), fun _ h => (by cases h)⟩
  | @step st0 st1 h hs ih =>
    have keep : ∀ {st' : St B} {k : Nat} {q p : Phase B}, st0.ph[k]? = some q → st'.ph = st0.ph.set k p → st'.sent = st0.sent →
        (∀ one, p.one = some one → q.one = some one ∨ one.Perm (sentBy st0 k false)) →
        (∀ two, p.two = some two → q.two = some two ∨ two.Perm (sentBy st0 k true)) →
        ∀ (i : Nat) (p : Phase B), st'.ph[i]? = some p → (∀ one, p.one = some one → one.Perm (sentBy st' i false)) ∧
          ∀ two, p.two = some two → two.Perm (sentBy st' i true) := by
      intro st' k q p hq hph hs h1 h2 i p' hp'
      have e : ∀ r, sentBy st' i r = sentBy st0 i r := fun r => by unfold sentBy; rw [hs]
      rw [e, e]
      rw [hph, get_set hq] at hp'
      by_cases hk : k = i
      · subst hk
        rw [if_pos rfl] at hp'
        obtain rfl := Option.some.inj hp'
        constructor
        · intro one ho
          rcases h1 one ho with h1 | h1
          · exact (ih k q hq).1 one h1
          · exact h1
        · intro two ho
          rcases h2 two ho with h2 | h2
          · exact (ih k q hq).2 two h2
          · exact h2
      · rw [if_neg hk] at hp'
        exact ih i p' hp'
    cases hs with
    | start i h1 h2 h3 => exact keep h1 rfl rfl (by simp [Phase.one]) (by simp [Phase.two])
    | take i s rest h1 h2 => exact keep h1 rfl rfl (by simp [Phase.one]) (by simp [Phase.two])
    | first i s h1 => exact keep h1 rfl rfl (by simp [Phase.one]) (by simp [Phase.two])
    | post k s prev b h1 =>
      intro i p hp
      dsimp only at hp
      have same : ∀ r, (i ≠ k ∨ r ≠ prev.isSome) → sentBy { st0 with flight := st0.flight ++ [⟨s, ⟨k, prev.isSome⟩, b, none⟩], sent := st0.sent ++ [(⟨k, prev.isSome⟩, b)] } i r = sentBy st0 i r := by
        intro r hr
        rw [sentBy_eq, sentBy_eq]
        dsimp only
        rw [recorded_append, recorded_nil (l := [_]), List.append_nil]
        intro e he
        rw [List.mem_singleton.mp he]
        simp only [ne_eq, Tag.mk.injEq, not_and]
        intro h4 h5
        rcases hr with hr | hr
        · exact hr h4.symm
        · exact hr h5.symm
      by_cases hk : i = k
      · subst hk
        rw [h1] at hp
        obtain rfl := Option.some.inj hp
        constructor
        · intro one ho
          have hpr : prev = some one := ho
          rw [same false (Or.inr (by rw [hpr]; simp))]
          exact (ih i _ h1).1 one ho
        · intro two ho; cases ho
      · rw [same false (Or.inl hk), same true (Or.inl hk)]
        exact ih i p hp
    | load => exact ih
    | record => exact ih
    | exit i s prev h1 h2 => exact keep h1 rfl rfl (fun _ h => Or.inl h) (fun _ h => Or.inl h)
    | result1 i s h1 =>
      refine keep h1 rfl rfl ?_ (by simp [Phase.two])
      intro one ho
      rw [← Option.some.inj ho]
      exact Or.inr (recorded_all h h1)
    | second i s one h1 h2 => exact keep h1 rfl rfl (fun _ h => Or.inl h) (fun _ h => (by cases h))
    | result2 i s one h1 =>
      refine keep h1 rfl rfl (fun _ h => Or.inl h) ?_
      intro two ho
      rw [← Option.some.inj ho]
      exact Or.inr (recorded_all h h1)
    | save i s one two h1 h2 => exact keep h1 rfl rfl (fun _ h => Or.inl h) (fun _ h => Or.inl h)
    | count i s one two h1 => exact keep h1 rfl rfl (fun _ h => Or.inl h) (fun _ h => Or.inl h)
    | release i s one two h1 => exact keep h1 rfl rfl (fun _ h => Or.inl h) (fun _ h => Or.inl h)
    | fail i s p h1 h2 h3 => exact keep h1 rfl rfl (by simp [Phase.one]) (by simp [Phase.two])


/-! ### Storage and totals -/

/-- What a test function has stored. -/
def Phase.kept : Phase B → Option (List B × Option (List B))
  | .saved _ one two | .counted _ one two | .done one two => some (one, two)
  | _ => none

/-- What it has added to the totals. -/
def Phase.added : Phase B → Option (List B × Option (List B))
  | .counted _ one two | .done one two => some (one, two)
  | _ => none

theorem length_inv {c : Cfg B} {clean : Bool} {n : Nat} {st : St B} (h : Reach c clean n st) : st.ph.length = n := by
  induction h with
  | init => simp [init]
  | step _ hs ih => cases hs <;> simpa using ih

theorem store_inv {c : Cfg B} {clean : Bool} {n : Nat} {st : St B} (h : Reach c clean n st) :
    (st.store.map (·.1)).Nodup ∧ ∀ i one two, (i, one, two) ∈ st.store ↔ ∃ p, st.ph[i]? = some p ∧ p.kept = some (one, two) := by
  induction h with
  | init =>
    refine ⟨by simp [init], ?_⟩
    intro i one two
    refine ⟨fun h => by simp [init] at h, ?_⟩
    rintro ⟨p, hp, hk⟩
    have : p = .waiting := (List.mem_replicate.mp (List.mem_of_getElem? hp)).2
    subst this
    cases hk
  | @step st0 st1 h hs ih =>
    have keep : ∀ {st' : St B} {k : Nat} {q p : Phase B}, st0.ph[k]? = some q → st'.ph = st0.ph.set k p → st'.store = st0.store → p.kept = q.kept →
        (st'.store.map (·.1)).Nodup ∧ ∀ i one two, (i, one, two) ∈ st'.store ↔ ∃ p, st'.ph[i]? = some p ∧ p.kept = some (one, two) := by
      intro st' k q p hq hph hst hk
      refine ⟨by rw [hst]; exact ih.1, ?_⟩
      intro i one two
      rw [hst, ih.2, hph, get_set hq]
      by_cases h : k = i
      · subst h
        simp [hq, hk]
      · simp [h]
    cases hs with
    | start i h1 h2 h3 => exact keep h1 rfl rfl rfl
    | take i s rest h1 h2 => exact keep h1 rfl rfl rfl
    | first i s h1 => exact keep h1 rfl rfl rfl
    | post => exact ih
    | load => exact ih
    | record => exact ih
    | exit i s prev h1 h2 => exact keep h1 rfl rfl rfl
    | result1 i s h1 => exact keep h1 rfl rfl rfl
    | second i s one h1 h2 => exact keep h1 rfl rfl rfl
    | result2 i s one h1 => exact keep h1 rfl rfl rfl
    | save i s one two h1 h2 =>
      have hni : ∀ o t, (i, o, t) ∉ st0.store := by
        intro o t hm
        obtain ⟨p, hp, hk⟩ := (ih.2 i o t).mp hm
        rw [h1] at hp
        obtain rfl := Option.some.inj hp
        cases hk
      constructor
      · rw [List.map_append, List.nodup_append]
        refine ⟨ih.1, by simp, ?_⟩
        intro a ha b hb
        rw [List.map_cons, List.map_nil, List.mem_singleton] at hb
        rintro rfl
        obtain ⟨⟨j, o, t⟩, hm, he⟩ := List.mem_map.mp ha
        dsimp only at he hb
        rw [he, hb] at hm
        exact hni o t hm
      · intro j o t
        dsimp only
        rw [List.mem_append, ih.2, get_set h1, List.mem_singleton]
        by_cases h : i = j
        · subst h
          simp only [h1, Option.some.injEq, exists_eq_left', if_true, Prod.mk.injEq, true_and, Phase.kept]
          constructor
          · rintro (h | ⟨rfl, rfl⟩)
            · cases h
            · exact ⟨rfl, rfl⟩
          · rintro ⟨rfl, rfl⟩
            exact Or.inr ⟨rfl, rfl⟩
        · simp [h, Ne.symm h]
    | count i s one two h1 => exact keep h1 rfl rfl rfl
    | release i s one two h1 => exact keep h1 rfl rfl rfl
    | fail i s p h1 h2 h3 =>
      refine keep h1 rfl rfl ?_
      rcases h3 with rfl | ⟨one, two, rfl⟩ <;> rfl

/-- A second result is there just if the test is to be run twice. -/
def Shape (c : Cfg B) (i : Nat) : Phase B → Prop
  | .running _ (some _) | .exited _ (some _) | .ended _ _ (some _) => c.twice i = true
  | .saved _ _ two | .counted _ _ two | .done _ two => two.isSome = c.twice i
  | _ => True

theorem shape_inv {c : Cfg B} {clean : Bool} {n : Nat} {st : St B} (h : Reach c clean n st) : ∀ i p, st.ph[i]? = some p → Shape c i p := by
  induction h with
  | init =>
    intro i p hp
    have : p = .waiting := (List.mem_replicate.mp (List.mem_of_getElem? hp)).2
    subst this
    trivial
  | @step st0 st1 h hs ih =>
    have keep : ∀ {st' : St B} {k : Nat} {q p : Phase B}, st0.ph[k]? = some q → st'.ph = st0.ph.set k p → (Shape c k q → Shape c k p) →
        ∀ i p, st'.ph[i]? = some p → Shape c i p := by
      intro st' k q p hq hph hk i p' hp'
      rw [hph, get_set hq] at hp'
      by_cases h : k = i
      · subst h
        rw [if_pos rfl] at hp'
        rw [← Option.some.inj hp']
        exact hk (ih k q hq)
      · rw [if_neg h] at hp'
        exact ih i p' hp'
    cases hs with
    | start i h1 h2 h3 => exact keep h1 rfl id
    | take i s rest h1 h2 => exact keep h1 rfl id
    | first i s h1 => exact keep h1 rfl id
    | post => exact ih
    | load => exact ih
    | record => exact ih
    | exit i s prev h1 h2 => exact keep h1 rfl (by cases prev <;> exact id)
    | result1 i s h1 => exact keep h1 rfl id
    | second i s one h1 h2 => exact keep h1 rfl (fun _ => h2)
    | result2 i s one h1 => exact keep h1 rfl id
    | save i s one two h1 h2 => exact keep h1 rfl (fun _ => h2)
    | count i s one two h1 => exact keep h1 rfl id
    | release i s one two h1 => exact keep h1 rfl id
    | fail i s p h1 h2 h3 => exact keep h1 rfl (fun _ => trivial)

/-- Replacing one phase in a sum over the phases. -/
theorem sum_set {ph : List (Phase B)} {i : Nat} {q : Phase B} (h : ph[i]? = some q) (p : Phase B) (f : Phase B → Nat) :
    ((ph.set i p).map f).sum + f q = (ph.map f).sum + f p := by
  obtain ⟨a, b, h1, h2, -⟩ := split_set h p
  rw [h2, h1]
  simp only [List.map_append, List.map_cons, List.sum_append, List.sum_cons]
  omega

theorem flatMap_set {α : Type} {ph : List (Phase B)} {i : Nat} {q : Phase B} (h : ph[i]? = some q) (p : Phase B) (f : Phase B → List α) (hq : f q = []) :
    ((ph.set i p).flatMap f).Perm (ph.flatMap f ++ f p) := by
  obtain ⟨a, b, h1, h2, -⟩ := split_set h p
  rw [h2, h1]
  simp only [List.flatMap_append, List.flatMap_cons, hq, List.nil_append]
  rw [List.append_assoc]
  exact List.Perm.append_left _ List.perm_append_comm

def Phase.sum (c : Cfg B) (p : Phase B) : Nat := match p.added with
  | some (one, two) => checks c one two
  | none => 0

def Phase.hits (c : Cfg B) (p : Phase B) : List Nat := match p.added with
  | some (one, _) => one.filterMap c.reach
  | none => []

theorem totals_inv {c : Cfg B} {clean : Bool} {n : Nat} {st : St B} (h : Reach c clean n st) :
    st.total = (st.ph.map (Phase.sum c)).sum ∧ st.reached.Perm (st.ph.flatMap (Phase.hits c)) := by
  induction h with
  | init =>
    have : ∀ m, ((List.replicate m (Phase.waiting : Phase B)).map (Phase.sum c)).sum = 0 := by
      intro m; induction m with
      | zero => rfl
      | succ m ih => rw [List.replicate_succ, List.map_cons, List.sum_cons, ih]; rfl
    refine ⟨(this n).symm, ?_⟩
    have : ∀ m, (List.replicate m (Phase.waiting : Phase B)).flatMap (Phase.hits c) = [] := by
      intro m; induction m with
      | zero => rfl
      | succ m ih => rw [List.replicate_succ, List.flatMap_cons, ih]; rfl
    simp only [init, this n]
    exact .refl _
  | @step st0 st1 h hs ih =>
    have keep : ∀ {st' : St B} {k : Nat} {q p : Phase B}, st0.ph[k]? = some q → st'.ph = st0.ph.set k p → st'.total = st0.total →
        st'.reached = st0.reached → p.added = q.added →
        st'.total = (st'.ph.map (Phase.sum c)).sum ∧ st'.reached.Perm (st'.ph.flatMap (Phase.hits c)) := by
      intro st' k q p hq hph ht hr hk
      rw [ht, hr, hph]
      obtain ⟨a, b, h1, h2, -⟩ := split_set hq p
      have e1 : Phase.sum c p = Phase.sum c q := by unfold Phase.sum; rw [hk]
      have e2 : Phase.hits c p = Phase.hits c q := by unfold Phase.hits; rw [hk]
      rw [h1] at ih
      rw [h2]
      simpa [e1, e2] using ih
    cases hs with
    | start i h1 h2 h3 => exact keep h1 rfl rfl rfl rfl
    | take i s rest h1 h2 => exact keep h1 rfl rfl rfl rfl
    | first i s h1 => exact keep h1 rfl rfl rfl rfl
    | post => exact ih
    | load => exact ih
    | record => exact ih
    | exit i s prev h1 h2 => exact keep h1 rfl rfl rfl rfl
    | result1 i s h1 => exact keep h1 rfl rfl rfl rfl
    | second i s one h1 h2 => exact keep h1 rfl rfl rfl rfl
    | result2 i s one h1 => exact keep h1 rfl rfl rfl rfl
    | save i s one two h1 h2 => exact keep h1 rfl rfl rfl rfl
    | count i s one two h1 =>
      dsimp only
      constructor
      · have := sum_set h1 (Phase.counted s one two) (Phase.sum c)
        have e : Phase.sum c (Phase.saved s one two) = 0 := rfl
        have e' : Phase.sum c (Phase.counted s one two) = checks c one two := rfl
        rw [e, e'] at this
        rw [ih.1]
        omega
      · exact (ih.2.append_right _).trans (flatMap_set h1 (Phase.counted s one two) (Phase.hits c) rfl).symm
    | release i s one two h1 => exact keep h1 rfl rfl rfl rfl
    | fail i s p h1 h2 h3 =>
      refine keep h1 rfl rfl rfl ?_
      rcases h3 with rfl | ⟨one, two, rfl⟩ <;> rfl

theorem err_inv {c : Cfg B} {clean : Bool} {n : Nat} {st : St B} (h : Reach c clean n st) : st.err = true ↔ ∃ i : Nat, st.ph[i]? = some Phase.failed := by
  induction h with
  | init =>
    refine ⟨fun h => by simp [init] at h, ?_⟩
    rintro ⟨i, hi⟩
    cases (List.mem_replicate.mp (List.mem_of_getElem? hi)).2
  | @step st0 st1 h hs ih =>
    have keep : ∀ {st' : St B} {k : Nat} {q p : Phase B}, st0.ph[k]? = some q → st'.ph = st0.ph.set k p → st'.err = st0.err → q ≠ .failed →
        p ≠ .failed → (st'.err = true ↔ ∃ i : Nat, st'.ph[i]? = some Phase.failed) := by
      intro st' k q p hq hph he h1 h2
      rw [he, ih, hph]
      constructor
      · rintro ⟨i, hi⟩
        refine ⟨i, ?_⟩
        rw [get_set hq, if_neg, hi]
        rintro rfl
        rw [hq] at hi
        exact h1 (Option.some.inj hi)
      · rintro ⟨i, hi⟩
        refine ⟨i, ?_⟩
        rw [get_set hq] at hi
        split at hi
        · exact absurd (Option.some.inj hi) h2
        · exact hi
    cases hs with
    | start i h1 h2 h3 => exact keep h1 rfl rfl (by simp) (by simp)
    | take i s rest h1 h2 => exact keep h1 rfl rfl (by simp) (by simp)
    | first i s h1 => exact keep h1 rfl rfl (by simp) (by simp)
    | post => exact ih
    | load => exact ih
    | record => exact ih
    | exit i s prev h1 h2 => exact keep h1 rfl rfl (by simp) (by simp)
    | result1 i s h1 => exact keep h1 rfl rfl (by simp) (by simp)
    | second i s one h1 h2 => exact keep h1 rfl rfl (by simp) (by simp)
    | result2 i s one h1 => exact keep h1 rfl rfl (by simp) (by simp)
    | save i s one two h1 h2 => exact keep h1 rfl rfl (by simp) (by simp)
    | count i s one two h1 => exact keep h1 rfl rfl (by simp) (by simp)
    | release i s one two h1 => exact keep h1 rfl rfl (by simp) (by simp)
    | fail i s p h1 h2 h3 =>
      refine ⟨fun _ => ⟨i, ?_⟩, fun _ => rfl⟩
      rw [get_set h1, if_pos rfl]

/-! ### Progress -/

/-- Steps left for a test function, at most. -/
def Phase.rank : Phase B → Nat
  | .waiting => 11
  | .started => 10
  | .holds _ => 9
  | .running _ none => 8
  | .exited _ none => 7
  | .ended _ _ none => 6
  | .running _ (some _) => 5
  | .exited _ (some _) => 4
  | .ended _ _ (some _) => 3
  | .saved .. => 2
  | .counted .. => 1
  | .done .. | .failed => 0

def flightRank (f : Flight B) : Nat := if f.target.isSome then 1 else 2

def left (st : St B) : Nat := (st.ph.map Phase.rank).sum + (st.flight.map flightRank).sum

theorem left_lt {c : Cfg B} {clean : Bool} {st st' : St B} (hs : Step c clean st st') (hq : st'.sent = st.sent) : left st' < left st := by
  have set : ∀ {k : Nat} {q p : Phase B}, st.ph[k]? = some q → st'.ph = st.ph.set k p → st'.flight = st.flight → p.rank < q.rank → left st' < left st := by
    intro k q p h1 h2 h3 h4
    unfold left
    rw [h2, h3]
    have := sum_set h1 p Phase.rank
    omega
  cases hs with
  | start i h1 h2 h3 => exact set h1 rfl rfl (by simp [Phase.rank])
  | take i s rest h1 h2 => exact set h1 rfl rfl (by simp [Phase.rank])
  | first i s h1 => exact set h1 rfl rfl (by simp [Phase.rank])
  | post i s prev b h1 =>
    have := congrArg List.length hq
    simp at this
  | load f l1 l2 t h1 h2 h3 =>
    unfold left
    rw [h1]
    simp only [List.map_append, List.map_cons, List.sum_append, List.sum_cons, flightRank, h2, Option.isSome_some, Option.isSome_none, if_true]
    simp
  | record f l1 l2 t h1 h2 =>
    unfold left
    rw [h1]
    simp only [List.map_append, List.map_cons, List.sum_append, List.sum_cons, flightRank, h2, Option.isSome_some, if_true]
    omega
  | exit i s prev h1 h2 => exact set h1 rfl rfl (by cases prev <;> simp [Phase.rank])
  | result1 i s h1 => exact set h1 rfl rfl (by simp [Phase.rank])
  | second i s one h1 h2 => exact set h1 rfl rfl (by simp [Phase.rank])
  | result2 i s one h1 => exact set h1 rfl rfl (by simp [Phase.rank])
  | save i s one two h1 h2 => exact set h1 rfl rfl (by cases two <;> simp [Phase.rank])
  | count i s one two h1 => exact set h1 rfl rfl (by simp [Phase.rank])
  | release i s one two h1 => exact set h1 rfl rfl (by simp [Phase.rank])
  | fail i s p h1 h2 h3 => exact set h1 rfl rfl (by rcases h3 with rfl | ⟨one, two, rfl⟩ <;> [skip; cases two] <;> simp [Phase.rank])

/-- A test function with a server can go on, without an error. -/
theorem holder_step {c : Cfg B} {clean : Bool} {n : Nat} {st : St B} (h : Reach c clean n st) {i s : Nat} {p : Phase B} (hp : st.ph[i]? = some p)
    (hsrv : p.srv = some s) : ∃ st', Step c clean st st' ∧ st'.sent = st.sent ∧ st'.err = st.err := by
  have hsh := shape_inv h i p hp
  cases p with
  | waiting => cases hsrv
  | started => cases hsrv
  | holds s => exact ⟨_, Step.first st i s hp, rfl, rfl⟩
  | running s prev =>
    by_cases hf : ∃ f ∈ st.flight, f.src = ⟨i, prev.isSome⟩
    · cases clean with
      | false => exact ⟨_, Step.exit st i s prev hp (by simp), rfl, rfl⟩
      | true =>
        obtain ⟨f, hm, hsrc⟩ := hf
        obtain ⟨l1, l2, hl⟩ := List.append_of_mem hm
        cases ht : f.target with
        | some t => exact ⟨_, Step.record st f l1 l2 t hl ht, rfl, rfl⟩
        | none =>
          obtain ⟨prev', h4, h5, -⟩ := (clean_inv h).flight f hm
          exact ⟨_, Step.load st f l1 l2 _ hl ht (handler_inv h _ _ _ (Or.inl h4)), rfl, rfl⟩
    · exact ⟨_, Step.exit st i s prev hp (fun _ f hm hs => hf ⟨f, hm, hs⟩), rfl, rfl⟩
  | exited s prev =>
    cases prev with
    | none => exact ⟨_, Step.result1 st i s hp, rfl, rfl⟩
    | some one => exact ⟨_, Step.result2 st i s one hp, rfl, rfl⟩
  | ended s one two =>
    cases two with
    | none =>
      cases ht : c.twice i with
      | true => exact ⟨_, Step.second st i s one hp ht, rfl, rfl⟩
      | false => exact ⟨_, Step.save st i s one none hp (by rw [ht]; rfl), rfl, rfl⟩
    | some two => exact ⟨_, Step.save st i s one (some two) hp (by rw [show c.twice i = true from hsh]; rfl), rfl, rfl⟩
  | saved s one two => exact ⟨_, Step.count st i s one two hp, rfl, rfl⟩
  | counted s one two => exact ⟨_, Step.release st i s one two hp, rfl, rfl⟩
  | done one two => cases hsrv
  | failed => cases hsrv

theorem progress {c : Cfg B} {clean : Bool} {n : Nat} {st : St B} (h : Reach c clean n st) (hc : 0 < c.servers) (ho : ¬ Over st) :
    ∃ st', Step c clean st st' ∧ st'.sent = st.sent ∧ st'.err = st.err := by
  by_cases h1 : ∃ (i : Nat) (p : Phase B) (s : Nat), st.ph[i]? = some p ∧ Phase.srv p = some s
  · obtain ⟨i, p, s, hp, hs⟩ := h1
    exact holder_step h hp hs
  have hchan : st.chan ≠ [] := by
    intro hnil
    have hp := servers_inv h
    rw [hnil, List.nil_append, List.filterMap_eq_nil_iff.mpr, ] at hp
    · have := hp.length_eq
      simp at this
      omega
    · intro p hp
      obtain ⟨i, hi⟩ := List.getElem?_of_mem hp
      cases hs : p.srv with
      | none => rfl
      | some s => exact absurd ⟨i, p, s, hi, hs⟩ h1
  by_cases h2 : ∃ i : Nat, st.ph[i]? = some Phase.started
  · obtain ⟨i, hi⟩ := h2
    obtain ⟨s, rest, hr⟩ := List.exists_cons_of_ne_nil hchan
    exact ⟨_, Step.take st i s rest hi hr, rfl, rfl⟩
  -- nobody is active
  have rest : ∀ (i : Nat) (p : Phase B), st.ph[i]? = some p → p = .waiting ∨ (∃ one two, p = .done one two) ∨ p = .failed := by
    intro i p hp
    cases p with
    | waiting => exact Or.inl rfl
    | started => exact absurd ⟨i, hp⟩ h2
    | done one two => exact Or.inr (Or.inl ⟨one, two, rfl⟩)
    | failed => exact Or.inr (Or.inr rfl)
    | _ => exact absurd ⟨i, _, _, hp, rfl⟩ h1
  have hcount : st.ph.countP Phase.active = 0 := by
    rw [List.countP_eq_zero]
    intro p hp
    obtain ⟨i, hi⟩ := List.getElem?_of_mem hp
    rcases rest i p hi with rfl | ⟨one, two, rfl⟩ | rfl <;> simp [Phase.active]
  by_cases h3 : ∃ i : Nat, st.ph[i]? = some Phase.waiting
  · -- the first one waiting
    have hmin : ∀ m i : Nat, i ≤ m → st.ph[i]? = some Phase.waiting → ∃ k : Nat, st.ph[k]? = some Phase.waiting ∧ ∀ j < k, st.ph[j]? ≠ some Phase.waiting := by
      intro m
      induction m with
      | zero =>
        intro i hi hw
        exact ⟨i, hw, fun j hj => by omega⟩
      | succ m ih =>
        intro i hi hw
        by_cases hl : ∃ j, j < i ∧ st.ph[j]? = some Phase.waiting
        · obtain ⟨j, hj, hw'⟩ := hl
          exact ih j (by omega) hw'
        · exact ⟨i, hw, fun j hj hw' => hl ⟨j, hj, hw'⟩⟩
    obtain ⟨i, hi⟩ := h3
    obtain ⟨k, hk, hlt⟩ := hmin i i (Nat.le_refl _) hi
    by_cases hf : st.ph[0]? = some Phase.failed
    · exfalso
      apply ho
      intro j p hp
      rcases rest j p hp with rfl | h | h
      · exact Or.inr (Or.inr ⟨rfl, hf⟩)
      · exact Or.inl h
      · exact Or.inr (Or.inl h)
    · refine ⟨_, Step.start st k hk hlt ?_, rfl, rfl⟩
      intro hk0
      refine ⟨?_, by omega⟩
      have hlen : 0 < st.ph.length := by
        have := (List.getElem?_eq_some_iff.mp hk).1
        omega
      have h0 : st.ph[0]? = some st.ph[0] := List.getElem?_eq_getElem hlen
      refine ⟨_, h0, ?_⟩
      rcases rest 0 _ h0 with h | ⟨one, two, h⟩ | h
      · rw [h] at h0
        exact absurd h0 (hlt 0 (by omega))
      · rw [h]; rfl
      · rw [h] at h0
        exact absurd h0 hf
  · exfalso
    apply ho
    intro j p hp
    rcases rest j p hp with rfl | h | h
    · exact absurd ⟨j, hp⟩ h3
    · exact Or.inl h
    · exact Or.inr (Or.inl h)

end Verif.Runs
