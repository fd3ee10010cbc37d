import Verif.Copy.Spec

/-! Lemmas for C114–C118. -/

namespace Verif.Copy

/-! ### The walk -/

theorem child_mem : ∀ {ns : List String} {ks : List Tree} {x : String} {k : Tree}, child ns ks x = some k → x ∈ ns ∧ k ∈ ks
  | [], _, _, _, h => by simp [child] at h
  | _ :: _, [], _, _, h => by simp [child] at h
  | n :: ns, k0 :: ks, x, k, h => by
    unfold child at h
    split at h
    · rename_i hx
      cases h
      exact ⟨by simp [hx], by simp⟩
    · obtain ⟨h1, h2⟩ := child_mem h
      exact ⟨by simp [h1], by simp [h2]⟩

mutual
theorem mem_walk : ∀ (t : Tree), t.Wf → ∀ (p x : Path) (n : Node), (x, n) ∈ t.walk p ↔ ∃ q, x = p ++ q ∧ t.at q = some n
  | .file c, _, p, x, n => by
    simp only [Tree.walk, List.mem_singleton, Prod.mk.injEq]
    constructor
    · rintro ⟨rfl, rfl⟩; exact ⟨[], by simp, rfl⟩
    · rintro ⟨q, rfl, h⟩
      cases q with
      | nil => simp only [Tree.at, Tree.node, Option.some.injEq] at h; simp [h]
      | cons a q => simp [Tree.at] at h
  | .link t, _, p, x, n => by
    simp only [Tree.walk, List.mem_singleton, Prod.mk.injEq]
    constructor
    · rintro ⟨rfl, rfl⟩; exact ⟨[], by simp, rfl⟩
    · rintro ⟨q, rfl, h⟩
      cases q with
      | nil => simp only [Tree.at, Tree.node, Option.some.injEq] at h; simp [h]
      | cons a q => simp [Tree.at] at h
  | .dir ns ks, hw, p, x, n => by
    simp only [Tree.Wf] at hw
    simp only [Tree.walk, List.mem_cons, Prod.mk.injEq, mem_walkAll ks hw.2.2 ns hw.1 p x n]
    constructor
    · rintro (⟨rfl, rfl⟩ | ⟨y, q, k, rfl, hc, hk⟩)
      · exact ⟨[], by simp, rfl⟩
      · exact ⟨y :: q, rfl, by simp [Tree.at, hc, hk]⟩
    · rintro ⟨q, rfl, h⟩
      cases q with
      | nil => simp only [Tree.at, Tree.node, Option.some.injEq] at h; simp [h]
      | cons y q =>
        simp only [Tree.at] at h
        obtain ⟨k, hc, hk⟩ := Option.bind_eq_some_iff.mp h
        exact Or.inr ⟨y, q, k, rfl, hc, hk⟩
theorem mem_walkAll : ∀ (ks : List Tree), WfAll ks → ∀ (ns : List String), ns.Nodup → ∀ (p x : Path) (n : Node),
    (x, n) ∈ walkAll p ns ks ↔ ∃ y q k, x = p ++ y :: q ∧ child ns ks y = some k ∧ k.at q = some n
  | [], _, ns, _, p, x, n => by
    have h1 : walkAll p ns [] = [] := by cases ns <;> rfl
    have h2 : ∀ y, child ns [] y = none := by intro y; cases ns <;> rfl
    simp [h1, h2]
  | k :: ks, hw, [], _, p, x, n => by simp [walkAll, child]
  | k :: ks, hw, m :: ns, hnd, p, x, n => by
    simp only [WfAll] at hw
    obtain ⟨hm, hnd⟩ := List.nodup_cons.mp hnd
    simp only [walkAll, List.mem_append, mem_walk k hw.1, mem_walkAll ks hw.2 ns hnd]
    constructor
    · rintro (⟨q, rfl, h⟩ | ⟨y, q, k', rfl, hc, hk⟩)
      · exact ⟨m, q, k, by simp, by simp [child], h⟩
      · refine ⟨y, q, k', rfl, ?_, hk⟩
        have : y ≠ m := by rintro rfl; exact hm (child_mem hc).1
        simp [child, this, hc]
    · rintro ⟨y, q, k', rfl, hc, hk⟩
      simp only [child] at hc
      split at hc
      · rename_i hy
        cases hc
        subst hy
        exact Or.inl ⟨q, by simp, hk⟩
      · exact Or.inr ⟨y, q, k', rfl, hc, hk⟩
end

mutual
theorem nodup_walk : ∀ (t : Tree), t.Wf → ∀ (p : Path), ((t.walk p).map Prod.fst).Nodup
  | .file c, _, p => by simp [Tree.walk]
  | .link t, _, p => by simp [Tree.walk]
  | .dir ns ks, hw, p => by
    simp only [Tree.Wf] at hw
    simp only [Tree.walk, List.map_cons, List.nodup_cons]
    refine ⟨?_, nodup_walkAll ks hw.2.2 ns hw.1 p⟩
    intro h
    obtain ⟨⟨x, n⟩, hm, rfl⟩ := List.mem_map.mp h
    obtain ⟨y, q, k, he, -, -⟩ := (mem_walkAll ks hw.2.2 ns hw.1 _ _ _).mp hm
    have := congrArg List.length he
    simp at this
theorem nodup_walkAll : ∀ (ks : List Tree), WfAll ks → ∀ (ns : List String), ns.Nodup → ∀ (p : Path), ((walkAll p ns ks).map Prod.fst).Nodup
  | [], _, ns, _, p => by
    have h1 : walkAll p ns [] = [] := by cases ns <;> rfl
    simp [h1]
  | k :: ks, hw, [], _, p => by simp [walkAll]
  | k :: ks, hw, m :: ns, hnd, p => by
    simp only [WfAll] at hw
    obtain ⟨hm, hnd⟩ := List.nodup_cons.mp hnd
    simp only [walkAll, List.map_append]
    rw [List.nodup_append]
    refine ⟨nodup_walk k hw.1 _, nodup_walkAll ks hw.2 ns hnd p, ?_⟩
    intro a ha b hb hab
    subst hab
    obtain ⟨⟨x, n⟩, h1, rfl⟩ := List.mem_map.mp ha
    obtain ⟨⟨x', n'⟩, h2, he⟩ := List.mem_map.mp hb
    obtain ⟨q, rfl, -⟩ := (mem_walk k hw.1 _ _ _).mp h1
    obtain ⟨y, q', k', rfl, hc, -⟩ := (mem_walkAll ks hw.2 ns hnd _ _ _).mp h2
    simp only [List.append_assoc, List.singleton_append, List.append_cancel_left_eq, List.cons.injEq] at he
    exact hm (he.1 ▸ (child_mem hc).1)
end

/-- In every prefix, parents come before. -/
def Parents (root : Path) (before : List (Path × Node)) (l : List (Path × Node)) : Prop :=
  ∀ l1 x n l2, l = l1 ++ (x, n) :: l2 → x = root ∨ (x.dropLast, Node.dir) ∈ before ++ l1

theorem Parents.append {root : Path} {before a b : List (Path × Node)} (ha : Parents root before a) (hb : Parents root (before ++ a) b) : Parents root before (a ++ b) := by
  intro l1 x n l2 h
  rcases List.append_eq_append_iff.mp h with ⟨c, h1, h2⟩ | ⟨c, h1, h2⟩
  · have := hb c x n l2 h2
    rw [h1, ← List.append_assoc]
    exact this
  · cases c with
    | nil =>
      have := hb [] x n l2 (by simpa using h2.symm)
      simp at h1
      subst h1
      simpa using this
    | cons y c =>
      simp only [List.cons_append, List.cons.injEq] at h2
      obtain ⟨rfl, rfl⟩ := h2
      exact ha l1 x n c h1

mutual
/-- The root of the subtree needs its own parent. -/
theorem parents_walk : ∀ (t : Tree) (p : Path) (root : Path) (before : List (Path × Node)), (p = root ∨ (p.dropLast, Node.dir) ∈ before) → Parents root before (t.walk p)
  | .file c, p, root, before, hp => by
    intro l1 x n l2 h
    simp only [Tree.walk] at h
    cases l1 with
    | nil => simp at h; obtain ⟨⟨rfl, -⟩, -⟩ := h; simpa using hp
    | cons a l1 => simp at h
  | .link t, p, root, before, hp => by
    intro l1 x n l2 h
    simp only [Tree.walk] at h
    cases l1 with
    | nil => simp at h; obtain ⟨⟨rfl, -⟩, -⟩ := h; simpa using hp
    | cons a l1 => simp at h
  | .dir ns ks, p, root, before, hp => by
    simp only [Tree.walk]
    rw [show (p, Node.dir) :: walkAll p ns ks = [(p, Node.dir)] ++ walkAll p ns ks from rfl]
    refine Parents.append ?_ (parents_walkAll ks ns p root _ (by simp))
    intro l1 x n l2 h
    cases l1 with
    | nil => simp at h; obtain ⟨⟨rfl, -⟩, -⟩ := h; simpa using hp
    | cons a l1 => simp at h
theorem parents_walkAll : ∀ (ks : List Tree) (ns : List String) (p : Path) (root : Path) (before : List (Path × Node)), (p, Node.dir) ∈ before →
    Parents root before (walkAll p ns ks)
  | [], ns, p, root, before, _ => by
    have h1 : walkAll p ns [] = [] := by cases ns <;> rfl
    rw [h1]
    intro l1 x n l2 h
    simp at h
  | k :: ks, [], p, root, before, _ => by
    intro l1 x n l2 h
    simp [walkAll] at h
  | k :: ks, m :: ns, p, root, before, hp => by
    simp only [walkAll]
    refine Parents.append (parents_walk k (p ++ [m]) root before (Or.inr (by simpa using hp))) (parents_walkAll ks ns p root _ (by simp [hp]))
end

/-! ### `CopyDir` -/

/-- What holds in every state; `pre` is the part of the walk that is over. -/
structure Inv (src : Tree) (st : St) (errs : List Err) (pre : List (Path × Node)) : Prop where
  split : src.walk [] = pre ++ st.todo
  task : ∀ t ∈ st.tasks, (t.path, t.node) ∈ pre ∧ t.node ≠ .dir
  nodup : (st.tasks.map Task.path).Nodup
  start : ∀ t ∈ st.tasks, t.phase = .start → st.dst t.path = none
  writing : ∀ t ∈ st.tasks, ∀ k, t.phase = .writing k → ∃ c, t.node = .file c ∧ k ≤ c.length ∧ st.dst t.path = some (.file (c.take k))
  copied : st.gerr = none → ∀ x ∈ pre, (∃ t ∈ st.tasks, t.path = x.1) ∨ st.dst x.1 = some x.2
  dirs : ∀ p, (p, Node.dir) ∈ pre → st.dst p = some .dir
  only : ∀ p n, st.dst p = some n → ∃ n', (p, n') ∈ pre ∧ (n = n' ∨ ∃ c k, n' = .file c ∧ n = .file (c.take k))
  canceled : st.canceled = st.gerr.isSome
  noGerr : st.gerr = none → st.ret = none ∨ st.ret = some none → errs = []
  gerr : ∀ e, st.gerr = some e → e ∈ errs
  ret : ∀ r, st.ret = some r → (r = none → st.todo = [] ∧ st.tasks = [] ∧ st.gerr = none) ∧ ∀ e, r = some e → e ∈ errs ∨ (e = .canceled ∧ errs ≠ [] ∧ st.todo ≠ [])

theorem FS.set_eq (d : FS) (p : Path) (n : Node) : (d.set p n) p = some n := by simp [FS.set]
theorem FS.set_ne (d : FS) {p q : Path} (n : Node) (h : q ≠ p) : (d.set p n) q = d q := by simp [FS.set, h]

theorem uniq {src : Tree} (hw : src.Wf) {pre todo : List (Path × Node)} (h : src.walk [] = pre ++ todo) {p : Path} {n n' : Node}
    (h1 : (p, n) ∈ pre ++ todo) (h2 : (p, n') ∈ pre ++ todo) : n = n' := by
  rw [← h] at h1 h2
  obtain ⟨q, hq, ha⟩ := (mem_walk src hw [] p n).mp h1
  obtain ⟨q', hq', ha'⟩ := (mem_walk src hw [] p n').mp h2
  simp at hq hq'
  subst hq; subst hq'
  exact Option.some.inj (ha.symm.trans ha')

theorem notBoth {src : Tree} (hw : src.Wf) {pre rest : List (Path × Node)} {p : Path} {n : Node} (h : src.walk [] = pre ++ (p, n) :: rest) :
    ∀ n', (p, n') ∉ pre := by
  intro n' hm
  have := nodup_walk src hw []
  rw [h, List.map_append, List.nodup_append] at this
  exact this.2.2 p (List.mem_map_of_mem (f := Prod.fst) hm) p (by simp) rfl

/-- The tasks of a list without one are others. -/
theorem other {l1 l2 : List Task} {t : Task} (h : ((l1 ++ t :: l2).map Task.path).Nodup) : (∀ u ∈ l1 ++ l2, u.path ≠ t.path) ∧ ((l1 ++ l2).map Task.path).Nodup := by
  have hp : List.Perm (l1 ++ t :: l2) (t :: (l1 ++ l2)) := List.perm_middle
  have h' := (hp.map Task.path).nodup_iff.mp h
  rw [List.map_cons, List.nodup_cons] at h'
  exact ⟨fun u hu he => h'.1 (he ▸ List.mem_map_of_mem hu), h'.2⟩

theorem inv_init (src : Tree) : Inv src (init src fun _ => none) [] [] where
  split := rfl
  task := by intro t ht; cases ht
  nodup := List.nodup_nil
  start := by intro t ht; cases ht
  writing := by intro t ht; cases ht
  copied := by intro _ x hx; cases hx
  dirs := by intro p hp; cases hp
  only := by intro p n h; cases h
  canceled := rfl
  noGerr := fun _ _ => rfl
  gerr := by intro e h; cases h
  ret := by intro r h; cases h

theorem inv_fail {src : Tree} {st st' : St} {e : Err} {errs : List Err} {pre : List (Path × Node)} (h : Inv src st errs pre) (hs : Fail st e st') :
    Inv src st' (errs ++ [e]) pre := by
  cases hs with
  | walk p n rest hr ht hc =>
    exact { h with
      noGerr := by rintro _ (h' | h') <;> cases h'
      gerr := fun e he => List.mem_append_left _ (h.gerr e he)
      ret := by
        intro r hr'
        cases hr'
        refine ⟨fun h' => ?_, fun e he => ?_⟩
        · cases h'
        · cases he
          exact Or.inl (by simp) }
  | mkdir p rest hr ht hc =>
    exact { h with
      noGerr := by rintro _ (h' | h') <;> cases h'
      gerr := fun e he => List.mem_append_left _ (h.gerr e he)
      ret := by
        intro r hr'
        cases hr'
        refine ⟨fun h' => ?_, fun e he => ?_⟩
        · cases h'
        · cases he
          exact Or.inl (by simp) }
  | copy l1 l2 t ht =>
    have hnd := h.nodup
    rw [ht] at hnd
    have hsub : ∀ u ∈ l1 ++ l2, u ∈ st.tasks := by
      intro u hu
      rw [ht]
      rcases List.mem_append.mp hu with hu | hu <;> simp [hu]
    exact {
      split := h.split
      task := fun u hu => h.task u (hsub u hu)
      nodup := (other hnd).2
      start := fun u hu => h.start u (hsub u hu)
      writing := fun u hu => h.writing u (hsub u hu)
      copied := by
        intro hg
        cases hg' : st.gerr <;> simp [hg'] at hg
      dirs := h.dirs
      only := h.only
      canceled := by cases hg' : st.gerr <;> simp
      noGerr := by
        intro hg
        cases hg' : st.gerr <;> simp [hg'] at hg
      gerr := by
        intro e he
        cases hg' : st.gerr with
        | none => simp [hg'] at he; simp [he]
        | some e' =>
          simp [hg'] at he
          exact List.mem_append_left _ (h.gerr e (by rw [hg', he]))
      ret := by
        intro r hr
        obtain ⟨h1, h2⟩ := h.ret r hr
        refine ⟨fun h' => ?_, fun e he => ?_⟩
        · have := (h1 h').2.1
          rw [ht] at this
          simp at this
        · rcases h2 e he with h2 | ⟨h2, -, h4⟩
          · exact Or.inl (List.mem_append_left _ h2)
          · exact Or.inr ⟨h2, by simp, h4⟩ }

/-- A task writes at its path. -/
theorem inv_set {src : Tree} (hw : src.Wf) {st : St} {errs : List Err} {pre : List (Path × Node)} (h : Inv src st errs pre) {l1 l2 : List Task} {t : Task} (ht : st.tasks = l1 ++ t :: l2)
    (new : List Task) (m : Node) (hnew : new = [] ∧ m = t.node ∨ ∃ k c, new = [⟨t.path, t.node, .writing k⟩] ∧ t.node = .file c ∧ k ≤ c.length ∧ m = .file (c.take k)) :
    Inv src { st with tasks := l1 ++ new ++ l2, dst := st.dst.set t.path m } errs pre := by
  have hnd := h.nodup
  rw [ht] at hnd
  obtain ⟨hne, hnd'⟩ := other hnd
  have hmem : t ∈ st.tasks := by rw [ht]; simp
  have hsub : ∀ u ∈ l1 ++ l2, u ∈ st.tasks := by
    intro u hu
    rw [ht]
    rcases List.mem_append.mp hu with hu | hu <;> simp [hu]
  have hcases : ∀ u ∈ l1 ++ new ++ l2, u ∈ new ∨ u ∈ l1 ++ l2 := by
    intro u hu
    simp only [List.mem_append] at hu ⊢
    tauto
  have hnewp : ∀ u ∈ new, u.path = t.path ∧ u.node = t.node := by
    intro u hu
    rcases hnew with ⟨rfl, -⟩ | ⟨k, c, rfl, -⟩
    · cases hu
    · simp at hu; subst hu; exact ⟨rfl, rfl⟩
  exact {
    split := h.split
    task := by
      intro u hu
      rcases hcases u hu with hu | hu
      · obtain ⟨h1, h2⟩ := hnewp u hu
        rw [h1, h2]
        exact h.task t hmem
      · exact h.task u (hsub u hu)
    nodup := by
      rcases hnew with ⟨rfl, -⟩ | ⟨k, c, rfl, -⟩
      · simpa using hnd'
      · simpa using hnd
    start := by
      intro u hu hph
      rcases hcases u hu with hu | hu
      · rcases hnew with ⟨rfl, -⟩ | ⟨k, c, rfl, -⟩
        · cases hu
        · simp at hu; subst hu; cases hph
      · exact (FS.set_ne _ _ (hne u hu)).trans (h.start u (hsub u hu) hph)
    writing := by
      intro u hu k hph
      rcases hcases u hu with hu1 | hu
      · clear hu
        rcases hnew with ⟨rfl, -⟩ | ⟨k', c, rfl, hn, hk, rfl⟩
        · cases hu1
        · obtain rfl := List.mem_singleton.mp hu1
          cases hph
          exact ⟨c, hn, hk, FS.set_eq _ _ _⟩
      · obtain ⟨c, h1, h2, h3⟩ := h.writing u (hsub u hu) k hph
        exact ⟨c, h1, h2, (FS.set_ne _ _ (hne u hu)).trans h3⟩
    copied := by
      intro hg x hx
      by_cases hxt : x.1 = t.path
      · rcases hnew with ⟨rfl, rfl⟩ | ⟨k, c, rfl, -⟩
        · right
          have h1 : (t.path, x.2) ∈ pre := hxt ▸ hx
          have := uniq hw h.split (List.mem_append_left _ h1) (List.mem_append_left _ (h.task t hmem).1)
          rw [hxt, this]
          exact FS.set_eq _ _ _
        · exact Or.inl ⟨⟨t.path, t.node, .writing k⟩, by simp, hxt.symm⟩
      · rcases h.copied hg x hx with ⟨u, hu, he⟩ | hd
        · left
          rw [ht] at hu
          refine ⟨u, ?_, he⟩
          simp only [List.mem_append, List.mem_cons] at hu ⊢
          rcases hu with hu | rfl | hu
          · exact Or.inl (Or.inl hu)
          · exact absurd he.symm hxt
          · exact Or.inr hu
        · exact Or.inr ((FS.set_ne _ _ hxt).trans hd)
    dirs := by
      intro p hp
      have : p ≠ t.path := by
        rintro rfl
        exact (h.task t hmem).2 (uniq hw h.split (List.mem_append_left _ (h.task t hmem).1) (List.mem_append_left _ hp))
      exact (FS.set_ne _ _ this).trans (h.dirs p hp)
    only := by
      intro p n hn
      by_cases hp : p = t.path
      · subst hp
        dsimp only at hn
        rw [FS.set_eq] at hn
        cases hn
        refine ⟨t.node, (h.task t hmem).1, ?_⟩
        rcases hnew with ⟨-, rfl⟩ | ⟨k, c, -, hc, -, rfl⟩
        · exact Or.inl rfl
        · exact Or.inr ⟨c, k, hc, rfl⟩
      · dsimp only at hn
        rw [FS.set_ne _ _ hp] at hn
        exact h.only p n hn
    canceled := h.canceled
    noGerr := h.noGerr
    gerr := h.gerr
    ret := by
      intro r hr
      obtain ⟨h1, h2⟩ := h.ret r hr
      refine ⟨fun h' => ?_, h2⟩
      have := (h1 h').2.1
      rw [ht] at this
      simp at this }

theorem inv_ok {src : Tree} (hw : src.Wf) {limit : Nat} {st st' : St} {errs : List Err} {pre : List (Path × Node)} (h : Inv src st errs pre) (hs : Ok limit st st') :
    ∃ pre', Inv src st' errs pre' := by
  cases hs with
  | check hr ht hc hcan => exact ⟨pre, { h with }⟩
  | done hr ht hc hcan =>
    have hg : ∃ e, st.gerr = some e := Option.isSome_iff_exists.mp (h.canceled ▸ hcan)
    obtain ⟨e, he⟩ := hg
    refine ⟨pre, { h with noGerr := ?_, ret := ?_ }⟩
    · intro hn; rw [he] at hn; cases hn
    · intro r hr'
      cases hr'
      exact ⟨fun h' => by (cases h'), fun e' he' => by cases he'; exact Or.inr ⟨rfl, List.ne_nil_of_mem (h.gerr e he), ht⟩⟩
  | mkdir p rest hr ht hc hpar hd =>
    have hsplit := h.split
    rw [ht] at hsplit
    have hnew := notBoth hw hsplit
    have hne : ∀ t ∈ st.tasks, t.path ≠ p := fun t htm he => hnew t.node (he ▸ (h.task t htm).1)
    refine ⟨pre ++ [(p, .dir)], ?_⟩
    exact {
      split := by simpa using hsplit
      task := fun t htm => ⟨List.mem_append_left _ (h.task t htm).1, (h.task t htm).2⟩
      nodup := h.nodup
      start := fun t htm hph => (FS.set_ne _ _ (hne t htm)).trans (h.start t htm hph)
      writing := by
        intro t htm k hph
        obtain ⟨c, h1, h2, h3⟩ := h.writing t htm k hph
        exact ⟨c, h1, h2, (FS.set_ne _ _ (hne t htm)).trans h3⟩
      copied := by
        intro hg x hx
        rcases List.mem_append.mp hx with hx1 | hx
        · rcases h.copied hg x hx1 with h1 | h1
          · exact Or.inl h1
          · exact Or.inr ((FS.set_ne _ _ (fun (he : x.1 = p) => hnew x.2 (by rw [← he]; exact hx1))).trans h1)
        · simp at hx
          subst hx
          exact Or.inr (FS.set_eq _ _ _)
      dirs := by
        intro q hq
        rcases List.mem_append.mp hq with hq1 | hq
        · exact (FS.set_ne _ _ (fun he => hnew _ (he ▸ hq1))).trans (h.dirs q hq1)
        · simp at hq
          subst hq
          exact FS.set_eq _ _ _
      only := by
        intro q n hn
        by_cases hq : q = p
        · subst hq
          dsimp only at hn
          rw [FS.set_eq] at hn
          cases hn
          exact ⟨.dir, by simp, Or.inl rfl⟩
        · dsimp only at hn
          rw [FS.set_ne _ _ hq] at hn
          obtain ⟨n', h1, h2⟩ := h.only q n hn
          exact ⟨n', List.mem_append_left _ h1, h2⟩
      canceled := h.canceled
      noGerr := h.noGerr
      gerr := h.gerr
      ret := by
        intro r hr'
        dsimp only at hr'
        rw [hr] at hr'; cases hr' }
  | spawn p n rest hr ht hn hc hlim =>
    have hsplit := h.split
    rw [ht] at hsplit
    have hnew := notBoth hw hsplit
    have hne : ∀ t ∈ st.tasks, t.path ≠ p := fun t htm he => hnew t.node (he ▸ (h.task t htm).1)
    refine ⟨pre ++ [(p, n)], ?_⟩
    exact {
      split := by simpa using hsplit
      task := by
        intro t htm
        rcases List.mem_append.mp htm with htm | htm
        · exact ⟨List.mem_append_left _ (h.task t htm).1, (h.task t htm).2⟩
        · simp at htm
          subst htm
          exact ⟨by simp, hn⟩
      nodup := by
        rw [List.map_append, List.nodup_append]
        refine ⟨h.nodup, by simp, ?_⟩
        intro a ha b hb
        simp at hb
        subst hb
        obtain ⟨t, htm, rfl⟩ := List.mem_map.mp ha
        exact hne t htm
      start := by
        intro t htm hph
        rcases List.mem_append.mp htm with htm | htm
        · exact h.start t htm hph
        · simp at htm
          subst htm
          cases hd : st.dst p with
          | none => rfl
          | some m =>
            obtain ⟨n', h1, -⟩ := h.only p m hd
            exact absurd h1 (hnew n')
      writing := by
        intro t htm k hph
        rcases List.mem_append.mp htm with htm | htm
        · exact h.writing t htm k hph
        · simp at htm
          subst htm
          cases hph
      copied := by
        intro hg x hx
        rcases List.mem_append.mp hx with hx | hx
        · rcases h.copied hg x hx with ⟨t, htm, he⟩ | h1
          · exact Or.inl ⟨t, List.mem_append_left _ htm, he⟩
          · exact Or.inr h1
        · simp at hx
          subst hx
          exact Or.inl ⟨⟨p, n, .start⟩, by simp, rfl⟩
      dirs := by
        intro q hq
        rcases List.mem_append.mp hq with hq | hq
        · exact h.dirs q hq
        · simp at hq
          exact absurd hq.2.symm hn
      only := by
        intro q m hm
        obtain ⟨n', h1, h2⟩ := h.only q m hm
        exact ⟨n', List.mem_append_left _ h1, h2⟩
      canceled := h.canceled
      noGerr := h.noGerr
      gerr := h.gerr
      ret := by
        intro r hr'
        dsimp only at hr'
        rw [hr] at hr'; cases hr' }
  | symlink l1 l2 p t ht hpar hd =>
    exact ⟨pre, by simpa using inv_set hw h ht [] (.link t) (Or.inl ⟨rfl, rfl⟩)⟩
  | create l1 l2 p c ht hpar hd =>
    exact ⟨pre, by simpa using inv_set hw h ht [⟨p, .file c, .writing 0⟩] (.file []) (Or.inr ⟨0, c, rfl, rfl, by simp, by simp⟩)⟩
  | write l1 l2 p c n k ht hnk hk =>
    exact ⟨pre, by simpa using inv_set hw h ht [⟨p, .file c, .writing k⟩] (.file (c.take k)) (Or.inr ⟨k, c, rfl, rfl, hk, rfl⟩)⟩
  | finish l1 l2 p c ht =>
    have hi := inv_set hw h ht [] (.file c) (Or.inl ⟨rfl, rfl⟩)
    have hsame : st.dst.set p (.file c) = st.dst := by
      funext q
      by_cases hq : q = p
      · subst hq
        obtain ⟨c', h1, h2, h3⟩ := h.writing _ (by rw [ht]; exact List.mem_append_right _ (List.mem_cons_self ..)) _ rfl
        cases h1
        rw [FS.set_eq, h3, List.take_length]
      · exact FS.set_ne _ _ hq
    dsimp only at hi
    rw [hsame] at hi
    exact ⟨pre, by simpa using hi⟩
  | wait hr ht htasks =>
    refine ⟨pre, { h with noGerr := ?_, ret := ?_ }⟩
    · intro hg hor
      exact h.noGerr hg (Or.inl hr)
    · intro r hr'
      cases hr'
      exact ⟨fun h' => ⟨ht, htasks, h'⟩, fun e he => Or.inl (h.gerr e he)⟩

theorem inv {src : Tree} (hw : src.Wf) {limit : Nat} {st : St} {errs : List Err} (h : Reach limit src (fun _ => none) st errs) : ∃ pre, Inv src st errs pre := by
  induction h with
  | init => exact ⟨[], inv_init src⟩
  | ok st st' errs _ hs ih =>
    obtain ⟨pre, hi⟩ := ih
    exact inv_ok hw hi hs
  | fail st st' e errs _ hs ih =>
    obtain ⟨pre, hi⟩ := ih
    exact ⟨pre, inv_fail hi hs⟩

/-! ### How long it takes -/

def taskWeight : Task → Nat
  | ⟨_, .file c, .start⟩ => c.length + 2
  | ⟨_, .file c, .writing n⟩ => c.length - n + 1
  | _ => 1

def entryWeight (x : Path × Node) : Nat := taskWeight ⟨x.1, x.2, .start⟩ + 2

def weight (st : St) : Nat :=
  (st.todo.map entryWeight).sum + (st.tasks.map taskWeight).sum + (if st.checked then 0 else 1) + (if st.ret = none then 1 else 0)

theorem taskWeight_pos (t : Task) : 0 < taskWeight t := by
  unfold taskWeight
  split <;> omega

theorem ok_weight {limit : Nat} {st st' : St} (h : Ok limit st st') : weight st' < weight st := by
  cases h with
  | check hr ht hc hcan => simp [weight, hc, hr]
  | done hr ht hc hcan => simp [weight, hc, hr]
  | mkdir p rest hr ht hc hpar hd => simp [weight, ht, hc, hr, entryWeight, taskWeight]; omega
  | spawn p n rest hr ht hn hc hlim => simp [weight, ht, hc, hr, entryWeight]; omega
  | symlink l1 l2 p t ht hpar hd => simp [weight, ht, taskWeight]
  | create l1 l2 p c ht hpar hd => simp [weight, ht, taskWeight]
  | write l1 l2 p c n k ht hnk hk => simp [weight, ht, taskWeight]; omega
  | finish l1 l2 p c ht => simp [weight, ht, taskWeight]
  | wait hr ht htasks => simp [weight, hr]

theorem fail_weight {st st' : St} {e : Err} (h : Fail st e st') : weight st' < weight st := by
  cases h with
  | walk p n rest hr ht hc => simp [weight, hr]
  | mkdir p rest hr ht hc => simp [weight, hr]
  | copy l1 l2 t ht =>
    have := taskWeight_pos t
    simp [weight, ht]
    omega

theorem run_weight {limit n : Nat} {a b : St} (h : Run limit n a b) : n + weight b ≤ weight a := by
  induction h with
  | refl => omega
  | ok n a b c _ hs ih => have := ok_weight hs; omega
  | fail n a b c e _ hs ih => have := fail_weight hs; omega

theorem parent_mem {src : Tree} {pre todo : List (Path × Node)} (h : src.walk [] = pre ++ todo) {x : Path} {n : Node} (hx : (x, n) ∈ pre) :
    x = [] ∨ (x.dropLast, Node.dir) ∈ pre := by
  obtain ⟨l1, l2, rfl⟩ := List.append_of_mem hx
  rcases parents_walk src [] [] [] (Or.inl rfl) l1 x n (l2 ++ todo) (by rw [h]; simp) with h' | h'
  · exact Or.inl h'
  · exact Or.inr (List.mem_append_left _ (by simpa using h'))

/-- Without failures there is always a next step. -/
theorem progress {src : Tree} (hw : src.Wf) {limit : Nat} (hl : 0 < limit) {st : St} {pre : List (Path × Node)} (h : Inv src st [] pre) (hr : st.ret = none) :
    ∃ st', Ok limit st st' := by
  have hg : st.gerr = none := by
    cases hg : st.gerr with
    | none => rfl
    | some e => have := h.gerr e hg; cases this
  have hcan : st.canceled = false := by rw [h.canceled, hg]; rfl
  cases htk : st.tasks with
  | cons t l =>
    have hm : t ∈ st.tasks := by rw [htk]; simp
    have hpar : parentOk st.dst t.path := by
      rcases parent_mem h.split (h.task t hm).1 with h' | h'
      · exact Or.inl h'
      · exact Or.inr (h.dirs _ h')
    have hsp : st.tasks = [] ++ t :: l := htk
    obtain ⟨p, n, ph⟩ := t
    cases ph with
    | start =>
      have hd := h.start _ hm rfl
      cases n with
      | dir => exact absurd rfl (h.task _ hm).2
      | file c => exact ⟨_, Ok.create st [] l p c hsp hpar (Or.inl hd)⟩
      | link t => exact ⟨_, Ok.symlink st [] l p t hsp hpar hd⟩
    | writing k =>
      obtain ⟨c, hc, hk, -⟩ := h.writing _ hm k rfl
      dsimp only at hc
      subst hc
      rcases Nat.lt_or_ge k c.length with hlt | hge
      · exact ⟨_, Ok.write st [] l p c k (k + 1) hsp (by omega) (by omega)⟩
      · obtain rfl : k = c.length := by omega
        exact ⟨_, Ok.finish st [] l p c hsp⟩
  | nil =>
    cases htd : st.todo with
    | nil => exact ⟨_, Ok.wait st hr htd htk⟩
    | cons x rest =>
      cases hch : st.checked with
      | false => exact ⟨_, Ok.check st hr (by rw [htd]; simp) hch hcan⟩
      | true =>
        obtain ⟨p, n⟩ := x
        have hsplit := h.split
        rw [htd] at hsplit
        by_cases hn : n = .dir
        · subst hn
          refine ⟨_, Ok.mkdir st p rest hr htd hch ?_ (Or.inl ?_)⟩
          · rcases parents_walk src [] [] [] (Or.inl rfl) pre p .dir rest hsplit with h' | h'
            · exact Or.inl h'
            · exact Or.inr (h.dirs _ (by simpa using h'))
          · cases hd : st.dst p with
            | none => rfl
            | some m =>
              obtain ⟨n', h1, -⟩ := h.only p m hd
              exact absurd h1 (notBoth hw hsplit n')
        · exact ⟨_, Ok.spawn st p n rest hr htd hn hch (by rw [htk]; exact hl)⟩

/-! ### Links -/

theorem resolve_in {d : FS} {root : Path} {t : Path → Option Node} (hd : Holds d root t) : ∀ (k : Nat) (cur p r : Path), resolveIn k t cur p = some r →
    resolve k d (root ++ cur) p = some (root ++ r)
  | 0, _, _, _, h => by simp [resolveIn] at h
  | k + 1, cur, [], r, h => by
    simp only [resolveIn, Option.some.injEq] at h
    subst h; rfl
  | k + 1, cur, x :: rest, r, h => by
    simp only [resolveIn] at h
    simp only [resolve]
    split at h
    · rename_i hx
      rw [if_pos hx]
      split at h
      · cases h
      · rename_i hc
        have := resolve_in hd k cur.dropLast rest r h
        rwa [List.dropLast_append_of_ne_nil hc]
    · rename_i hx
      rw [if_neg hx]
      have ha : d (root ++ cur ++ [x]) = t (cur ++ [x]) := by rw [List.append_assoc]; exact hd _
      rw [ha]
      split at h
      · cases h
      · exact resolve_in hd k cur _ r h
      · rename_i h1 h2
        have := resolve_in hd k (cur ++ [x]) rest r h
        rw [← List.append_assoc] at this
        exact this

theorem resolve_plain {d : FS} : ∀ (root cur : Path) (k : Nat) (p : Path), ".." ∉ root → (∀ q t, q <+: root → q ≠ [] → d (cur ++ q) ≠ some (.link t)) →
    resolve (root.length + k) d cur (root ++ p) = resolve k d (cur ++ root) p
  | [], cur, k, p, _, _ => by simp
  | x :: root, cur, k, p, hdd, hpl => by
    have hx : x ≠ ".." := by rintro rfl; simp at hdd
    rw [show (x :: root).length + k = (root.length + k) + 1 by simp; omega, List.cons_append]
    simp only [resolve, if_neg hx]
    have h1 : ∀ t, d (cur ++ [x]) ≠ some (.link t) := fun t => hpl [x] t ⟨root, rfl⟩ (by simp)
    have ih := resolve_plain root (cur ++ [x]) k p (fun h => hdd (by simp [h])) (by
      intro q t hq hne
      rw [List.append_assoc]
      exact hpl (x :: q) t (by simpa using hq) (by simp))
    rw [List.append_assoc] at ih
    split
    · rename_i u hu; exact absurd hu (h1 _)
    · rename_i u hu; exact absurd hu (h1 _)
    · exact ih

theorem resolveIn_plain {t : Path → Option Node} (hno : ∀ q u, t q ≠ some (.link u)) : ∀ (p cur : Path), ".." ∉ p → resolveIn (p.length + 1) t cur p = some (cur ++ p)
  | [], cur, _ => by simp [resolveIn]
  | x :: p, cur, hdd => by
    have hx : x ≠ ".." := by rintro rfl; simp at hdd
    simp only [List.length_cons, resolveIn, if_neg hx]
    have ih := resolveIn_plain hno p (cur ++ [x]) (fun h => hdd (by simp [h]))
    split
    · rename_i u hu; exact absurd hu (hno _ _)
    · rename_i u hu; exact absurd hu (hno _ _)
    · rw [ih]; simp

/-! ### `WriteChmod` -/

structure CInv (paths : List Path) (info : Path → Option Info) (st : CSt) (errs : List Err) (pre : List Path) : Prop where
  split : paths = pre ++ st.todo
  task : ∀ p ∈ st.tasks, p ∈ pre
  nodup : st.tasks.Nodup
  same : ∀ p, p ∉ pre ∨ p ∈ st.tasks → st.info p = info p
  done : st.gerr = none → ∀ p ∈ pre, p ∈ st.tasks ∨ ∃ i, info p = some i ∧ st.info p = some (if i.isLink then i else { i with perm := newPerm i })
  either : ∀ p i, info p = some i → st.info p = some i ∨ (i.isLink = false ∧ st.info p = some { i with perm := newPerm i })
  canceled : st.canceled = st.gerr.isSome
  gerr : ∀ e, st.gerr = some e → e ∈ errs
  werr : ∀ w, st.werr = some w → (w = none → st.todo = []) ∧ (∀ e, w = some e → e ∈ errs ∨ (e = .canceled ∧ st.gerr.isSome = true))
  noErr : st.gerr = none → st.werr = none ∨ st.werr = some none → errs = []
  ret : ∀ l, st.ret = some l → st.tasks = [] ∧ ∃ w, st.werr = some w ∧ l = w.toList ++ st.gerr.toList

theorem cinv_init (paths : List Path) (info : Path → Option Info) : CInv paths info (cinit paths info) [] [] where
  split := rfl
  task := by intro t ht; cases ht
  nodup := List.nodup_nil
  same := fun _ _ => rfl
  done := by intro _ p hp; cases hp
  either := fun p i h => Or.inl h
  canceled := rfl
  gerr := by intro e h; cases h
  werr := by intro w h; cases h
  noErr := fun _ _ => rfl
  ret := by intro l h; cases h

theorem nodup_mid {l1 l2 : List Path} {p : Path} (h : (l1 ++ p :: l2).Nodup) : p ∉ l1 ++ l2 ∧ (l1 ++ l2).Nodup := by
  have hp : List.Perm (l1 ++ p :: l2) (p :: (l1 ++ l2)) := List.perm_middle
  have h' := hp.nodup_iff.mp h
  rw [List.nodup_cons] at h'
  exact h'

theorem cinv_ok {limit : Nat} {paths : List Path} (hnp : paths.Nodup) {info : Path → Option Info} {st st' : CSt} {errs : List Err} {pre : List Path} (h : CInv paths info st errs pre) (hs : COk limit st st') :
    ∃ pre', CInv paths info st' errs pre' := by
  cases hs with
  | check hr ht hc hcan => exact ⟨pre, { h with }⟩
  | done hr ht hc hcan =>
    refine ⟨pre, { h with werr := ?_, noErr := ?_, ret := ?_ }⟩
    · intro w hw
      cases hw
      refine ⟨fun h' => ?_, fun e he => ?_⟩
      · cases h'
      · cases he
        exact Or.inr ⟨rfl, by rw [← h.canceled]; exact hcan⟩
    · rintro _ (h' | h') <;> cases h'
    · intro l hl
      obtain ⟨-, w, hw, -⟩ := h.ret l hl
      rw [hr] at hw; cases hw
  | spawn p rest hr ht hc hlim =>
    have hsplit := h.split
    rw [ht] at hsplit
    have hnew : p ∉ pre := by
      intro hp
      rw [hsplit, List.nodup_append] at hnp
      exact hnp.2.2 p hp p (by simp) rfl
    refine ⟨pre ++ [p], ?_⟩
    exact {
      split := by simpa using hsplit
      task := by
        intro q hq
        rcases List.mem_append.mp hq with hq | hq
        · exact List.mem_append_left _ (h.task q hq)
        · exact List.mem_append_right _ hq
      nodup := by
        rw [List.nodup_append]
        refine ⟨h.nodup, by simp, ?_⟩
        intro a ha b hb he
        simp at hb
        subst hb; subst he
        exact hnew (h.task a ha)
      same := by
        intro q hq
        refine h.same q ?_
        rcases hq with hq | hq
        · exact Or.inl (fun h' => hq (List.mem_append_left _ h'))
        · rcases List.mem_append.mp hq with hq | hq
          · exact Or.inr hq
          · simp at hq
            subst hq
            exact Or.inl hnew
      done := by
        intro hg q hq
        rcases List.mem_append.mp hq with hq | hq
        · rcases h.done hg q hq with h' | h'
          · exact Or.inl (List.mem_append_left _ h')
          · exact Or.inr h'
        · exact Or.inl (List.mem_append_right _ hq)
      either := h.either
      canceled := h.canceled
      gerr := h.gerr
      werr := by
        intro w hw
        dsimp only at hw
        rw [hr] at hw; cases hw
      noErr := h.noErr
      ret := by
        intro l hl
        obtain ⟨-, w, hw, -⟩ := h.ret l hl
        rw [hr] at hw; cases hw }
  | walked hr ht =>
    refine ⟨pre, { h with werr := ?_, noErr := ?_, ret := ?_ }⟩
    · intro w hw
      cases hw
      exact ⟨fun _ => ht, fun e he => by cases he⟩
    · intro hg _
      exact h.noErr hg (Or.inl hr)
    · intro l hl
      obtain ⟨-, w, hw, -⟩ := h.ret l hl
      rw [hr] at hw; cases hw
  | link l1 l2 p i ht hi hlk =>
    have hnd := h.nodup
    rw [ht] at hnd
    obtain ⟨h1, h2⟩ := nodup_mid hnd
    have hp : p ∈ st.tasks := by rw [ht]; simp
    have hsub : ∀ u ∈ l1 ++ l2, u ∈ st.tasks := by
      intro u hu
      rw [ht]
      rcases List.mem_append.mp hu with hu | hu <;> simp [hu]
    refine ⟨pre, { h with task := fun q hq => h.task q (hsub q hq), nodup := h2, same := ?_, done := ?_, ret := ?_ }⟩
    · intro q hq
      exact h.same q (hq.imp_right (hsub q))
    · intro hg q hq
      by_cases hqp : q = p
      · subst hqp
        refine Or.inr ⟨i, ?_, ?_⟩
        · rw [← h.same q (Or.inr hp)]; exact hi
        · rw [if_pos hlk]; exact hi
      · rcases h.done hg q hq with h' | h'
        · left
          rw [ht] at h'
          simp only [List.mem_append, List.mem_cons] at h' ⊢
          tauto
        · exact Or.inr h'
    · intro l hl
      obtain ⟨h', -⟩ := h.ret l hl
      rw [ht] at h'
      simp at h'
  | chmod l1 l2 p i ht hi hlk =>
    have hnd := h.nodup
    rw [ht] at hnd
    obtain ⟨h1, h2⟩ := nodup_mid hnd
    have hp : p ∈ st.tasks := by rw [ht]; simp
    have hsub : ∀ u ∈ l1 ++ l2, u ∈ st.tasks := by
      intro u hu
      rw [ht]
      rcases List.mem_append.mp hu with hu | hu <;> simp [hu]
    have hip : info p = some i := by rw [← h.same p (Or.inr hp)]; exact hi
    refine ⟨pre, { h with task := fun q hq => h.task q (hsub q hq), nodup := h2, same := ?_, done := ?_, either := ?_, ret := ?_ }⟩
    · intro q hq
      have hqp : q ≠ p := by
        rintro rfl
        rcases hq with hq | hq
        · exact hq (h.task q hp)
        · exact h1 hq
      exact (if_neg hqp).trans (h.same q (hq.imp_right (hsub q)))
    · intro hg q hq
      by_cases hqp : q = p
      · subst hqp
        refine Or.inr ⟨i, hip, ?_⟩
        simp [hlk]
      · rcases h.done hg q hq with h' | ⟨j, hj, hj'⟩
        · left
          rw [ht] at h'
          simp only [List.mem_append, List.mem_cons] at h' ⊢
          tauto
        · exact Or.inr ⟨j, hj, (if_neg hqp).trans hj'⟩
    · intro q j hj
      by_cases hqp : q = p
      · subst hqp
        rw [hip] at hj
        cases hj
        exact Or.inr ⟨hlk, if_pos rfl⟩
      · rcases h.either q j hj with h' | ⟨h', h''⟩
        · exact Or.inl ((if_neg hqp).trans h')
        · exact Or.inr ⟨h', (if_neg hqp).trans h''⟩
    · intro l hl
      obtain ⟨h', -⟩ := h.ret l hl
      rw [ht] at h'
      simp at h'
  | wait w hw hr ht =>
    refine ⟨pre, { h with ret := ?_ }⟩
    intro l hl
    cases hl
    exact ⟨ht, w, hw, rfl⟩

theorem cinv_fail {paths : List Path} {info : Path → Option Info} {st st' : CSt} {e : Err} {errs : List Err} {pre : List Path} (h : CInv paths info st errs pre) (hs : CFail st e st') :
    CInv paths info st' (errs ++ [e]) pre := by
  cases hs with
  | walk p rest hr ht hc =>
    exact { h with
      gerr := fun e he => List.mem_append_left _ (h.gerr e he)
      werr := by
        intro w hw
        cases hw
        refine ⟨fun h' => ?_, fun e he => ?_⟩
        · cases h'
        · cases he
          exact Or.inl (by simp)
      noErr := by rintro _ (h' | h') <;> cases h'
      ret := by
        intro l hl
        obtain ⟨-, w, hw, -⟩ := h.ret l hl
        rw [hr] at hw; cases hw }
  | chmod l1 l2 p ht =>
    have hnd := h.nodup
    rw [ht] at hnd
    obtain ⟨h1, h2⟩ := nodup_mid hnd
    have hsub : ∀ u ∈ l1 ++ l2, u ∈ st.tasks := by
      intro u hu
      rw [ht]
      rcases List.mem_append.mp hu with hu | hu <;> simp [hu]
    exact { h with
      task := fun q hq => h.task q (hsub q hq)
      nodup := h2
      same := fun q hq => h.same q (hq.imp_right (hsub q))
      done := by
        intro hg
        cases hg' : st.gerr <;> simp [hg'] at hg
      canceled := by cases hg' : st.gerr <;> simp
      gerr := by
        intro e he
        cases hg' : st.gerr with
        | none => simp [hg'] at he; simp [he]
        | some e' =>
          simp [hg'] at he
          exact List.mem_append_left _ (h.gerr e (by rw [hg', he]))
      werr := by
        intro w hw
        obtain ⟨h3, h4⟩ := h.werr w hw
        refine ⟨h3, fun e he => ?_⟩
        rcases h4 e he with h4 | ⟨h4, -⟩
        · exact Or.inl (List.mem_append_left _ h4)
        · exact Or.inr ⟨h4, by cases hg' : st.gerr <;> simp⟩
      noErr := by
        intro hg
        cases hg' : st.gerr <;> simp [hg'] at hg
      ret := by
        intro l hl
        obtain ⟨h', -⟩ := h.ret l hl
        rw [ht] at h'
        simp at h' }

theorem cinv {limit : Nat} {paths : List Path} (hnp : paths.Nodup) {info : Path → Option Info} {st : CSt} {errs : List Err} (h : CReach limit paths info st errs) :
    ∃ pre, CInv paths info st errs pre := by
  induction h with
  | init => exact ⟨[], cinv_init paths info⟩
  | ok st st' errs _ hs ih =>
    obtain ⟨pre, hi⟩ := ih
    exact cinv_ok hnp hi hs
  | fail st st' e errs _ hs ih =>
    obtain ⟨pre, hi⟩ := ih
    exact ⟨pre, cinv_fail hi hs⟩

end Verif.Copy
