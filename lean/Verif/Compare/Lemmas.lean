import Verif.Compare.Spec
import Verif.Monitor.Lemmas2
import Verif.Result.RefLemmas

namespace Verif.Compare

open Verif.Result (Bytes FMap StackFrame CallFrame TestResult flatten leafAt flatWrites WF NamesAll extend dotted extend_nil extend_dotted dotted_inj mem_flatWrites leafAt_names_all leafAt_ne_nil leafAt_names)
open Verif.Monitor

/-! ### Pairing of frames -/

/-- Each baseline frame with its counterpart. -/
def pairing (key : CallFrame → Bytes) (posts : List CallFrame) : List CallFrame → List CallFrame → List (CallFrame × Option CallFrame)
  | _, [] => []
  | pre, f :: fs => (f, (posts.filter fun g => key g = key f)[pre.countP fun g => key g = key f]?) :: pairing key posts (pre ++ [f]) fs

theorem pairing_get (key : CallFrame → Bytes) (posts : List CallFrame) : ∀ (fs pre : List CallFrame) (i : Nat) (f : CallFrame) (p : Option CallFrame),
    (pairing key posts pre fs)[i]? = some (f, p) ↔
      fs[i]? = some f ∧ p = (posts.filter fun g => key g = key f)[occBefore key (pre ++ fs) (pre.length + i) (key f)]?
  | [], pre, i, f, p => by simp [pairing]
  | f0 :: fs, pre, 0, f, p => by
      simp only [pairing, List.getElem?_cons_zero, Option.some.injEq, Prod.mk.injEq, Nat.add_zero]
      have ho : occBefore key (pre ++ f0 :: fs) pre.length (key f) = pre.countP fun g => key g = key f := by simp [occBefore]
      rw [ho]
      constructor
      · rintro ⟨rfl, rfl⟩; exact ⟨rfl, rfl⟩
      · rintro ⟨rfl, rfl⟩; exact ⟨rfl, rfl⟩
  | f0 :: fs, pre, i + 1, f, p => by
      simp only [pairing, List.getElem?_cons_succ]
      rw [pairing_get key posts fs (pre ++ [f0]) i f p]
      have hl : (pre ++ [f0]).length + i = pre.length + (i + 1) := by simp; omega
      rw [hl, List.append_assoc, List.singleton_append]

theorem partner_iff (key : CallFrame → Bytes) (fs posts : List CallFrame) (i : Nat) (f g : CallFrame) (hf : fs[i]? = some f) :
    (posts.filter fun g => key g = key f)[occBefore key fs i (key f)]? = some g ↔ ∃ j : Nat, posts[j]? = some g ∧ Matched key fs posts i j := by
  rw [filter_get]
  constructor
  · rintro ⟨j, hj, hk, hc⟩
    exact ⟨j, hj, f, g, hf, hj, by simpa using (of_decide_eq_true hk).symm, hc.symm⟩
  · rintro ⟨j, hj, f', g', hf', hj', hk, hc⟩
    rw [hf] at hf'; cases hf'
    rw [hj] at hj'; cases hj'
    exact ⟨j, hj, by simp [hk], hc.symm⟩

theorem pairing_some (key : CallFrame → Bytes) (fs posts : List CallFrame) (f g : CallFrame) :
    (f, some g) ∈ pairing key posts [] fs ↔ ∃ i j : Nat, fs[i]? = some f ∧ posts[j]? = some g ∧ Matched key fs posts i j := by
  rw [List.mem_iff_getElem?]
  constructor
  · rintro ⟨i, hi⟩
    rw [pairing_get] at hi
    obtain ⟨h1, h2⟩ := hi
    simp only [List.nil_append, List.length_nil, Nat.zero_add] at h2
    obtain ⟨j, h3, h4⟩ := (partner_iff key fs posts i f g h1).mp h2.symm
    exact ⟨i, j, h1, h3, h4⟩
  · rintro ⟨i, j, h1, h3, h4⟩
    refine ⟨i, ?_⟩
    rw [pairing_get]
    refine ⟨h1, ?_⟩
    simp only [List.nil_append, List.length_nil, Nat.zero_add]
    exact ((partner_iff key fs posts i f g h1).mpr ⟨j, h3, h4⟩).symm

/-- One paired frame. -/
def pairStep (dv : Bytes → Bytes → Bytes) (o : FieldOut) (p : CallFrame × Option CallFrame) : FieldOut :=
  match p.2 with
  | none => { o with diff := o.diff + (flatten p.1.fields).length }
  | some g => fieldLoop dv (flatten p.1.fields) (flatten g.fields) (flatten p.1.fields).keys o

/-- Times of the matched frames. -/
def pairTimes (ps : List (CallFrame × Option CallFrame)) : List (Nat × Nat) :=
  ps.filterMap fun p => p.2.map fun g => (p.1.time, g.time)

theorem compare_fold (dv : Bytes → Bytes → Bytes) (key : CallFrame → Bytes) (mult : Nat) (posts : List CallFrame) :
    ∀ (fs pre : List CallFrame) (s : CallerState), (∀ k, (s.used.get k).getD 0 = pre.countP fun f => key f = k) →
      (fs.foldl (frameStep dv key mult posts) s).out = (pairing key posts pre fs).foldl (pairStep dv) s.out ∧
      (fs.foldl (frameStep dv key mult posts) s).most =
        (intervals s.lastPre s.lastPost (pairTimes (pairing key posts pre fs))).foldl (fun m iv => timeStep mult m iv.1 iv.2) s.most
  | [], pre, s, _ => by simp [pairing, pairTimes, intervals]
  | f :: fs, pre, s, hu => by
      have hu' : ∀ k, ((s.used.set (key f) ((s.used.get (key f)).getD 0 + 1)).get k).getD 0 = (pre ++ [f]).countP fun f => key f = k := by
        intro k
        rw [AMap.get_set, List.countP_append]
        by_cases hk : k = key f
        · subst hk; simp [hu]
        · have hk' : ¬ key f = k := fun h => hk h.symm
          simp [hk, hk', hu]
      simp only [List.foldl_cons, pairing]
      cases hg : (posts.filter fun g => key g = key f)[pre.countP fun g => key g = key f]? with
      | none =>
          have hs : frameStep dv key mult posts s f = ⟨{ s.out with diff := s.out.diff + (flatten f.fields).length },
              s.used.set (key f) ((s.used.get (key f)).getD 0 + 1), s.most, s.lastPre, s.lastPost⟩ := by
            simp only [frameStep, hu (key f), hg]
          obtain ⟨h1, h2⟩ := compare_fold dv key mult posts fs (pre ++ [f]) (frameStep dv key mult posts s f) (by rw [hs]; exact hu')
          rw [h1, h2, hs]
          exact ⟨rfl, rfl⟩
      | some g =>
          have hs : frameStep dv key mult posts s f = ⟨fieldLoop dv (flatten f.fields) (flatten g.fields) (flatten f.fields).keys s.out,
              s.used.set (key f) ((s.used.get (key f)).getD 0 + 1),
              if f.time > 0 ∧ g.time > 0 ∧ f.time ≥ s.lastPre ∧ g.time ≥ s.lastPost then
                timeStep mult s.most (f.time - s.lastPre) (g.time - s.lastPost) else s.most, f.time, g.time⟩ := by
            simp only [frameStep, hu (key f), hg]
          obtain ⟨h1, h2⟩ := compare_fold dv key mult posts fs (pre ++ [f]) (frameStep dv key mult posts s f) (by rw [hs]; exact hu')
          rw [h1, h2, hs]
          refine ⟨rfl, ?_⟩
          simp only [pairTimes, List.filterMap_cons, Option.map_some, intervals]
          split <;> rfl

theorem compareCaller_out (dv : Bytes → Bytes → Bytes) (key : CallFrame → Bytes) (mult : Nat) (fs posts : List CallFrame) :
    (compareCaller dv key mult fs posts).out = (pairing key posts [] fs).foldl (pairStep dv) ⟨0, 0, []⟩ :=
  (compare_fold dv key mult posts fs [] _ (fun _ => rfl)).1

theorem compareCaller_most (dv : Bytes → Bytes → Bytes) (key : CallFrame → Bytes) (mult : Nat) (fs posts : List CallFrame) :
    (compareCaller dv key mult fs posts).most =
      (intervals 0 0 (pairTimes (pairing key posts [] fs))).foldl (fun m iv => timeStep mult m iv.1 iv.2) noChange :=
  (compare_fold dv key mult posts fs [] _ (fun _ => rfl)).2

/-! ### Fields -/

theorem flatten_nodup_aux : ∀ (ws : List (Bytes × Bytes)) (a : AMap Bytes Bytes), (AMap.keys a).Nodup →
    (AMap.keys (ws.foldl (fun (a : AMap Bytes Bytes) w => a.set w.1 w.2) a)).Nodup
  | [], a, h => h
  | w :: ws, a, h => flatten_nodup_aux ws _ (AMap.nodup_set h _ _)

theorem flatten_nodup (m : FMap) : (AMap.keys (flatten m)).Nodup := flatten_nodup_aux _ _ (by simp [AMap.keys])

theorem keys_length {m : AMap Bytes Bytes} : (AMap.keys m).length = m.length := by simp [AMap.keys]

/-- Number of names with different value. -/
def differing (pre post : AMap Bytes Bytes) (ns : List Bytes) : Nat := ns.countP fun n => pre.get n ≠ post.get n

theorem fieldLoop_counts (dv : Bytes → Bytes → Bytes) (pre post : AMap Bytes Bytes) : ∀ (ns : List Bytes) (o : FieldOut),
    (∀ n ∈ ns, (pre.get n).isSome) →
    (fieldLoop dv pre post ns o).diff = o.diff + differing pre post ns ∧
    (fieldLoop dv pre post ns o).same + differing pre post ns = o.same + ns.length
  | [], o, _ => by simp [fieldLoop, differing]
  | n :: ns, o, h => by
      obtain ⟨v, hv⟩ := Option.isSome_iff_exists.mp (h n List.mem_cons_self)
      have h' : ∀ n ∈ ns, (pre.get n).isSome := fun m hm => h m (List.mem_cons_of_mem _ hm)
      simp only [fieldLoop, hv, Option.getD_some]
      cases hp : post.get n with
      | none =>
          obtain ⟨h1, h2⟩ := fieldLoop_counts dv pre post ns { o with diff := o.diff + 1 } h'
          simp only [differing, List.countP_cons, hv, hp, List.length_cons] at h1 h2 ⊢
          simp at h1 h2 ⊢
          constructor <;> omega
      | some w =>
          simp only
          split
          · rename_i hvw; subst hvw
            obtain ⟨h1, h2⟩ := fieldLoop_counts dv pre post ns { o with same := o.same + 1 } h'
            simp only [differing, List.countP_cons, hv, hp, List.length_cons] at h1 h2 ⊢
            simp at h1 h2 ⊢
            constructor <;> omega
          · rename_i hvw
            obtain ⟨h1, h2⟩ := fieldLoop_counts dv pre post ns { o with diff := o.diff + 1, changes := o.changes.set n (dv v w) } h'
            simp only [differing, List.countP_cons, hv, hp, List.length_cons] at h1 h2 ⊢
            simp [hvw] at h1 h2 ⊢
            constructor <;> omega

theorem fieldLoop_changes (dv : Bytes → Bytes → Bytes) (pre post : AMap Bytes Bytes) (x : Bytes) : ∀ (ns : List Bytes) (o : FieldOut),
    (∀ n ∈ ns, (pre.get n).isSome) →
    (∀ v w, x ∈ ns → pre.get x = some v → post.get x = some w → v ≠ w → (fieldLoop dv pre post ns o).changes.get x = some (dv v w)) ∧
    ((¬ ∃ v w, x ∈ ns ∧ pre.get x = some v ∧ post.get x = some w ∧ v ≠ w) → (fieldLoop dv pre post ns o).changes.get x = o.changes.get x)
  | [], o, _ => by simp [fieldLoop]
  | n :: ns, o, h => by
      obtain ⟨v0, hv0⟩ := Option.isSome_iff_exists.mp (h n List.mem_cons_self)
      have h' : ∀ n ∈ ns, (pre.get n).isSome := fun m hm => h m (List.mem_cons_of_mem _ hm)
      have ih := fun o => fieldLoop_changes dv pre post x ns o h'
      simp only [fieldLoop, hv0, Option.getD_some]
      -- the state after the first name
      have key : ∀ o', (o'.changes.get x = o.changes.get x ∨ (n = x ∧ ∃ w, post.get n = some w ∧ v0 ≠ w ∧ o'.changes.get x = some (dv v0 w))) →
          (n = x → ∀ w, post.get n = some w → v0 ≠ w → o'.changes.get x = some (dv v0 w)) →
          (∀ v w, x ∈ n :: ns → pre.get x = some v → post.get x = some w → v ≠ w → (fieldLoop dv pre post ns o').changes.get x = some (dv v w)) ∧
          ((¬ ∃ v w, x ∈ n :: ns ∧ pre.get x = some v ∧ post.get x = some w ∧ v ≠ w) → (fieldLoop dv pre post ns o').changes.get x = o.changes.get x) := by
        intro o' hor hset
        obtain ⟨i1, i2⟩ := ih o'
        constructor
        · intro v w hx hv hw hne
          by_cases hxn : x ∈ ns
          · exact i1 v w hxn hv hw hne
          · have hnx : n = x := by
              rcases List.mem_cons.mp hx with h1 | h1
              · exact h1.symm
              · exact absurd h1 hxn
            rw [i2 (by rintro ⟨_, _, h1, _⟩; exact hxn h1)]
            subst hnx
            rw [hv0] at hv; cases hv
            exact hset rfl w hw hne
        · intro hno
          rw [i2 (by rintro ⟨v, w, h1, h2, h3, h4⟩; exact hno ⟨v, w, List.mem_cons_of_mem _ h1, h2, h3, h4⟩)]
          rcases hor with h1 | ⟨rfl, w, hw, hne, _⟩
          · exact h1
          · exact absurd ⟨v0, w, List.mem_cons_self, hv0, hw, hne⟩ hno
      cases hp : post.get n with
      | none => exact key _ (Or.inl rfl) (by intro _ w hw; rw [hp] at hw; cases hw)
      | some w0 =>
          simp only
          split
          · rename_i hvw
            refine key _ (Or.inl rfl) ?_
            intro _ w hw hne
            rw [hp] at hw; cases hw
            exact absurd hvw hne
          · rename_i hvw
            refine key _ ?_ ?_
            · simp only [AMap.get_set]
              by_cases hnx : x = n
              · right; exact ⟨hnx.symm, w0, hp, hvw, by simp [hnx]⟩
              · left; simp [hnx]
            · rintro rfl w hw hne
              rw [hp] at hw; cases hw
              simp [AMap.get_set]

theorem mem_keys_get {m : AMap Bytes Bytes} {n : Bytes} (h : n ∈ AMap.keys m) : (m.get n).isSome := (AMap.mem_keys m n).mp h

/-- Number of changed fields of a paired frame. -/
def frameDiff (p : CallFrame × Option CallFrame) : Nat :=
  match p.2 with
  | none => (flatten p.1.fields).length
  | some g => differing (flatten p.1.fields) (flatten g.fields) (flatten p.1.fields).keys

theorem pairStep_counts (dv : Bytes → Bytes → Bytes) (o : FieldOut) (p : CallFrame × Option CallFrame) :
    (pairStep dv o p).diff = o.diff + frameDiff p ∧ (pairStep dv o p).same + frameDiff p = o.same + (flatten p.1.fields).length := by
  obtain ⟨f, g⟩ := p
  cases g with
  | none => simp [pairStep, frameDiff]
  | some g =>
      have := fieldLoop_counts dv (flatten f.fields) (flatten g.fields) (flatten f.fields).keys o (fun n hn => mem_keys_get hn)
      simp only [pairStep, frameDiff]
      rw [keys_length] at this
      exact this

theorem fold_counts (dv : Bytes → Bytes → Bytes) : ∀ (ps : List (CallFrame × Option CallFrame)) (o : FieldOut),
    (ps.foldl (pairStep dv) o).diff = o.diff + (ps.map frameDiff).sum ∧
    (ps.foldl (pairStep dv) o).same + (ps.map frameDiff).sum = o.same + (ps.map fun p => (flatten p.1.fields).length).sum
  | [], o => by simp
  | p :: ps, o => by
      obtain ⟨h1, h2⟩ := fold_counts dv ps (pairStep dv o p)
      obtain ⟨h3, h4⟩ := pairStep_counts dv o p
      simp only [List.foldl_cons, List.map_cons, List.sum_cons]
      constructor <;> omega

theorem pairing_map (key : CallFrame → Bytes) (posts : List CallFrame) : ∀ (fs pre : List CallFrame), (pairing key posts pre fs).map (·.1) = fs
  | [], pre => rfl
  | f :: fs, pre => by simp [pairing, pairing_map key posts fs]

theorem caller_counts (dv : Bytes → Bytes → Bytes) (key : CallFrame → Bytes) (mult : Nat) (fs posts : List CallFrame) :
    (compareCaller dv key mult fs posts).out.same + (compareCaller dv key mult fs posts).out.diff =
      (fs.map fun f => (flatten f.fields).length).sum := by
  rw [compareCaller_out]
  obtain ⟨h1, h2⟩ := fold_counts dv (pairing key posts [] fs) ⟨0, 0, []⟩
  rw [h1]
  have h3 : ((pairing key posts [] fs).map fun p => (flatten p.1.fields).length) = fs.map fun f => (flatten f.fields).length := by
    conv_rhs => rw [← pairing_map key posts fs []]
    rw [List.map_map]; rfl
  rw [h3] at h2
  simp only [Nat.zero_add] at h2 ⊢
  exact h2

theorem sum_zero {l : List Nat} : l.sum = 0 ↔ ∀ x ∈ l, x = 0 := by
  induction l with
  | nil => simp
  | cons a l ih => simp [ih]

theorem differing_zero {pre post : AMap Bytes Bytes} (_h : (AMap.keys pre).Nodup) :
    differing pre post (AMap.keys pre) = 0 ↔ ∀ x v, pre.get x = some v → post.get x = some v := by
  unfold differing
  rw [List.countP_eq_zero]
  constructor
  · intro h x v hx
    have := h x ((AMap.mem_keys pre x).mpr (by simp [hx]))
    simp at this
    rw [← this]; exact hx
  · intro h n hn
    obtain ⟨v, hv⟩ := Option.isSome_iff_exists.mp (mem_keys_get hn)
    simp [hv, h n v hv]

theorem caller_zero (dv : Bytes → Bytes → Bytes) (key : CallFrame → Bytes) (mult : Nat) (fs posts : List CallFrame) :
    (compareCaller dv key mult fs posts).out.diff = 0 ↔
      ∀ (i : Nat) (f : CallFrame), fs[i]? = some f → flatten f.fields = [] ∨ ∃ (j : Nat) (g : CallFrame), posts[j]? = some g ∧ Matched key fs posts i j ∧ Agree f g := by
  rw [compareCaller_out, (fold_counts dv _ _).1]
  simp only [Nat.zero_add, sum_zero, List.mem_map, forall_exists_index, and_imp]
  constructor
  · intro h i f hf
    have hp : (f, (posts.filter fun g => key g = key f)[occBefore key fs i (key f)]?) ∈ pairing key posts [] fs := by
      refine List.mem_iff_getElem?.mpr ⟨i, ?_⟩
      rw [pairing_get]
      exact ⟨hf, by simp⟩
    have h0 := h _ _ hp rfl
    cases hg : (posts.filter fun g => key g = key f)[occBefore key fs i (key f)]? with
    | none =>
        rw [hg] at h0
        left
        simpa [frameDiff] using h0
    | some g =>
        rw [hg] at h0
        right
        obtain ⟨j, hj, hm⟩ := (partner_iff key fs posts i f g hf).mp hg
        refine ⟨j, g, hj, hm, ?_⟩
        exact (differing_zero (flatten_nodup _)).mp h0
  · rintro h n ⟨f, g⟩ hp rfl
    obtain ⟨i, hi⟩ := List.mem_iff_getElem?.mp hp
    rw [pairing_get] at hi
    obtain ⟨hf, hg⟩ := hi
    simp only [List.nil_append, List.length_nil, Nat.zero_add] at hg
    rcases h i f hf with h0 | ⟨j, g', hj, hm, ha⟩
    · cases g with
      | none => simp [frameDiff, h0]
      | some g => simp [frameDiff, h0, differing, AMap.keys]
    · have := (partner_iff key fs posts i f g' hf).mpr ⟨j, hj, hm⟩
      rw [this] at hg
      subst hg
      simp only [frameDiff]
      exact (differing_zero (flatten_nodup _)).mpr ha

/-! ### The reported texts -/

theorem pairStep_changes (dv : Bytes → Bytes → Bytes) (o : FieldOut) (p : CallFrame × Option CallFrame) (x : Bytes) :
    (∀ g v w, p.2 = some g → (flatten p.1.fields).get x = some v → (flatten g.fields).get x = some w → v ≠ w →
      (pairStep dv o p).changes.get x = some (dv v w)) ∧
    ((¬ ∃ g v w, p.2 = some g ∧ (flatten p.1.fields).get x = some v ∧ (flatten g.fields).get x = some w ∧ v ≠ w) →
      (pairStep dv o p).changes.get x = o.changes.get x) := by
  obtain ⟨f, g⟩ := p
  cases g with
  | none => simp [pairStep]
  | some g =>
      obtain ⟨h1, h2⟩ := fieldLoop_changes dv (flatten f.fields) (flatten g.fields) x (flatten f.fields).keys o (fun n hn => mem_keys_get hn)
      constructor
      · rintro g' v w hg hv hw hne
        cases hg
        exact h1 v w ((AMap.mem_keys _ _).mpr (by simp [hv])) hv hw hne
      · intro hno
        apply h2
        rintro ⟨v, w, _, hv, hw, hne⟩
        exact hno ⟨g, v, w, rfl, hv, hw, hne⟩

theorem fold_changes (dv : Bytes → Bytes → Bytes) (x t : Bytes) : ∀ (ps : List (CallFrame × Option CallFrame)) (o : FieldOut),
    ((ps.foldl (pairStep dv) o).changes.get x = some t →
      o.changes.get x = some t ∨ ∃ f g v w, (f, some g) ∈ ps ∧ (flatten f.fields).get x = some v ∧ (flatten g.fields).get x = some w ∧ v ≠ w ∧ t = dv v w) ∧
    (((∃ t, o.changes.get x = some t) ∨ ∃ f g v w, (f, some g) ∈ ps ∧ (flatten f.fields).get x = some v ∧ (flatten g.fields).get x = some w ∧ v ≠ w) →
      ∃ t, (ps.foldl (pairStep dv) o).changes.get x = some t)
  | [], o => by simp
  | (f, g) :: ps, o => by
      obtain ⟨i1, i2⟩ := fold_changes dv x t ps (pairStep dv o (f, g))
      obtain ⟨s1, s2⟩ := pairStep_changes dv o (f, g) x
      simp only [List.foldl_cons]
      by_cases hch : ∃ g' v w, g = some g' ∧ (flatten f.fields).get x = some v ∧ (flatten g'.fields).get x = some w ∧ v ≠ w
      · obtain ⟨g', v, w, rfl, hv, hw, hne⟩ := hch
        have hs := s1 g' v w rfl hv hw hne
        constructor
        · intro h
          rcases i1 h with h1 | ⟨f', g'', v', w', hm, h2⟩
          · rw [hs] at h1
            right
            exact ⟨f, g', v, w, List.mem_cons_self, hv, hw, hne, by simpa using h1.symm⟩
          · right; exact ⟨f', g'', v', w', List.mem_cons_of_mem _ hm, h2⟩
        · intro _
          exact i2 (Or.inl ⟨_, hs⟩)
      · have hs := s2 hch
        constructor
        · intro h
          rcases i1 h with h1 | ⟨f', g'', v', w', hm, h2⟩
          · left; rw [hs] at h1; exact h1
          · right; exact ⟨f', g'', v', w', List.mem_cons_of_mem _ hm, h2⟩
        · rintro (⟨t', h⟩ | ⟨f', g', v, w, hm, hv, hw, hne⟩)
          · exact i2 (Or.inl ⟨t', by rw [hs]; exact h⟩)
          · rcases List.mem_cons.mp hm with he | hm
            · cases he
              exact absurd ⟨g', v, w, rfl, hv, hw, hne⟩ hch
            · exact i2 (Or.inr ⟨f', g', v, w, hm, hv, hw, hne⟩)

/-! ### Matched times -/

theorem pairTimes_matched (key : CallFrame → Bytes) (fs0 posts : List CallFrame) : ∀ (fs pre : List CallFrame), fs0 = pre ++ fs →
    ∃ ps : List (Nat × Nat), ps.Pairwise (fun a b => a.1 < b.1) ∧ (∀ i j, (i, j) ∈ ps ↔ pre.length ≤ i ∧ Matched key fs0 posts i j) ∧
      List.Forall₂ (fun ij t => ∃ f g, fs0[ij.1]? = some f ∧ posts[ij.2]? = some g ∧ t = (f.time, g.time)) ps
        (pairTimes (pairing key posts pre fs))
  | [], pre, h0 => by
      refine ⟨[], by simp, ?_, by simp [pairing, pairTimes]⟩
      intro i j
      simp only [List.not_mem_nil, false_iff, not_and]
      rintro hi ⟨f, g, hf, _⟩
      rw [h0, List.append_nil, List.getElem?_eq_none hi] at hf
      cases hf
  | f :: fs, pre, h0 => by
      obtain ⟨ps, hp1, hp2, hp3⟩ := pairTimes_matched key fs0 posts fs (pre ++ [f]) (by simp [h0])
      have hlen : (pre ++ [f]).length = pre.length + 1 := by simp
      rw [hlen] at hp2
      have hf0 : fs0[pre.length]? = some f := by rw [h0]; simp
      have hocc : occBefore key fs0 pre.length (key f) = pre.countP fun g => key g = key f := by rw [h0]; simp [occBefore]
      have hpi := fun g => partner_iff key fs0 posts pre.length f g hf0
      simp only [pairing, pairTimes, List.filterMap_cons]
      rw [hocc] at hpi
      cases hg : (posts.filter fun g => key g = key f)[pre.countP fun g => key g = key f]? with
      | none =>
          refine ⟨ps, hp1, ?_, hp3⟩
          intro i j
          rw [hp2]
          constructor
          · rintro ⟨h1, h2⟩; exact ⟨by omega, h2⟩
          · rintro ⟨h1, h2⟩
            refine ⟨?_, h2⟩
            by_contra hlt
            have hi : i = pre.length := by omega
            subst hi
            obtain ⟨f', g', hf', hg', hrest⟩ := h2
            have := (hpi g').mpr ⟨j, hg', f', g', hf', hg', hrest⟩
            rw [hg] at this; cases this
      | some g =>
          obtain ⟨j0, hj0, hm0⟩ := (hpi g).mp hg
          refine ⟨(pre.length, j0) :: ps, ?_, ?_, ?_⟩
          · refine List.pairwise_cons.mpr ⟨?_, hp1⟩
            rintro ⟨i, j⟩ hb
            exact ((hp2 i j).mp hb).1
          · intro i j
            simp only [List.mem_cons, Prod.mk.injEq, hp2]
            constructor
            · rintro (⟨rfl, rfl⟩ | ⟨h1, h2⟩)
              · exact ⟨le_refl _, hm0⟩
              · exact ⟨by omega, h2⟩
            · rintro ⟨h1, h2⟩
              by_cases hi : i = pre.length
              · left
                refine ⟨hi, ?_⟩
                subst hi
                obtain ⟨f1, g1, hf1, hg1, hk1, ho1⟩ := h2
                obtain ⟨f2, g2, hf2, hg2, hk2, ho2⟩ := hm0
                rw [hf1] at hf2; cases hf2
                exact occ_unique (fun g : CallFrame => decide (key g = key f1)) hg1 hg2 (by simp [hk1]) (by simp [hk2])
                  (by rw [show (List.take j posts).countP (fun g => decide (key g = key f1)) = occBefore key posts j (key f1) from rfl, ← ho1, ho2]; rfl)
              · exact Or.inr ⟨by omega, h2⟩
          · exact .cons ⟨f, g, hf0, hj0, rfl⟩ hp3

/-! ### Leaves -/

theorem flatWrites_length : ∀ (m : FMap) (pfx : Bytes), (flatWrites pfx m).length = leafCount m
  | .goNil, _ => rfl
  | .empty, _ => rfl
  | .cons k v kids rest, pfx => by
      simp only [flatWrites, List.length_append, flatWrites_length rest pfx, leafCount]
      split
      · rfl
      · rw [flatWrites_length kids]

theorem foldl_set_length : ∀ (ws : List (Bytes × Bytes)) (a : AMap Bytes Bytes), (ws.map (·.1)).Nodup → (∀ w ∈ ws, w.1 ∉ AMap.keys a) →
    (ws.foldl (fun (a : AMap Bytes Bytes) w => a.set w.1 w.2) a).length = a.length + ws.length
  | [], a, _, _ => rfl
  | w :: ws, a, hn, hd => by
      simp only [List.map_cons, List.nodup_cons] at hn
      have hdel : AMap.del a w.1 = a := by
        unfold AMap.del
        rw [List.filter_eq_self]
        intro e he
        simp only [ne_eq, decide_not, Bool.not_eq_eq_eq_not, Bool.not_true, decide_eq_false_iff_not]
        rintro h
        exact hd w List.mem_cons_self (h ▸ List.mem_map_of_mem he)
      have hset : a.set w.1 w.2 = (w.1, w.2) :: a := by unfold AMap.set; rw [hdel]
      simp only [List.foldl_cons, hset]
      rw [foldl_set_length ws _ hn.2]
      · simp; omega
      · intro w' hw' hmem
        have hk : AMap.keys ((w.1, w.2) :: a) = w.1 :: AMap.keys a := rfl
        rw [hk] at hmem
        rcases List.mem_cons.mp hmem with h | h
        · exact hn.1 (h ▸ List.mem_map_of_mem hw')
        · exact hd w' (List.mem_cons_of_mem _ hw') h

theorem flatWrites_nodup : ∀ (m : FMap) (pfx : Bytes), WF m → NamesAll (fun k => k ≠ [] ∧ (46 : UInt8) ∉ k) m →
    ((flatWrites pfx m).map (·.1)).Nodup
  | .goNil, _, _, _ => by simp [flatWrites]
  | .empty, _, _, _ => by simp [flatWrites]
  | .cons k v kids rest, pfx, hw, hn => by
      obtain ⟨h1, h2, h3⟩ := hw
      obtain ⟨n1, n2, n3⟩ := hn
      have hr := flatWrites_nodup rest pfx h3 n3
      simp only [flatWrites, List.map_append, List.nodup_append]
      refine ⟨?_, hr, ?_⟩
      · split
        · simp
        · exact flatWrites_nodup kids _ h2 n2
      · intro a ha b hb hab
        subst hab
        obtain ⟨wb, hwb, rfl⟩ := List.mem_map.mp hb
        obtain ⟨p, hp, hpe⟩ := (mem_flatWrites rest pfx h3 wb).mp hwb
        have hq : ∃ q : List Bytes, (∀ x ∈ q, x ≠ [] ∧ (46 : UInt8) ∉ x) ∧ wb.1 = extend pfx (k :: q) := by
          split at ha
          · simp only [List.map_cons, List.map_nil, List.mem_singleton] at ha
            exact ⟨[], by simp, ha⟩
          · obtain ⟨wa, hwa, hae⟩ := List.mem_map.mp ha
            obtain ⟨q, hq, hqe⟩ := (mem_flatWrites kids _ h2 wa).mp hwa
            exact ⟨q, leafAt_names_all q kids _ n2 hq, by rw [← hae, hqe]; rfl⟩
        obtain ⟨q, hq1, hq2⟩ := hq
        have hp1 := leafAt_names_all p rest _ n3 hp
        have hpn := leafAt_ne_nil hp
        obtain ⟨x, xs, rfl⟩ : ∃ x xs, p = x :: xs := by
          cases p with
          | nil => exact absurd rfl hpn
          | cons x xs => exact ⟨x, xs, rfl⟩
        have hx := leafAt_names hp
        rw [hpe] at hq2
        have hd : dotted (x :: xs) = dotted (k :: q) := by
          by_cases hpf : pfx = []
          · subst hpf
            rw [extend_nil (fun y hy => (hp1 y hy).1), extend_nil (fun y hy => ?_)] at hq2
            · exact hq2
            · rcases List.mem_cons.mp hy with rfl | hy
              · exact n1.1
              · exact (hq1 y hy).1
          · rw [extend_dotted _ _ hpf, extend_dotted _ _ hpf] at hq2
            simpa [dotted] using hq2
        have := dotted_inj (by simp) (by simp) (fun y hy => (hp1 y hy).2) (fun y hy => ?_) hd
        · injection this with e1 e2
          exact h1 (e1 ▸ hx)
        · rcases List.mem_cons.mp hy with rfl | hy
          · exact n1.2
          · exact (hq1 y hy).2

theorem flatten_length (m : FMap) (hw : WF m) (hn : NamesAll (fun k => k ≠ [] ∧ (46 : UInt8) ∉ k) m) :
    (flatten m).length = leafCount m := by
  have := foldl_set_length (flatWrites [] m) [] (flatWrites_nodup m [] hw hn) (by simp [AMap.keys])
  unfold flatten
  rw [this, flatWrites_length]
  simp

/-! ### Panics -/

/-- The multiset a map of counts stands for. -/
def rep (c : AMap Bytes Nat) : Multiset Bytes := (c.map fun kv => Multiset.replicate kv.2 kv.1).sum

theorem rep_card (c : AMap Bytes Nat) : (rep c).card = total c := by
  unfold rep total
  induction c with
  | nil => simp
  | cons e c ih => simp only [List.map_cons, List.sum_cons, Multiset.card_add, Multiset.card_replicate, ih]

theorem rep_count : ∀ (c : AMap Bytes Nat), (AMap.keys c).Nodup → ∀ m, (rep c).count m = (c.get m).getD 0
  | [], _, m => by simp [rep, AMap.get_nil]
  | e :: c, h, m => by
      have hk : AMap.keys (e :: c) = e.1 :: AMap.keys c := rfl
      rw [hk, List.nodup_cons] at h
      have ih := rep_count c h.2 m
      have hs : rep (e :: c) = Multiset.replicate e.2 e.1 + rep c := rfl
      rw [hs, Multiset.count_add, Multiset.count_replicate, ih, AMap.get_cons]
      by_cases hm : e.1 = m
      · subst hm
        have : AMap.get c e.1 = none := by
          by_contra hc
          exact h.1 ((AMap.mem_keys c e.1).mpr (Option.isSome_iff_ne_none.mpr hc))
        simp [this]
      · have hm' : ¬ m = e.1 := fun h => hm h.symm
        simp [hm]

theorem panicLoop_spec : ∀ (ms : List Bytes) (c : AMap Bytes Nat), (AMap.keys c).Nodup →
    (panicLoop ms c).1 = ((ms : Multiset Bytes) - rep c).card ∧ (AMap.keys (panicLoop ms c).2).Nodup ∧
    rep (panicLoop ms c).2 = rep c - (ms : Multiset Bytes)
  | [], c, h => ⟨by show 0 = ((0 : Multiset Bytes) - rep c).card; rw [Multiset.zero_sub, Multiset.card_zero], h, (Multiset.sub_zero _).symm⟩
  | m :: ms, c, h => by
      simp only [panicLoop]
      rw [← Multiset.cons_coe]
      split
      · rename_i hpos
        have h' := AMap.nodup_set h m ((c.get m).getD 0 - 1)
        obtain ⟨i1, i2, i3⟩ := panicLoop_spec ms (c.set m ((c.get m).getD 0 - 1)) h'
        have hrep : rep (c.set m ((c.get m).getD 0 - 1)) = (rep c).erase m := by
          ext x
          rw [rep_count _ h', AMap.get_set]
          by_cases hx : x = m
          · subst hx; simp [Multiset.count_erase_self, rep_count c h]
          · simp [hx, Multiset.count_erase_of_ne hx, rep_count c h]
        rw [hrep] at i1 i3
        have hmem : m ∈ rep c := by rw [← Multiset.count_pos, rep_count c h]; exact hpos
        refine ⟨?_, i2, ?_⟩
        · rw [i1]
          congr 1
          ext x
          simp only [Multiset.count_sub]
          by_cases hx : x = m
          · subst hx; simp only [Multiset.count_erase_self, Multiset.count_cons_self]
            have := rep_count c h x
            omega
          · rw [Multiset.count_erase_of_ne hx, Multiset.count_cons_of_ne hx]
        · rw [i3]
          ext x
          simp only [Multiset.count_sub]
          by_cases hx : x = m
          · subst hx; simp only [Multiset.count_erase_self, Multiset.count_cons_self]; omega
          · rw [Multiset.count_erase_of_ne hx, Multiset.count_cons_of_ne hx]
      · rename_i hz
        obtain ⟨i1, i2, i3⟩ := panicLoop_spec ms c h
        have h0 : (rep c).count m = 0 := by rw [rep_count c h]; omega
        refine ⟨?_, i2, ?_⟩
        · rw [i1]
          have : (m ::ₘ (ms : Multiset Bytes)) - rep c = m ::ₘ ((ms : Multiset Bytes) - rep c) := by
            ext x
            by_cases hx : x = m
            · subst hx; simp [Multiset.count_sub, h0]
            · simp only [Multiset.count_sub]; rw [Multiset.count_cons_of_ne hx, Multiset.count_cons_of_ne hx, Multiset.count_sub]
          rw [this, Multiset.card_cons]
        · rw [i3]
          ext x
          by_cases hx : x = m
          · subst hx; simp only [Multiset.count_sub, h0]; omega
          · simp only [Multiset.count_sub]; rw [Multiset.count_cons_of_ne hx]

theorem sliceCounts_nodup : ∀ ms : List Bytes, (AMap.keys (sliceCounts ms)).Nodup
  | [] => by simp [sliceCounts, AMap.keys]
  | _ :: ms => AMap.nodup_set (sliceCounts_nodup ms) _ _

theorem sliceCounts_rep (ms : List Bytes) : rep (sliceCounts ms) = (ms : Multiset Bytes) := by
  ext x
  rw [rep_count _ (sliceCounts_nodup ms), sliceCounts_get, Multiset.coe_count]
  congr!

theorem ident_diffs (a b : List Bytes) :
    (panicLoop a (sliceCounts b)).1 + total (panicLoop a (sliceCounts b)).2 =
      ((a : Multiset Bytes) - b).card + ((b : Multiset Bytes) - a).card := by
  obtain ⟨h1, h2, h3⟩ := panicLoop_spec a (sliceCounts b) (sliceCounts_nodup b)
  rw [h1, ← rep_card, h3, sliceCounts_rep]

/-- The panics of one identifier. -/
def tagged (k : Bytes) (a : List Bytes) : Multiset (Bytes × Bytes) := (a : Multiset Bytes).map fun m => (k, m)

theorem tagged_inj (k : Bytes) : Function.Injective fun m : Bytes => (k, m) := fun _ _ h => (Prod.mk.inj h).2

theorem tagged_count_ne {k k' : Bytes} (h : k' ≠ k) (a : List Bytes) (m : Bytes) : (tagged k a).count (k', m) = 0 := by
  rw [Multiset.count_eq_zero]
  simp only [tagged, Multiset.mem_map, not_exists, not_and]
  intro x _ he
  exact h (Prod.mk.inj he).1.symm

theorem tagged_count_eq (k : Bytes) (a : List Bytes) (m : Bytes) : (tagged k a).count (k, m) = (a : Multiset Bytes).count m :=
  Multiset.count_map_eq_count' _ _ (tagged_inj k) m

theorem panicSet_cons (e : Bytes × List Bytes) (m : List (Bytes × List Bytes)) : panicSet (e :: m) = tagged e.1 e.2 + panicSet m := by
  simp [panicSet, tagged]

theorem panicSet_count_none {k : Bytes} : ∀ {m : List (Bytes × List Bytes)}, k ∉ AMap.keys (K := Bytes) (V := List Bytes) m → ∀ x, (panicSet m).count (k, x) = 0
  | [], _, x => by simp [panicSet]
  | e :: m, h, x => by
      have hk : AMap.keys (K := Bytes) (V := List Bytes) (e :: m) = e.1 :: AMap.keys (K := Bytes) (V := List Bytes) m := rfl
      rw [hk, List.mem_cons, not_or] at h
      rw [panicSet_cons, Multiset.count_add, tagged_count_ne h.1, panicSet_count_none h.2]

theorem panicSet_del {k : Bytes} : ∀ {m : List (Bytes × List Bytes)}, (AMap.keys (K := Bytes) (V := List Bytes) m).Nodup →
    panicSet m = tagged k ((AMap.get (K := Bytes) (V := List Bytes) m k).getD []) + panicSet (AMap.del (K := Bytes) (V := List Bytes) m k)
  | [], _ => by simp [panicSet, tagged, AMap.get, AMap.del]
  | e :: m, h => by
      have hk : AMap.keys (K := Bytes) (V := List Bytes) (e :: m) = e.1 :: AMap.keys (K := Bytes) (V := List Bytes) m := rfl
      rw [hk, List.nodup_cons] at h
      by_cases he : e.1 = k
      · subst he
        have hd : AMap.del (K := Bytes) (V := List Bytes) (e :: m) e.1 = m := by
          have : AMap.del (K := Bytes) (V := List Bytes) m e.1 = m := by
            unfold AMap.del
            rw [List.filter_eq_self]
            intro a ha
            simp only [ne_eq, decide_not, Bool.not_eq_eq_eq_not, Bool.not_true, decide_eq_false_iff_not]
            intro hh
            exact h.1 (hh ▸ List.mem_map_of_mem ha)
          unfold AMap.del at this ⊢
          simpa using this
        rw [hd, AMap.get_cons, if_pos rfl, panicSet_cons]
        rfl
      · have hd : AMap.del (K := Bytes) (V := List Bytes) (e :: m) k = e :: AMap.del (K := Bytes) (V := List Bytes) m k := by
          unfold AMap.del
          simp [he]
        rw [hd, AMap.get_cons, if_neg he, panicSet_cons, panicSet_cons, panicSet_del h.2 (k := k)]
        rw [← add_assoc, add_comm (tagged e.1 e.2), add_assoc]

theorem symDiff_tagged (k : Bytes) (a b : List Bytes) (p q : Multiset (Bytes × Bytes)) (hp : ∀ x, p.count (k, x) = 0)
    (hq : ∀ x, q.count (k, x) = 0) :
    symDiff (tagged k a + p) (tagged k b + q) = ((a : Multiset Bytes) - b).card + ((b : Multiset Bytes) - a).card + symDiff p q := by
  have key : ∀ (a b : List Bytes) (p q : Multiset (Bytes × Bytes)), (∀ x, p.count (k, x) = 0) → (∀ x, q.count (k, x) = 0) →
      (tagged k a + p) - (tagged k b + q) = ((a : Multiset Bytes) - b).map (fun m => (k, m)) + (p - q) := by
    intro a b p q hp hq
    ext ⟨k', x⟩
    simp only [Multiset.count_sub, Multiset.count_add]
    by_cases hk : k' = k
    · subst hk
      rw [tagged_count_eq, tagged_count_eq, hp, hq, Multiset.count_map_eq_count' _ _ (tagged_inj k'), Multiset.count_sub]
      omega
    · rw [tagged_count_ne hk, tagged_count_ne hk]
      have : (((a : Multiset Bytes) - b).map (fun m => (k, m))).count (k', x) = 0 := by
        rw [Multiset.count_eq_zero]
        simp only [Multiset.mem_map, not_exists, not_and]
        intro y _ he
        exact hk (Prod.mk.inj he).1.symm
      rw [this]; omega
  unfold symDiff
  rw [key a b p q hp hq, key b a q p hq hp]
  simp only [Multiset.card_add, Multiset.card_map]
  omega

theorem symDiff_self (p : Multiset (Bytes × Bytes)) : symDiff p p = 0 := by
  have : p - p = 0 := by ext x; simp [Multiset.count_sub]
  rw [symDiff, this]
  rfl

theorem panicDiffs_spec : ∀ (pre post : List (Bytes × List Bytes)), (AMap.keys (K := Bytes) (V := List Bytes) pre).Nodup →
    (AMap.keys (K := Bytes) (V := List Bytes) post).Nodup → panicDiffs pre post = symDiff (panicSet pre) (panicSet post)
  | [], post, _, _ => by
      have h0 : panicSet [] = 0 := rfl
      have : ∀ post : List (Bytes × List Bytes), (post.map fun kv => kv.2.length).sum = (panicSet post).card := by
        intro post
        induction post with
        | nil => simp [panicSet]
        | cons e m ih => rw [List.map_cons, List.sum_cons, panicSet_cons, Multiset.card_add, ih]; simp [tagged]
      unfold panicDiffs symDiff
      rw [h0, Multiset.zero_sub, Multiset.sub_zero, ← this]
      simp [AMap.get]
  | e :: pre, post, h1, h2 => by
      have hk : AMap.keys (K := Bytes) (V := List Bytes) (e :: pre) = e.1 :: AMap.keys (K := Bytes) (V := List Bytes) pre := rfl
      rw [hk, List.nodup_cons] at h1
      have h2' := AMap.nodup_del h2 e.1
      have ih := panicDiffs_spec pre (AMap.del (K := Bytes) (V := List Bytes) post e.1) h1.2 h2'
      rw [panicSet_cons, panicSet_del h2 (k := e.1),
        symDiff_tagged _ _ _ _ _ (panicSet_count_none h1.1) (panicSet_count_none (by rw [AMap.mem_keys, AMap.get_del]; simp)), ← ih,
        ← ident_diffs]
      unfold panicDiffs
      simp only [List.map_cons, List.sum_cons]
      have e1 : (pre.map fun kv => (panicLoop kv.2 (sliceCounts ((AMap.get (K := Bytes) (V := List Bytes) post kv.1).getD []))).1 +
            total (panicLoop kv.2 (sliceCounts ((AMap.get (K := Bytes) (V := List Bytes) post kv.1).getD []))).2) =
          pre.map fun kv => (panicLoop kv.2 (sliceCounts ((AMap.get (K := Bytes) (V := List Bytes) (AMap.del (K := Bytes) (V := List Bytes) post e.1) kv.1).getD []))).1 +
            total (panicLoop kv.2 (sliceCounts ((AMap.get (K := Bytes) (V := List Bytes) (AMap.del (K := Bytes) (V := List Bytes) post e.1) kv.1).getD []))).2 := by
        apply List.map_congr_left
        intro kv hkv
        have : kv.1 ≠ e.1 := fun hh => h1.1 (hh ▸ List.mem_map_of_mem hkv)
        rw [AMap.get_del, if_neg this]
      have e2 : (post.filter fun kv => (AMap.get (K := Bytes) (V := List Bytes) (e :: pre) kv.1).isNone) =
          (AMap.del (K := Bytes) (V := List Bytes) post e.1).filter fun kv => (AMap.get (K := Bytes) (V := List Bytes) pre kv.1).isNone := by
        unfold AMap.del
        rw [List.filter_filter]
        apply List.filter_congr
        intro kv _
        rw [AMap.get_cons]
        by_cases hh : e.1 = kv.1
        · simp [hh]
        · have hh' : ¬ kv.1 = e.1 := fun h => hh h.symm
          simp [hh, hh']
      rw [e1, e2]
      simp only [Nat.add_assoc]

/-! ### Times -/

theorem exceeds_slower {mult : Nat} {iv : Nat × Nat} (h : FitsTimes mult iv) : exceeds mult iv.1 iv.2 = true ↔ Slower mult iv := by
  unfold exceeds Slower
  rw [Nat.mod_eq_of_lt (by rw [Nat.mul_comm]; exact h.1), Nat.mul_comm]
  simp

theorem exceeds_faster {mult : Nat} {iv : Nat × Nat} (h : FitsTimes mult iv) : exceeds mult iv.2 iv.1 = true ↔ Faster mult iv := by
  unfold exceeds Faster
  rw [Nat.mod_eq_of_lt (by rw [Nat.mul_comm]; exact h.2), Nat.mul_comm]
  simp

theorem slower_lt {mult : Nat} (hm : 1 ≤ mult) {iv : Nat × Nat} (h : Slower mult iv) : iv.1 < iv.2 := by
  unfold Slower at h
  calc iv.1 ≤ max 1 iv.1 := Nat.le_max_right _ _
    _ = 1 * max 1 iv.1 := by simp
    _ ≤ mult * max 1 iv.1 := Nat.mul_le_mul_right _ hm
    _ < iv.2 := h

theorem faster_lt {mult : Nat} (hm : 1 ≤ mult) {iv : Nat × Nat} (h : Faster mult iv) : iv.2 < iv.1 :=
  slower_lt hm (iv := (iv.2, iv.1)) h

/-- The fold over intervals. -/
abbrev timeFold (mult : Nat) (ivs : List (Nat × Nat)) (m : TimeChange) : TimeChange := ivs.foldl (fun m iv => timeStep mult m iv.1 iv.2) m

/-- What the change reported after some intervals is. -/
structure TimeInv (mult : Nat) (ivs : List (Nat × Nat)) (m : TimeChange) : Prop where
  real : m.diff ≠ 0 → (m.pre, m.post) ∈ ivs ∧ m.diff = (m.post : Int) - m.pre
  slow : 0 < m.diff → Slower mult (m.pre, m.post)
  fast : m.diff < 0 → Faster mult (m.pre, m.post)

theorem timeStep_inv {mult : Nat} (hm : 1 ≤ mult) {ivs : List (Nat × Nat)} {m : TimeChange} {iv : Nat × Nat} (hf : FitsTimes mult iv)
    (h : TimeInv mult ivs m) : TimeInv mult (ivs ++ [iv]) (timeStep mult m iv.1 iv.2) ∧
      (Slower mult iv → 0 < (timeStep mult m iv.1 iv.2).diff ∧ (iv.2 : Int) - iv.1 ≤ (timeStep mult m iv.1 iv.2).diff ∧
        m.diff ≤ (timeStep mult m iv.1 iv.2).diff) ∧
      (Faster mult iv → (timeStep mult m iv.1 iv.2).diff < 0 ∧ (timeStep mult m iv.1 iv.2).diff ≤ (iv.2 : Int) - iv.1 ∧
        (timeStep mult m iv.1 iv.2).diff ≤ m.diff) ∧
      (¬ Slower mult iv → ¬ Faster mult iv → timeStep mult m iv.1 iv.2 = m) := by
  have hold : TimeInv mult (ivs ++ [iv]) m := ⟨fun h0 => ⟨List.mem_append_left _ (h.real h0).1, (h.real h0).2⟩, h.slow, h.fast⟩
  by_cases hs : Slower mult iv
  · have hlt := slower_lt hm hs
    have hnf : ¬ Faster mult iv := fun hh => by have := faster_lt hm hh; omega
    have he := (exceeds_slower hf).mpr hs
    by_cases hd : (iv.2 : Int) - iv.1 > m.diff
    · have e : timeStep mult m iv.1 iv.2 = ⟨(iv.2 : Int) - iv.1, iv.1, iv.2⟩ := by simp only [timeStep, if_pos he, if_pos hd]
      rw [e]
      refine ⟨⟨fun _ => ⟨by simp, rfl⟩, fun _ => hs, fun hh => ?_⟩, fun _ => ⟨?_, le_refl _, le_of_lt hd⟩, fun hh => absurd hh hnf, fun hh => absurd hs hh⟩
      · simp only at hh; omega
      · simp only; omega
    · have e : timeStep mult m iv.1 iv.2 = m := by simp only [timeStep, if_pos he, if_neg hd]
      rw [e]
      exact ⟨hold, fun _ => ⟨by omega, by omega, le_refl _⟩, fun hh => absurd hh hnf, fun hh => absurd hs hh⟩
  · have he : ¬ exceeds mult iv.1 iv.2 = true := fun hh => hs ((exceeds_slower hf).mp hh)
    by_cases hf' : Faster mult iv
    · have hlt := faster_lt hm hf'
      have he2 := (exceeds_faster hf).mpr hf'
      by_cases hd : m.diff = 0 ∨ (iv.2 : Int) - iv.1 < m.diff
      · have e : timeStep mult m iv.1 iv.2 = ⟨(iv.2 : Int) - iv.1, iv.1, iv.2⟩ := by
          simp only [timeStep, if_neg he, if_pos he2, if_pos hd]
        rw [e]
        refine ⟨⟨fun _ => ⟨by simp, rfl⟩, fun hh => ?_, fun _ => hf'⟩, fun hh => absurd hh hs, fun _ => ⟨?_, le_refl _, ?_⟩, fun _ hh => absurd hf' hh⟩
        · simp only at hh; omega
        · simp only; omega
        · simp only; omega
      · have e : timeStep mult m iv.1 iv.2 = m := by simp only [timeStep, if_neg he, if_pos he2, if_neg hd]
        rw [e]
        exact ⟨hold, fun hh => absurd hh hs, fun _ => ⟨by omega, by omega, le_refl _⟩, fun _ hh => absurd hf' hh⟩
    · have he2 : ¬ exceeds mult iv.2 iv.1 = true := fun hh => hf' ((exceeds_faster hf).mp hh)
      have e : timeStep mult m iv.1 iv.2 = m := by
        simp only [timeStep, if_neg he, if_neg he2]
      rw [e]
      exact ⟨hold, fun hh => absurd hh hs, fun hh => absurd hh hf', fun _ _ => rfl⟩

theorem timeFold_inv {mult : Nat} (hm : 1 ≤ mult) : ∀ (ivs pre : List (Nat × Nat)) (m : TimeChange), (∀ iv ∈ ivs, FitsTimes mult iv) →
    TimeInv mult pre m → TimeInv mult (pre ++ ivs) (timeFold mult ivs m)
  | [], pre, m, _, h => by simpa [timeFold] using h
  | iv :: ivs, pre, m, hf, h => by
      have h1 := (timeStep_inv hm (hf iv List.mem_cons_self) h).1
      have := timeFold_inv hm ivs (pre ++ [iv]) _ (fun x hx => hf x (List.mem_cons_of_mem _ hx)) h1
      simpa [timeFold, List.append_assoc] using this

/-- Without improvements, the change never shrinks and covers every regression. -/
theorem timeFold_slow {mult : Nat} (hm : 1 ≤ mult) : ∀ (ivs pre : List (Nat × Nat)) (m : TimeChange), (∀ iv ∈ ivs, FitsTimes mult iv) →
    TimeInv mult pre m → (∀ iv ∈ ivs, ¬ Faster mult iv) →
    m.diff ≤ (timeFold mult ivs m).diff ∧ ∀ iv ∈ ivs, Slower mult iv → 0 < (timeFold mult ivs m).diff ∧ (iv.2 : Int) - iv.1 ≤ (timeFold mult ivs m).diff
  | [], pre, m, _, h, _ => by simp [timeFold]
  | iv :: ivs, pre, m, hf, h, hn => by
      obtain ⟨h1, h2, _, h4⟩ := timeStep_inv hm (hf iv List.mem_cons_self) h
      obtain ⟨i1, i2⟩ := timeFold_slow hm ivs (pre ++ [iv]) _ (fun x hx => hf x (List.mem_cons_of_mem _ hx)) h1
        (fun x hx => hn x (List.mem_cons_of_mem _ hx))
      have hle : m.diff ≤ (timeStep mult m iv.1 iv.2).diff := by
        by_cases hs : Slower mult iv
        · exact (h2 hs).2.2
        · rw [h4 hs (hn iv List.mem_cons_self)]
      have hfold : timeFold mult (iv :: ivs) m = timeFold mult ivs (timeStep mult m iv.1 iv.2) := rfl
      rw [hfold]
      refine ⟨le_trans hle i1, ?_⟩
      intro x hx hs
      rcases List.mem_cons.mp hx with rfl | hx
      · have := h2 hs
        exact ⟨by omega, by omega⟩
      · exact i2 x hx hs

/-- Without regressions, the change never grows and covers every improvement. -/
theorem timeFold_fast {mult : Nat} (hm : 1 ≤ mult) : ∀ (ivs pre : List (Nat × Nat)) (m : TimeChange), (∀ iv ∈ ivs, FitsTimes mult iv) →
    TimeInv mult pre m → (∀ iv ∈ ivs, ¬ Slower mult iv) →
    (timeFold mult ivs m).diff ≤ m.diff ∧ ∀ iv ∈ ivs, Faster mult iv → (timeFold mult ivs m).diff < 0 ∧ (timeFold mult ivs m).diff ≤ (iv.2 : Int) - iv.1
  | [], pre, m, _, h, _ => by simp [timeFold]
  | iv :: ivs, pre, m, hf, h, hn => by
      obtain ⟨h1, _, h3, h4⟩ := timeStep_inv hm (hf iv List.mem_cons_self) h
      obtain ⟨i1, i2⟩ := timeFold_fast hm ivs (pre ++ [iv]) _ (fun x hx => hf x (List.mem_cons_of_mem _ hx)) h1
        (fun x hx => hn x (List.mem_cons_of_mem _ hx))
      have hle : (timeStep mult m iv.1 iv.2).diff ≤ m.diff := by
        by_cases hs : Faster mult iv
        · exact (h3 hs).2.2
        · rw [h4 (hn iv List.mem_cons_self) hs]
      have hfold : timeFold mult (iv :: ivs) m = timeFold mult ivs (timeStep mult m iv.1 iv.2) := rfl
      rw [hfold]
      refine ⟨le_trans i1 hle, ?_⟩
      intro x hx hs
      rcases List.mem_cons.mp hx with rfl | hx
      · have := h3 hs
        exact ⟨by omega, by omega⟩
      · exact i2 x hx hs

theorem timeInv_none (mult : Nat) : TimeInv mult [] noChange :=
  ⟨fun h => absurd rfl h, fun h => absurd h (by decide), fun h => absurd h (by decide)⟩

theorem timeFold_nonzero {mult : Nat} (hm : 1 ≤ mult) : ∀ (ivs pre : List (Nat × Nat)) (m : TimeChange), (∀ iv ∈ ivs, FitsTimes mult iv) →
    TimeInv mult pre m → (m.diff ≠ 0 ∨ ∃ iv ∈ ivs, Slower mult iv ∨ Faster mult iv) → (timeFold mult ivs m).diff ≠ 0
  | [], pre, m, _, h, hn => by simpa [timeFold] using hn
  | iv :: ivs, pre, m, hf, h, hn => by
      obtain ⟨h1, h2, h3, h4⟩ := timeStep_inv hm (hf iv List.mem_cons_self) h
      have hfold : timeFold mult (iv :: ivs) m = timeFold mult ivs (timeStep mult m iv.1 iv.2) := rfl
      rw [hfold]
      apply timeFold_nonzero hm ivs (pre ++ [iv]) _ (fun x hx => hf x (List.mem_cons_of_mem _ hx)) h1
      by_cases hs : Slower mult iv
      · left; have := (h2 hs).1; omega
      · by_cases hf' : Faster mult iv
        · left; have := (h3 hf').1; omega
        · rw [h4 hs hf']
          rcases hn with hn | ⟨x, hx, hor⟩
          · exact Or.inl hn
          · rcases List.mem_cons.mp hx with rfl | hx
            · exact absurd hor (by simp [hs, hf'])
            · exact Or.inr ⟨x, hx, hor⟩

/-- Comparing equal times changes nothing, even when the products overflow. -/
theorem timeFold_self (mult : Nat) : ∀ (ivs : List (Nat × Nat)) (m : TimeChange), (∀ iv ∈ ivs, iv.1 = iv.2) → m.diff = 0 →
    (timeFold mult ivs m).diff = 0
  | [], m, _, h => h
  | iv :: ivs, m, he, h => by
      have hfold : timeFold mult (iv :: ivs) m = timeFold mult ivs (timeStep mult m iv.1 iv.2) := rfl
      rw [hfold]
      apply timeFold_self mult ivs _ (fun x hx => he x (List.mem_cons_of_mem _ hx))
      have := he iv List.mem_cons_self
      unfold timeStep
      rw [this]
      simp only [sub_self]
      split
      · split
        · rfl
        · exact h
      · exact h

theorem intervals_self : ∀ (ts : List (Nat × Nat)) (l : Nat), (∀ t ∈ ts, t.1 = t.2) → ∀ iv ∈ intervals l l ts, iv.1 = iv.2
  | [], l, _, iv, h => by simp [intervals] at h
  | (p, q) :: ts, l, ht, iv, h => by
      have hpq : p = q := ht (p, q) List.mem_cons_self
      subst hpq
      have ih := intervals_self ts p (fun t h => ht t (List.mem_cons_of_mem _ h))
      simp only [intervals] at h
      split at h
      · rcases List.mem_cons.mp h with rfl | h
        · rfl
        · exact ih iv h
      · exact ih iv h

theorem matchedTimes_unique {key : CallFrame → Bytes} {fs gs : List CallFrame} {ts ts' : List (Nat × Nat)}
    (h : MatchedTimes key fs gs ts) (h' : MatchedTimes key fs gs ts') : ts = ts' := by
  obtain ⟨ps, p1, p2, p3⟩ := h
  obtain ⟨qs, q1, q2, q3⟩ := h'
  have hnd : ∀ {l : List (Nat × Nat)}, l.Pairwise (fun a b => a.1 < b.1) → l.Nodup := by
    intro l hl
    exact hl.imp (fun h he => by subst he; omega)
  have hperm : ps.Perm qs := (List.perm_ext_iff_of_nodup (hnd p1) (hnd q1)).mpr (fun ⟨i, j⟩ => by rw [p2, q2])
  have heq : ps = qs := hperm.eq_of_pairwise (fun a b _ _ h1 h2 => by omega) p1 q1
  subst heq
  clear p1 p2 q1 q2 hperm
  induction p3 generalizing ts' with
  | nil => cases q3; rfl
  | cons hd _ ih =>
      cases q3 with
      | cons hd' tl' =>
          obtain ⟨f, g, h1, h2, h3⟩ := hd
          obtain ⟨f', g', h1', h2', h3'⟩ := hd'
          rw [h1] at h1'; cases h1'
          rw [h2] at h2'; cases h2'
          rw [h3, h3', ih tl']

theorem pairing_times (key : CallFrame → Bytes) (fs gs : List CallFrame) : MatchedTimes key fs gs (pairTimes (pairing key gs [] fs)) := by
  obtain ⟨ps, p1, p2, p3⟩ := pairTimes_matched key fs gs fs [] rfl
  exact ⟨ps, p1, fun i j => by rw [p2]; simp, p3⟩

/-! ### Maps built from the callers -/

theorem get_map_filter {V W : Type} (F : Bytes × V → W) (P : W → Bool) (k : Bytes) : ∀ (m : List (Bytes × V)),
    (AMap.keys (K := Bytes) (V := V) m).Nodup →
    AMap.get (K := Bytes) (V := W) ((m.map fun kv => (kv.1, F kv)).filter fun kv => P kv.2) k =
      (AMap.get (K := Bytes) (V := V) m k).bind fun v => if P (F (k, v)) then some (F (k, v)) else none
  | [], _ => by simp [AMap.get]
  | e :: m, h => by
      have hk : AMap.keys (K := Bytes) (V := V) (e :: m) = e.1 :: AMap.keys (K := Bytes) (V := V) m := rfl
      rw [hk, List.nodup_cons] at h
      have ih := get_map_filter F P k m h.2
      rw [AMap.get_cons]
      by_cases hek : e.1 = k
      · subst hek
        have hnone : AMap.get (K := Bytes) (V := V) m e.1 = none := by
          by_contra hc
          exact h.1 ((AMap.mem_keys m e.1).mpr (Option.isSome_iff_ne_none.mpr hc))
        rw [hnone] at ih
        simp only [List.map_cons, List.filter_cons, if_pos, Option.bind_some]
        cases hp : P (F e)
        · have hp' : P (F (e.1, e.2)) = false := hp
          rw [hp'] at *
          simpa [hp] using ih
        · have hp' : P (F (e.1, e.2)) = true := hp
          simp only [hp', if_true]
          rw [AMap.get_cons, if_pos rfl]
      · rw [if_neg hek, ← ih]
        simp only [List.map_cons, List.filter_cons]
        split
        · rw [AMap.get_cons, if_neg hek]
        · rfl

end Verif.Compare
