import Verif.Funcs.WatchLemmas
import Mathlib.Data.List.Forall2

/-! Lemmas: finished workers, unchanged declarations, new ids and panic points. -/

namespace Verif.Funcs
open Verif

/-- Along a run. -/
theorem run_induct {P : St → Prop} (hstep : ∀ s s' w ids, P s → step s w ids = some s' → P s') {s s' : St} {sch : List (Nat × Option (List Nat))} (hs : P s)
    (h : runSched s sch = some s') : P s' := by
  induction sch generalizing s with
  | nil => simp only [runSched, Option.some.injEq] at h; exact h ▸ hs
  | cons e sch ih =>
    obtain ⟨w, ids⟩ := e
    simp only [runSched] at h
    cases hs' : step s w ids with
    | none => rw [hs'] at h; simp at h
    | some s1 => rw [hs'] at h; exact ih (hstep _ _ _ _ hs hs') h

theorem done_run {s s' : St} {sch : List (Nat × Option (List Nat))} (h : runSched s sch = some s') (hs : ∀ x ∈ s.workers, x.done = false) :
    s'.failed = false → ∀ x ∈ s'.workers, x.done = true → x.todo = [] := by
  refine run_induct (P := fun s => s.failed = false → ∀ x ∈ s.workers, x.done = true → x.todo = []) ?_ ?_ h
  · intro s s' w ids hp hst hfl
    have hp := hp (failed_step hst hfl)
    obtain ⟨x, hw, hd, hc⟩ := step_cases hst
    rcases hc with rfl | ⟨ht, rfl⟩ | ⟨f, rest, ht, -, ⟨rfl, -⟩ | ⟨-, n, c, l, hl, hfr, rfl⟩⟩
    · simp [abort] at hfl
    · intro z hz hzd
      rw [(merged_workers s w x).1] at hz
      rcases mem_set_cases hz with rfl | hz
      · exact ht
      · exact hp z hz hzd
    · intro z hz hzd
      rcases mem_set_cases hz with rfl | hz
      · rw [hd] at hzd; simp at hzd
      · exact hp z hz hzd
    · intro z hz hzd
      rcases mem_set_cases hz with rfl | hz
      · rw [(nextW_fields x f rest l).1, hd] at hzd; simp at hzd
      · exact hp z hz hzd
  · intro _ x hx hd
    rw [hs x hx] at hd; simp at hd

theorem done_todo {files : List (List Decl)} {used : List Nat} {ws : List Worker} {sch : List (Nat × Option (List Nat))} {s : St}
    (h : runSched (start files used ws) sch = some s) (hb : Begin ws) (hf : Finished s) {j : Nat} {x : Worker} (hx : s.workers[j]? = some x) : x.todo = [] := by
  refine done_run h ?_ hf.1 x (List.mem_of_getElem? hx) (hf.2 x (List.mem_of_getElem? hx))
  intro y hy
  obtain ⟨m, a, l, rfl⟩ := hb y hy
  rfl

theorem same_modify {α : Type} {R : α → α → Prop} (hr : ∀ a, R a a) (l : List α) (n : Nat) (g : α → α) (hg : ∀ a, R a (g a)) : List.Forall₂ R l (l.modify n g) := by
  induction l generalizing n with
  | nil => cases n <;> simp
  | cons a l ih =>
    cases n with
    | zero => simp only [List.modify_zero_cons]; exact .cons (hg a) (List.forall₂_same.mpr fun x _ => hr x)
    | succ n => simp only [List.modify_succ_cons]; exact .cons (hr a) (ih n)

theorem forall2_trans {α : Type} {R : α → α → Prop} (hr : ∀ a b c, R a b → R b c → R a c) {a b c : List α} (h1 : List.Forall₂ R a b) (h2 : List.Forall₂ R b c) :
    List.Forall₂ R a c := by
  induction h1 generalizing c with
  | nil => exact h2
  | cons h _ ih =>
    cases h2 with
    | cons h' t => exact .cons (hr _ _ _ h h') (ih t)

theorem same_trans {a b c : List (List Decl)} (h1 : List.Forall₂ (List.Forall₂ SameDecl) a b) (h2 : List.Forall₂ (List.Forall₂ SameDecl) b c) :
    List.Forall₂ (List.Forall₂ SameDecl) a c := by
  have hd : ∀ x y z : Decl, SameDecl x y → SameDecl y z → SameDecl x z :=
    fun _ _ _ h h' => ⟨h'.1.trans h.1, h'.2.1.trans h.2.1, h'.2.2.trans h.2.2⟩
  exact forall2_trans (R := List.Forall₂ SameDecl) (fun _ _ _ h h' => forall2_trans hd h h') h1 h2

theorem same_run {files : List (List Decl)} {used : List Nat} {ws : List Worker} {sch : List (Nat × Option (List Nat))} {s : St}
    (h : runSched (start files used ws) sch = some s) : List.Forall₂ (List.Forall₂ SameDecl) files s.files := by
  have hrefl : ∀ ds : List Decl, List.Forall₂ SameDecl ds ds := fun ds => List.forall₂_same.mpr fun x _ => ⟨rfl, rfl, rfl⟩
  refine run_induct (P := fun s => List.Forall₂ (List.Forall₂ SameDecl) files s.files) ?_ ?_ h
  · intro s s' w ids hp hst
    obtain ⟨x, hw, hd, hc⟩ := step_cases hst
    rcases hc with rfl | ⟨ht, rfl⟩ | ⟨f, rest, ht, -, ⟨rfl, -⟩ | ⟨-, n, c, l, hl, hfr, rfl⟩⟩
    · exact hp
    · rw [(merged_workers s w x).2.1]; exact hp
    · exact hp
    · refine same_trans hp (same_modify hrefl _ _ _ fun ds => ?_)
      exact same_modify (fun _ => ⟨rfl, rfl, rfl⟩) _ _ _ fun d => ⟨rfl, rfl, rfl⟩
  · exact List.forall₂_same.mpr fun x _ => hrefl x

theorem fresh_not {used ids : List Nat} {c : Nat} (h : freshIds used ids c = true) : ∀ i ∈ ids, i ∉ used := by
  simp only [freshIds, Bool.and_eq_true, List.all_eq_true, Bool.not_eq_true', List.contains_eq_mem, decide_eq_false_iff_not] at h
  exact h.2

theorem fresh_run {files : List (List Decl)} {used : List Nat} {ws : List Worker} {sch : List (Nat × Option (List Nat))} {s : St} (hc : Clean files)
    (h : runSched (start files used ws) sch = some s) : ∀ p ∈ pts s.files, p.2.1 ∉ used := by
  have := run_induct (P := fun s => (∀ i ∈ used, i ∈ s.used) ∧ ∀ p ∈ pts s.files, p.2.1 ∉ used) ?_ ?_ h
  · exact this.2
  · intro s s' w ids hp hst
    obtain ⟨x, hw, hd, hc⟩ := step_cases hst
    rcases hc with rfl | ⟨ht, rfl⟩ | ⟨f, rest, ht, -, ⟨rfl, -⟩ | ⟨-, n, c, l, hl, hfr, rfl⟩⟩
    · exact hp
    · refine ⟨?_, by rw [(merged_workers s w x).2.1]; exact hp.2⟩
      have : (merged s w x).used = s.used := by unfold merged; split <;> rfl
      rw [this]; exact hp.1
    · exact hp
    · refine ⟨fun i hi => List.mem_append_right _ (hp.1 i hi), ?_⟩
      obtain ⟨d, h1, -⟩ := look_put hl
      intro p hpp
      rcases List.mem_append.mp ((pts_put (kindOf x) l (kindOf x == .state) n x.file s.files d h1).mem_iff.mp hpp) with q | q
      · obtain ⟨i, hi, rfl⟩ := List.mem_map.mp q
        exact fun hu => fresh_not hfr i hi (hp.1 i hu)
      · exact hp.2 p q
  · exact ⟨fun i hi => hi, by simp [start, pts_clean hc]⟩

/-- A panic point is in one map only. -/
structure Apart (s : St) : Prop where
  used : ∀ (i n : Nat), (s.projPanics.get i = some n ∨ s.modPanics.get i = some n ∨ ∃ (j : Nat) (x : Worker), s.workers[j]? = some x ∧ x.panics.get i = some n) → i ∈ s.used
  keys : ∀ x ∈ s.workers, x.panics.keys.Nodup
  common : ∀ (i n n' : Nat), s.projPanics.get i = some n → s.modPanics.get i = some n' → False
  here : ∀ (i n n' : Nat) (j : Nat) (x : Worker), s.workers[j]? = some x → x.done = false → x.panics.get i = some n →
    s.projPanics.get i = some n' ∨ s.modPanics.get i = some n' → False
  two : ∀ (i n n' : Nat) (j j' : Nat) (x x' : Worker), s.workers[j]? = some x → s.workers[j']? = some x' → x.done = false → x'.done = false →
    x.panics.get i = some n → x'.panics.get i = some n' → j = j'

theorem apart_set {s : St} (ha : Apart s) {w : Nat} {x y : Worker} (hw : s.workers[w]? = some x) (hd : y.done = false → x.done = false) (hp : y.panics = x.panics) :
    Apart { s with workers := s.workers.set w y } := by
  have back : ∀ (j : Nat) (z : Worker), (s.workers.set w y)[j]? = some z → ∃ z0, s.workers[j]? = some z0 ∧ z.panics = z0.panics ∧ (z.done = false → z0.done = false) := by
    intro j z hz
    rcases get_set_cases hz with ⟨rfl, rfl⟩ | ⟨-, hz⟩
    · exact ⟨x, hw, hp, hd⟩
    · exact ⟨z, hz, rfl, id⟩
  refine ⟨?_, ?_, ha.common, ?_, ?_⟩
  · rintro i n (h | h | ⟨j, z, hz, h⟩)
    · exact ha.used i n (Or.inl h)
    · exact ha.used i n (Or.inr (Or.inl h))
    · obtain ⟨z0, b1, b2, -⟩ := back j z hz
      exact ha.used i n (Or.inr (Or.inr ⟨j, z0, b1, by rw [← b2]; exact h⟩))
  · intro z hz
    rcases mem_set_cases hz with rfl | hz
    · rw [hp]; exact ha.keys x (List.mem_of_getElem? hw)
    · exact ha.keys z hz
  · intro i n n' j z hz hzd hzi
    obtain ⟨z0, b1, b2, b3⟩ := back j z hz
    exact ha.here i n n' j z0 b1 (b3 hzd) (by rw [← b2]; exact hzi)
  · intro i n n' j j' z z' hz hz' hzd hzd' hzi hzi'
    obtain ⟨z0, b1, b2, b3⟩ := back j z hz
    obtain ⟨z0', c1, c2, c3⟩ := back j' z' hz'
    exact ha.two i n n' j j' z0 z0' b1 c1 (b3 hzd) (c3 hzd') (by rw [← b2]; exact hzi) (by rw [← c2]; exact hzi')

theorem apart_step {s s' : St} (ha : Apart s) {w : Nat} {ids : Option (List Nat)} (h : step s w ids = some s') : Apart s' := by
  obtain ⟨x, hw, hd, hc⟩ := step_cases h
  rcases hc with rfl | ⟨ht, rfl⟩ | ⟨f, rest, ht, -, ⟨rfl, -⟩ | ⟨-, n, c, l, hl, hfr, rfl⟩⟩
  · have hab : (abort s w).workers = s.workers.set w { x with done := true } := by
      apply List.ext_getElem?
      intro j
      simp only [abort]
      rw [List.getElem?_modify, List.getElem?_set]
      by_cases hj : w = j
      · subst hj
        rw [hw]
        simp [(List.getElem?_eq_some_iff.mp hw).1]
      · simp [hj]
    have := apart_set ha (y := { x with done := true }) hw (by simp) rfl
    refine ⟨?_, ?_, this.common, ?_, ?_⟩
    · rw [hab]; exact this.used
    · rw [hab]; exact this.keys
    · rw [hab]; exact this.here
    · rw [hab]; exact this.two
  · have hset := apart_set ha (y := { x with done := true }) hw (by simp) rfl
    have hkx := ha.keys x (List.mem_of_getElem? hw)
    -- a running worker has nothing of this one's
    have hrun : ∀ (i n n' : Nat) (j : Nat) (z : Worker), (s.workers.set w { x with done := true })[j]? = some z → z.done = false → z.panics.get i = some n →
        x.panics.get i = some n' → False := by
      intro i n n' j z hz hzd hzi hxi
      rcases get_set_cases hz with ⟨rfl, rfl⟩ | ⟨hj, hz⟩
      · simp at hzd
      · exact hj (ha.two i n n' j w z x hz hw hzd hd hzi hxi)
    unfold merged
    by_cases hm : x.modul = true
    · rw [if_pos hm]
      have hget := fun i => get_insertAll x.panics s.modPanics hkx i
      have hor : ∀ i n, (insertAll s.modPanics x.panics).get i = some n → x.panics.get i = some n ∨ s.modPanics.get i = some n := by
        intro i n h
        rw [hget] at h
        cases hx : x.panics.get i with
        | none => rw [hx] at h; exact Or.inr h
        | some m => rw [hx] at h; exact Or.inl h
      refine ⟨?_, hset.keys, ?_, ?_, hset.two⟩
      · rintro i n (h | h | h)
        · exact ha.used i n (Or.inl h)
        · rcases hor i n h with h | h
          · exact ha.used i n (Or.inr (Or.inr ⟨w, x, hw, h⟩))
          · exact ha.used i n (Or.inr (Or.inl h))
        · exact hset.used i n (Or.inr (Or.inr h))
      · intro i n n' h1 h2
        rcases hor i n' h2 with h | h
        · exact ha.here i n' n w x hw hd h (Or.inl h1)
        · exact ha.common i n n' h1 h
      · rintro i n n' j z hz hzd hzi (h | h)
        · exact hset.here i n n' j z hz hzd hzi (Or.inl h)
        · rcases hor i n' h with h | h
          · exact hrun i n n' j z hz hzd hzi h
          · exact hset.here i n n' j z hz hzd hzi (Or.inr h)
    · rw [if_neg hm]
      have hget := fun i => get_insertAll x.panics s.projPanics hkx i
      have hor : ∀ i n, (insertAll s.projPanics x.panics).get i = some n → x.panics.get i = some n ∨ s.projPanics.get i = some n := by
        intro i n h
        rw [hget] at h
        cases hx : x.panics.get i with
        | none => rw [hx] at h; exact Or.inr h
        | some m => rw [hx] at h; exact Or.inl h
      refine ⟨?_, hset.keys, ?_, ?_, hset.two⟩
      · rintro i n (h | h | h)
        · rcases hor i n h with h | h
          · exact ha.used i n (Or.inr (Or.inr ⟨w, x, hw, h⟩))
          · exact ha.used i n (Or.inl h)
        · exact ha.used i n (Or.inr (Or.inl h))
        · exact hset.used i n (Or.inr (Or.inr h))
      · intro i n n' h1 h2
        rcases hor i n h1 with h | h
        · exact ha.here i n n' w x hw hd h (Or.inr h2)
        · exact ha.common i n n' h h2
      · rintro i n n' j z hz hzd hzi (h | h)
        · rcases hor i n' h with h | h
          · exact hrun i n n' j z hz hzd hzi h
          · exact hset.here i n n' j z hz hzd hzi (Or.inl h)
        · exact hset.here i n n' j z hz hzd hzi (Or.inr h)
  · exact apart_set ha hw (fun _ => hd) rfl
  · -- points go in
    have hkx := ha.keys x (List.mem_of_getElem? hw)
    have hnp : (nextW x f rest l).panics = x.panics ∨ (nextW x f rest l).panics = record x.panics l f.ident := by
      unfold nextW
      split
      · exact Or.inr rfl
      · split <;> exact Or.inl rfl
    have hnd := (nextW_fields x f rest l).1
    have hnew := fresh_not hfr
    have hin : ∀ i n, (nextW x f rest l).panics.get i = some n → i ∈ l ∨ x.panics.get i = some n := by
      intro i n h
      rcases hnp with e | e
      · rw [e] at h; exact Or.inr h
      · rw [e, get_record] at h
        by_cases hi : i ∈ l
        · exact Or.inl hi
        · rw [if_neg hi] at h; exact Or.inr h
    have back : ∀ (i n j : Nat) (z : Worker), (s.workers.set w (nextW x f rest l))[j]? = some z → z.done = false → z.panics.get i = some n →
        (j = w ∧ i ∈ l) ∨ ∃ z0 : Worker, s.workers[j]? = some z0 ∧ z0.done = false ∧ z0.panics.get i = some n := by
      intro i n j z hz hzd hzi
      rcases get_set_cases hz with ⟨rfl, rfl⟩ | ⟨-, hz⟩
      · rcases hin i n hzi with h | h
        · exact Or.inl ⟨rfl, h⟩
        · exact Or.inr ⟨x, hw, hd, h⟩
      · exact Or.inr ⟨z, hz, hzd, hzi⟩
    refine ⟨?_, ?_, ha.common, ?_, ?_⟩
    · rintro i n (h | h | ⟨j, z, hz, h⟩)
      · exact List.mem_append_right _ (ha.used i n (Or.inl h))
      · exact List.mem_append_right _ (ha.used i n (Or.inr (Or.inl h)))
      · rcases get_set_cases hz with ⟨rfl, rfl⟩ | ⟨-, hz⟩
        · rcases hin i n h with h | h
          · exact List.mem_append_left _ h
          · exact List.mem_append_right _ (ha.used i n (Or.inr (Or.inr ⟨j, x, hw, h⟩)))
        · exact List.mem_append_right _ (ha.used i n (Or.inr (Or.inr ⟨j, z, hz, h⟩)))
    · intro z hz
      rcases mem_set_cases hz with rfl | hz
      · rcases hnp with e | e
        · rw [e]; exact hkx
        · rw [e]; exact nodup_record _ _ _ hkx
      · exact ha.keys z hz
    · intro i n n' j z hz hzd hzi hg
      rcases back i n j z hz hzd hzi with ⟨-, h⟩ | ⟨z0, b1, b2, b3⟩
      · exact hnew i h (ha.used i n' (hg.imp id Or.inl))
      · exact ha.here i n n' j z0 b1 b2 b3 hg
    · intro i n n' j j' z z' hz hz' hzd hzd' hzi hzi'
      rcases back i n j z hz hzd hzi with ⟨e, h⟩ | ⟨z0, b1, b2, b3⟩
      · rcases back i n' j' z' hz' hzd' hzi' with ⟨e', -⟩ | ⟨z0', c1, c2, c3⟩
        · rw [e, e']
        · exact absurd (ha.used i n' (Or.inr (Or.inr ⟨j', z0', c1, c3⟩))) (hnew i h)
      · rcases back i n' j' z' hz' hzd' hzi' with ⟨-, h'⟩ | ⟨z0', c1, c2, c3⟩
        · exact absurd (ha.used i n (Or.inr (Or.inr ⟨j, z0, b1, b3⟩))) (hnew i h')
        · exact ha.two i n n' j j' z0 z0' b1 c1 b2 c2 b3 c3

theorem apart_run {files : List (List Decl)} {used : List Nat} {ws : List Worker} {sch : List (Nat × Option (List Nat))} {s : St} (hb : Begin ws)
    (h : runSched (start files used ws) sch = some s) : ∀ i n n', s.projPanics.get i = some n → s.modPanics.get i = some n' → False := by
  have hz : ∀ (j : Nat) (x : Worker), ws[j]? = some x → x.panics = [] := by
    intro j x hx
    obtain ⟨m, a, l, rfl⟩ := hb x (List.mem_of_getElem? hx)
    rfl
  refine (run_induct (P := Apart) (fun s s' w ids hp hst => apart_step hp hst) ?_ h).common
  refine ⟨?_, ?_, ?_, ?_, ?_⟩
  · rintro i n (h | h | ⟨j, x, h1, h2⟩)
    · simp [start] at h
    · simp [start] at h
    · rw [hz j x h1] at h2; simp at h2
  · intro x hx
    obtain ⟨j, hj⟩ := List.mem_iff_getElem?.mp hx
    rw [hz j x hj]; simp [AMap.keys]
  · intro i n n' h; simp [start] at h
  · intro i n n' j x h1 _ h2
    rw [hz j x h1] at h2; simp at h2
  · intro i n n' j j' x x' h1 _ _ _ h2
    rw [hz j x h1] at h2; simp at h2

/-- The side a map is for. -/
def side (s : St) : Bool → Nat → Nat → Prop
  | false, i, n => s.states.get i = some n ∨ s.projPanics.get i = some n
  | true, i, n => s.entries.get i = some n ∨ s.modPanics.get i = some n

/-- A worker of that side was asked for it. -/
def From (ws : List Worker) (m : Bool) (n : Nat) : Prop := ∃ w ∈ ws, w.modul = m ∧ ∃ f ∈ w.todo, f.ident = n

structure Sides (ws : List Worker) (s : St) : Prop where
  from0 : ∀ (j : Nat) (x : Worker), s.workers[j]? = some x → ∃ x0 ∈ ws, x.modul = x0.modul ∧ ∀ f ∈ x.todo, f ∈ x0.todo
  keys : ∀ x ∈ s.workers, x.first.keys.Nodup ∧ x.panics.keys.Nodup
  here : ∀ (j : Nat) (x : Worker) (i n : Nat), s.workers[j]? = some x → x.first.get i = some n ∨ x.panics.get i = some n → From ws x.modul n
  there : ∀ m i n, side s m i n → From ws m n

theorem sides_step {ws : List Worker} {s s' : St} (hs : Sides ws s) {w : Nat} {ids : Option (List Nat)} (h : step s w ids = some s') : Sides ws s' := by
  obtain ⟨x, hw, hd, hc⟩ := step_cases h
  obtain ⟨x0, z1, z2, z3⟩ := hs.from0 w x hw
  have hkx := hs.keys x (List.mem_of_getElem? hw)
  -- a worker that keeps or extends its maps
  have hset : ∀ (y : Worker), y.modul = x.modul → (∀ f ∈ y.todo, f ∈ x.todo) → (y.first.keys.Nodup ∧ y.panics.keys.Nodup) →
      (∀ i n, y.first.get i = some n ∨ y.panics.get i = some n → From ws x.modul n) →
      (∀ (j : Nat) (z : Worker), (s.workers.set w y)[j]? = some z → ∃ z0 ∈ ws, z.modul = z0.modul ∧ ∀ f ∈ z.todo, f ∈ z0.todo) ∧
      (∀ z ∈ s.workers.set w y, z.first.keys.Nodup ∧ z.panics.keys.Nodup) ∧
      (∀ (j : Nat) (z : Worker) (i n : Nat), (s.workers.set w y)[j]? = some z → z.first.get i = some n ∨ z.panics.get i = some n → From ws z.modul n) := by
    intro y h1 h2 h3 h4
    refine ⟨?_, ?_, ?_⟩
    · intro j z hz
      rcases get_set_cases hz with ⟨rfl, rfl⟩ | ⟨-, hz⟩
      · exact ⟨x0, z1, h1.trans z2, fun f hf => z3 f (h2 f hf)⟩
      · exact hs.from0 j z hz
    · intro z hz
      rcases mem_set_cases hz with rfl | hz
      · exact h3
      · exact hs.keys z hz
    · intro j z i n hz hi
      rcases get_set_cases hz with ⟨rfl, rfl⟩ | ⟨-, hz⟩
      · rw [h1]; exact h4 i n hi
      · exact hs.here j z i n hz hi
  rcases hc with rfl | ⟨ht, rfl⟩ | ⟨f, rest, ht, -, ⟨rfl, -⟩ | ⟨-, n, c, l, hl, hfr, rfl⟩⟩
  · refine ⟨?_, ?_, ?_, hs.there⟩
    · intro j z hz
      obtain ⟨y, q1, q2⟩ := get_abort hz
      rw [q2]; exact hs.from0 j y q1
    · intro z hz
      obtain ⟨j, hj⟩ := List.mem_iff_getElem?.mp hz
      obtain ⟨y, q1, q2⟩ := get_abort hj
      rw [q2]; exact hs.keys y (List.mem_of_getElem? q1)
    · intro j z i n hz
      obtain ⟨y, q1, q2⟩ := get_abort hz
      rw [q2]; exact hs.here j y i n q1
  · obtain ⟨q1, q2, q3⟩ := hset { x with done := true } rfl (fun _ h => h) hkx (fun i n hi => hs.here w x i n hw hi)
    have hm := (merged_workers s w x).1
    refine ⟨by rw [hm]; exact q1, by rw [hm]; exact q2, by rw [hm]; exact q3, ?_⟩
    have hor : ∀ (m y : AMap Nat Nat) (i n : Nat), y.keys.Nodup → (insertAll m y).get i = some n → y.get i = some n ∨ m.get i = some n := by
      intro m y i n hk hg
      rw [get_insertAll _ _ hk] at hg
      cases hy : y.get i with
      | none => rw [hy] at hg; exact Or.inr hg
      | some k => rw [hy] at hg; exact Or.inl hg
    intro m i n hsd
    unfold merged at hsd
    by_cases hmod : x.modul = true
    · rw [if_pos hmod] at hsd
      cases m with
      | false => exact hs.there false i n hsd
      | true =>
        rcases hsd with q | q
        · rcases hor _ _ _ _ hkx.1 q with q | q
          · rw [← hmod]; exact hs.here w x i n hw (Or.inl q)
          · exact hs.there true i n (Or.inl q)
        · rcases hor _ _ _ _ hkx.2 q with q | q
          · rw [← hmod]; exact hs.here w x i n hw (Or.inr q)
          · exact hs.there true i n (Or.inr q)
    · rw [if_neg hmod] at hsd
      have hmf : x.modul = false := by simpa using hmod
      cases m with
      | true => exact hs.there true i n hsd
      | false =>
        rcases hsd with q | q
        · rcases hor _ _ _ _ hkx.1 q with q | q
          · rw [← hmf]; exact hs.here w x i n hw (Or.inl q)
          · exact hs.there false i n (Or.inl q)
        · rcases hor _ _ _ _ hkx.2 q with q | q
          · rw [← hmf]; exact hs.here w x i n hw (Or.inr q)
          · exact hs.there false i n (Or.inr q)
  · obtain ⟨q1, q2, q3⟩ := hset { x with todo := rest, again := false } rfl (fun g h => by rw [ht]; simp [h]) hkx (fun i n hi => hs.here w x i n hw hi)
    exact ⟨q1, q2, q3, hs.there⟩
  · have hf : From ws x.modul f.ident := ⟨x0, z1, z2.symm, f, z3 f (by rw [ht]; simp), rfl⟩
    have hin : ∀ (m : AMap Nat Nat) i n, (record m l f.ident).get i = some n → n = f.ident ∨ m.get i = some n := by
      intro m i n hg
      rw [get_record] at hg
      by_cases hi : i ∈ l
      · rw [if_pos hi] at hg; simp only [Option.some.injEq] at hg; exact Or.inl hg.symm
      · rw [if_neg hi] at hg; exact Or.inr hg
    obtain ⟨q1, q2, q3⟩ := hset (nextW x f rest l) (nextW_fields x f rest l).2.2 (by
        intro g hg
        rcases nextW_todo x f rest l with e | e
        · rw [e] at hg; exact hg
        · rw [e] at hg; rw [ht]; simp [hg]) (by
        unfold nextW
        split
        · exact ⟨hkx.1, nodup_record _ _ _ hkx.2⟩
        · split <;> exact ⟨nodup_record _ _ _ hkx.1, hkx.2⟩) (by
        intro i n hi
        have old : x.first.get i = some n ∨ x.panics.get i = some n → From ws x.modul n := hs.here w x i n hw
        have new : n = f.ident → From ws x.modul n := fun e => e ▸ hf
        unfold nextW at hi
        split at hi
        · rcases hi with q | q
          · exact old (Or.inl q)
          · exact (hin _ _ _ q).elim new fun q => old (Or.inr q)
        · split at hi
          · rcases hi with q | q
            · exact (hin _ _ _ q).elim new fun q => old (Or.inl q)
            · exact old (Or.inr q)
          · rcases hi with q | q
            · exact (hin _ _ _ q).elim new fun q => old (Or.inl q)
            · exact old (Or.inr q))
    exact ⟨q1, q2, q3, hs.there⟩

theorem sides_run {files : List (List Decl)} {used : List Nat} {ws : List Worker} {sch : List (Nat × Option (List Nat))} {s : St} (hb : Begin ws)
    (h : runSched (start files used ws) sch = some s) : ∀ m i n, side s m i n → From ws m n := by
  have hz : ∀ (j : Nat) (x : Worker), ws[j]? = some x → x.first = [] ∧ x.panics = [] := by
    intro j x hx
    obtain ⟨m, a, l, rfl⟩ := hb x (List.mem_of_getElem? hx)
    exact ⟨rfl, rfl⟩
  refine (run_induct (P := Sides ws) (fun s s' w ids hp hst => sides_step hp hst) ?_ h).there
  refine ⟨fun j x hx => ⟨x, List.mem_of_getElem? hx, rfl, fun _ h => h⟩, ?_, ?_, ?_⟩
  · intro x hx
    obtain ⟨j, hj⟩ := List.mem_iff_getElem?.mp hx
    rw [(hz j x hj).1, (hz j x hj).2]; simp [AMap.keys]
  · intro j x i n hx hi
    rw [(hz j x hx).1, (hz j x hx).2] at hi; simp at hi
  · intro m i n hs
    cases m <;> simp [side, start] at hs

end Verif.Funcs
