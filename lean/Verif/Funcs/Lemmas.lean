import Verif.Funcs.Spec
import Mathlib.Data.List.Basic

/-! Lemmas: maps, the search for a declaration, points in files, and the invariant of the workers. -/

namespace Verif.Funcs
open Verif

/-! ### Maps -/

theorem get_record (ids : List Nat) (n : Nat) (m : AMap Nat Nat) (i : Nat) :
    (record m ids n).get i = if i ∈ ids then some n else m.get i := by
  unfold record
  induction ids generalizing m with
  | nil => simp
  | cons a l ih =>
    rw [List.foldl_cons, ih, AMap.get_set]
    by_cases h : i ∈ l
    · simp [h]
    · by_cases h2 : i = a <;> simp [h, h2]

theorem nodup_record (ids : List Nat) (n : Nat) (m : AMap Nat Nat) (h : m.keys.Nodup) : (record m ids n).keys.Nodup := by
  unfold record
  induction ids generalizing m with
  | nil => exact h
  | cons a l ih => exact ih _ (AMap.nodup_set h _ _)

theorem get_foldl_set {V : Type} (x : AMap Nat V) (m : AMap Nat V) (h : x.keys.Nodup) (i : Nat) :
    (x.foldl (fun m e => m.set e.1 e.2) m).get i = (x.get i).or (m.get i) := by
  induction x generalizing m with
  | nil => simp
  | cons e l ih =>
    have hk : AMap.keys (e :: l) = e.1 :: AMap.keys l := rfl
    rw [hk, List.nodup_cons] at h
    rw [List.foldl_cons, ih _ h.2, AMap.get_set, AMap.get_cons]
    by_cases h1 : i = e.1
    · have : AMap.get l i = none := by
        rw [← Option.not_isSome_iff_eq_none, ← AMap.mem_keys, h1]; exact h.1
      rw [h1] at this
      simp [h1, this]
    · have : ¬ e.1 = i := fun h' => h1 h'.symm
      simp [h1, this]

theorem get_insertAll (x m : AMap Nat Nat) (h : x.keys.Nodup) (i : Nat) : (insertAll m x).get i = (x.get i).or (m.get i) :=
  get_foldl_set x m h i

/-! ### Finding a declaration -/

theorem findDecl_some {i : Nat} {ds : List Decl} {n : Nat} (h : findDecl i ds = some n) : ∃ d, ds[n]? = some d ∧ d.ident = i := by
  induction ds generalizing n with
  | nil => simp [findDecl] at h
  | cons d ds ih =>
    simp only [findDecl] at h
    cases hf : findDecl i ds with
    | some k =>
      rw [hf] at h
      simp only [Option.some.injEq] at h
      subst h
      obtain ⟨d', h1, h2⟩ := ih hf
      exact ⟨d', by simpa using h1, h2⟩
    | none =>
      rw [hf] at h
      by_cases hd : d.ident = i
      · simp only [hd, if_true, Option.some.injEq] at h
        subst h
        exact ⟨d, by simp, hd⟩
      · simp [hd] at h

theorem findDecl_none {i : Nat} {ds : List Decl} (h : findDecl i ds = none) : ∀ d ∈ ds, d.ident ≠ i := by
  induction ds with
  | nil => simp
  | cons d ds ih =>
    simp only [findDecl] at h
    cases hf : findDecl i ds with
    | some k => rw [hf] at h; simp at h
    | none =>
      rw [hf] at h
      by_cases hd : d.ident = i
      · simp [hd] at h
      · intro e he
        rcases List.mem_cons.mp he with rfl | he
        · exact hd
        · exact ih hf e he

/-- What `look` says. -/
theorem look_put {k : Kind} {ds : List Decl} {i n c : Nat} (h : look k ds i = .put n c) :
    ∃ d, ds[n]? = some d ∧ d.ident = i ∧ d.hasBody = true ∧
      (k = .state → d.marked = false ∧ c = statePoints d) ∧ (k ≠ .state → c = 1) := by
  unfold look at h
  cases hf : findDecl i ds with
  | none => rw [hf] at h; simp at h
  | some m =>
    obtain ⟨d, h1, h2⟩ := findDecl_some hf
    rw [hf] at h
    simp only [h1] at h
    by_cases hb : d.hasBody = false
    · simp [hb] at h
    · rw [if_neg hb] at h
      cases k with
      | state =>
        simp only at h
        by_cases hm : d.marked = true
        · simp [hm] at h
        · rw [if_neg hm] at h
          simp only [Ins.put.injEq] at h
          obtain ⟨rfl, rfl⟩ := h
          exact ⟨d, h1, h2, by simpa using hb, fun _ => ⟨by simpa using hm, rfl⟩, by simp⟩
      | panic =>
        simp only [Ins.put.injEq] at h
        obtain ⟨rfl, rfl⟩ := h
        exact ⟨d, h1, h2, by simpa using hb, by simp, by simp⟩
      | entry =>
        simp only [Ins.put.injEq] at h
        obtain ⟨rfl, rfl⟩ := h
        exact ⟨d, h1, h2, by simpa using hb, by simp, by simp⟩

theorem look_skip {k : Kind} {ds : List Decl} {i : Nat} (h : look k ds i = .skip) :
    ∃ (n : Nat) (d : Decl), ds[n]? = some d ∧ d.ident = i ∧ (d.hasBody = false ∨ k = .state ∧ d.marked = true) := by
  unfold look at h
  cases hf : findDecl i ds with
  | none => rw [hf] at h; simp at h
  | some m =>
    obtain ⟨d, h1, h2⟩ := findDecl_some hf
    rw [hf] at h
    simp only [h1] at h
    refine ⟨m, d, h1, h2, ?_⟩
    by_cases hb : d.hasBody = false
    · exact Or.inl hb
    · rw [if_neg hb] at h
      cases k with
      | state =>
        simp only at h
        by_cases hm : d.marked = true
        · exact Or.inr ⟨rfl, hm⟩
        · rw [if_neg hm] at h; simp at h
      | panic => simp at h
      | entry => simp at h

/-! ### Points in files -/

/-- The points of one file. -/
def ptsOf (ds : List Decl) : List (Kind × Nat × Nat) := ds.flatMap fun d => d.points.map fun p => (p.1, p.2, d.ident)

theorem pts_eq (files : List (List Decl)) : pts files = files.flatMap ptsOf := by
  unfold pts ptsOf
  induction files with
  | nil => rfl
  | cons f fs ih => simp [List.flatMap_cons, ih]

theorem ptsOf_put (k : Kind) (ids : List Nat) (mk : Bool) (n : Nat) (ds : List Decl) (d : Decl) (h : ds[n]? = some d) :
    (ptsOf (putPoints k ids mk n ds)).Perm (ids.map (fun i => (k, i, d.ident)) ++ ptsOf ds) := by
  induction ds generalizing n with
  | nil => simp at h
  | cons e ds ih =>
    cases n with
    | zero =>
      simp only [List.getElem?_cons_zero, Option.some.injEq] at h
      subst h
      simp only [putPoints, List.modify_zero_cons, ptsOf, List.flatMap_cons, List.map_append, List.map_map]
      rw [← List.append_assoc]
      refine List.Perm.append_right _ ?_
      exact List.perm_append_comm
    | succ n =>
      have := ih n (by simpa using h)
      simp only [putPoints, List.modify_succ_cons, ptsOf, List.flatMap_cons]
      have h2 := this.append_left (e.points.map fun p => (p.1, p.2, e.ident))
      refine h2.trans ?_
      rw [← List.append_assoc, ← List.append_assoc]
      exact List.Perm.append_right _ List.perm_append_comm

theorem pts_put (k : Kind) (ids : List Nat) (mk : Bool) (n a : Nat) (files : List (List Decl)) (d : Decl) (h : (files.getD a [])[n]? = some d) :
    (pts (files.modify a (putPoints k ids mk n))).Perm (ids.map (fun i => (k, i, d.ident)) ++ pts files) := by
  rw [pts_eq, pts_eq]
  induction files generalizing a with
  | nil => simp at h
  | cons ds fs ih =>
    cases a with
    | zero =>
      simp only [List.getD_cons_zero] at h
      simp only [List.modify_zero_cons, List.flatMap_cons]
      rw [← List.append_assoc]
      exact (ptsOf_put k ids mk n ds d h).append_right _
    | succ a =>
      have := ih a (by simpa using h)
      simp only [List.modify_succ_cons, List.flatMap_cons]
      refine (this.append_left _).trans ?_
      rw [← List.append_assoc, ← List.append_assoc]
      exact List.Perm.append_right _ List.perm_append_comm

theorem pts_clean {files : List (List Decl)} (h : Clean files) : pts files = [] := by
  unfold pts
  rw [List.flatMap_eq_nil_iff]
  intro d hd
  obtain ⟨ds, h1, h2⟩ := List.mem_flatten.mp hd
  simp [(h ds h1 d h2).1]

/-! ### The maps and the points -/

/-- The map of a worker for a kind of point. -/
def sel : Kind → Worker → AMap Nat Nat
  | .state, x => if x.modul then [] else x.first
  | .entry, x => if x.modul then x.first else []
  | .panic, x => x.panics

/-- The common maps. -/
def Global (s : St) (k : Kind) (i n : Nat) : Prop :=
  match k with
  | .state => s.states.get i = some n
  | .entry => s.entries.get i = some n
  | .panic => s.projPanics.get i = some n ∨ s.modPanics.get i = some n

/-- In the map of a worker still running. -/
def Here (ws : List Worker) (k : Kind) (i n : Nat) : Prop := ∃ (j : Nat) (x : Worker), ws[j]? = some x ∧ x.done = false ∧ (sel k x).get i = some n

structure Inv (s : St) : Prop where
  uniq : ((pts s.files).map (fun p => p.2.1)).Nodup
  used : ∀ p ∈ pts s.files, p.2.1 ∈ s.used
  keys : ∀ x ∈ s.workers, x.first.keys.Nodup ∧ x.panics.keys.Nodup
  maps : s.failed = false → ∀ k i n, (k, i, n) ∈ pts s.files ↔ Global s k i n ∨ Here s.workers k i n

theorem here_set {ws : List Worker} {w : Nat} {x y : Worker} (hw : ws[w]? = some x) (k : Kind) (i n : Nat) :
    Here (ws.set w y) k i n ↔ (y.done = false ∧ (sel k y).get i = some n) ∨
      ∃ (j : Nat) (z : Worker), j ≠ w ∧ ws[j]? = some z ∧ z.done = false ∧ (sel k z).get i = some n := by
  have hlt : w < ws.length := (List.getElem?_eq_some_iff.mp hw).1
  constructor
  · rintro ⟨j, z, h1, h2, h3⟩
    rw [List.getElem?_set] at h1
    by_cases hj : w = j
    · subst hj
      simp only [if_true, if_pos hlt, Option.some.injEq] at h1
      subst h1
      exact Or.inl ⟨h2, h3⟩
    · rw [if_neg hj] at h1
      exact Or.inr ⟨j, z, fun h => hj h.symm, h1, h2, h3⟩
  · rintro (⟨h2, h3⟩ | ⟨j, z, hj, h1, h2, h3⟩)
    · exact ⟨w, y, by rw [List.getElem?_set]; simp [hlt], h2, h3⟩
    · exact ⟨j, z, by rw [List.getElem?_set, if_neg (fun h => hj h.symm)]; exact h1, h2, h3⟩

theorem here_old {ws : List Worker} {w : Nat} {x : Worker} (hw : ws[w]? = some x) (k : Kind) (i n : Nat) :
    Here ws k i n ↔ (x.done = false ∧ (sel k x).get i = some n) ∨
      ∃ (j : Nat) (z : Worker), j ≠ w ∧ ws[j]? = some z ∧ z.done = false ∧ (sel k z).get i = some n := by
  rw [← here_set (y := x) hw]
  have : ws.set w x = ws := by
    apply List.ext_getElem?
    intro j
    rw [List.getElem?_set]
    by_cases hj : w = j
    · subst hj
      rw [if_pos rfl, if_pos (List.getElem?_eq_some_iff.mp hw).1, hw]
    · simp [hj]
  rw [this]

theorem mem_set_cases {ws : List Worker} {w : Nat} {y z : Worker} (h : z ∈ ws.set w y) : z = y ∨ z ∈ ws := by
  rcases List.mem_or_eq_of_mem_set h with h | h
  · exact Or.inr h
  · exact Or.inl h

/-- A worker changes without a change of its maps. -/
theorem inv_skip {s : St} (hi : Inv s) {w : Nat} {x y : Worker} (hw : s.workers[w]? = some x) (hd : x.done = false) (hd' : y.done = false)
    (hf : y.first = x.first) (hp : y.panics = x.panics) (hm : y.modul = x.modul) : Inv { s with workers := s.workers.set w y } := by
  refine ⟨hi.uniq, hi.used, ?_, ?_⟩
  · intro z hz
    rcases mem_set_cases hz with rfl | hz
    · rw [hf, hp]; exact hi.keys _ (List.mem_of_getElem? hw)
    · exact hi.keys z hz
  · intro hfl k i n
    have hs : sel k y = sel k x := by cases k <;> simp [sel, hf, hp, hm]
    rw [hi.maps hfl k i n]
    refine or_congr Iff.rfl ?_
    rw [here_old hw, here_set hw, hs, hd, hd']

theorem inv_abort {s : St} (hi : Inv s) (w : Nat) : Inv (abort s w) := by
  refine ⟨hi.uniq, hi.used, ?_, ?_⟩
  · intro z hz
    simp only [abort] at hz
    obtain ⟨j, hj⟩ := List.mem_iff_getElem?.mp hz
    rw [List.getElem?_modify] at hj
    cases ho : s.workers[j]? with
    | none => rw [ho] at hj; simp at hj
    | some o =>
      rw [ho] at hj
      have := hi.keys o (List.mem_of_getElem? ho)
      simp only [Option.map_eq_map, Option.map_some, Option.some.injEq] at hj
      by_cases hwj : w = j
      · rw [if_pos hwj] at hj; subst hj; exact this
      · rw [if_neg hwj] at hj; subst hj; exact this
  · intro hfl; simp [abort] at hfl

/-- New points go in. -/
theorem inv_put {s : St} (hi : Inv s) {w : Nat} {x y : Worker} (hw : s.workers[w]? = some x) (hd : x.done = false) (hd' : y.done = false)
    {k : Kind} {a n : Nat} {d : Decl} {ids : List Nat} {c : Nat} {mk : Bool} (hget : (s.files.getD a [])[n]? = some d)
    (hfr : freshIds s.used ids c = true) (hk : y.first.keys.Nodup ∧ y.panics.keys.Nodup)
    (hs : ∀ i, (sel k y).get i = if i ∈ ids then some d.ident else (sel k x).get i) (hs' : ∀ k', k' ≠ k → sel k' y = sel k' x) :
    Inv { s with files := s.files.modify a (putPoints k ids mk n), used := ids ++ s.used, workers := s.workers.set w y } := by
  have hperm := pts_put k ids mk n a s.files d hget
  simp only [freshIds, Bool.and_eq_true, beq_iff_eq, decide_eq_true_eq, List.all_eq_true, Bool.not_eq_true', List.contains_eq_mem,
    decide_eq_false_iff_not] at hfr
  obtain ⟨⟨-, hnd⟩, hnew⟩ := hfr
  refine ⟨?_, ?_, ?_, ?_⟩
  · refine (hperm.map (fun p => p.2.1)).nodup_iff.mpr ?_
    rw [List.map_append, List.map_map]
    rw [List.nodup_append]
    refine ⟨by simpa [Function.comp_def] using hnd, hi.uniq, ?_⟩
    rintro i h1 j h2 rfl
    simp only [List.mem_map, Function.comp_apply, exists_eq_right] at h1
    obtain ⟨p, hp, hpi⟩ := List.mem_map.mp h2
    have := hi.used p hp
    rw [hpi] at this
    exact hnew i h1 this
  · intro p hp
    rcases List.mem_append.mp (hperm.mem_iff.mp hp) with h | h
    · obtain ⟨i, h1, rfl⟩ := List.mem_map.mp h
      exact List.mem_append_left _ h1
    · exact List.mem_append_right _ (hi.used p h)
  · intro z hz
    rcases mem_set_cases hz with rfl | hz
    · exact hk
    · exact hi.keys z hz
  · intro hfl k' i m
    show (k', i, m) ∈ pts (s.files.modify a (putPoints k ids mk n)) ↔ Global s k' i m ∨ Here (s.workers.set w y) k' i m
    rw [hperm.mem_iff, List.mem_append, hi.maps hfl k' i m, here_old hw, here_set hw, hd, hd']
    by_cases hkk : k' = k
    · subst hkk
      rw [hs i]
      have hin : (k', i, m) ∈ ids.map (fun i => (k', i, d.ident)) ↔ i ∈ ids ∧ m = d.ident := by
        simp only [List.mem_map, Prod.mk.injEq, true_and]
        constructor
        · rintro ⟨j, h1, rfl, rfl⟩; exact ⟨h1, rfl⟩
        · rintro ⟨h1, rfl⟩; exact ⟨i, h1, rfl, rfl⟩
      rw [hin]
      by_cases hii : i ∈ ids
      · have hno : ¬ (sel k' x).get i = some m := by
          intro hc
          have := (hi.maps hfl k' i m).mpr (Or.inr ⟨w, x, hw, hd, hc⟩)
          exact hnew i hii (hi.used _ this)
        simp only [hii, true_and, if_true, Option.some.injEq, hno, false_or]
        constructor
        · rintro (rfl | h | h)
          · exact Or.inr (Or.inl rfl)
          · exact Or.inl h
          · exact Or.inr (Or.inr h)
        · rintro (h | rfl | h)
          · exact Or.inr (Or.inl h)
          · exact Or.inl rfl
          · exact Or.inr (Or.inr h)
      · simp [hii]
    · rw [hs' k' hkk]
      have : (k', i, m) ∉ ids.map (fun i => (k, i, d.ident)) := by
        intro hc
        obtain ⟨j, -, hj⟩ := List.mem_map.mp hc
        simp only [Prod.mk.injEq] at hj
        exact hkk hj.1.symm
      simp [this]

/-- An id has one kind and one function. -/
theorem pts_fun {files : List (List Decl)} (h : ((pts files).map (fun p => p.2.1)).Nodup) {k k' : Kind} {i n n' : Nat}
    (h1 : (k, i, n) ∈ pts files) (h2 : (k', i, n') ∈ pts files) : k = k' ∧ n = n' := by
  have := List.inj_on_of_nodup_map h h1 h2 rfl
  simp only [Prod.mk.injEq] at this
  exact ⟨this.1, this.2.2⟩

theorem or_some {a b : Option Nat} {n : Nat} (h : ∀ m m', a = some m → b = some m' → m = m') :
    a.or b = some n ↔ a = some n ∨ b = some n := by
  cases a with
  | none => simp
  | some m =>
    cases b with
    | none => simp
    | some m' => have := h m m' rfl rfl; subst this; simp

/-- A worker is done and hands over its maps. -/
theorem inv_merge {s : St} (hi : Inv s) {w : Nat} {x : Worker} (hw : s.workers[w]? = some x) (hd : x.done = false) {s' : St}
    (hs : s' = if x.modul then
            { s with workers := s.workers.set w { x with done := true }, entries := insertAll s.entries x.first, modPanics := insertAll s.modPanics x.panics }
          else { s with workers := s.workers.set w { x with done := true }, states := insertAll s.states x.first, projPanics := insertAll s.projPanics x.panics }) :
    Inv s' := by
  have hfiles : s'.files = s.files := by subst hs; split <;> rfl
  have hused : s'.used = s.used := by subst hs; split <;> rfl
  have hws : s'.workers = s.workers.set w { x with done := true } := by subst hs; split <;> rfl
  have hfail : s'.failed = s.failed := by subst hs; split <;> rfl
  have hkx := hi.keys x (List.mem_of_getElem? hw)
  refine ⟨by rw [hfiles]; exact hi.uniq, by rw [hfiles, hused]; exact hi.used, ?_, ?_⟩
  · intro z hz
    rw [hws] at hz
    rcases mem_set_cases hz with rfl | hz
    · exact hkx
    · exact hi.keys z hz
  · intro hfl k i n
    rw [hfail] at hfl
    have hagree : ∀ (k : Kind) (m m' : Nat), (sel k x).get i = some m → Global s k i m' → m = m' := by
      intro k m m' h1 h2
      exact (pts_fun hi.uniq ((hi.maps hfl k i m).mpr (Or.inr ⟨w, x, hw, hd, h1⟩)) ((hi.maps hfl k i m').mpr (Or.inl h2))).2
    have hglob : Global s' k i n ↔ (sel k x).get i = some n ∨ Global s k i n := by
      subst hs
      by_cases hm : x.modul = true
      · rw [if_pos hm]
        cases k with
        | state => simp [Global, sel, hm]
        | entry =>
          simp only [Global, sel, hm, if_true]
          rw [get_insertAll _ _ hkx.1]
          exact or_some fun m m' a b => hagree .entry m m' (by simpa [sel, hm] using a) b
        | panic =>
          simp only [Global, sel]
          rw [get_insertAll _ _ hkx.2, or_some (a := x.panics.get i) fun m m' a b => hagree .panic m m' a (Or.inr b)]
          constructor
          · rintro (h | h | h)
            · exact Or.inr (Or.inl h)
            · exact Or.inl h
            · exact Or.inr (Or.inr h)
          · rintro (h | h | h)
            · exact Or.inr (Or.inl h)
            · exact Or.inl h
            · exact Or.inr (Or.inr h)
      · rw [if_neg hm]
        cases k with
        | entry => simp [Global, sel, hm]
        | state =>
          simp only [Global, sel, hm, Bool.false_eq_true, if_false]
          rw [get_insertAll _ _ hkx.1]
          exact or_some fun m m' a b => hagree .state m m' (by simpa [sel, hm] using a) b
        | panic =>
          simp only [Global, sel]
          rw [get_insertAll _ _ hkx.2, or_some (a := x.panics.get i) fun m m' a b => hagree .panic m m' a (Or.inl b), or_assoc]
    rw [hfiles, hws, hi.maps hfl k i n, hglob, here_old hw, here_set hw, hd]
    simp only [true_and, Bool.true_eq_false, false_and, false_or]
    constructor
    · rintro (h | h | h)
      · exact Or.inl (Or.inr h)
      · exact Or.inl (Or.inl h)
      · exact Or.inr h
    · rintro ((h | h) | h)
      · exact Or.inr (Or.inl h)
      · exact Or.inl h
      · exact Or.inr (Or.inr h)

/-! ### Steps -/

/-- The kind of point a worker puts in next. -/
def kindOf (x : Worker) : Kind := if x.again then .panic else if x.modul then .entry else .state

/-- The worker after points went in. -/
def nextW (x : Worker) (f : Fn) (rest : List Fn) (l : List Nat) : Worker :=
  if x.again then { x with todo := rest, again := false, panics := record x.panics l f.ident }
  else if x.modul ∧ f.retPanic then { x with todo := rest, first := record x.first l f.ident }
  else { x with again := true, first := record x.first l f.ident }

/-- The worker hands over its maps. -/
def merged (s : St) (w : Nat) (x : Worker) : St :=
  if x.modul then
    { s with workers := s.workers.set w { x with done := true }, entries := insertAll s.entries x.first, modPanics := insertAll s.modPanics x.panics }
  else { s with workers := s.workers.set w { x with done := true }, states := insertAll s.states x.first, projPanics := insertAll s.projPanics x.panics }

theorem insert_cases {k : Kind} {i : Nat} {y : Worker} {next : List Nat → Worker} {s s' : St} {w a : Nat} {ids : Option (List Nat)}
    (h : insert k i y next s w a ids = some s') :
    s' = abort s w ∨ (look k (s.files.getD a []) i = .skip ∧ s' = { s with workers := s.workers.set w y }) ∨
      ∃ n c l, look k (s.files.getD a []) i = .put n c ∧ freshIds s.used l c = true ∧
        s' = { s with files := s.files.modify a (putPoints k l (k == .state) n), used := l ++ s.used, workers := s.workers.set w (next l) } := by
  unfold insert at h
  cases hl : look k (s.files.getD a []) i with
  | fatal => rw [hl] at h; simp only [Option.some.injEq] at h; exact Or.inl h.symm
  | skip => rw [hl] at h; simp only [Option.some.injEq] at h; exact Or.inr (Or.inl ⟨rfl, h.symm⟩)
  | put n c =>
    rw [hl] at h
    cases ids with
    | none => simp only [Option.some.injEq] at h; exact Or.inl h.symm
    | some l =>
      simp only at h
      by_cases hf : freshIds s.used l c = true
      · rw [if_pos hf] at h
        simp only [Option.some.injEq] at h
        exact Or.inr (Or.inr ⟨n, c, l, rfl, hf, h.symm⟩)
      · rw [if_neg hf] at h; simp at h

/-- What a step may be. -/
theorem step_cases {s s' : St} {w : Nat} {ids : Option (List Nat)} (h : step s w ids = some s') :
    ∃ x, s.workers[w]? = some x ∧ x.done = false ∧ (s' = abort s w ∨ (x.todo = [] ∧ s' = merged s w x) ∨
      ∃ f rest, x.todo = f :: rest ∧ (kindOf x = .state → f.retPanic = true → s' = { s with workers := s.workers.set w { x with todo := rest, again := false } }) ∧
        ((s' = { s with workers := s.workers.set w { x with todo := rest, again := false } } ∧
            ((kindOf x = .state ∧ f.retPanic = true) ∨ look (kindOf x) (s.files.getD x.file []) f.ident = .skip)) ∨
         ((kindOf x = .state → f.retPanic = false) ∧ ∃ n c l, look (kindOf x) (s.files.getD x.file []) f.ident = .put n c ∧ freshIds s.used l c = true ∧
            s' = { s with files := s.files.modify x.file (putPoints (kindOf x) l (kindOf x == .state) n), used := l ++ s.used,
                          workers := s.workers.set w (nextW x f rest l) }))) := by
  unfold step at h
  cases hw : s.workers[w]? with
  | none => rw [hw] at h; simp at h
  | some x =>
    rw [hw] at h
    simp only at h
    by_cases hd : x.done = true
    · simp [hd] at h
    · rw [if_neg hd] at h
      refine ⟨x, rfl, by simpa using hd, ?_⟩
      cases ht : x.todo with
      | nil =>
        rw [ht] at h
        simp only at h
        cases ids with
        | none => simp only [Option.some.injEq] at h; exact Or.inl h.symm
        | some l =>
          refine Or.inr (Or.inl ⟨rfl, ?_⟩)
          simp only at h
          unfold merged
          rw [ht]
          by_cases hm : x.modul = true
          · rw [if_pos hm] at h ⊢; simp only [Option.some.injEq] at h; exact h.symm
          · rw [if_neg hm] at h ⊢; simp only [Option.some.injEq] at h; exact h.symm
      | cons f rest =>
        rw [ht] at h
        simp only at h
        by_cases ha : x.again = true
        · have hk : kindOf x = .panic := by simp [kindOf, ha]
          rw [if_pos ha] at h
          rcases insert_cases h with h | ⟨h1, h2⟩ | ⟨n, c, l, h1, h2, h3⟩
          · exact Or.inl h
          · refine Or.inr (Or.inr ⟨f, rest, rfl, by simp [hk], Or.inl ⟨h2, Or.inr (by rw [hk]; exact h1)⟩⟩)
          · refine Or.inr (Or.inr ⟨f, rest, rfl, by simp [hk], Or.inr ⟨by simp [hk], n, c, l, by rw [hk]; exact h1, h2, ?_⟩⟩)
            rw [h3, hk]
            simp [nextW, ha]
        · rw [if_neg ha] at h
          have hx : ({ x with todo := rest } : Worker) = { x with todo := rest, again := false } := by
            cases x; simp_all
          by_cases hm : x.modul = true
          · have hk : kindOf x = .entry := by simp [kindOf, ha, hm]
            rw [if_pos hm] at h
            rcases insert_cases h with h | ⟨h1, h2⟩ | ⟨n, c, l, h1, h2, h3⟩
            · exact Or.inl h
            · refine Or.inr (Or.inr ⟨f, rest, rfl, by simp [hk], Or.inl ⟨by rw [← hx]; exact h2, Or.inr (by rw [hk]; exact h1)⟩⟩)
            · refine Or.inr (Or.inr ⟨f, rest, rfl, by simp [hk], Or.inr ⟨by simp [hk], n, c, l, by rw [hk]; exact h1, h2, ?_⟩⟩)
              rw [h3, hk]
              by_cases hr : f.retPanic = true <;> simp [nextW, ha, hm, hr, ht]
          · have hk : kindOf x = .state := by simp [kindOf, ha, hm]
            rw [if_neg hm] at h
            by_cases hr : f.retPanic = true
            · rw [if_pos hr] at h
              simp only [Option.some.injEq] at h
              refine Or.inr (Or.inr ⟨f, rest, rfl, fun _ _ => by rw [← hx]; exact h.symm, Or.inl ⟨by rw [← hx]; exact h.symm, Or.inl ⟨hk, hr⟩⟩⟩)
            · rw [if_neg hr] at h
              rcases insert_cases h with h | ⟨h1, h2⟩ | ⟨n, c, l, h1, h2, h3⟩
              · exact Or.inl h
              · refine Or.inr (Or.inr ⟨f, rest, rfl, by simp [hr], Or.inl ⟨by rw [← hx]; exact h2, Or.inr (by rw [hk]; exact h1)⟩⟩)
              · refine Or.inr (Or.inr ⟨f, rest, rfl, by simp [hr], Or.inr ⟨by simp [hr], n, c, l, by rw [hk]; exact h1, h2, ?_⟩⟩)
                rw [h3, hk]
                simp [nextW, ha, hm, ht]

theorem nextW_fields (x : Worker) (f : Fn) (rest : List Fn) (l : List Nat) : (nextW x f rest l).done = x.done ∧ (nextW x f rest l).file = x.file ∧
    (nextW x f rest l).modul = x.modul := by
  unfold nextW
  split
  · exact ⟨rfl, rfl, rfl⟩
  · split <;> exact ⟨rfl, rfl, rfl⟩

theorem inv_step {s s' : St} (hi : Inv s) {w : Nat} {ids : Option (List Nat)} (h : step s w ids = some s') : Inv s' := by
  obtain ⟨x, hw, hd, hc⟩ := step_cases h
  rcases hc with rfl | ⟨-, rfl⟩ | ⟨f, rest, -, -, ⟨rfl, -⟩ | ⟨-, n, c, l, hl, hf, rfl⟩⟩
  · exact inv_abort hi w
  · exact inv_merge hi hw hd rfl
  · exact inv_skip hi hw hd hd rfl rfl rfl
  · obtain ⟨d, h1, h2, -⟩ := look_put hl
    have hkx := hi.keys x (List.mem_of_getElem? hw)
    refine inv_put hi hw hd (by rw [(nextW_fields x f rest l).1]; exact hd) h1 hf ?_ ?_ ?_
    · unfold nextW
      split
      · exact ⟨hkx.1, nodup_record _ _ _ hkx.2⟩
      · split <;> exact ⟨nodup_record _ _ _ hkx.1, hkx.2⟩
    · intro i
      rw [h2]
      unfold nextW kindOf
      by_cases ha : x.again = true
      · simp only [ha, if_true, sel]; exact get_record _ _ _ _
      · by_cases hm : x.modul = true
        · by_cases hr : f.retPanic = true
          · simp only [ha, hm, hr, and_self, Bool.false_eq_true, if_false, if_true, sel]; exact get_record _ _ _ _
          · simp only [ha, hm, hr, Bool.false_eq_true, and_false, if_false, if_true, sel]; exact get_record _ _ _ _
        · simp only [ha, hm, Bool.false_eq_true, false_and, if_false, sel]; exact get_record _ _ _ _
    · intro k' hk'
      unfold kindOf at hk'
      unfold nextW
      by_cases ha : x.again = true
      · cases k' <;> simp_all [sel]
      · by_cases hm : x.modul = true
        · by_cases hr : f.retPanic = true <;> cases k' <;> simp_all [sel]
        · cases k' <;> simp_all [sel]

theorem inv_run {s s' : St} (hi : Inv s) {sch : List (Nat × Option (List Nat))} (h : runSched s sch = some s') : Inv s' := by
  induction sch generalizing s with
  | nil => simp only [runSched, Option.some.injEq] at h; exact h ▸ hi
  | cons e sch ih =>
    obtain ⟨w, ids⟩ := e
    simp only [runSched] at h
    cases hs : step s w ids with
    | none => rw [hs] at h; simp at h
    | some s1 => rw [hs] at h; exact ih (inv_step hi hs) h

theorem inv_start {files : List (List Decl)} {used : List Nat} {ws : List Worker} (hc : Clean files) (hb : Begin ws) : Inv (start files used ws) := by
  have hp := pts_clean hc
  refine ⟨by simp [start, hp], by simp [start, hp], ?_, ?_⟩
  · intro x hx
    obtain ⟨m, a, l, rfl⟩ := hb x hx
    simp [worker, AMap.keys]
  · intro _ k i n
    constructor
    · intro h; simp [start, hp] at h
    · rintro (h | ⟨j, x, h1, -, h3⟩)
      · cases k <;> simp [Global, start] at h
      · obtain ⟨m, a, l, rfl⟩ := hb x (List.mem_of_getElem? h1)
        cases k <;> cases m <;> simp [sel, worker] at h3

end Verif.Funcs
