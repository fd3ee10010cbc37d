import Verif.Funcs.Lemmas

/-! Lemmas: every function asked for gets its points, and no other. -/

namespace Verif.Funcs
open Verif

/-- The declaration at a place. -/
def At (files : List (List Decl)) (a b : Nat) (d : Decl) : Prop := ∃ ds, files[a]? = some ds ∧ ds[b]? = some d

/-- A declaration with new points. -/
def upd (k : Kind) (ids : List Nat) (mk : Bool) (d : Decl) : Decl :=
  { d with points := d.points ++ ids.map fun i => (k, i), marked := d.marked || mk }

theorem at_getD {files : List (List Decl)} {a n : Nat} {d : Decl} (h : (files.getD a [])[n]? = some d) : At files a n d := by
  rw [List.getD_eq_getElem?_getD] at h
  cases hf : files[a]? with
  | none => rw [hf] at h; simp at h
  | some ds => rw [hf] at h; exact ⟨ds, hf, h⟩

theorem at_unique {files : List (List Decl)} {a b : Nat} {d d' : Decl} (h : At files a b d) (h' : At files a b d') : d = d' := by
  obtain ⟨ds, h1, h2⟩ := h
  obtain ⟨ds', h1', h2'⟩ := h'
  rw [h1] at h1'; simp only [Option.some.injEq] at h1'; subst h1'
  rw [h2] at h2'; simpa using h2'

theorem at_put {files : List (List Decl)} {k : Kind} {ids : List Nat} {mk : Bool} {a n a' b : Nat} {d' : Decl}
    (h : At (files.modify a (putPoints k ids mk n)) a' b d') :
    (a' = a ∧ b = n ∧ ∃ d, At files a n d ∧ d' = upd k ids mk d) ∨ (¬ (a' = a ∧ b = n) ∧ At files a' b d') := by
  obtain ⟨ds, h1, h2⟩ := h
  rw [List.getElem?_modify] at h1
  cases hf : files[a']? with
  | none => rw [hf] at h1; simp at h1
  | some ds0 =>
    rw [hf] at h1
    simp only [Option.map_eq_map, Option.map_some, Option.some.injEq] at h1
    by_cases ha : a = a'
    · rw [if_pos ha] at h1
      subst ha
      subst h1
      unfold putPoints at h2
      rw [List.getElem?_modify] at h2
      cases hd : ds0[b]? with
      | none => rw [hd] at h2; simp at h2
      | some d =>
        rw [hd] at h2
        simp only [Option.map_eq_map, Option.map_some, Option.some.injEq] at h2
        by_cases hb : n = b
        · rw [if_pos hb] at h2
          subst hb
          exact Or.inl ⟨rfl, rfl, d, ⟨ds0, hf, hd⟩, h2.symm⟩
        · rw [if_neg hb] at h2
          subst h2
          exact Or.inr ⟨fun hc => hb hc.2.symm, ds0, hf, hd⟩
    · rw [if_neg ha] at h1
      subst h1
      exact Or.inr ⟨fun hc => ha hc.1.symm, ds0, hf, h2⟩

/-- What a declaration keeps. -/
structure Le (d d' : Decl) : Prop where
  same : SameDecl d d'
  marked : d.marked = true → d'.marked = true ∧ count .state d' = count .state d
  entry : count .entry d ≤ count .entry d'
  panic : count .panic d ≤ count .panic d'

theorem le_refl (d : Decl) : Le d d := ⟨⟨rfl, rfl, rfl⟩, fun h => ⟨h, rfl⟩, le_rfl, le_rfl⟩

theorem count_upd (k k' : Kind) (ids : List Nat) (mk : Bool) (d : Decl) :
    count k' (upd k ids mk d) = count k' d + if k = k' then ids.length else 0 := by
  unfold count upd
  rw [List.countP_append, List.countP_map]
  congr 1
  by_cases h : k = k'
  · subst h
    rw [if_pos rfl, List.countP_eq_length]
    intro i _; simp
  · rw [if_neg h, List.countP_eq_zero]
    intro i _; simp [h]

theorem le_upd (k : Kind) (ids : List Nat) (mk : Bool) (d : Decl) (h : k = .state → d.marked = false) : Le d (upd k ids mk d) := by
  refine ⟨⟨rfl, rfl, rfl⟩, fun hm => ⟨by simp [upd, hm], ?_⟩, ?_, ?_⟩
  · rw [count_upd, if_neg]
    · rfl
    · intro hk; rw [h hk] at hm; simp at hm
  · rw [count_upd]; omega
  · rw [count_upd]; omega

theorem watched_le {m : Bool} {f : Fn} {d d' : Decl} (hl : Le d d') (hv : d.marked = false → count .state d = 0) (h : Watched m f d) : Watched m f d' := by
  unfold Watched at *
  by_cases hm : m = true
  · rw [if_pos hm] at *
    exact ⟨le_trans h.1 hl.entry, fun hr => le_trans (h.2 hr) hl.panic⟩
  · rw [if_neg hm] at *
    intro hr
    obtain ⟨h1, h2⟩ := h hr
    have hk : d.marked = true := by
      by_contra hc
      have := hv (by simpa using hc)
      omega
    refine ⟨?_, le_trans h2 hl.panic⟩
    rw [(hl.marked hk).2, hl.same.2.2]
    exact h1

/-- What stays of the workers. -/
structure Keep (files0 : List (List Decl)) (ws : List Worker) (s : St) : Prop where
  from0 : ∀ (j : Nat) (x : Worker), s.workers[j]? = some x → ∃ x0 : Worker, ws[j]? = some x0 ∧ x.file = x0.file ∧ x.modul = x0.modul ∧ ∃ pre, x0.todo = pre ++ x.todo
  head : ∀ (j : Nat) (x : Worker), s.workers[j]? = some x → x.again = true → ∃ f rest, x.todo = f :: rest ∧ f.retPanic = false
  asked : ∀ a b d, At s.files a b d → ∀ p ∈ d.points, d.hasBody = true ∧ Asked ws a d.ident p.1
  same : ∀ a b d, At s.files a b d → ∃ d0, At files0 a b d0 ∧ SameDecl d0 d
  len : s.workers.length = ws.length

theorem get_set_cases {ws : List Worker} {w j : Nat} {y z : Worker} (h : (ws.set w y)[j]? = some z) : (j = w ∧ z = y) ∨ (j ≠ w ∧ ws[j]? = some z) := by
  rw [List.getElem?_set] at h
  by_cases hj : w = j
  · rw [if_pos hj] at h
    split at h
    · simp only [Option.some.injEq] at h
      exact Or.inl ⟨hj.symm, h.symm⟩
    · simp at h
  · rw [if_neg hj] at h
    exact Or.inr ⟨fun hc => hj hc.symm, h⟩

theorem get_abort {s : St} {w j : Nat} {z : Worker} (h : (abort s w).workers[j]? = some z) : ∃ x, s.workers[j]? = some x ∧ z = { x with done := z.done } := by
  simp only [abort] at h
  rw [List.getElem?_modify] at h
  cases hx : s.workers[j]? with
  | none => rw [hx] at h; simp at h
  | some x =>
    rw [hx] at h
    simp only [Option.map_eq_map, Option.map_some, Option.some.injEq] at h
    refine ⟨x, rfl, ?_⟩
    by_cases hj : w = j
    · rw [if_pos hj] at h; subst h; rfl
    · rw [if_neg hj] at h; subst h; rfl

theorem nextW_todo (x : Worker) (f : Fn) (rest : List Fn) (l : List Nat) :
    ((nextW x f rest l).todo = x.todo ∨ (nextW x f rest l).todo = rest) := by
  unfold nextW
  split
  · exact Or.inr rfl
  · split
    · exact Or.inr rfl
    · exact Or.inl rfl

theorem nextW_again (x : Worker) (f : Fn) (rest : List Fn) (l : List Nat) :
    ((nextW x f rest l).again = true ∧ x.again = false ∧ (nextW x f rest l).todo = x.todo ∧ (x.modul = true → f.retPanic = false)) ∨
    ((nextW x f rest l).again = false ∧ (nextW x f rest l).todo = rest ∧ (x.again = true ∨ x.again = false ∧ x.modul = true ∧ f.retPanic = true)) := by
  unfold nextW
  by_cases ha : x.again = true
  · simp [ha]
  · by_cases hm : x.modul = true ∧ f.retPanic = true
    · simp [ha, hm]
    · refine Or.inl ?_
      simp [ha, hm]
      intro h
      by_contra hc
      exact hm ⟨h, by simpa using hc⟩

theorem merged_workers (s : St) (w : Nat) (x : Worker) : (merged s w x).workers = s.workers.set w { x with done := true } ∧
    (merged s w x).files = s.files ∧ (merged s w x).failed = s.failed := by
  unfold merged; split <;> exact ⟨rfl, rfl, rfl⟩

theorem kindOf_state {x : Worker} (h : kindOf x = .state) : x.again = false ∧ x.modul = false := by
  unfold kindOf at h
  by_cases ha : x.again = true
  · simp [ha] at h
  · by_cases hm : x.modul = true
    · simp [ha, hm] at h
    · simp [ha, hm]

theorem kindOf_entry {x : Worker} (h : kindOf x = .entry) : x.again = false ∧ x.modul = true := by
  unfold kindOf at h
  by_cases ha : x.again = true
  · simp [ha] at h
  · by_cases hm : x.modul = true
    · simp [ha, hm]
    · simp [ha, hm] at h

theorem kindOf_panic {x : Worker} (h : kindOf x = .panic) : x.again = true := by
  unfold kindOf at h
  by_cases ha : x.again = true
  · exact ha
  · by_cases hm : x.modul = true <;> simp [ha, hm] at h

theorem keep_step {files0 : List (List Decl)} {ws : List Worker} {s s' : St} (hk : Keep files0 ws s) {w : Nat} {ids : Option (List Nat)}
    (h : step s w ids = some s') : Keep files0 ws s' := by
  obtain ⟨x, hw, hd, hc⟩ := step_cases h
  rcases hc with rfl | ⟨ht, rfl⟩ | ⟨f, rest, ht, -, ⟨rfl, -⟩ | ⟨hst, n, c, l, hl, hf, rfl⟩⟩
  · refine ⟨?_, ?_, hk.asked, hk.same, by simp [abort, hk.len]⟩
    · intro j z hz
      obtain ⟨x1, h1, h2⟩ := get_abort hz
      rw [h2]; exact hk.from0 j x1 h1
    · intro j z hz
      obtain ⟨x1, h1, h2⟩ := get_abort hz
      rw [h2]; exact hk.head j x1 h1
  · obtain ⟨m1, m2, -⟩ := merged_workers s w x
    refine ⟨?_, ?_, by rw [m2]; exact hk.asked, by rw [m2]; exact hk.same, by rw [m1]; simp [hk.len]⟩
    · intro j z hz
      rw [m1] at hz
      rcases get_set_cases hz with ⟨rfl, rfl⟩ | ⟨-, hz⟩
      · exact hk.from0 j x hw
      · exact hk.from0 j z hz
    · intro j z hz
      rw [m1] at hz
      rcases get_set_cases hz with ⟨rfl, rfl⟩ | ⟨-, hz⟩
      · exact hk.head j x hw
      · exact hk.head j z hz
  · refine ⟨?_, ?_, hk.asked, hk.same, by simp [hk.len]⟩
    · intro j z hz
      rcases get_set_cases hz with ⟨rfl, rfl⟩ | ⟨-, hz⟩
      · obtain ⟨x0, h1, h2, h3, pre, h4⟩ := hk.from0 j x hw
        exact ⟨x0, h1, h2, h3, pre ++ [f], by rw [h4, ht]; simp⟩
      · exact hk.from0 j z hz
    · intro j z hz ha
      rcases get_set_cases hz with ⟨rfl, rfl⟩ | ⟨-, hz⟩
      · simp at ha
      · exact hk.head j z hz ha
  · obtain ⟨d, h1, h2, h3, h4, h5⟩ := look_put hl
    obtain ⟨nf1, nf2, nf3⟩ := nextW_fields x f rest l
    obtain ⟨x0, z1, z2, z3, pre, z4⟩ := hk.from0 w x hw
    have hret : kindOf x = .panic → f.retPanic = false := by
      intro hkk
      obtain ⟨f', rest', e1, e2⟩ := hk.head w x hw (kindOf_panic hkk)
      rw [ht] at e1
      simp only [List.cons.injEq] at e1
      rw [e1.1]; exact e2
    refine ⟨?_, ?_, ?_, ?_, by simp [hk.len]⟩
    · intro j z hz
      rcases get_set_cases hz with ⟨rfl, rfl⟩ | ⟨-, hz⟩
      · refine ⟨x0, z1, by rw [nf2]; exact z2, by rw [nf3]; exact z3, ?_⟩
        rcases nextW_todo x f rest l with e | e
        · rw [e]; exact ⟨pre, z4⟩
        · rw [e]; exact ⟨pre ++ [f], by rw [z4, ht]; simp⟩
      · exact hk.from0 j z hz
    · intro j z hz ha
      rcases get_set_cases hz with ⟨rfl, rfl⟩ | ⟨-, hz⟩
      · rcases nextW_again x f rest l with ⟨-, e2, e3, e4⟩ | ⟨e1, -⟩
        · refine ⟨f, rest, by rw [e3, ht], ?_⟩
          by_cases hm : x.modul = true
          · exact e4 hm
          · exact hst (by simp [kindOf, e2, hm])
        · rw [e1] at ha; simp at ha
      · exact hk.head j z hz ha
    · intro a b d' hd' p hp
      rcases at_put hd' with ⟨rfl, rfl, d1, q1, rfl⟩ | ⟨-, q⟩
      · have := at_unique q1 (at_getD h1)
        subst this
        simp only [upd, List.mem_append, List.mem_map] at hp
        rcases hp with hp | ⟨i, -, rfl⟩
        · exact hk.asked _ _ _ q1 p hp
        · refine ⟨h3, x0, List.mem_of_getElem? z1, z2.symm, f, ?_, h2.symm, ?_⟩
          · rw [z4, ht]; simp
          · cases hkk : kindOf x with
            | state => exact ⟨by rw [← z3]; exact (kindOf_state hkk).2, hst hkk⟩
            | entry => show x0.modul = true; rw [← z3]; exact (kindOf_entry hkk).2
            | panic => exact hret hkk
      · exact hk.asked _ _ _ q p hp
    · intro a b d' hd'
      rcases at_put hd' with ⟨rfl, rfl, d1, q1, rfl⟩ | ⟨-, q⟩
      · exact hk.same _ _ d1 q1
      · exact hk.same _ _ _ q

theorem keep_run {files0 : List (List Decl)} {ws : List Worker} {s s' : St} (hi : Keep files0 ws s) {sch : List (Nat × Option (List Nat))}
    (h : runSched s sch = some s') : Keep files0 ws s' := by
  induction sch generalizing s with
  | nil => simp only [runSched, Option.some.injEq] at h; exact h ▸ hi
  | cons e sch ih =>
    obtain ⟨w, ids⟩ := e
    simp only [runSched] at h
    cases hs : step s w ids with
    | none => rw [hs] at h; simp at h
    | some s1 => rw [hs] at h; exact ih (keep_step hi hs) h

theorem at_mem {files : List (List Decl)} {a b : Nat} {d : Decl} (h : At files a b d) : ∃ ds ∈ files, d ∈ ds := by
  obtain ⟨ds, h1, h2⟩ := h
  exact ⟨ds, List.mem_of_getElem? h1, List.mem_of_getElem? h2⟩

theorem keep_start {files : List (List Decl)} {used : List Nat} {ws : List Worker} (hc : Clean files) (hb : Begin ws) : Keep files ws (start files used ws) := by
  refine ⟨fun j x hx => ⟨x, hx, rfl, rfl, [], rfl⟩, ?_, ?_, fun a b d h => ⟨d, h, rfl, rfl, rfl⟩, rfl⟩
  · intro j x hx ha
    obtain ⟨m, a, l, rfl⟩ := hb x (List.mem_of_getElem? hx)
    simp [worker] at ha
  · intro a b d h p hp
    obtain ⟨ds, h1, h2⟩ := at_mem h
    rw [(hc ds h1 d h2).1] at hp
    simp at hp

/-- What the files say about the functions dealt with. -/
structure Serve (ws : List Worker) (s : St) : Prop where
  marked : ∀ a b d, At s.files a b d → (d.marked = true → count .state d = max 1 d.returns) ∧ (d.marked = false → count .state d = 0)
  panics : ∀ a b d, At s.files a b d → d.marked = true → 1 ≤ count .panic d ∨
    ∃ (j : Nat) (x : Worker), s.workers[j]? = some x ∧ x.file = a ∧ x.modul = false ∧ x.again = true ∧ ∃ f rest, x.todo = f :: rest ∧ f.ident = d.ident
  served : ∀ (j : Nat) (x x0 : Worker), s.workers[j]? = some x → ws[j]? = some x0 → ∀ f ∈ x0.todo, f ∈ x.todo ∨
    ∀ b d, At s.files x.file b d → d.ident = f.ident → d.hasBody = true → Watched x.modul f d
  half : ∀ (j : Nat) (x : Worker), s.workers[j]? = some x → x.again = true → ∀ f rest, x.todo = f :: rest →
    ∀ b d, At s.files x.file b d → d.ident = f.ident → d.hasBody = true ∧ (x.modul = true → 1 ≤ count .entry d) ∧ (x.modul = false → d.marked = true)

/-- One declaration for an identifier in a file. -/
def One (files : List (List Decl)) : Prop := ∀ a b b' d d', At files a b d → At files a b' d' → d.ident = d'.ident → b = b'

theorem one_of_distinct {files0 : List (List Decl)} {ws : List Worker} {s : St} (hk : Keep files0 ws s) (h : Distinct files0) : One s.files := by
  intro a b b' d d' h1 h2 he
  obtain ⟨d0, q1, r1⟩ := hk.same _ _ _ h1
  obtain ⟨d0', q2, r2⟩ := hk.same _ _ _ h2
  obtain ⟨ds, u1, u2⟩ := q1
  obtain ⟨ds', v1, v2⟩ := q2
  rw [u1] at v1; simp only [Option.some.injEq] at v1; subst v1
  have hn := h ds (List.mem_of_getElem? u1)
  have e1 : (ds.map Decl.ident)[b]? = some d.ident := by rw [List.getElem?_map, u2, Option.map_some, r1.1]
  have e2 : (ds.map Decl.ident)[b']? = some d.ident := by rw [List.getElem?_map, v2, Option.map_some, ← r2.1, he]
  obtain ⟨l1, g1⟩ := List.getElem?_eq_some_iff.mp e1
  obtain ⟨l2, g2⟩ := List.getElem?_eq_some_iff.mp e2
  exact (List.Nodup.getElem_inj_iff hn).mp (g1.trans g2.symm)

theorem serve_step {files0 : List (List Decl)} {ws : List Worker} {s s' : St} (hk : Keep files0 ws s) (ho : One s.files) (hown : OwnFile ws)
    (hv : Serve ws s) {w : Nat} {ids : Option (List Nat)} (h : step s w ids = some s') (hfl : s'.failed = false) : Serve ws s' := by
  obtain ⟨x, hw, hd, hc⟩ := step_cases h
  rcases hc with rfl | ⟨ht, rfl⟩ | ⟨f, rest, ht, -, ⟨rfl, hwhy⟩ | ⟨hst, n, c, l, hl, hf, rfl⟩⟩
  · simp [abort] at hfl
  · obtain ⟨m1, m2, -⟩ := merged_workers s w x
    have hag : x.again = false := by
      by_contra hc
      obtain ⟨f, rest, e, -⟩ := hk.head w x hw (by simpa using hc)
      rw [ht] at e; simp at e
    refine ⟨by rw [m2]; exact hv.marked, ?_, ?_, ?_⟩
    · intro a b d hd' hm
      rw [m2] at hd'
      rcases hv.panics a b d hd' hm with q | ⟨j, z, z1, z2, z3, z4, z5⟩
      · exact Or.inl q
      · refine Or.inr ⟨j, z, ?_, z2, z3, z4, z5⟩
        have hj : w ≠ j := by
          rintro rfl
          rw [hw] at z1; simp only [Option.some.injEq] at z1; subst z1
          rw [hag] at z4; simp at z4
        rw [m1, List.getElem?_set, if_neg hj]; exact z1
    · intro j z x0 hz h0
      rw [m1] at hz
      rw [m2]
      rcases get_set_cases hz with ⟨rfl, rfl⟩ | ⟨-, hz⟩
      · exact hv.served j x x0 hw h0
      · exact hv.served j z x0 hz h0
    · intro j z hz
      rw [m1] at hz
      rw [m2]
      rcases get_set_cases hz with ⟨rfl, rfl⟩ | ⟨-, hz⟩
      · exact hv.half j x hw
      · exact hv.half j z hz
  · -- skipped
    have hag : x.again = false := by
      by_contra hc
      have hag : x.again = true := by simpa using hc
      rcases hwhy with ⟨q, -⟩ | q
      · rw [(kindOf_state q).1] at hag; simp at hag
      · obtain ⟨n, d, n1, n2, n3⟩ := look_skip q
        have := (hv.half w x hw hag f rest ht n d (at_getD n1) n2).1
        rcases n3 with n3 | ⟨n3, -⟩
        · rw [n3] at this; simp at this
        · rw [(kindOf_state n3).1] at hag; simp at hag
    refine ⟨hv.marked, ?_, ?_, ?_⟩
    · intro a b d hd' hm
      rcases hv.panics a b d hd' hm with q | ⟨j, z, z1, z2, z3, z4, z5⟩
      · exact Or.inl q
      · refine Or.inr ⟨j, z, ?_, z2, z3, z4, z5⟩
        have hj : w ≠ j := by
          rintro rfl
          rw [hw] at z1; simp only [Option.some.injEq] at z1; subst z1
          rw [hag] at z4; simp at z4
        show (s.workers.set w _)[j]? = some z
        rw [List.getElem?_set, if_neg hj]; exact z1
    · intro j z x0 hz h0 g hg
      rcases get_set_cases hz with ⟨rfl, rfl⟩ | ⟨-, hz⟩
      · rcases hv.served j x x0 hw h0 g hg with q | q
        · rw [ht] at q
          rcases List.mem_cons.mp q with rfl | q
          · refine Or.inr fun b d hat hid hbody => ?_
            rcases hwhy with ⟨q1, q2⟩ | q1
            · show Watched x.modul g d
              unfold Watched
              rw [if_neg (by simp [(kindOf_state q1).2])]
              intro hr; rw [q2] at hr; simp at hr
            · obtain ⟨n, d1, n1, n2, n3⟩ := look_skip q1
              have hn := at_getD n1
              have hb := ho _ _ _ _ _ hat hn (hid.trans n2.symm)
              subst hb
              have := at_unique hat hn
              subst this
              rcases n3 with n3 | ⟨n3, n4⟩
              · rw [n3] at hbody; simp at hbody
              · show Watched x.modul g d
                unfold Watched
                rw [if_neg (by simp [(kindOf_state n3).2])]
                intro _
                refine ⟨(hv.marked _ _ _ hn).1 n4, ?_⟩
                rcases hv.panics _ _ _ hn n4 with q | ⟨j', z, z1, z2, z3, z4, z5⟩
                · exact q
                · exfalso
                  obtain ⟨y0, y1, y2, y3, -⟩ := hk.from0 j' z z1
                  obtain ⟨x1, w1, w2, w3, -⟩ := hk.from0 j x hw
                  have := hown j' j y0 x1 y1 w1 (by rw [← y3]; exact z3) (by rw [← w3]; exact (kindOf_state n3).2) (by rw [← y2, ← w2]; exact z2)
                  subst this
                  rw [hw] at z1; simp only [Option.some.injEq] at z1; subst z1
                  rw [hag] at z4; simp at z4
          · exact Or.inl q
        · exact Or.inr q
      · exact hv.served j z x0 hz h0 g hg
    · intro j z hz ha
      rcases get_set_cases hz with ⟨rfl, rfl⟩ | ⟨-, hz⟩
      · simp at ha
      · exact hv.half j z hz ha
  · -- points
    obtain ⟨d0, h1, h2, h3, h4, h5⟩ := look_put hl
    have hat0 := at_getD h1
    obtain ⟨nf1, nf2, nf3⟩ := nextW_fields x f rest l
    have hlen : l.length = c := by
      simp only [freshIds, Bool.and_eq_true, beq_iff_eq] at hf
      exact hf.1.1
    have hle0 : Le d0 (upd (kindOf x) l (kindOf x == .state) d0) := le_upd _ _ _ _ fun hkk => (h4 hkk).1
    -- every declaration comes from one before
    have hback : ∀ a b d', At (s.files.modify x.file (putPoints (kindOf x) l (kindOf x == .state) n)) a b d' →
        ∃ d, At s.files a b d ∧ Le d d' ∧ ((a = x.file ∧ b = n ∧ d = d0 ∧ d' = upd (kindOf x) l (kindOf x == .state) d0) ∨ (¬ (a = x.file ∧ b = n) ∧ d' = d)) := by
      intro a b d' hd'
      rcases at_put hd' with ⟨rfl, rfl, d1, q1, rfl⟩ | ⟨q0, q⟩
      · have := at_unique q1 hat0
        subst this
        exact ⟨d1, q1, hle0, Or.inl ⟨rfl, rfl, rfl, rfl⟩⟩
      · exact ⟨d', q, le_refl d', Or.inr ⟨q0, rfl⟩⟩
    -- the one meant
    have hmine : ∀ b d', At (s.files.modify x.file (putPoints (kindOf x) l (kindOf x == .state) n)) x.file b d' → d'.ident = f.ident →
        d' = upd (kindOf x) l (kindOf x == .state) d0 := by
      intro b d' hd' hid
      obtain ⟨d, q1, q2, q3⟩ := hback _ _ _ hd'
      rcases q3 with ⟨-, -, -, e⟩ | ⟨q3, rfl⟩
      · exact e
      · exact absurd ⟨rfl, ho _ _ _ _ _ q1 hat0 (hid.trans h2.symm)⟩ q3
    have hcount : 1 ≤ count (kindOf x) (upd (kindOf x) l (kindOf x == .state) d0) := by
      rw [count_upd, if_pos rfl, hlen]
      by_cases hkk : kindOf x = .state
      · rw [(h4 hkk).2]; unfold statePoints; split <;> omega
      · rw [h5 hkk]; omega
    have hpan : x.again = true → kindOf x = .panic := by intro ha; simp [kindOf, ha]
    refine ⟨?_, ?_, ?_, ?_⟩
    · intro a b d' hd'
      obtain ⟨d, q1, q2, q3⟩ := hback _ _ _ hd'
      have := hv.marked a b d q1
      rcases q3 with ⟨-, -, rfl, rfl⟩ | ⟨-, rfl⟩
      · by_cases hkk : kindOf x = .state
        · refine ⟨fun _ => ?_, fun hm => ?_⟩
          · rw [count_upd, if_pos hkk, this.2 (h4 hkk).1, hlen, (h4 hkk).2]
            show 0 + statePoints d = max 1 d.returns
            unfold statePoints
            split <;> omega
          · simp [upd, hkk] at hm
        · have hc0 : count .state (upd (kindOf x) l (kindOf x == .state) d) = count .state d := by
            rw [count_upd, if_neg hkk]; rfl
          have hm0 : (upd (kindOf x) l (kindOf x == .state) d).marked = d.marked := by simp [upd, hkk]
          rw [hc0, hm0]
          exact this
      · exact this
    · intro a b d' hd' hm
      obtain ⟨d, q1, q2, q3⟩ := hback _ _ _ hd'
      rcases q3 with ⟨rfl, rfl, rfl, rfl⟩ | ⟨q3, rfl⟩
      · cases hkk : kindOf x with
        | panic => rw [hkk] at hcount; exact Or.inl hcount
        | state =>
          refine Or.inr ⟨w, nextW x f rest l, ?_, nf2, nf3.trans (kindOf_state hkk).2, ?_⟩
          · show (s.workers.set w _)[w]? = _
            rw [List.getElem?_set, if_pos rfl, if_pos (List.getElem?_eq_some_iff.mp hw).1]
          · rcases nextW_again x f rest l with ⟨e1, -, e3, -⟩ | ⟨-, -, e3⟩
            · exact ⟨e1, f, rest, by rw [e3, ht], h2.symm⟩
            · have := kindOf_state hkk
              rw [this.1, this.2] at e3
              simp at e3
        | entry =>
          have hm0 : d.marked = true := by simpa [upd, hkk] using hm
          rcases hv.panics _ _ _ q1 hm0 with q | ⟨j, z, z1, z2, z3, z4, z5⟩
          · left; rw [hkk] at q2; exact le_trans q q2.panic
          · refine Or.inr ⟨j, z, ?_, z2, z3, z4, z5⟩
            have hj : w ≠ j := by
              rintro rfl
              rw [hw] at z1; simp only [Option.some.injEq] at z1; subst z1
              rw [(kindOf_entry hkk).1] at z4; simp at z4
            show (s.workers.set w _)[j]? = some z
            rw [List.getElem?_set, if_neg hj]; exact z1
      · rcases hv.panics _ _ _ q1 hm with q | ⟨j, z, z1, z2, z3, z4, fz, rz, z5, z6⟩
        · exact Or.inl q
        · refine Or.inr ⟨j, z, ?_, z2, z3, z4, fz, rz, z5, z6⟩
          have hj : w ≠ j := by
            rintro rfl
            rw [hw] at z1; simp only [Option.some.injEq] at z1; subst z1
            rw [ht] at z5
            simp only [List.cons.injEq] at z5
            subst z2
            exact q3 ⟨rfl, ho _ _ _ _ _ q1 hat0 (by rw [h2, z5.1, z6])⟩
          show (s.workers.set w _)[j]? = some z
          rw [List.getElem?_set, if_neg hj]; exact z1
    · -- served
      have hmono : ∀ (j : Nat) (z x0 : Worker), s.workers[j]? = some z → ws[j]? = some x0 → ∀ g ∈ x0.todo, g ∈ z.todo ∨
          ∀ b d, At (s.files.modify x.file (putPoints (kindOf x) l (kindOf x == .state) n)) z.file b d → d.ident = g.ident → d.hasBody = true → Watched z.modul g d := by
        intro j z x0 hz h0 g hg
        rcases hv.served j z x0 hz h0 g hg with q | q
        · exact Or.inl q
        · refine Or.inr fun b d' hd' hid hbody => ?_
          obtain ⟨d, q1, q2, -⟩ := hback _ _ _ hd'
          exact watched_le q2 (hv.marked _ _ _ q1).2 (q b d q1 (by rw [← q2.same.1]; exact hid) (by rw [← q2.same.2.1]; exact hbody))
      intro j z x0 hz h0 g hg
      rcases get_set_cases hz with ⟨rfl, rfl⟩ | ⟨-, hz⟩
      · rcases hmono j x x0 hw h0 g hg with q | q
        · rcases nextW_again x f rest l with ⟨-, -, e3, -⟩ | ⟨-, e2, e3⟩
          · left; rw [e3]; exact q
          · rw [ht] at q
            rcases List.mem_cons.mp q with rfl | q
            · refine Or.inr fun b d' hd' hid hbody => ?_
              rw [nf2] at hd'
              rw [nf3]
              have hmd := hmine b d' hd' hid
              obtain ⟨d, q1, q2, -⟩ := hback _ _ _ hd'
              have hdd : d = d0 := by
                have hb := ho _ _ _ _ _ q1 hat0 (by rw [h2, ← hid, q2.same.1])
                subst hb
                exact at_unique q1 hat0
              subst hdd
              rw [hmd] at q2 ⊢
              rcases e3 with e3 | ⟨e3, e4, e5⟩
              · have hkk := hpan e3
                have hhalf := hv.half j x hw e3 g rest ht _ _ q1 h2
                rw [hkk] at hcount
                unfold Watched
                by_cases hm : x.modul = true
                · rw [if_pos hm]
                  exact ⟨le_trans (hhalf.2.1 hm) q2.entry, fun _ => by rw [hkk]; exact hcount⟩
                · rw [if_neg hm]
                  intro _
                  have hmk := hhalf.2.2 (by simpa using hm)
                  refine ⟨?_, by rw [hkk]; exact hcount⟩
                  rw [(q2.marked hmk).2, (hv.marked _ _ _ q1).1 hmk]
                  rfl
              · have hkk : kindOf x = .entry := by simp [kindOf, e3, e4]
                unfold Watched
                rw [if_pos e4]
                refine ⟨?_, fun hr => by rw [e5] at hr; simp at hr⟩
                rw [hkk] at hcount ⊢; exact hcount
            · left; rw [e2]; exact q
        · right
          rw [nf2, nf3]
          exact q
      · exact hmono j z x0 hz h0 g hg
    · intro j z hz ha g rst hzt b d' hd' hid
      rcases get_set_cases hz with ⟨rfl, rfl⟩ | ⟨-, hz⟩
      · rcases nextW_again x f rest l with ⟨e1, e2, e3, e4⟩ | ⟨e1, -⟩
        · rw [nf2] at hd'
          rw [nf3]
          rw [e3, ht] at hzt
          simp only [List.cons.injEq] at hzt
          rw [← hzt.1] at hid
          rw [hmine b d' hd' hid]
          refine ⟨h3, fun hm => ?_, fun hm => ?_⟩
          · have hkk : kindOf x = .entry := by simp [kindOf, e2, hm]
            rw [hkk] at hcount ⊢; exact hcount
          · have hkk : kindOf x = .state := by simp [kindOf, e2, hm]
            simp [upd, hkk]
        · rw [e1] at ha; simp at ha
      · obtain ⟨d, q1, q2, -⟩ := hback _ _ _ hd'
        obtain ⟨r1, r2, r3⟩ := hv.half j z hz ha g rst hzt b d q1 (by rw [← q2.same.1]; exact hid)
        exact ⟨by rw [q2.same.2.1]; exact r1, fun hm => le_trans (r2 hm) q2.entry, fun hm => (q2.marked (r3 hm)).1⟩

theorem failed_step {s s' : St} {w : Nat} {ids : Option (List Nat)} (h : step s w ids = some s') (hf : s'.failed = false) : s.failed = false := by
  obtain ⟨x, hw, hd, hc⟩ := step_cases h
  rcases hc with rfl | ⟨ht, rfl⟩ | ⟨f, rest, ht, -, ⟨rfl, -⟩ | ⟨hst, n, c, l, hl, hfr, rfl⟩⟩
  · simp [abort] at hf
  · rw [(merged_workers s w x).2.2] at hf; exact hf
  · exact hf
  · exact hf

theorem failed_run {s s' : St} {sch : List (Nat × Option (List Nat))} (h : runSched s sch = some s') (hf : s'.failed = false) : s.failed = false := by
  induction sch generalizing s with
  | nil => simp only [runSched, Option.some.injEq] at h; exact h ▸ hf
  | cons e sch ih =>
    obtain ⟨w, ids⟩ := e
    simp only [runSched] at h
    cases hs : step s w ids with
    | none => rw [hs] at h; simp at h
    | some s1 => rw [hs] at h; exact failed_step hs (ih h)

theorem serve_run {files0 : List (List Decl)} {ws : List Worker} {s s' : St} (hdis : Distinct files0) (hown : OwnFile ws) (hk : Keep files0 ws s)
    (hv : Serve ws s) {sch : List (Nat × Option (List Nat))} (h : runSched s sch = some s') (hf : s'.failed = false) : Serve ws s' := by
  induction sch generalizing s with
  | nil => simp only [runSched, Option.some.injEq] at h; exact h ▸ hv
  | cons e sch ih =>
    obtain ⟨w, ids⟩ := e
    simp only [runSched] at h
    cases hs : step s w ids with
    | none => rw [hs] at h; simp at h
    | some s1 =>
      rw [hs] at h
      exact ih (keep_step hk hs) (serve_step hk (one_of_distinct hk hdis) hown hv hs (failed_run h hf)) h

theorem serve_start {files : List (List Decl)} {used : List Nat} {ws : List Worker} (hc : Clean files) (hb : Begin ws) : Serve ws (start files used ws) := by
  refine ⟨?_, ?_, ?_, ?_⟩
  · intro a b d h
    obtain ⟨ds, h1, h2⟩ := at_mem h
    obtain ⟨c1, c2⟩ := hc ds h1 d h2
    refine ⟨fun hm => by rw [c2] at hm; simp at hm, fun _ => by simp [count, c1]⟩
  · intro a b d h hm
    obtain ⟨ds, h1, h2⟩ := at_mem h
    rw [(hc ds h1 d h2).2] at hm; simp at hm
  · intro j x x0 hx h0 f hf
    have : x = x0 := by
      have : ws[j]? = some x := hx
      rw [this] at h0; simpa using h0
    subst this
    exact Or.inl hf
  · intro j x hx ha
    obtain ⟨m, a, l, rfl⟩ := hb x (List.mem_of_getElem? hx)
    simp [worker] at ha

end Verif.Funcs
