import Verif.Funcs.MoreLemmas
import Verif.Funcs.ChangeLemmas

/-! Properties C95–C97. -/

namespace Verif.Funcs
open Verif

/-! ### C95 -/

/-- Every function asked for that has a body gets its points, if identifiers are distinct in each file: however the workers take turns, when all are
done and none has failed, a function of the project has a point at each return and one for panics, a function of a module one at its entry and one
for panics. Missing: files with several functions of the same name (`init`, `_`), see below. -/
theorem C95_watched_partial (files : List (List Decl)) (used : List Nat) (ws : List Worker) (sch : List (Nat × Option (List Nat))) (s : St)
    (hc : Clean files) (hb : Begin ws) (hdis : Distinct files) (hown : OwnFile ws) (h : runSched (start files used ws) sch = some s) (hf : Finished s) :
    ∀ w ∈ ws, ∀ f ∈ w.todo, ∀ ds, s.files[w.file]? = some ds → ∀ d ∈ ds, d.ident = f.ident → d.hasBody = true → Watched w.modul f d := by
  intro w hw f hfw ds hds d hd hid hbody
  have hv := serve_run hdis hown (keep_start hc hb) (serve_start hc hb) h hf.1
  have hk := keep_run (keep_start hc hb) h
  obtain ⟨j, hj⟩ := List.mem_iff_getElem?.mp hw
  have hlt : j < s.workers.length := by rw [hk.len]; exact (List.getElem?_eq_some_iff.mp hj).1
  have hx := List.getElem?_eq_getElem hlt
  obtain ⟨x0, e1, e2, e3, pre, e4⟩ := hk.from0 j _ hx
  rw [hj] at e1; simp only [Option.some.injEq] at e1; subst e1
  obtain ⟨b, hb'⟩ := List.mem_iff_getElem?.mp hd
  have hdone := hf.2 _ (List.mem_of_getElem? hx)
  have hat : At s.files (s.workers[j]).file b d := ⟨ds, by rw [e2]; exact hds, hb'⟩
  rcases hv.served j _ w hx hj f hfw with q | q
  · exact absurd q (by rw [done_todo h hb hf hx]; simp)
  · rw [← e3]; exact q b d hat hid hbody

/-- Nothing else happens to the files: the declarations are the same, in the same order, and only functions with a body that were asked for have
points, only of the kinds asked for: none for panics or return states in a function that only panics. -/
theorem C95_only (files : List (List Decl)) (used : List Nat) (ws : List Worker) (sch : List (Nat × Option (List Nat))) (s : St)
    (hc : Clean files) (hb : Begin ws) (h : runSched (start files used ws) sch = some s) :
    List.Forall₂ (List.Forall₂ SameDecl) files s.files ∧
    ∀ a ds, s.files[a]? = some ds → ∀ d ∈ ds, ∀ p ∈ d.points, d.hasBody = true ∧ Asked ws a d.ident p.1 := by
  refine ⟨same_run h, ?_⟩
  intro a ds hds d hd p hp
  obtain ⟨b, hb'⟩ := List.mem_iff_getElem?.mp hd
  exact (keep_run (keep_start hc hb) h).asked a b d ⟨ds, hds, hb'⟩ p hp

/-- Two functions `init` in a file, both asked for: all points go into the second, and the second request finds it marked. The first is not watched. -/
theorem C95_init_violated : ∃ (files : List (List Decl)) (ws : List Worker) (sch : List (Nat × Option (List Nat))) (s : St) (d : Decl),
    Clean files ∧ Begin ws ∧ OwnFile ws ∧ runSched (start files [] ws) sch = some s ∧ Finished s ∧
    (s.files[0]?.bind (·[0]?)) = some d ∧ d.hasBody = true ∧ (∃ w ∈ ws, w.file = 0 ∧ w.modul = false ∧ ⟨d.ident, false⟩ ∈ w.todo) ∧ d.points = [] :=
  ⟨[[⟨7, true, 0, false, []⟩, ⟨7, true, 0, false, []⟩]], [worker false 0 [⟨7, false⟩, ⟨7, false⟩]],
    [(0, some [1]), (0, some [2]), (0, some []), (0, some [])],
    ⟨[[⟨7, true, 0, false, []⟩, ⟨7, true, 0, true, [(.state, 1), (.panic, 2)]⟩]], [2, 1],
      [{ worker false 0 [] with first := [(1, 7)], panics := [(2, 7)], done := true }], [(1, 7)], [], [(2, 7)], [], false⟩, ⟨7, true, 0, false, []⟩,
    by unfold Clean; decide, fun w hw => ⟨false, 0, [⟨7, false⟩, ⟨7, false⟩], by simpa using hw⟩,
    fun j j' x x' h h' _ _ _ => by
      have := (List.getElem?_eq_some_iff.mp h).1
      have := (List.getElem?_eq_some_iff.mp h').1
      simp at *; omega,
    by decide +kernel, by unfold Finished; decide, by decide, rfl, by decide, rfl⟩

/-! ### C96 -/

/-- When all workers are done and none has failed, the maps say of every point in the files which function it is in, and of nothing else. -/
theorem C96_exact (files : List (List Decl)) (used : List Nat) (ws : List Worker) (sch : List (Nat × Option (List Nat))) (s : St)
    (hc : Clean files) (hb : Begin ws) (h : runSched (start files used ws) sch = some s) (hf : Finished s) (i n : Nat) :
    (s.states.get i = some n ↔ (.state, i, n) ∈ pts s.files) ∧ (s.entries.get i = some n ↔ (.entry, i, n) ∈ pts s.files) ∧
    (s.projPanics.get i = some n ∨ s.modPanics.get i = some n ↔ (.panic, i, n) ∈ pts s.files) := by
  have hi := inv_run (inv_start hc hb (used := used)) h
  have hno : ∀ k, ¬ Here s.workers k i n := by
    rintro k ⟨j, x, h1, h2, -⟩
    rw [hf.2 x (List.mem_of_getElem? h1)] at h2
    simp at h2
  refine ⟨?_, ?_, ?_⟩
  · rw [hi.maps hf.1 .state i n]; simp [hno, Global]
  · rw [hi.maps hf.1 .entry i n]; simp [hno, Global]
  · rw [hi.maps hf.1 .panic i n]; simp [hno, Global]

/-- No two points in the files have the same id, nor is an id used that was used before. -/
theorem C96_ids (files : List (List Decl)) (used : List Nat) (ws : List Worker) (sch : List (Nat × Option (List Nat))) (s : St)
    (hc : Clean files) (hb : Begin ws) (h : runSched (start files used ws) sch = some s) :
    ((pts s.files).map fun p => p.2.1).Nodup ∧ ∀ p ∈ pts s.files, p.2.1 ∉ used :=
  ⟨(inv_run (inv_start hc hb (used := used)) h).uniq, fresh_run hc h⟩

/-- The four maps share no id. -/
theorem C96_disjoint (files : List (List Decl)) (used : List Nat) (ws : List Worker) (sch : List (Nat × Option (List Nat))) (s : St)
    (hc : Clean files) (hb : Begin ws) (h : runSched (start files used ws) sch = some s) (hf : Finished s) :
    [s.states, s.entries, s.projPanics, s.modPanics].Pairwise fun a b => ∀ i, i ∈ a.keys → i ∉ b.keys := by
  have hi := inv_run (inv_start hc hb (used := used)) h
  have hx := C96_exact files used ws sch s hc hb h hf
  have key : ∀ (m : AMap Nat Nat) i, i ∈ m.keys → ∃ n, m.get i = some n := fun m i hm => Option.isSome_iff_exists.mp ((AMap.mem_keys m i).mp hm)
  have hs := fun i n => (hx i n).1.mp
  have he := fun i n => (hx i n).2.1.mp
  have hp := fun i n h => (hx i n).2.2.mp (Or.inl h)
  have hm := fun i n h => (hx i n).2.2.mp (Or.inr h)
  have ne : ∀ {k k' : Kind} {i n n' : Nat}, k ≠ k' → (k, i, n) ∈ pts s.files → (k', i, n') ∈ pts s.files → False :=
    fun hk h1 h2 => hk (pts_fun hi.uniq h1 h2).1
  have hpm := apart_run hb h
  simp only [List.pairwise_cons, List.mem_cons, List.not_mem_nil, or_false, List.Pairwise.nil, and_true, forall_eq_or_imp, forall_eq, false_imp_iff, implies_true]
  refine ⟨⟨?_, ?_, ?_⟩, ⟨?_, ?_⟩, ?_⟩ <;> intro i h1 h2 <;> obtain ⟨n, h1⟩ := key _ _ h1 <;> obtain ⟨n', h2⟩ := key _ _ h2
  · exact ne (by decide) (hs i n h1) (he i n' h2)
  · exact ne (by decide) (hs i n h1) (hp i n' h2)
  · exact ne (by decide) (hs i n h1) (hm i n' h2)
  · exact ne (by decide) (he i n h1) (hp i n' h2)
  · exact ne (by decide) (he i n h1) (hm i n' h2)
  · exact hpm i n n' h1 h2

/-- The maps of the project name functions asked for in the project, those of the modules functions asked for in modules. -/
theorem C96_sides (files : List (List Decl)) (used : List Nat) (ws : List Worker) (sch : List (Nat × Option (List Nat))) (s : St)
    (hb : Begin ws) (h : runSched (start files used ws) sch = some s) (i n : Nat) :
    (s.states.get i = some n ∨ s.projPanics.get i = some n → ∃ w ∈ ws, w.modul = false ∧ ∃ f ∈ w.todo, f.ident = n) ∧
    (s.entries.get i = some n ∨ s.modPanics.get i = some n → ∃ w ∈ ws, w.modul = true ∧ ∃ f ∈ w.todo, f.ident = n) :=
  ⟨sides_run hb h false i n, sides_run hb h true i n⟩

/-! ### C97 -/

/-- If functions of a package have distinct identifiers and can be printed, the functions reported are exactly those of the old version that the new
version has with another definition, each once. Missing: packages with several functions of one name, and functions that cannot be printed. -/
theorem C97_changed_partial (olds news : List Pkg) (hop : (olds.map Pkg.path).Nodup) (hn : ∀ p ∈ olds ++ news, Names p ∧ Printable p) :
    ∃ l, changed (pkgMap olds) news = some l ∧ (∀ f, f ∈ l ↔ Changed olds news f) ∧
      ((news.map Pkg.path).Nodup → (olds.flatMap fun p => p.files.flatten).Nodup → l.Nodup) :=
  changed_eq olds news hop hn

/-- Of two functions `init`, the first is changed: nothing is reported. -/
theorem C97_init_violated : ∃ (olds news : List Pkg) (f : Fun), (∀ p ∈ olds ++ news, Printable p) ∧ Changed olds news f ∧
    (∃ o ∈ olds, ∃ n ∈ news, (o.files.flatten.map Fun.ident) = [3, 3] ∧ (o.files.flatten.map Fun.text)[0]? ≠ (n.files.flatten.map Fun.text)[0]?) ∧
    changed (pkgMap olds) news = some [] :=
  ⟨[⟨1, [[⟨10, 3, some 5⟩, ⟨11, 3, some 6⟩]]⟩], [⟨1, [[⟨10, 3, some 7⟩, ⟨11, 3, some 6⟩]]⟩], ⟨10, 3, some 5⟩,
    by unfold Printable; decide, ⟨_, List.mem_singleton.mpr rfl, _, List.mem_singleton.mpr rfl, rfl, by decide, ⟨10, 3, some 7⟩, by decide, rfl, by decide⟩,
    ⟨_, List.mem_singleton.mpr rfl, _, List.mem_singleton.mpr rfl, rfl, by decide⟩, by decide⟩

/-- A function that cannot be printed is left out without an error, unless it is the last of its file. -/
theorem C97_print_violated : ∃ (olds news : List Pkg) (f : Fun), (∀ p ∈ olds ++ news, Names p) ∧ Changed olds news f ∧ changed (pkgMap olds) news = some [] :=
  ⟨[⟨1, [[⟨10, 3, some 5⟩, ⟨11, 4, some 6⟩]]⟩], [⟨1, [[⟨10, 3, none⟩, ⟨11, 4, some 6⟩]]⟩], ⟨10, 3, some 5⟩,
    by unfold Names; decide, ⟨_, List.mem_singleton.mpr rfl, _, List.mem_singleton.mpr rfl, rfl, by decide, ⟨10, 3, none⟩, by decide, rfl, by decide⟩, by decide⟩

/-- If the last function of a file cannot be printed, that is an error. -/
theorem C97_error (olds : AMap Nat Pkg) (news : List Pkg) (p : Pkg) (hp : p ∈ news) (fs : List Fun) (f : Fun) (hf : fs ++ [f] ∈ p.files) (ht : f.text = none) :
    changed olds news = none := by
  have hex : ∀ (fs : List Fun) r, (extract (fs ++ [f]) r).2 = true := by
    intro fs
    induction fs with
    | nil => rintro ⟨m, e⟩; simp [extract, ht]
    | cons g gs ih =>
      rintro ⟨m, e⟩
      simp only [List.cons_append, extract]
      cases g.text <;> exact ih _
  have hagg : ∀ (files : List (List Fun)) m, fs ++ [f] ∈ files → aggregate files m = none := by
    intro files
    induction files with
    | nil => intro m h; simp at h
    | cons g gs ih =>
      intro m h
      simp only [aggregate]
      rcases he : extract g ([], false) with ⟨x, b⟩
      cases b with
      | true => rfl
      | false =>
        rcases List.mem_cons.mp h with rfl | h
        · have := hex fs ([], false); rw [he] at this; simp at this
        · exact ih _ h
  induction news with
  | nil => simp at hp
  | cons q qs ih =>
    simp only [changed]
    rcases List.mem_cons.mp hp with rfl | hp
    · rw [hagg _ _ hf]
    · cases aggregate q.files [] with
      | none => rfl
      | some new =>
        simp only
        cases olds.get q.path with
        | none => exact ih hp
        | some op =>
          simp only
          cases aggregate op.files [] with
          | none => rfl
          | some old => simp only [ih hp]

/-- An error for the last function of a file is reported. -/
example : changed (pkgMap [⟨1, [[⟨10, 3, some 5⟩]]⟩]) [⟨1, [[⟨11, 4, some 6⟩, ⟨10, 3, none⟩]]⟩] = none := by decide

/-- Two packages: in the first, function 3 is changed and 4 is not, 5 is new; the second is new. -/
example : changed (pkgMap [⟨1, [[⟨10, 3, some 5⟩], [⟨11, 4, some 6⟩]]⟩]) [⟨1, [[⟨10, 3, some 8⟩, ⟨12, 5, some 1⟩], [⟨11, 4, some 6⟩]]⟩, ⟨2, [[⟨10, 3, some 8⟩]]⟩]
    = some [⟨10, 3, some 5⟩] := by decide

/-- A function with two returns, one without a body and one that only panics in the project, and a function of a module; the workers take turns. -/
example : ∃ s, runSched (start [[⟨1, true, 2, false, []⟩, ⟨2, false, 0, false, []⟩, ⟨3, true, 0, false, []⟩], [⟨4, true, 1, false, []⟩]] [9]
      [worker false 0 [⟨1, false⟩, ⟨2, false⟩, ⟨3, true⟩], worker true 1 [⟨4, false⟩]])
    [(0, some [1, 3]), (1, some [2]), (0, some [5]), (1, some [4]), (0, some []), (1, some []), (0, some []), (0, some [])] = some s ∧ Finished s ∧
    s.files = [[⟨1, true, 2, true, [(.state, 1), (.state, 3), (.panic, 5)]⟩, ⟨2, false, 0, false, []⟩, ⟨3, true, 0, false, []⟩],
      [⟨4, true, 1, false, [(.entry, 2), (.panic, 4)]⟩]] ∧
    (s.states, s.entries, s.projPanics, s.modPanics) = ([(1, 1), (3, 1)], [(2, 4)], [(5, 1)], [(4, 4)]) :=
  ⟨_, rfl, by unfold Finished; decide +kernel, by decide +kernel, by decide +kernel⟩

/-- A function that is not in its file is an error, and nothing is returned. -/
example : ∃ s, runSched (start [[⟨1, true, 2, false, []⟩]] [] [worker false 0 [⟨8, false⟩]]) [(0, some [1])] = some s ∧ s.failed = true := ⟨_, rfl, by decide⟩

end Verif.Funcs
