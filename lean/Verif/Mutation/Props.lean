import Verif.Mutation.Spec
import Verif.Lines.Props

/-! Properties C67, C68, C79, C80. -/

namespace Verif.Mutation
open Verif Verif.Util Verif.Lines

/-! ### C67 -/

/-- After the script the file is as before, if the file can be moved back, the script is not killed beyond what bash can catch, and no signal comes between
moving the file away and setting the trap. Missing: those three. -/
theorem C67_restored_partial (changed : Content) (e : Env) (d : Disk) (hb : e.back = true) (hk : ∀ p, e.stop ≠ some (p, true)) (hm : e.stop ≠ some (.moved, false)) :
    (script changed e d).disk.orig = d.orig ∧ ((script changed e d).disk.bkp = none ∨ (script changed e d).disk = d) := by
  obtain ⟨cov, mv, cp, test, back, stop⟩ := e
  obtain ⟨orig, bkp⟩ := d
  simp only at hb hk hm
  subst hb
  rcases stop with - | ⟨p, hard⟩
  · cases cov <;> cases mv <;> cases orig <;> cases cp <;> simp [script, trapRun]
  · cases hard
    · cases p <;> cases cov <;> cases mv <;> cases orig <;> cases cp <;> simp_all [script, trapRun, stopped]
    · exact absurd rfl (hk p)

/-- Whatever happens, the original content is on disk, in the file or its backup. -/
theorem C67_kept (changed : Content) (e : Env) (d : Disk) (c : Content) (hc : d.orig = some c) :
    (script changed e d).disk.orig = some c ∨ (script changed e d).disk.bkp = some c := by
  obtain ⟨cov, mv, cp, test, back, stop⟩ := e
  obtain ⟨orig, bkp⟩ := d
  simp only at hc
  subst hc
  rcases stop with - | ⟨p, hard⟩
  · cases cov <;> cases mv <;> cases back <;> cases cp <;> simp [script, trapRun]
  · cases hard <;> cases p <;> cases cov <;> cases mv <;> cases back <;> cases cp <;> simp [script, trapRun, stopped]

/-- The script reports "killed" (0) exactly if `go test`, run with the mutant in place, ended with 1, and "alive" (1) exactly if it ended with 0. -/
theorem C67_verdict (changed : Content) (e : Env) (d : Disk) :
    ((script changed e d).exit = .code 0 ↔ Tested e d ∧ e.test = 1) ∧ ((script changed e d).exit = .code 1 ↔ Tested e d ∧ e.test = 0) ∧
    (Tested e d → (script changed e d).seen = some changed) := by
  obtain ⟨cov, mv, cp, test, back, stop⟩ := e
  obtain ⟨orig, bkp⟩ := d
  have hv : ∀ t, (verdict t = 0 ↔ t = 1) ∧ (verdict t = 1 ↔ t = 0) := by
    intro t
    match t with
    | 0 => simp [verdict]
    | 1 => simp [verdict]
    | 2 => simp [verdict]
    | n + 3 => simp [verdict]
  rcases stop with - | ⟨p, hard⟩
  · cases cov <;> cases mv <;> cases orig <;> cases cp <;> simp [script, Tested, hv]
  · cases hard <;> cases p <;> cases cov <;> cases mv <;> cases orig <;> cases cp <;> simp [script, Tested]

/-- A signal between moving the file away and setting the trap leaves no file. -/
theorem C67_between_violated : ∃ (changed : Content) (e : Env) (d : Disk), e.back = true ∧ e.stop = some (.moved, false) ∧ d.orig = some 1 ∧ (script changed e d).disk.orig = none :=
  ⟨2, ⟨true, true, .ok, 0, true, some (.moved, false)⟩, ⟨some 1, none⟩, rfl, rfl, rfl, rfl⟩

/-- If the file cannot be moved back, the mutant stays, and the script still ends with the verdict. -/
theorem C67_back_violated : ∃ (changed : Content) (e : Env) (d : Disk), e.stop = none ∧ d.orig = some 1 ∧ (script changed e d).disk.orig = some 2 ∧ (script changed e d).exit = .code 0 :=
  ⟨2, ⟨true, true, .ok, 1, false, none⟩, ⟨some 1, none⟩, rfl, rfl, rfl, rfl⟩

/-- When the mutant was left behind, the next script, though everything in it works, destroys the original. -/
theorem C67_next_violated : ∃ (c1 c2 : Content) (e1 e2 : Env) (d : Disk), d.orig = some 1 ∧ e2.back = true ∧ Tested e2 (script c1 e1 d).disk ∧
    (script c2 e2 (script c1 e1 d).disk).disk.orig ≠ some 1 ∧ (script c2 e2 (script c1 e1 d).disk).disk.bkp ≠ some 1 :=
  ⟨2, 3, ⟨true, true, .ok, 1, true, some (.tested, true)⟩, ⟨true, true, .ok, 1, true, none⟩, ⟨some 1, none⟩, rfl, rfl, ⟨rfl, by decide, rfl, rfl, rfl⟩, by decide, by decide⟩

/-- `go test` ends in the same way when tests fail and when the mutant does not compile; then a mutant that does not compile is reported as killed. -/
theorem C67_compile_violated (exitOf : Result → Nat) (h1 : exitOf .failed = 1) (h2 : exitOf .noBuild = exitOf .failed) :
    ∃ (changed : Content) (e : Env) (d : Disk), Tested e d ∧ e.test = exitOf .noBuild ∧ (script changed e d).exit = .code 0 :=
  ⟨2, ⟨true, true, .ok, 1, true, none⟩, ⟨some 1, none⟩, ⟨rfl, by decide, rfl, rfl, rfl⟩, by rw [h2, h1], rfl⟩

example : (script 2 ⟨true, true, .fail (some 7), 0, true, none⟩ ⟨some 1, none⟩).disk = ⟨some 1, none⟩ := rfl
example : Tested ⟨true, true, .ok, 1, true, none⟩ ⟨some 1, none⟩ ∧ script 2 ⟨true, true, .ok, 1, true, none⟩ ⟨some 1, none⟩ = ⟨⟨some 1, none⟩, .code 0, some 2⟩ :=
  ⟨⟨rfl, by decide, rfl, rfl, rfl⟩, rfl⟩

/-! ### C79 -/

/-- The total is the number of mutants whose script ended with a verdict or skipped. What is taken for the number of killed mutants is the number of those
alive. -/
theorem C79_counts_partial (runs : List (Content × Env × Disk)) (codes : List Nat) (hc : runs.map (fun r => (script r.1 r.2.1 r.2.2).exit) = codes.map .code)
    (ht : ∀ r ∈ runs, Tested r.2.1 r.2.2 ∧ r.2.1.test ≤ 2) :
    (scoreOf codes).count = runs.length ∧ (scoreOf codes).squashed = runs.countP fun r => r.2.1.test == 0 := by
  induction runs generalizing codes with
  | nil =>
      cases codes with
      | nil => exact ⟨rfl, rfl⟩
      | cons a b => simp at hc
  | cons r rs ih =>
      cases codes with
      | nil => simp at hc
      | cons a b =>
          simp only [List.map_cons, List.cons.injEq] at hc
          obtain ⟨h1, h2⟩ := hc
          obtain ⟨i1, i2⟩ := ih b h2 fun x hx => ht x (List.mem_cons_of_mem _ hx)
          obtain ⟨hr, hle⟩ := ht r (List.mem_cons_self ..)
          have hcode : a = verdict r.2.1.test := by
            obtain ⟨ch, ⟨cov, mv, cp, test, back, stop⟩, ⟨orig, bkp⟩⟩ := r
            obtain ⟨rfl, ho, rfl, rfl, rfl⟩ := hr
            cases orig with
            | none => exact absurd rfl ho
            | some c => simpa [script, eq_comm] using h1
          simp only [scoreOf, summary] at i1 i2 ⊢
          simp only [List.countP_cons, i1, i2, List.length_cons]
          have ht3 : r.2.1.test = 0 ∨ r.2.1.test = 1 ∨ r.2.1.test = 2 := by omega
          rcases ht3 with h | h | h <;> simp [hcode, h, verdict]

/-- Mutants whose script ended in any other way are in neither of the numbers: the score is that of the others. -/
theorem C79_unknown (before after : List Nat) (code : Nat) (h : 2 < code) : scoreOf (before ++ code :: after) = scoreOf (before ++ after) := by
  have e0 : (code == 0) = false := by simp; omega
  have e1 : (code == 1) = false := by simp; omega
  have e2 : (code == 2) = false := by simp; omega
  have e3 : decide (code ≤ 2) = false := by simp; omega
  simp [scoreOf, summary, List.countP_append, List.countP_cons, e1, e3]

/-- No more mutants are counted as killed than in total. -/
theorem C79_at_most (codes : List Nat) : (scoreOf codes).squashed ≤ (scoreOf codes).count ∧ (scoreOf codes).count ≤ codes.length := by
  refine ⟨List.countP_mono_left fun x _ hx => ?_, List.countP_le_length⟩
  simp only [beq_iff_eq] at hx
  simp [hx]

example : scoreOf [0, 127, 1, 2] = ⟨3, 1⟩ := by decide

/-- Three mutants, the tests fail for each: none counts as killed. -/
theorem C79_score_violated : ∃ (runs : List (Content × Env × Disk)) (codes : List Nat), runs.map (fun r => (script r.1 r.2.1 r.2.2).exit) = codes.map .code ∧
    runs.length = 3 ∧ (∀ r ∈ runs, Tested r.2.1 r.2.2 ∧ r.2.1.test = 1) ∧ scoreOf codes = ⟨3, 0⟩ :=
  ⟨List.replicate 3 (2, ⟨true, true, .ok, 1, true, none⟩, ⟨some 1, none⟩), [0, 0, 0], by decide, rfl, by unfold Tested; decide, by decide⟩

/-- Two survivors, one killed, one skipped. -/
example : scoreOf ([0, 0, 1, 2].map verdict) = ⟨4, 2⟩ := by decide

/-! ### C68 -/

/-- The functions selected are those with a marked line, in order; it is an error exactly if a function has no marks at all. -/
theorem C68_selected (cs : List Change) (s : List Change) (err : Bool) (h : select cs = (s, err)) :
    (err = true ↔ ∃ c ∈ cs, c.marks = []) ∧ (err = false → s = cs.filter fun c => c.marks.any id) := by
  induction cs generalizing s err with
  | nil => simp only [select, Prod.mk.injEq] at h; obtain ⟨rfl, rfl⟩ := h; simp
  | cons c cs ih =>
      simp only [select] at h
      by_cases h0 : c.marks = []
      · rw [if_pos h0] at h
        simp only [Prod.mk.injEq] at h
        obtain ⟨rfl, rfl⟩ := h
        simp [h0]
      · rw [if_neg h0] at h
        by_cases ht : true ∈ c.marks
        · rw [if_neg (not_not.mpr ht)] at h
          simp only [Prod.mk.injEq] at h
          obtain ⟨h1, h2⟩ := h
          obtain ⟨i1, i2⟩ := ih _ _ (Prod.ext rfl rfl : select cs = ((select cs).1, (select cs).2))
          rw [h2] at i1 i2
          refine ⟨by rw [i1]; simp [h0], fun he => ?_⟩
          rw [← h1, i2 he, List.filter_cons_of_pos (by simpa using ht)]
        · rw [if_pos ht] at h
          obtain ⟨i1, i2⟩ := ih _ _ h
          refine ⟨by rw [i1]; simp [h0], fun he => ?_⟩
          rw [i2 he, List.filter_cons_of_neg (by simpa using ht)]

/-- The new file is the old one with the directive, indented, before exactly those lines of code in the body whose mark is false. -/
theorem C68_lines (marks : List Bool) (data : Bytes) (start opn cls : Nat) (toks : List Tok) (h1 : 1 ≤ opn) (h2 : cls ≤ (splitLines data).length) :
    ∃ ins : Nat → Option Bytes, insertFuncLines data start opn cls toks (scopeCb marks) = joinLines (interleave ins 1 (splitLines data)) ∧
      ∀ n x, ins n = some x ↔ opn ≤ n ∧ n ≤ cls ∧ IsCode toks n ∧ marks[n - start]? = some false ∧ x = indentOf (lineAt (splitLines data) n) ++ directive := by
  obtain ⟨ins, he, hi⟩ := C51_lines (scopeCb marks) data start opn cls toks h1 h2
  refine ⟨ins, he, fun n x => ?_⟩
  rw [hi]
  have hans : ∀ m, answer (scopeCb marks) (splitLines data) start toks opn m = if marks[m - start]? = some false then (directive, true) else ([], true) := fun m => rfl
  have hgo : ∀ m, (answer (scopeCb marks) (splitLines data) start toks opn m).2 = true := by
    intro m; rw [hans]; split <;> rfl
  constructor
  · rintro ⟨text, ⟨a1, a2, a3, -, a5, a6⟩, rfl⟩
    rw [hans] at a6
    split at a6
    · rename_i hm
      exact ⟨a1, a2, a3, hm, by rw [← a6]⟩
    · exact absurd a6.symm a5
  · rintro ⟨a1, a2, a3, a4, rfl⟩
    exact ⟨directive, ⟨a1, a2, a3, fun m _ => hgo m, by decide, by rw [hans, if_pos a4]⟩, rfl⟩

/-- A line of code of the body stays enabled exactly if the definition's line it was printed to is marked, provided the definition has a line for each
line of the function, each at its place. Missing: definitions printed with fewer lines than the source, see below. -/
theorem C68_scope_partial (marks : List Bool) (data : Bytes) (start opn cls : Nat) (toks : List Tok) (h1 : 1 ≤ opn) (h2 : cls ≤ (splitLines data).length)
    (place : Nat → Nat) (hp : ∀ n, opn ≤ n → n ≤ cls → IsCode toks n → place n = n - start) (hl : cls - start < marks.length) :
    ∃ ins : Nat → Option Bytes, insertFuncLines data start opn cls toks (scopeCb marks) = joinLines (interleave ins 1 (splitLines data)) ∧
      ∀ n, opn ≤ n → n ≤ cls → IsCode toks n → (ins n = none ↔ Marked marks (place n)) := by
  obtain ⟨ins, he, hi⟩ := C68_lines marks data start opn cls toks h1 h2
  refine ⟨ins, he, fun n a1 a2 a3 => ?_⟩
  rw [hp n a1 a2 a3]
  unfold Marked
  have hlt : n - start < marks.length := by omega
  have hget := List.getElem?_eq_getElem hlt
  constructor
  · intro hn
    rw [hget]
    cases hm : marks[n - start] with
    | true => rfl
    | false =>
        have hsome := (hi n _).mpr ⟨a1, a2, a3, by rw [hget, hm], rfl⟩
        rw [hn] at hsome
        exact absurd hsome (by simp)
  · intro hm
    cases hx : ins n with
    | none => rfl
    | some x =>
        have := ((hi n x).mp hx).2.2.2.1
        rw [hm] at this
        exact absurd this (by simp)

/-- Two lines of comment before a statement become one empty line in the definition: the marks for the statement and for its line in the source
differ. The function has statements on lines 1 and 4, only the second was changed; it is printed on line 3. The marks have it at 3, and the statement
on line 4 is taken for the closing brace, which is not marked: it is switched off, and nothing of the function is mutated. -/
theorem C68_aligned_violated : ∃ (stmts : List Nat) (marks : List Bool) (data : Bytes) (toks : List Tok), stmts = [1, 4] ∧ printed 0 0 stmts = [1, 3] ∧
    marks = [false, false, false, true, false] ∧ IsCode toks 2 ∧ IsCode toks 5 ∧
    splitLines (insertFuncLines data 1 2 5 toks (scopeCb marks)) = [[102, 123], directive, [97], [47, 47], [47, 47], directive, [98], [125]] :=
  -- `f{` / `a` / `//` / `//` / `b` / `}`
  ⟨_, _, [102, 123, 10, 97, 10, 47, 47, 10, 47, 47, 10, 98, 10, 125],
    [⟨1, 1, .other⟩, ⟨1, 1, .bracket⟩, ⟨2, 2, .other⟩, ⟨2, 2, .other⟩, ⟨3, 3, .comment⟩, ⟨4, 4, .comment⟩, ⟨5, 5, .other⟩, ⟨5, 5, .other⟩, ⟨6, 6, .bracket⟩],
    rfl, by decide, rfl, by decide +kernel, by decide +kernel, by decide +kernel⟩

/-- Lines of the source beyond the definition's stay enabled though nothing is marked there. -/
theorem C68_beyond_violated : ∃ (marks : List Bool) (data : Bytes) (toks : List Tok), IsCode toks 5 ∧ ¬ Marked marks 4 ∧
    splitLines (insertFuncLines data 1 2 5 toks (scopeCb marks)) = [[102, 123], [97], [47, 47], [47, 47], [98], [125]] :=
  ⟨[false, true, false, false], [102, 123, 10, 97, 10, 47, 47, 10, 47, 47, 10, 98, 10, 125],
    [⟨1, 1, .other⟩, ⟨1, 1, .bracket⟩, ⟨2, 2, .other⟩, ⟨2, 2, .other⟩, ⟨3, 3, .comment⟩, ⟨4, 4, .comment⟩, ⟨5, 5, .other⟩, ⟨5, 5, .other⟩, ⟨6, 6, .bracket⟩],
    by decide +kernel, by unfold Marked; decide, by decide +kernel⟩

/-- Every selected function is given to the tool. Missing: that no other is, see below. -/
theorem C68_match_partial (names : List Bytes) (n : Bytes) (h : n ∈ names) : matched names n = true := by
  unfold matched
  rw [List.any_eq_true]
  refine ⟨n, h, List.any_eq_true.mpr ⟨0, by simp, ?_⟩⟩
  simp

/-- `Get` selects `GetAll` as well. -/
theorem C68_match_violated : ∃ (names : List Bytes) (n : Bytes), n ∉ names ∧ matched names n = true :=
  ⟨[[71, 101, 116]], [71, 101, 116, 65, 108, 108], by decide, by decide⟩

example : select [⟨[97], [false, true]⟩, ⟨[98], [false]⟩, ⟨[99], [true]⟩] = ([⟨[97], [false, true]⟩, ⟨[99], [true]⟩], false) := by decide

/-! ### C80 -/

/-- What holds while the workers are running. -/
structure Inv (t0 t : Tree) (seen : List Nat) : Prop where
  saved : ∀ f c, t.bkp f = some c → f ∈ t.cleanup ∧ c = t0.file f
  same : ∀ f, t.bkp f = none → t.file f = t0.file f
  nodup : t.cleanup.Nodup
  listed : ∀ f ∈ t.cleanup, t.bkp f ≠ none
  known : ∀ f ∈ seen, t.bkp f ≠ none

theorem inv_run (t0 : Tree) : ∀ (s : List Step) (t : Tree) (seen : List Nat), Inv t0 t seen → Step.restore ∉ s →
    (∀ (i : Nat) (f : Nat) (c : Content), s[i]? = some (.write f c) → f ∈ seen ∨ ∃ j < i, s[j]? = some (.backup f)) → ∃ seen', Inv t0 (run t s) seen' := by
  intro s
  induction s with
  | nil => intro t seen h _ _; exact ⟨seen, h⟩
  | cons x s ih =>
      intro t seen h hr hw
      have hr' : Step.restore ∉ s := fun hm => hr (List.mem_cons_of_mem _ hm)
      show ∃ seen', Inv t0 (run (step t x) s) seen'
      cases x with
      | restore => exact absurd (List.mem_cons_self ..) hr
      | backup f =>
          refine ih _ (f :: seen) ?_ hr' ?_
          · simp only [step]
            cases hb : t.bkp f with
            | some c =>
                refine ⟨h.saved, h.same, h.nodup, h.listed, fun g hg => ?_⟩
                rcases List.mem_cons.mp hg with rfl | hg
                · rw [hb]; simp
                · exact h.known g hg
            | none =>
                refine ⟨fun g c hg => ?_, fun g hg => ?_, ?_, fun g hg => ?_, fun g hg => ?_⟩
                · simp only at hg
                  split at hg
                  · rename_i he
                    subst he
                    simp only [Option.some.injEq] at hg
                    exact ⟨by simp, by rw [← hg]; exact h.same _ hb⟩
                  · exact ⟨List.mem_append_left _ (h.saved g c hg).1, (h.saved g c hg).2⟩
                · simp only at hg
                  split at hg
                  · simp at hg
                  · exact h.same g hg
                · rw [List.nodup_append]
                  refine ⟨h.nodup, by simp, fun a ha b hb' hab => ?_⟩
                  rw [List.mem_singleton.mp hb'] at hab
                  exact h.listed a ha (hab ▸ hb)
                · simp only
                  split
                  · simp
                  · rename_i hne
                    rcases List.mem_append.mp hg with hg | hg
                    · exact h.listed g hg
                    · exact absurd (List.mem_singleton.mp hg) hne
                · simp only
                  split
                  · simp
                  · rename_i hne
                    rcases List.mem_cons.mp hg with hg | hg
                    · exact absurd hg hne
                    · exact h.known g hg
          · intro i g c hi
            rcases hw (i + 1) g c (by simpa using hi) with hs | ⟨j, hj, hj'⟩
            · exact Or.inl (List.mem_cons_of_mem _ hs)
            · cases j with
              | zero =>
                  simp only [List.getElem?_cons_zero, Option.some.injEq, Step.backup.injEq] at hj'
                  exact Or.inl (by rw [hj']; exact List.mem_cons_self ..)
              | succ j => exact Or.inr ⟨j, by omega, by simpa using hj'⟩
      | write f c =>
          have hf : t.bkp f ≠ none := by
            rcases hw 0 f c rfl with hs | ⟨j, hj, -⟩
            · exact h.known f hs
            · omega
          refine ih _ seen ?_ hr' ?_
          · refine ⟨h.saved, fun g hg => ?_, h.nodup, h.listed, h.known⟩
            simp only [step] at hg ⊢
            split
            · rename_i he; subst he; exact absurd hg hf
            · exact h.same g hg
          · intro i g c' hi
            rcases hw (i + 1) g c' (by simpa using hi) with hs | ⟨j, hj, hj'⟩
            · exact Or.inl hs
            · cases j with
              | zero => simp at hj'
              | succ j => exact Or.inr ⟨j, by omega, by simpa using hj'⟩

theorem putBack_other (t : Tree) (f g : Nat) (h : g ≠ f) : (putBack t f).file g = t.file g ∧ (putBack t f).bkp g = t.bkp g := by
  unfold putBack
  cases t.bkp f with
  | none => exact ⟨rfl, rfl⟩
  | some c => simp [h]

theorem putBack_all : ∀ (l : List Nat) (t : Tree), l.Nodup → ∀ g, ((l.foldl putBack t).file g, (l.foldl putBack t).bkp g) =
    if g ∈ l then ((putBack t g).file g, (putBack t g).bkp g) else (t.file g, t.bkp g) := by
  intro l
  induction l with
  | nil => intro t _ g; simp
  | cons f l ih =>
      intro t hn g
      obtain ⟨hf, hn⟩ := List.nodup_cons.mp hn
      show ((l.foldl putBack (putBack t f)).file g, (l.foldl putBack (putBack t f)).bkp g) = _
      rw [ih _ hn]
      by_cases hg : g = f
      · subst hg
        rw [if_neg hf, if_pos (List.mem_cons_self ..)]
      · have ho := putBack_other t f g hg
        by_cases hl : g ∈ l
        · rw [if_pos hl, if_pos (List.mem_cons_of_mem _ hl)]
          unfold putBack at ho ⊢
          cases hb : t.bkp f with
          | none => rfl
          | some c =>
              simp only [hb, hg, if_false]
              cases hb' : t.bkp g with
              | none => simp [hg, hb']
              | some c' => simp
        · rw [if_neg hl, if_neg (by simp [hg, hl]), ho.1, ho.2]

/-- If the workers are done before `Restore`, whatever order they ran in, all sources are as before and no backup is left. -/
theorem C80_restored_partial (t0 : Tree) (hb : ∀ f, t0.bkp f = none) (hc : t0.cleanup = []) (s : List Step) (hs : FromWorkers s) :
    (∀ f, (run t0 (s ++ [.restore])).file f = t0.file f) ∧ (∀ f, (run t0 (s ++ [.restore])).bkp f = none) := by
  have h0 : Inv t0 t0 [] := ⟨fun f c h => by rw [hb] at h; simp at h, fun _ _ => rfl, by rw [hc]; exact List.nodup_nil, fun f hf => by rw [hc] at hf; simp at hf, fun f hf => by simp at hf⟩
  obtain ⟨seen, hi⟩ := inv_run t0 s t0 [] h0 hs.1 (fun i f c h => Or.inr (hs.2 i f c h))
  have hrun : run t0 (s ++ [.restore]) = step (run t0 s) .restore := by simp [run, List.foldl_append]
  rw [hrun]
  have key : ∀ f, (step (run t0 s) .restore).file f = t0.file f ∧ (step (run t0 s) .restore).bkp f = none := by
    intro f
    have hp := putBack_all (run t0 s).cleanup (run t0 s) hi.nodup f
    rw [Prod.mk.injEq] at hp
    show ((run t0 s).cleanup.foldl putBack (run t0 s)).file f = _ ∧ ((run t0 s).cleanup.foldl putBack (run t0 s)).bkp f = _
    by_cases hf : f ∈ (run t0 s).cleanup
    · simp only [if_pos hf] at hp
      rw [hp.1, hp.2]
      cases hbk : (run t0 s).bkp f with
      | none => exact absurd hbk (hi.listed f hf)
      | some c =>
          have := (hi.saved f c hbk).2
          simp [putBack, hbk, this]
    · simp only [if_neg hf] at hp
      rw [hp.1, hp.2]
      have hbk : (run t0 s).bkp f = none := by
        cases hbk : (run t0 s).bkp f with
        | none => rfl
        | some c => exact absurd (hi.saved f c hbk).1 hf
      exact ⟨hi.same f hbk, hbk⟩
  exact ⟨fun f => (key f).1, fun f => (key f).2⟩

/-- With the error of mutation.go:88 the function returns, and restores, without waiting for the workers it has started: a worker may write afterwards. -/
theorem C80_early_violated : ∃ (cs : List Change) (c : Change) (t0 : Tree) (s : List Step), select cs = ([c], true) ∧ t0.cleanup = [] ∧ (∀ f, t0.bkp f = none) ∧
    FromWorkers (s.filter (· ≠ .restore)) ∧ s.count .restore = 1 ∧ (run t0 s).file 0 ≠ t0.file 0 ∧ (run t0 s).bkp 0 = none :=
  ⟨[⟨[97], [true]⟩, ⟨[98], []⟩], ⟨[97], [true]⟩, ⟨fun _ => 1, fun _ => none, []⟩, [.backup 0, .restore, .write 0 2], by decide, rfl, fun _ => rfl, by
    refine ⟨by decide, fun i f c h => ?_⟩
    match i with
    | 0 => simp at h
    | 1 => simp at h; exact ⟨0, by omega, by rw [← h.1]; rfl⟩
    | i + 2 => simp at h, by decide, by decide, by decide⟩

/-- Two workers on one file and one on another. -/
example : FromWorkers [.backup 0, .backup 1, .write 0 5, .backup 0, .write 1 6, .write 0 7] := by
  refine ⟨by decide, fun i f c h => ?_⟩
  match i with
  | 0 => simp at h
  | 1 => simp at h
  | 2 => simp at h; exact ⟨0, by omega, by rw [← h.1]; rfl⟩
  | 3 => simp at h
  | 4 => simp at h; exact ⟨1, by omega, by rw [← h.1]; rfl⟩
  | 5 => simp at h; exact ⟨0, by omega, by rw [← h.1]; rfl⟩
  | i + 6 => simp at h

end Verif.Mutation
