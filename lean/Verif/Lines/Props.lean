import Verif.Lines.Lemmas

/-! Properties C51 and C78. -/

namespace Verif.Lines
open Verif Verif.Util

/-- The new file is the old one with lines inserted, exactly where `Inserted` says: before a line of code of the body, as long as the callback did not
say stop, its text with the indentation of that line. All lines of the old file are kept, in order; nothing else is added. -/
theorem C51_lines (cb : Cb) (data : Bytes) (start opn cls : Nat) (toks : List Tok) (h1 : 1 ≤ opn) (h2 : cls ≤ (splitLines data).length) :
    ∃ ins : Nat → Option Bytes, insertFuncLines data start opn cls toks cb = joinLines (interleave ins 1 (splitLines data)) ∧
      ∀ n x, ins n = some x ↔ ∃ text, Inserted cb (splitLines data) start opn cls toks n text ∧ x = indentOf (lineAt (splitLines data) n) ++ text :=
  ⟨insOf cb (splitLines data) start opn cls toks, by unfold insertFuncLines; rw [insertLines_eq cb _ start opn cls toks h1 h2], fun n x => insOf_iff ..⟩

/-- If the callback never answers with a line break, the lines of the new file can be marked so that those without mark are exactly the old file, and
each marked one is directly followed by a line without mark. -/
theorem C51_remove (cb : Cb) (hcb : ∀ h i l, (10 : UInt8) ∉ (cb h i l).1) (data : Bytes) (start opn cls : Nat) (toks : List Tok) (h1 : 1 ≤ opn) (h2 : cls ≤ (splitLines data).length) :
    ∃ T : List (Bool × Bytes), T.map Prod.snd = splitLines (insertFuncLines data start opn cls toks cb) ∧
      joinLines ((T.filter fun x => !x.1).map Prod.snd) = data ∧ ∀ (i : Nat) (x : Bytes), T[i]? = some (true, x) → ∃ y, T[i + 1]? = some (false, y) := by
  obtain ⟨ins, he, hi⟩ := C51_lines cb data start opn cls toks h1 h2
  have hnl : ∀ l ∈ interleave ins 1 (splitLines data), (10 : UInt8) ∉ l := by
    refine interleave_no_nl ins _ 1 (splitLines_no_nl data) fun m x hx hb => ?_
    obtain ⟨text, ht, rfl⟩ := (hi m x).mp hx
    rcases List.mem_append.mp hb with hb | hb
    · have hm := indentOf_mem hb
      unfold lineAt at hm
      rw [List.getD] at hm
      cases hl : (splitLines data)[m - 1]? with
      | none => rw [hl] at hm; simp at hm
      | some l => rw [hl] at hm; exact splitLines_no_nl data l (List.mem_of_getElem? hl) hm
    · rw [← ht.2.2.2.2.2] at hb
      exact hcb _ _ _ hb
  rw [he, split_join (interleave_ne ins _ 1 (splitLines_ne data)) hnl]
  have key : ∀ (ls : List Bytes) (n : Nat), ∃ T : List (Bool × Bytes), T.map Prod.snd = interleave ins n ls ∧ (T.filter fun x => !x.1).map Prod.snd = ls ∧
      ∀ (i : Nat) (x : Bytes), T[i]? = some (true, x) → ∃ y, T[i + 1]? = some (false, y) := by
    intro ls
    induction ls with
    | nil => intro n; exact ⟨[], rfl, rfl, fun i x h => by simp at h⟩
    | cons l ls ih =>
        intro n
        obtain ⟨T, t1, t2, t3⟩ := ih (n + 1)
        cases hn : ins n with
        | none =>
            refine ⟨(false, l) :: T, by simp [interleave, hn, t1], by simp [t2], fun i x h => ?_⟩
            cases i with
            | zero => simp at h
            | succ i =>
                obtain ⟨y, hy⟩ := t3 i x (by simpa using h)
                exact ⟨y, by simpa using hy⟩
        | some z =>
            refine ⟨(true, z) :: (false, l) :: T, by simp [interleave, hn, t1], by simp [t2], fun i x h => ?_⟩
            match i, h with
            | 0, _ => exact ⟨l, rfl⟩
            | 1, h => simp at h
            | i + 2, h =>
                obtain ⟨y, hy⟩ := t3 i x (by simpa using h)
                exact ⟨y, by simpa using hy⟩
  obtain ⟨T, t1, t2, t3⟩ := key (splitLines data) 1
  exact ⟨T, t1, by rw [t2, join_split], t3⟩

/-- Lines outside the body (the braces' lines included) stay where they are relative to each other: nothing is inserted before them. -/
theorem C51_outside (cb : Cb) (data : Bytes) (start opn cls : Nat) (toks : List Tok) (h1 : 1 ≤ opn) (h2 : cls ≤ (splitLines data).length) (h3 : opn ≤ cls) :
    ∃ mid : List Bytes, insertFuncLines data start opn cls toks cb = joinLines ((splitLines data).take (opn - 1) ++ mid ++ (splitLines data).drop cls) ∧
      List.Sublist (((splitLines data).take cls).drop (opn - 1)) mid := by
  refine ⟨loop cb start [] opn (((splitLines data).take cls).drop (opn - 1)) (classify toks opn cls), ?_, ?_⟩
  · unfold insertFuncLines insertLines
    rw [if_neg (by omega)]
  · have : ∀ (ls : List Bytes) (hist : List (Nat × Bytes)) (n : Nat) (cs : List Bool), List.Sublist ls (loop cb start hist n ls cs) := by
      intro ls
      induction ls with
      | nil => intro hist n cs; exact List.nil_sublist _
      | cons l ls ih =>
          intro hist n cs
          cases cs with
          | nil => exact List.Sublist.refl _
          | cons c cs =>
              simp only [loop]
              split
              · rw [List.append_assoc]
                refine List.Sublist.trans ?_ (List.sublist_append_right _ _)
                simp only [List.cons_append, List.nil_append]
                refine List.Sublist.cons_cons l ?_
                split
                · exact ih _ _ _
                · exact List.Sublist.refl _
              · exact List.Sublist.cons_cons l (ih _ _ _)
    exact this _ _ _ _

theorem inserted_between (cb : Cb) (lines : List Bytes) (start opn cls : Nat) (toks : List Tok) (ho : TokOrder toks)
    (hm : ∀ t ∈ toks, t.first < t.last → ¬ IsCode toks t.last) (n : Nat) (text : Bytes) (hi : Inserted cb lines start opn cls toks n text) :
    ∀ t ∈ toks, ¬ t.spans n := by
  rintro t ht ⟨h1, h2⟩
  have hcode := hi.2.2.1
  obtain ⟨u, hu, hun, -⟩ := hcode
  have hle : t.last ≤ u.first := by
    have htu : t ≠ u := by rintro rfl; omega
    obtain ⟨i, hi⟩ := List.mem_iff_getElem?.mp ht
    obtain ⟨j, hj⟩ := List.mem_iff_getElem?.mp hu
    obtain ⟨hil, rfl⟩ := List.getElem?_eq_some_iff.mp hi
    obtain ⟨hjl, rfl⟩ := List.getElem?_eq_some_iff.mp hj
    rcases Nat.lt_trichotomy i j with h | h | h
    · exact List.pairwise_iff_getElem.mp ho.2 i j hil hjl h
    · subst h; exact absurd rfl htu
    · have hba := List.pairwise_iff_getElem.mp ho.2 j i hjl hil h
      have := ho.1 _ hu
      omega
  have : t.last = n := by omega
  exact hm t ht (by omega) (by rw [this]; exact hi.2.2.1)

/-- Inserted lines stand between tokens, never inside one, if nothing but brackets and comments begins on the last line of a token with line breaks.
Missing: texts with such tokens, see below; every statement ending in a literal with line breaks is one, because the automatic semicolon
after it counts as code. -/
theorem C78_between_partial (cb : Cb) (data : Bytes) (start opn cls : Nat) (toks : List Tok) (h1 : 1 ≤ opn) (h2 : cls ≤ (splitLines data).length) (ho : TokOrder toks)
    (hm : ∀ t ∈ toks, t.first < t.last → ¬ IsCode toks t.last) :
    ∃ ins : Nat → Option Bytes, insertFuncLines data start opn cls toks cb = joinLines (interleave ins 1 (splitLines data)) ∧
      ∀ n x, ins n = some x → ∀ t ∈ toks, ¬ t.spans n := by
  obtain ⟨ins, he, hi⟩ := C51_lines cb data start opn cls toks h1 h2
  refine ⟨ins, he, fun n x hx => ?_⟩
  obtain ⟨text, ht, -⟩ := (hi n x).mp hx
  exact inserted_between cb _ start opn cls toks ho hm n text ht

/-! ### A case -/

/-- `func f() {` / `  s := g(` / `  )` / `  if s {` / `  }` / `}` -/
def demoData : Bytes := [102, 123, 10, 9, 115, 61, 103, 40, 10, 9, 41, 10, 9, 105, 123, 10, 125]

def demoToks : List Tok := [⟨1, 1, .other⟩, ⟨1, 1, .bracket⟩, ⟨2, 2, .other⟩, ⟨2, 2, .other⟩, ⟨2, 2, .other⟩, ⟨2, 2, .bracket⟩, ⟨3, 3, .bracket⟩, ⟨4, 4, .other⟩, ⟨4, 4, .bracket⟩, ⟨5, 5, .bracket⟩]

/-- Inserts `//`, and stops at the second call. -/
def demoCb : Cb := fun h _ _ => ([47, 47], h.length < 1)

example : insertFuncLines demoData 1 2 4 demoToks demoCb = [102, 123, 10, 9, 47, 47, 10, 9, 115, 61, 103, 40, 10, 9, 41, 10, 9, 47, 47, 10, 9, 105, 123, 10, 125] := by decide +kernel

example : TokOrder demoToks ∧ (∀ t ∈ demoToks, t.first < t.last → ¬ IsCode demoToks t.last) := by unfold TokOrder; decide

/-! ### Where the claim fails -/

/-- In a function consisting of a literal with line breaks, assigned to a variable, a line is inserted inside the literal: the automatic semicolon
after the literal makes its last line a line of code. -/
theorem C78_between_violated : ∃ (data : Bytes) (toks : List Tok) (cb : Cb), TokOrder toks ∧ (∀ t ∈ toks, t.last ≤ (splitLines data).length) ∧
    ∃ t ∈ toks, t.kind = .literal ∧ ∃ n text, Inserted cb (splitLines data) 1 2 3 toks n text ∧ t.spans n ∧
      insertFuncLines data 1 2 3 toks cb ≠ data :=
  -- `func f(){` / `s := "a` / `b"` / `}` with back quotes
  ⟨[102, 123, 10, 115, 61, 96, 97, 10, 98, 96, 10, 125], [⟨1, 1, .other⟩, ⟨1, 1, .bracket⟩, ⟨2, 2, .other⟩, ⟨2, 2, .other⟩, ⟨2, 3, .literal⟩, ⟨3, 3, .other⟩, ⟨4, 4, .bracket⟩],
    fun _ _ _ => ([47, 47], true), by unfold TokOrder; decide, by decide +kernel, ⟨2, 3, .literal⟩, by decide, rfl, 3, [47, 47],
    by unfold Inserted; decide +kernel, ⟨by decide, by decide⟩, by decide +kernel⟩

end Verif.Lines
