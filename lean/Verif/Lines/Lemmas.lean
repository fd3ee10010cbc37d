import Verif.Lines.Spec
import Verif.Util.Lemmas

namespace Verif.Lines
open Verif Verif.Util

theorem marks_iff (t : Tok) (n : Nat) (h : t.first = n) : marks t = true ↔ (t.kind = .other ∨ (t.kind = .literal ∧ t.last = n)) := by
  subst h
  unfold marks
  cases hk : t.kind <;> simp only [Bool.false_eq_true, reduceCtorEq, false_and, or_self, beq_iff_eq, true_and, false_or, or_false, true_or]
  exact eq_comm

theorem classify_get (toks : List Tok) (opn cls : Nat) (h : opn ≤ cls) (i : Nat) (hi : opn + i ≤ cls) :
    (classify toks opn cls)[i]? = some (decide (IsCode toks (opn + i))) := by
  unfold classify
  have key : ∀ (toks : List Tok) (a : List Bool), i < a.length →
      (toks.foldl (fun a t => if t.first < opn ∨ t.first > cls then a else if marks t then a.set (t.first - opn) true else a) a)[i]? =
        some (a.getD i false || decide (IsCode toks (opn + i))) := by
    intro toks
    induction toks with
    | nil => intro a ha; simp [IsCode, ha]
    | cons t toks ih =>
        intro a ha
        simp only [List.foldl_cons]
        have hcode : IsCode (t :: toks) (opn + i) ↔ (t.first = opn + i ∧ marks t = true) ∨ IsCode toks (opn + i) := by
          unfold IsCode
          simp only [List.mem_cons, exists_eq_or_imp]
          refine or_congr ⟨fun h => ⟨h.1, (marks_iff t _ h.1).mpr h.2⟩, fun h => ⟨h.1, (marks_iff t _ h.1).mp h.2⟩⟩ Iff.rfl
        by_cases hout : t.first < opn ∨ t.first > cls
        · rw [if_pos hout, ih a ha]
          have : ¬ (t.first = opn + i ∧ marks t = true) := by rintro ⟨h1, -⟩; omega
          simp only [hcode, this, false_or]
        · rw [if_neg hout]
          by_cases hm : marks t = true
          · rw [if_pos hm, ih _ (by simpa using ha)]
            congr 1
            by_cases hx : t.first = opn + i
            · have : t.first - opn = i := by omega
              rw [this]
              simp [List.getD, ha, hcode, hx, hm]
            · have hne : t.first - opn ≠ i := by omega
              simp only [List.getD, List.getElem?_set_ne hne, hcode, hx, false_and, false_or]
          · rw [if_neg hm, ih a ha]
            simp only [hcode, hm, and_false, false_or, Bool.false_eq_true]
  rw [key toks _ (by simp; omega)]
  simp only [List.getD, List.getElem?_replicate]
  split <;> simp

theorem classify_length (toks : List Tok) (opn cls : Nat) : (classify toks opn cls).length = cls - opn + 1 := by
  unfold classify
  have : ∀ (toks : List Tok) (a : List Bool),
      (toks.foldl (fun a t => if t.first < opn ∨ t.first > cls then a else if marks t then a.set (t.first - opn) true else a) a).length = a.length := by
    intro toks
    induction toks with
    | nil => intro a; rfl
    | cons t toks ih =>
        intro a
        rw [List.foldl_cons, ih]
        split
        · rfl
        · split <;> simp
  rw [this]
  simp

/-- What the model inserts before line `n`. -/
def insOf (cb : Cb) (lines : List Bytes) (start opn cls : Nat) (toks : List Tok) (n : Nat) : Option Bytes :=
  if opn ≤ n ∧ n ≤ cls ∧ IsCode toks n ∧ (∀ m ∈ codeBefore toks opn n, (answer cb lines start toks opn m).2 = true) ∧ (answer cb lines start toks opn n).1 ≠ []
  then some (indentOf (lineAt lines n) ++ (answer cb lines start toks opn n).1) else none

theorem codeBefore_succ (toks : List Tok) (opn n : Nat) (h : opn ≤ n) :
    codeBefore toks opn (n + 1) = codeBefore toks opn n ++ if IsCode toks n then [n] else [] := by
  unfold codeBefore
  rw [show n + 1 - opn = (n - opn) + 1 by omega, List.range'_concat, List.filter_append]
  congr 1
  rw [show opn + 1 * (n - opn) = n by omega]
  by_cases hc : IsCode toks n <;> simp [hc]

theorem codeBefore_mono (toks : List Tok) (opn : Nat) {n m : Nat} (h : n ≤ m) (x : Nat) (hx : x ∈ codeBefore toks opn n) : x ∈ codeBefore toks opn m := by
  unfold codeBefore at hx ⊢
  rw [List.mem_filter, List.mem_range'] at hx ⊢
  obtain ⟨⟨i, hi, hx⟩, hc⟩ := hx
  exact ⟨⟨i, by omega, hx⟩, hc⟩

theorem interleave_none (ins : Nat → Option Bytes) : ∀ (ls : List Bytes) (n : Nat), (∀ m, n ≤ m → m < n + ls.length → ins m = none) → interleave ins n ls = ls := by
  intro ls
  induction ls with
  | nil => intro n _; rfl
  | cons l ls ih =>
      intro n h
      simp only [interleave]
      rw [h n (Nat.le_refl _) (by simp), ih (n + 1) fun m h1 h2 => h m (by omega) (by simp; omega)]
      rfl

theorem interleave_append (ins : Nat → Option Bytes) : ∀ (a b : List Bytes) (n : Nat), interleave ins n (a ++ b) = interleave ins n a ++ interleave ins (n + a.length) b := by
  intro a
  induction a with
  | nil => intro b n; simp [interleave]
  | cons l a ih =>
      intro b n
      simp only [List.cons_append, interleave, ih, List.append_assoc, List.length_cons]
      rw [show n + (a.length + 1) = n + 1 + a.length by omega]

theorem loop_eq (cb : Cb) (lines : List Bytes) (start opn cls : Nat) (toks : List Tok) : ∀ (ls : List Bytes) (n : Nat) (cs : List Bool),
    opn ≤ n → n + ls.length = cls + 1 → cs.length = ls.length →
    (∀ (i : Nat) (l : Bytes), ls[i]? = some l → lineAt lines (n + i) = l) →
    (∀ (i : Nat) (c : Bool), cs[i]? = some c → c = decide (IsCode toks (n + i))) →
    (∀ m ∈ codeBefore toks opn n, (answer cb lines start toks opn m).2 = true) →
    loop cb start (callsBefore lines start toks opn n) n ls cs = interleave (insOf cb lines start opn cls toks) n ls := by
  intro ls
  induction ls with
  | nil => intro n cs _ _ _ _ _ _; cases cs <;> rfl
  | cons l ls ih =>
      intro n cs hn hlen hcs hl hc hok
      cases cs with
      | nil => simp at hcs
      | cons c cs =>
          have hl0 : lineAt lines n = l := hl 0 l rfl
          have hc0 : c = decide (IsCode toks n) := hc 0 c rfl
          have hl' : ∀ (i : Nat) (x : Bytes), ls[i]? = some x → lineAt lines (n + 1 + i) = x := fun i x hx => by
            rw [show n + 1 + i = n + (i + 1) by omega]; exact hl (i + 1) x (by simpa using hx)
          have hc' : ∀ (i : Nat) (x : Bool), cs[i]? = some x → x = decide (IsCode toks (n + 1 + i)) := fun i x hx => by
            rw [show n + 1 + i = n + (i + 1) by omega]; exact hc (i + 1) x (by simpa using hx)
          simp only [List.length_cons] at hlen hcs
          simp only [loop, interleave]
          have hcalls : callsBefore lines start toks opn (n + 1) = callsBefore lines start toks opn n ++ if IsCode toks n then [(n - start, l)] else [] := by
            unfold callsBefore
            rw [codeBefore_succ toks opn n hn, List.map_append]
            congr 1
            split <;> simp [hl0]
          by_cases hcode : IsCode toks n
          · have hct : c = true := by simp [hc0, hcode]
            subst hct
            have hans : cb (callsBefore lines start toks opn n) (n - start) l = answer cb lines start toks opn n := by
              unfold answer; rw [hl0]
            simp only [if_true, hans]
            rw [if_pos hcode] at hcalls
            have hins : (insOf cb lines start opn cls toks n).toList = if (answer cb lines start toks opn n).1 ≠ [] then [indentOf l ++ (answer cb lines start toks opn n).1] else [] := by
              unfold insOf
              by_cases ht : (answer cb lines start toks opn n).1 ≠ []
              · rw [if_pos ⟨hn, by omega, hcode, hok, ht⟩, if_pos ht, hl0]; rfl
              · rw [if_neg (fun h => ht h.2.2.2.2), if_neg ht]; rfl
            rw [hins, List.append_assoc]
            congr 1
            simp only [List.cons_append, List.nil_append, List.cons.injEq, true_and]
            by_cases hcont : (answer cb lines start toks opn n).2 = true
            · rw [if_pos hcont, ← hcalls]
              refine ih (n + 1) cs (by omega) (by omega) (by omega) hl' hc' ?_
              intro m hm
              rw [codeBefore_succ toks opn n hn, if_pos hcode, List.mem_append] at hm
              rcases hm with hm | hm
              · exact hok m hm
              · simp only [List.mem_singleton] at hm; subst hm; exact hcont
            · rw [if_neg hcont]
              symm
              refine interleave_none _ ls (n + 1) fun m h1 _ => ?_
              unfold insOf
              rw [if_neg]
              rintro ⟨-, -, -, h, -⟩
              refine hcont (h n (codeBefore_mono toks opn h1 n ?_))
              rw [codeBefore_succ toks opn n hn, if_pos hcode]
              simp
          · have hcf : c = false := by simp [hc0, hcode]
            subst hcf
            have hins : insOf cb lines start opn cls toks n = none := by
              unfold insOf; rw [if_neg]; exact fun h => hcode h.2.2.1
            rw [hins]
            simp only [Bool.false_eq_true, if_false, Option.toList_none, List.nil_append, List.cons.injEq, true_and]
            rw [if_neg hcode, List.append_nil] at hcalls
            rw [← hcalls]
            refine ih (n + 1) cs (by omega) (by omega) (by omega) hl' hc' ?_
            intro m hm
            rw [codeBefore_succ toks opn n hn, if_neg hcode, List.append_nil] at hm
            exact hok m hm

theorem insertLines_eq (cb : Cb) (lines : List Bytes) (start opn cls : Nat) (toks : List Tok) (h1 : 1 ≤ opn) (h2 : cls ≤ lines.length) :
    insertLines lines start opn cls toks cb = interleave (insOf cb lines start opn cls toks) 1 lines := by
  unfold insertLines
  by_cases hoc : opn > cls
  · rw [if_pos hoc]
    symm
    refine interleave_none _ lines 1 fun m _ _ => ?_
    unfold insOf
    rw [if_neg]
    rintro ⟨h, h', -⟩
    omega
  · rw [if_neg hoc]
    have hsplit : lines = lines.take (opn - 1) ++ ((lines.take cls).drop (opn - 1) ++ lines.drop cls) := by
      rw [← List.append_assoc]
      have : lines.take (opn - 1) = (lines.take cls).take (opn - 1) := by rw [List.take_take]; congr 1; omega
      rw [this, List.take_append_drop, List.take_append_drop]
    have hlt : (lines.take (opn - 1)).length = opn - 1 := by simp; omega
    have hlb : ((lines.take cls).drop (opn - 1)).length = cls + 1 - opn := by simp; omega
    have hr : interleave (insOf cb lines start opn cls toks) 1 lines =
        interleave (insOf cb lines start opn cls toks) 1 (lines.take (opn - 1) ++ ((lines.take cls).drop (opn - 1) ++ lines.drop cls)) := by rw [← hsplit]
    rw [hr, interleave_append, interleave_append, hlt, hlb, show 1 + (opn - 1) = opn by omega, show opn + (cls + 1 - opn) = cls + 1 by omega]
    rw [interleave_none _ (lines.take (opn - 1)) 1 (fun m _ h => by
      unfold insOf; rw [if_neg]; rintro ⟨h', -⟩; omega)]
    rw [interleave_none _ (lines.drop cls) (cls + 1) (fun m h _ => by
      unfold insOf; rw [if_neg]; rintro ⟨-, h', -⟩; omega)]
    rw [List.append_assoc]
    congr 2
    have hcalls : callsBefore lines start toks opn opn = [] := by simp [callsBefore, codeBefore]
    rw [← hcalls]
    refine loop_eq cb lines start opn cls toks _ opn _ (Nat.le_refl _) (by omega) (by rw [classify_length, hlb]; omega) ?_ ?_ (by simp [codeBefore])
    · intro i l hi
      unfold lineAt
      rw [List.getElem?_drop, List.getElem?_take] at hi
      split at hi
      · rw [List.getD, show opn + i - 1 = opn - 1 + i by omega, hi]; rfl
      · cases hi
    · intro i c hi
      have hlt : i < (classify toks opn cls).length := (List.getElem?_eq_some_iff.mp hi).1
      rw [classify_length] at hlt
      rw [classify_get toks opn cls (by omega) i (by omega), Option.some.injEq] at hi
      exact hi.symm

theorem insOf_iff (cb : Cb) (lines : List Bytes) (start opn cls : Nat) (toks : List Tok) (n : Nat) (x : Bytes) :
    insOf cb lines start opn cls toks n = some x ↔ ∃ text, Inserted cb lines start opn cls toks n text ∧ x = indentOf (lineAt lines n) ++ text := by
  unfold insOf Inserted
  constructor
  · intro h
    split at h
    · rename_i hc
      simp only [Option.some.injEq] at h
      exact ⟨_, ⟨hc.1, hc.2.1, hc.2.2.1, hc.2.2.2.1, hc.2.2.2.2, rfl⟩, h.symm⟩
    · cases h
  · rintro ⟨text, ⟨a, b, c, d, e, rfl⟩, rfl⟩
    rw [if_pos ⟨a, b, c, d, e⟩]

theorem split_join : ∀ {ls : List Bytes}, ls ≠ [] → (∀ l ∈ ls, (10 : UInt8) ∉ l) → splitLines (joinLines ls) = ls
  | [l], _, h => by
      have hl := h l (List.mem_singleton.mpr rfl)
      have : ∀ l : Bytes, (10 : UInt8) ∉ l → splitLines l = [l] := by
        intro l
        induction l with
        | nil => intro _; rfl
        | cons b l ih =>
            intro hb
            simp only [List.mem_cons, not_or] at hb
            simp only [splitLines, ih hb.2]
            rw [if_neg (fun h => hb.1 h.symm)]
      exact this l hl
  | l :: m :: ls, _, h => by
      have ih := split_join (ls := m :: ls) (by simp) fun x hx => h x (List.mem_cons_of_mem _ hx)
      have hl := h l (List.mem_cons_self ..)
      rw [joinLines_cons (by simp)]
      have : ∀ l : Bytes, (10 : UInt8) ∉ l → ∀ rest, splitLines (l ++ 10 :: rest) = l :: splitLines rest := by
        intro l
        induction l with
        | nil => intro _ rest; simp [splitLines]
        | cons b l ih =>
            intro hb rest
            simp only [List.mem_cons, not_or] at hb
            simp only [List.cons_append, splitLines, ih hb.2]
            rw [if_neg (fun h => hb.1 h.symm)]
      rw [this l hl, ih]

theorem interleave_ne (ins : Nat → Option Bytes) : ∀ (ls : List Bytes) (n : Nat), ls ≠ [] → interleave ins n ls ≠ [] := by
  intro ls n h
  cases ls with
  | nil => exact absurd rfl h
  | cons l ls => simp [interleave]

theorem interleave_no_nl (ins : Nat → Option Bytes) : ∀ (ls : List Bytes) (n : Nat), (∀ l ∈ ls, (10 : UInt8) ∉ l) → (∀ m x, ins m = some x → (10 : UInt8) ∉ x) →
    ∀ l ∈ interleave ins n ls, (10 : UInt8) ∉ l := by
  intro ls
  induction ls with
  | nil => intro n _ _ l hl; simp [interleave] at hl
  | cons a ls ih =>
      intro n h hi l hl
      simp only [interleave, List.mem_append, List.mem_cons, Option.mem_toList] at hl
      rcases hl with hl | rfl | hl
      · exact hi n l hl
      · exact h l (List.mem_cons_self ..)
      · exact ih (n + 1) (fun x hx => h x (List.mem_cons_of_mem _ hx)) hi l hl

theorem indentOf_mem {l : Bytes} {b : UInt8} (h : b ∈ indentOf l) : b ∈ l := by
  unfold indentOf at h
  split at h
  · simp at h
  · exact (List.takeWhile_sublist _).subset h

end Verif.Lines
