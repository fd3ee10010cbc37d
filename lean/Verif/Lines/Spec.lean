import Verif.Lines.Model

namespace Verif.Lines
open Verif Verif.Util

/-- A line has code if a token starts there that is not a comment, a bracket or a literal with line breaks. -/
def IsCode (toks : List Tok) (n : Nat) : Prop := ∃ t ∈ toks, t.first = n ∧ (t.kind = .other ∨ (t.kind = .literal ∧ t.last = n))

instance (toks : List Tok) (n : Nat) : Decidable (IsCode toks n) := by unfold IsCode; infer_instance

/-- Line `n`, counted from one. -/
def lineAt (lines : List Bytes) (n : Nat) : Bytes := lines.getD (n - 1) []

/-- The code lines of the body before line `n`. -/
def codeBefore (toks : List Tok) (opn n : Nat) : List Nat := (List.range' opn (n - opn)).filter fun m => IsCode toks m

/-- The calls of the callback before line `n`: the number of the line within the function, and the line. -/
def callsBefore (lines : List Bytes) (start : Nat) (toks : List Tok) (opn n : Nat) : List (Nat × Bytes) :=
  (codeBefore toks opn n).map fun m => (m - start, lineAt lines m)

/-- What the callback says about line `n`. -/
def answer (cb : Cb) (lines : List Bytes) (start : Nat) (toks : List Tok) (opn n : Nat) : Bytes × Bool :=
  cb (callsBefore lines start toks opn n) (n - start) (lineAt lines n)

/-- The text is to be inserted before line `n`. -/
def Inserted (cb : Cb) (lines : List Bytes) (start opn cls : Nat) (toks : List Tok) (n : Nat) (text : Bytes) : Prop :=
  opn ≤ n ∧ n ≤ cls ∧ IsCode toks n ∧ (∀ m ∈ codeBefore toks opn n, (answer cb lines start toks opn m).2 = true) ∧
  text ≠ [] ∧ (answer cb lines start toks opn n).1 = text

/-- Lines with other lines in front of some of them; `ins n` is what stands before line `n`. -/
def interleave (ins : Nat → Option Bytes) : Nat → List Bytes → List Bytes
  | _, [] => []
  | n, l :: ls => (ins n).toList ++ l :: interleave ins (n + 1) ls

/-- A line break before line `n` is inside the token. -/
def Tok.spans (t : Tok) (n : Nat) : Prop := t.first < n ∧ n ≤ t.last

/-- Tokens follow each other. -/
def TokOrder (toks : List Tok) : Prop := (∀ t ∈ toks, t.first ≤ t.last) ∧ toks.Pairwise fun a b => a.last ≤ b.first

end Verif.Lines
