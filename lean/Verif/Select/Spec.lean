import Verif.Select.Model

/-! What C122–C124 claim. -/

namespace Verif.Select

/-- A test of this name reaches a changed function in the file. -/
def Covers (abs : Str → Str) (ts : List TestFn) (file name : Str) : Prop :=
  ∃ t ∈ ts, t.name = name ∧ ∃ cs ∈ t.targets, ∃ c ∈ cs, abs c = file

/-- Letters, digits and underscores; letters outside of ASCII are allowed in Go. -/
def identChar (c : Char) : Bool := ('a' ≤ c && c ≤ 'z') || ('A' ≤ c && c ≤ 'Z') || ('0' ≤ c && c ≤ '9') || c == '_' || 128 ≤ c.toNat

def Ident (s : Str) : Prop := s ≠ [] ∧ ∀ c ∈ s, identChar c = true

/-- Without characters that are special inside of double quotes. -/
def Quotable (s : Str) : Prop := ∀ c ∈ s, c ≠ '"' ∧ c ≠ '\\' ∧ c ≠ '`' ∧ c ≠ '$'

/-- Without blanks and characters for patterns. -/
def Word (s : Str) : Prop := s ≠ [] ∧ ∀ c ∈ s, c ≠ ' ' ∧ c ≠ '\t' ∧ c ≠ '\n' ∧ c ≠ '*' ∧ c ≠ '?' ∧ c ≠ '['

instance (abs : Str → Str) (ts : List TestFn) (file name : Str) : Decidable (Covers abs ts file name) := by unfold Covers; infer_instance
instance (s : Str) : Decidable (Ident s) := by unfold Ident; infer_instance
instance (s : Str) : Decidable (Quotable s) := by unfold Quotable; infer_instance
instance (s : Str) : Decidable (Word s) := by unfold Word; infer_instance

/-! ### `go test -run`

The pattern is a regular expression, for each level of a name (separated by slashes) one. Only the forms `^x$` and `^(x|y|…)$` with plain `x`, `y`, … are
given a meaning here. -/

/-- Characters with a meaning in regular expressions, and the slash. -/
def special (c : Char) : Bool := c ∈ ['\\', '.', '+', '*', '?', '(', ')', '|', '[', ']', '{', '}', '^', '$', '/']

/-- The parts of a text between bars. -/
def atBars : Str → List Str
  | [] => [[]]
  | c :: s => if c = '|' then [] :: atBars s else match atBars s with
    | [] => [[c]]
    | w :: ws => (c :: w) :: ws

/-- The names the pattern stands for. -/
def namesOf (pat : Str) : Option (List Str) :=
  if pat.head? = some '^' ∧ pat.getLast? = some '$' then
    let mid := (pat.drop 1).dropLast
    if mid.any special = false then some [mid]
    else if mid.head? = some '(' ∧ mid.getLast? = some ')' then
      let body := (mid.drop 1).dropLast
      if body.any (fun c => special c && c ≠ '|') = false then some (atBars body) else none
    else none
  else none

/-- A test of a directory: its package clause and its name. -/
structure Test where
  pkg : Str
  name : Str
  deriving DecidableEq, Repr

/-- The tests of the directory that are run (`p` and `p_test` make one test program). -/
def ran (pat : Str) (tests : List Test) : Option (List Test) := (namesOf pat).map fun ns => tests.filter fun t => t.name ∈ ns

end Verif.Select
