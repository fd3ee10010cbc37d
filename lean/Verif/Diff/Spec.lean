import Verif.Diff.Model
import Verif.Module.Spec

/-!
What C33, C125 and C126 claim about line differences: the meaning of a unified difference is what `patch` makes of it.
-/

namespace Verif.Diff

open Verif.Module (Op Tag)

/-! ### Reading a unified difference -/

/-- A decimal number at the start of a text. -/
def number (s : Bytes) : Option (Nat × Bytes) :=
  let ds := s.takeWhile fun c => 48 ≤ c && c ≤ 57
  if ds = [] then none else some (ds.foldl (fun a c => a * 10 + (c.toNat - 48)) 0, s.dropWhile fun c => 48 ≤ c && c ≤ 57)

/-- A given text at the start of a text. -/
def expect (p s : Bytes) : Option Bytes := if p <+: s then some (s.drop p.length) else none

/-- "start" or "start,length": number of lines before the range, and in the range. Lines are counted from one; an empty range has the number of the line
before it. -/
def range (s : Bytes) : Option (Nat × Nat × Bytes) := (number s).bind fun p => match p.2 with
  | 44 :: s => (number s).bind fun q =>
    if q.1 = 0 then some (p.1, 0, q.2) else if p.1 = 0 then none else some (p.1 - 1, q.1, q.2)
  | s => if p.1 = 0 then none else some (p.1 - 1, 1, s)

/-- A line with its end. -/
def takeLine : Bytes → Option (Line × Bytes)
  | [] => none
  | c :: s => if c = 10 then some ([10], s) else (takeLine s).map fun r => (c :: r.1, r.2)

/-- The lines of a hunk that takes `ol` old lines to `nl` new lines: new lines, rest of the text, rest of the old lines. Lines that are kept or removed must
be those of the old text. -/
def body : Nat → Nat → Nat → Bytes → List Line → Option (List Line × Bytes × List Line)
  | 0, ol, nl, text, old => if ol = 0 ∧ nl = 0 then some ([], text, old) else none
  | n + 1, ol, nl, text, old =>
    if ol = 0 ∧ nl = 0 then some ([], text, old)
    else match text with
    | [] => none
    | c :: text => (takeLine text).bind fun p =>
      if c = 32 then
        if 0 < ol ∧ 0 < nl ∧ old.head? = some p.1 then (body n (ol - 1) (nl - 1) p.2 old.tail).map fun r => (p.1 :: r.1, r.2) else none
      else if c = 45 then
        if 0 < ol ∧ old.head? = some p.1 then body n (ol - 1) nl p.2 old.tail else none
      else if c = 43 then
        if 0 < nl then (body n ol (nl - 1) p.2 old).map fun r => (p.1 :: r.1, r.2) else none
      else none

/-- Apply a unified difference to the old lines from line `i` on; `j` new lines are there already. -/
def patch : Nat → Nat → Nat → Bytes → List Line → Option (List Line)
  | _, _, _, [], old => some old
  | 0, _, _, _, _ => none
  | n + 1, i, j, text, old =>
    (expect [64, 64, 32, 45] text).bind fun t1 => (range t1).bind fun o =>
    (expect [32, 43] o.2.2).bind fun t2 => (range t2).bind fun m =>
    (expect [32, 64, 64, 10] m.2.2).bind fun t3 =>
    if i ≤ o.1 ∧ o.1 - i ≤ old.length ∧ j + (o.1 - i) = m.1 then
      (body (o.2.1 + m.2.1) o.2.1 m.2.1 t3 (old.drop (o.1 - i))).bind fun r =>
      (patch n (o.1 + o.2.1) (m.1 + m.2.1) r.2.1 r.2.2).map fun more => old.take (o.1 - i) ++ r.1 ++ more
    else none

/-- The value with the difference applied: lines are separated by line ends. -/
def applyDiff (v : Bytes) (text : Bytes) : Option Bytes :=
  (patch (text.length + 1) 0 0 text (splitLines v)).map fun ls => ls.flatten.dropLast

/-! ### Operations -/

/-- Nothing in a replaced block is on both sides. -/
def Apart (a b : List Line) (c : Op) : Prop :=
  ∀ (i j : Nat) (x : Line), c.i1 ≤ i → i < c.i2 → c.j1 ≤ j → j < c.j2 → a[i]? = some x → b[j]? ≠ some x

/-- The lines without a mark. -/
def unmarked (l : List Line) (marks : List Bool) : List Line := (l.zip marks).filterMap fun p => if p.2 then none else some p.1

end Verif.Diff
