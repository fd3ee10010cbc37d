import Verif.Util.Model

/-!
Inserting lines into a function body: `InsertFuncLines`, `/repo/lens/asttweak.go:1870–1977`.

The Go scanner and parser are not modelled: the tokens of the file with their first and last line, and the lines of the function and of its
braces, are inputs. The callback may keep state: it is a function of all the calls made before. Reading, backing up and writing the
file belong to `Verif/Files`; positions are taken to be real lines (no `//line` directives).
-/

namespace Verif.Lines
open Verif Verif.Util

/-- What the loop over the tokens distinguishes, asttweak.go:1920–1936. Automatic semicolons are `other`. -/
inductive Kind where
  | comment
  | bracket
  | literal
  | other
deriving DecidableEq, Repr

/-- A token with its first and last line, asttweak.go:1909–1913. -/
structure Tok where
  first : Nat
  last : Nat
  kind : Kind
deriving DecidableEq, Repr

/-- The token makes its line a line of code, asttweak.go:1920–1936. A literal containing a line break does not. -/
def marks (t : Tok) : Bool :=
  match t.kind with
  | .comment => false
  | .bracket => false
  | .literal => t.first == t.last
  | .other => true

/-- `codeLine`, asttweak.go:1904–1937. -/
def classify (toks : List Tok) (opn cls : Nat) : List Bool :=
  toks.foldl (fun a t =>
    if t.first < opn ∨ t.first > cls then a
    else if marks t then a.set (t.first - opn) true else a) (List.replicate (cls - opn + 1) false)

/-- `indentOf`, asttweak.go:1941–1947: the leading blanks; nothing if there is nothing else. -/
def indentOf (l : Bytes) : Bytes := if l.all (fun b => b == 32 || b == 9) then [] else l.takeWhile fun b => b == 32 || b == 9

/-- The callback, given the calls before, asttweak.go:1955. -/
abbrev Cb := List (Nat × Bytes) → Nat → Bytes → Bytes × Bool

/-- The loop over the lines of the body, asttweak.go:1949–1968. -/
def loop (cb : Cb) (start : Nat) : List (Nat × Bytes) → Nat → List Bytes → List Bool → List Bytes
  | hist, n, l :: ls, c :: cs =>
    if c then
      let r := cb hist (n - start) l
      (if r.1 ≠ [] then [indentOf l ++ r.1] else []) ++ [l] ++ (if r.2 then loop cb start (hist ++ [(n - start, l)]) (n + 1) ls cs else ls)
    else l :: loop cb start hist (n + 1) ls cs
  | _, _, ls, _ => ls

/-- The new lines, asttweak.go:1895–1971; `opn` and `cls` are the first line after the opening and the last before the closing brace. -/
def insertLines (lines : List Bytes) (start opn cls : Nat) (toks : List Tok) (cb : Cb) : List Bytes :=
  if opn > cls then lines
  else lines.take (opn - 1) ++ loop cb start [] opn ((lines.take cls).drop (opn - 1)) (classify toks opn cls) ++ lines.drop cls

/-- The new contents of the file, asttweak.go:1897 and 1976. -/
def insertFuncLines (data : Bytes) (start opn cls : Nat) (toks : List Tok) (cb : Cb) : Bytes :=
  joinLines (insertLines (splitLines data) start opn cls toks cb)

end Verif.Lines
