import Verif.Module.Model
import Verif.Compare.Model
import Verif.Base

/-!
Line differences. `DiffValues` (`/repo/lens/engine.go:376–387`) and `computeChangeLineBitmap` (`/repo/lens/module.go:689–694`) use
github.com/pmezard/go-difflib v1.0.0 (go.mod). Its functions are modelled here from its published source, which is not part of `/repo`: `SplitLines`,
`NewMatcher` (`chainB`), `findLongestMatch`, `GetMatchingBlocks`, `GetOpCodes`, `GetGroupedOpCodes`, `WriteUnifiedDiff`. Left out are junk lines (there are
none without an `IsJunk` function), file names and dates (not set by the caller) and the caching of results.
-/

namespace Verif.Diff

open Verif.Module (Op Tag)

abbrev Bytes := List UInt8
abbrev Line := Bytes

/-! ### Matching -/

/-- The lines that count as popular, `chainB`: more than one in a hundred of at least 200 lines. -/
def popular (b : List Line) (x : Line) : Bool := decide (200 ≤ b.length) && decide (b.length / 100 + 1 < b.count x)

/-- `b2j`: the places of a line in the second text. Popular lines are removed. -/
def places (b : List Line) (x : Line) : List Nat := if popular b x then [] else (List.range b.length).filter fun j => b[j]? = some x

/-- `Match`. -/
structure Match where
  a : Nat
  b : Nat
  size : Nat
  deriving DecidableEq, Repr

/-- `j2len[j-1]`; a missing entry is zero. -/
def before (j2len : Nat → Nat) : Nat → Nat
  | 0 => 0
  | j + 1 => j2len j

def update (f : Nat → Nat) (j k : Nat) : Nat → Nat := fun x => if x = j then k else f x

/-- The inner loop of `findLongestMatch`: the places of line `i`. -/
def scanRow (i blo bhi : Nat) (j2len : Nat → Nat) : List Nat → Match → (Nat → Nat) → Match × (Nat → Nat)
  | [], best, next => (best, next)
  | j :: js, best, next =>
    if j < blo then scanRow i blo bhi j2len js best next
    else if bhi ≤ j then (best, next)
    else
      let k := before j2len j + 1
      scanRow i blo bhi j2len js (if best.size < k then ⟨i + 1 - k, j + 1 - k, k⟩ else best) (update next j k)

/-- The outer loop of `findLongestMatch`: `n` lines from line `i` on. -/
def scan (a b : List Line) (blo bhi : Nat) : Nat → Nat → Match → (Nat → Nat) → Match
  | 0, _, best, _ => best
  | n + 1, i, best, j2len =>
    let r := scanRow i blo bhi j2len (match a[i]? with | some x => places b x | none => []) best fun _ => 0
    scan a b blo bhi n (i + 1) r.1 r.2

/-- "Extend the best by non-junk elements", backwards. -/
def backwards (a b : List Line) (alo blo : Nat) : Nat → Nat → Nat → Match
  | i + 1, j + 1, k => if alo < i + 1 ∧ blo < j + 1 ∧ a[i]? = b[j]? then backwards a b alo blo i j (k + 1) else ⟨i + 1, j + 1, k⟩
  | i, j, k => ⟨i, j, k⟩

/-- The same forwards, at most `n` lines. -/
def forwards (a b : List Line) (ahi bhi : Nat) : Nat → Match → Match
  | 0, m => m
  | n + 1, m => if m.a + m.size < ahi ∧ m.b + m.size < bhi ∧ a[m.a + m.size]? = b[m.b + m.size]? then forwards a b ahi bhi n { m with size := m.size + 1 } else m

/-- `findLongestMatch`. -/
def longest (a b : List Line) (alo ahi blo bhi : Nat) : Match :=
  let m := scan a b blo bhi (ahi - alo) alo ⟨alo, blo, 0⟩ fun _ => 0
  let m := backwards a b alo blo m.a m.b m.size
  forwards a b ahi bhi (ahi - m.a) m

/-- `matchBlocks` in `GetMatchingBlocks`; the first argument bounds the depth of the recursion. -/
def blocks (a b : List Line) : Nat → Nat → Nat → Nat → Nat → List Match
  | 0, _, _, _, _ => []
  | n + 1, alo, ahi, blo, bhi =>
    let m := longest a b alo ahi blo bhi
    if 0 < m.size then
      (if alo < m.a ∧ blo < m.b then blocks a b n alo m.a blo m.b else []) ++
      m :: (if m.a + m.size < ahi ∧ m.b + m.size < bhi then blocks a b n (m.a + m.size) ahi (m.b + m.size) bhi else [])
    else []

/-- "Collapse adjacent equal blocks", with the block not yet added. -/
def collapse : Match → List Match → List Match
  | cur, [] => if 0 < cur.size then [cur] else []
  | cur, m :: ms =>
    if cur.a + cur.size = m.a ∧ cur.b + cur.size = m.b then collapse { cur with size := cur.size + m.size } ms
    else (if 0 < cur.size then [cur] else []) ++ collapse m ms

/-- `GetMatchingBlocks`. -/
def matching (a b : List Line) : List Match :=
  collapse ⟨0, 0, 0⟩ (blocks a b (a.length + 1) 0 a.length 0 b.length) ++ [⟨a.length, b.length, 0⟩]

/-- The operation before a block, in `GetOpCodes`. -/
def gapOp (i ai j bj : Nat) : List Op :=
  if i < ai ∧ j < bj then [⟨.replace, i, ai, j, bj⟩] else if i < ai then [⟨.delete, i, ai, j, bj⟩] else if j < bj then [⟨.insert, i, ai, j, bj⟩] else []

/-- The loop in `GetOpCodes`. -/
def opLoop : Nat → Nat → List Match → List Op
  | _, _, [] => []
  | i, j, m :: ms =>
    gapOp i m.a j m.b ++ (if 0 < m.size then [⟨.equal, m.a, m.a + m.size, m.b, m.b + m.size⟩] else []) ++ opLoop (m.a + m.size) (m.b + m.size) ms

/-- `GetOpCodes`. -/
def opCodes (a b : List Line) : List Op := opLoop 0 0 (matching a b)

/-! ### Unified differences -/

/-- `SplitLines`: lines with their ends; the last one gets an end. -/
def splitLines : Bytes → List Line
  | [] => [[10]]
  | c :: s => if c = 10 then [10] :: splitLines s else match splitLines s with
    | [] => [[c]]
    | l :: ls => (c :: l) :: ls

/-- "Fixup leading … groups", `GetGroupedOpCodes`. -/
def trimFirst (n : Nat) : List Op → List Op
  | ⟨.equal, i1, i2, j1, j2⟩ :: cs => ⟨.equal, max i1 (i2 - n), i2, max j1 (j2 - n), j2⟩ :: cs
  | cs => cs

/-- "Fixup … trailing groups". -/
def trimLast (n : Nat) : List Op → List Op
  | [] => []
  | [⟨.equal, i1, i2, j1, j2⟩] => [⟨.equal, i1, min i2 (i1 + n), j1, min j2 (j1 + n)⟩]
  | [c] => [c]
  | c :: d :: cs => c :: trimLast n (d :: cs)

/-- A group that is not shown: the last one, if it has no changes. -/
def idle : List Op → Bool
  | [] => true
  | [c] => c.tag = .equal
  | _ => false

/-- The loop in `GetGroupedOpCodes`, with the group not yet added. -/
def groupLoop (n : Nat) : List Op → List Op → List (List Op)
  | group, [] => if idle group then [] else [group]
  | group, c :: cs =>
    if c.tag = .equal ∧ n + n < c.i2 - c.i1 then
      (group ++ [⟨c.tag, c.i1, min c.i2 (c.i1 + n), c.j1, min c.j2 (c.j1 + n)⟩]) :: groupLoop n [⟨c.tag, max c.i1 (c.i2 - n), c.i2, max c.j1 (c.j2 - n), c.j2⟩] cs
    else groupLoop n (group ++ [c]) cs

/-- `GetGroupedOpCodes`. -/
def grouped (n : Nat) (a b : List Line) : List (List Op) :=
  let codes := opCodes a b
  let codes := if codes = [] then [⟨.equal, 0, 1, 0, 1⟩] else codes
  groupLoop n [] (trimLast n (trimFirst n codes))

/-- `formatRangeUnified`. -/
def formatRange (start stop : Nat) : Bytes :=
  if stop - start = 1 then itoaBytes (start + 1)
  else itoaBytes (if stop - start = 0 then start else start + 1) ++ [44] ++ itoaBytes (stop - start)

/-- `lines[i:j]`. -/
def slice (l : List Line) (i j : Nat) : List Line := (l.drop i).take (j - i)

/-- The lines of an operation, `WriteUnifiedDiff`. -/
def opText (a b : List Line) (c : Op) : Bytes := match c.tag with
  | .equal => (slice a c.i1 c.i2).flatMap fun l => 32 :: l
  | .replace => ((slice a c.i1 c.i2).flatMap fun l => 45 :: l) ++ (slice b c.j1 c.j2).flatMap fun l => 43 :: l
  | .delete => (slice a c.i1 c.i2).flatMap fun l => 45 :: l
  | .insert => (slice b c.j1 c.j2).flatMap fun l => 43 :: l

/-- A group with its header, `WriteUnifiedDiff`. -/
def hunkText (a b : List Line) (g : List Op) : Bytes := match g.head?, g.getLast? with
  | some f, some l =>
    [64, 64, 32, 45] ++ formatRange f.i1 l.i2 ++ [32, 43] ++ formatRange f.j1 l.j2 ++ [32, 64, 64, 10] ++ g.flatMap (opText a b)
  | _, _ => []

/-- `GetUnifiedDiffString`. -/
def unifiedText (n : Nat) (a b : List Line) : Bytes := (grouped n a b).flatMap (hunkText a b)

/-- `DiffValues`, engine.go:349–388, with the library. -/
def diffText (quote : Bytes → Bytes) (v1 v2 : Bytes) : Bytes :=
  Compare.diffValues quote (fun v1 v2 => some (unifiedText 2 (splitLines v1) (splitLines v2))) v1 v2

end Verif.Diff
