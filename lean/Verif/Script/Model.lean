import Verif.Select.Model
import Verif.Mutation.Model
import Verif.AMap

/-!
The two mutation scripts on a disk with all its files: `buildExecSelectTestsScript` and `buildExecAllTestsScript`, `/repo/lens/mutation.go:225–331`.

`Verif/Mutation` knows only the mutated file and its backup. Here the arguments of `mv` and `cp` are what bash makes of the words in the script: the first
script has its paths in double quotes, the second has not, so that they are split at blanks and taken for patterns. Bash, `mv` and `cp` are modelled from their
documentation. Signals and failing disks are in `Verif/Mutation`; here every command does what its arguments ask for. `none` is a case outside of this
fragment (a directory is moved).
-/

namespace Verif.Script
open Verif
open Verif.Select (Str wordsOf)

abbrev Content := Nat

/-- Files by path, and the directories. -/
structure Disk where
  files : AMap Str Content
  dirs : List Str
deriving DecidableEq, Repr

/-! ### Words -/

/-- A set of characters in a pattern up to its bracket: the set and the rest. Ranges and complements are outside of the fragment. -/
def setOf : Str → Option (Str × Str)
  | [] => none
  | ']' :: r => some ([], r)
  | c :: r => (setOf r).map fun q => (c :: q.1, q.2)

/-- A pattern for names of files: `*` and `?` stand for anything but a slash, `[…]` for one of the characters. The number bounds the steps. -/
def fits : Nat → Str → Str → Bool
  | 0, _, _ => false
  | _ + 1, [], s => s = []
  | n + 1, '*' :: p, s => fits n p s || match s with
    | [] => false
    | c :: s => c ≠ '/' && fits n ('*' :: p) s
  | n + 1, '?' :: p, s => match s with
    | [] => false
    | c :: s => c ≠ '/' && fits n p s
  | n + 1, '[' :: p, s => match setOf p, s with
    | some (cs, p), c :: s => c ∈ cs && fits n p s
    | _, _ => false
  | n + 1, c :: p, s => match s with
    | [] => false
    | d :: s => c = d && fits n p s

def isPattern (w : Str) : Bool := w.any fun c => c = '*' ∨ c = '?' ∨ c = '['

/-- A word that is a pattern becomes the files it fits, or stays if there is none. -/
def glob (d : Disk) (w : Str) : List Str :=
  if isPattern w then
    match d.files.keys.filter (fits (w.length + 1000) w) with
    | [] => [w]
    | l => l
  else [w]

/-- A text without quotes: split at blanks, then patterns. -/
def expand (d : Disk) (value : Str) : List Str := ((wordsOf value).filter (· ≠ [])).flatMap (glob d)

/-! ### Commands -/

/-- The last part of a path. -/
def base (p : Str) : Str := (p.reverse.takeWhile (· ≠ '/')).reverse

/-- Moving (`keep = false`) or copying one file to a path. -/
def one (keep : Bool) (d : Disk) (a b : Str) : Option (Disk × Bool) :=
  match d.files.get a with
  | some c => some (⟨(if keep then d.files else d.files.del a).set b c, d.dirs⟩, true)
  | none => if a ∈ d.dirs then none else some (d, false)

/-- Several files into a directory; fails if one fails, the others are done. -/
def into (keep : Bool) (dir : Str) : Disk → List Str → Option (Disk × Bool)
  | d, [] => some (d, true)
  | d, a :: l => do
    let r ← one keep d a (dir ++ '/' :: base a)
    let s ← into keep dir r.1 l
    pure (s.1, r.2 && s.2)

/-- `mv` and `cp`: the last argument is a directory, or there are two of them. -/
def command (keep : Bool) (d : Disk) (args : List Str) : Option (Disk × Bool) :=
  match args.getLast? with
  | none => some (d, false)
  | some dst =>
    if dst ∈ d.dirs then into keep dst d args.dropLast
    else match args with
      | [a, b] => if a = b then some (d, false) else one keep d a b
      | _ => some (d, false)

/-! ### The scripts -/

/-- `$MUTATE_ORIGINAL.mbkp` -/
def backup (o : Str) : Str := o ++ ['.', 'm', 'b', 'k', 'p']

/-- What is left on disk, the exit code, and the disk while the tests ran. -/
structure Out where
  disk : Disk
  exit : Nat
  during : Option Disk
deriving DecidableEq, Repr

/-- Both scripts from `mv` to their end, mutation.go:272–282 and 309–318 with 200–223; `w` is what becomes of the text of an argument. The trap has quotes in both. -/
def run (w : Disk → Str → List Str) (o c : Str) (test : Nat) (d : Disk) : Option Out := do
  let r1 ← command false d (w d o ++ w d (backup o))
  if r1.2 = false then pure ⟨r1.1, 2, none⟩
  else
    let r2 ← command true r1.1 (w r1.1 c ++ w r1.1 o)
    let r3 ← command false r2.1 [backup o, o]
    if r2.2 = false then pure ⟨r3.1, 2, none⟩
    else pure ⟨r3.1, Mutation.verdict test, some r2.1⟩

/-- The script of targeted tests for a file with tests, mutation.go:272–282: quotes. -/
def selectRun : Str → Str → Nat → Disk → Option Out := run fun _ s => [s]

/-- The script of all tests, mutation.go:307–318: no quotes. -/
def allRun : Str → Str → Nat → Disk → Option Out := run expand

end Verif.Script
