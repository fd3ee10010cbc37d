import Mathlib.Data.List.Sort
import Mathlib.Order.Lex
import Mathlib.Data.List.Lex
import Mathlib.Data.Char

/-!
Which tests are run: the script of `buildExecSelectTestsScript`, `/repo/lens/mutation.go:58–73 and 225–297`, and `ExecGoTest`, `/repo/lens/exec.go:78–92`.

The script is text. The part of bash needed to read it (assignments with double quotes, word splitting) is modelled from its documentation; a construct that
is not part of this fragment gives `none`. What happens around the tests is in `Verif/Mutation`.
-/

namespace Verif.Select

abbrev Str := List Char

/-! ### Writing the script -/

/-- A test with the files of the changed functions its targets call (`TestFunction`, `CallerFunction`, `ModuleFunction`: types.go:69–127). -/
structure TestFn where
  name : Str
  targets : List (List Str)
  deriving DecidableEq, Repr

abbrev FileMap := List (Str × List Str)

/-- `fileToTests[abs]`. -/
def get (m : FileMap) (file : Str) : List Str := match m.find? (fun q => q.1 = file) with
  | some q => q.2
  | none => []

def put (m : FileMap) (file : Str) (l : List Str) : FileMap := match m with
  | [] => [(file, l)]
  | q :: m => if q.1 = file then (file, l) :: m else q :: put m file l

/-- mutation.go:67–70. -/
def addTest (m : FileMap) (file name : Str) : FileMap := if name ∈ get m file then m else put m file (get m file ++ [name])

/-- The loops, mutation.go:60–73; `abs` is `filepath.Abs`. -/
def collect (abs : Str → Str) (ts : List TestFn) : FileMap :=
  ts.foldl (fun m t => t.targets.flatten.foldl (fun m c => addTest m (abs c) t.name) m) []

/-- `strings.Join`. -/
def join (sep : Char) : List Str → Str
  | [] => []
  | [x] => x
  | x :: y :: l => x ++ sep :: join sep (y :: l)

/-- "FILE_TEST_MAP[" and the quotation mark. -/
def assign : Str := ['F', 'I', 'L', 'E', '_', 'T', 'E', 'S', 'T', '_', 'M', 'A', 'P', '[', '"']

/-- One line of the script, mutation.go:254–257. -/
def line (q : Str × List Str) : Str := assign ++ q.1 ++ ['"', ']', '=', '"'] ++ join ' ' (q.2.insertionSort (· ≤ ·)) ++ ['"', '\n']

/-- Keys in order, mutation.go:246–258. The map comes in any order. -/
def lines (m : FileMap) : Str := (m.insertionSort (fun a b => a.1 ≤ b.1)).flatMap line

/-- "PKGS=" and the quotation mark. -/
def pkgsAssign : Str := ['P', 'K', 'G', 'S', '=', '"']

/-- "declare -A FILE_TEST_MAP" with the end of the line. -/
def declare_ : Str := ['d', 'e', 'c', 'l', 'a', 'r', 'e', ' ', '-', 'A', ' ', 'F', 'I', 'L', 'E', '_', 'T', 'E', 'S', 'T', '_', 'M', 'A', 'P', '\n']

/-- The script after its first two lines and before the fixed part, mutation.go:236–258. -/
def scriptText (m : FileMap) (packages : List Str) : Str := pkgsAssign ++ join ' ' packages ++ ['"', '\n'] ++ declare_ ++ lines m

/-! ### Reading the script -/

def isNameStart (c : Char) : Bool := ('a' ≤ c && c ≤ 'z') || ('A' ≤ c && c ≤ 'Z') || c == '_'
def isName (c : Char) : Bool := isNameStart c || ('0' ≤ c && c ≤ '9')

/-- Inside double quotes: value and rest. Parameters are expanded if they are names, every other expansion is outside of the fragment. -/
def quoted (env : Str → Str) : Nat → Str → Option (Str × Str)
  | 0, _ => none
  | _, [] => none
  | n + 1, c :: r =>
    if c = '"' then some ([], r)
    else if c = '\\' then match r with
      | [] => none
      | d :: r => if d = '$' ∨ d = '`' ∨ d = '"' ∨ d = '\\' then (quoted env n r).map fun q => (d :: q.1, q.2)
        else if d = '\n' then quoted env n r
        else (quoted env n r).map fun q => ('\\' :: d :: q.1, q.2)
    else if c = '`' then none
    else if c = '$' then match r with
      | [] => none
      | d :: r => if isNameStart d then (quoted env n (r.dropWhile isName)).map fun q => (env (d :: r.takeWhile isName) ++ q.1, q.2)
        else if d = '/' ∨ d = '.' ∨ d = ' ' ∨ d = '"' then (quoted env n (d :: r)).map fun q => ('$' :: q.1, q.2)
        else none
    else (quoted env n r).map fun q => (c :: q.1, q.2)

def strip (p : Str) (s : Str) : Option Str := if p <+: s then some (s.drop p.length) else none

/-- The assignments to elements of the array, one on each line, in order. -/
def assigns (env : Str → Str) : Nat → Str → Option (List (Str × Str))
  | _, [] => some []
  | 0, _ => none
  | n + 1, s => do
    let s1 ← strip assign s
    let q1 ← quoted env (s1.length + 1) s1
    let s2 ← strip [']', '=', '"'] q1.2
    let q2 ← quoted env (s2.length + 1) s2
    let s3 ← strip ['\n'] q2.2
    let rest ← assigns env n s3
    pure ((q1.1, q2.1) :: rest)

/-- An unquoted variable: split at blanks. Words with characters for patterns are outside of the fragment. -/
def wordsOf : Str → List Str
  | [] => [[]]
  | c :: s => if c = ' ' ∨ c = '\t' ∨ c = '\n' then [] :: wordsOf s else match wordsOf s with
    | [] => [[c]]
    | w :: ws => (c :: w) :: ws

def splitWords (s : Str) : Option (List Str) :=
  if s.any (fun c => c = '*' ∨ c = '?' ∨ c = '[') then none else some ((wordsOf s).filter (· ≠ []))

/-- What the script does with a mutant: skip it, or run `go test` with a pattern on packages. -/
inductive Plan where
  | skip
  | test (pattern : Str) (packages : List Str)
  deriving DecidableEq, Repr

/-- `tr ' ' '|'`. -/
def bars (s : Str) : Str := s.map fun c => if c = ' ' then '|' else c

/-- "^($(echo "$tests" | tr ' ' '|'))$", mutation.go:269. -/
def patternOf (tests : Str) : Str := ['^', '('] ++ bars tests ++ [')', '$']

/-- The value of an element; of several assignments the last one counts. -/
def lookup (l : List (Str × Str)) (k : Str) : Str := match l.reverse.find? (fun q => q.1 = k) with
  | some q => q.2
  | none => []

/-- The script for a mutant of the file `orig`, mutation.go:236–282. -/
def plan (env : Str → Str) (text : Str) (orig : Str) : Option Plan := do
  let s1 ← strip pkgsAssign text
  let q1 ← quoted env (s1.length + 1) s1
  let s2 ← strip ['\n'] q1.2
  let s3 ← strip declare_ s2
  let arr ← assigns env (s3.length + 1) s3
  let tests := lookup arr orig
  if tests = [] then pure .skip
  else do
    let pkgs ← splitWords q1.1
    pure (.test (patternOf tests) pkgs)

/-- `-run`, exec.go:80. -/
def single (name : Str) : Str := '^' :: name ++ ['$']

end Verif.Select
