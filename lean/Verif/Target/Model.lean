import Verif.AMap
import Verif.Report.Model

/-!
Which tests are run against a mutant: `RunMutationTesting`, `/repo/lens/mutation.go:58–74`, and the script of `buildExecSelectTestsScript`, `/repo/lens/mutation.go:223–291`.

Modelled: the table from files to tests and the pattern the script makes of it. Paths are absolute (`filepath.Abs` does not change them) and have no characters that are
special to bash between double quotes; `$MUTATE_ORIGINAL` is the path that was handed to the tool. The rest of the script is C67 (`Mutation`).
-/

namespace Verif.Target

open Verif.Report (Bytes sortBy le)

/-- A test with the files of the changed functions its targets reach (`TestFunction.Targets[].ChangeFunctions[].FilePath`); `pkg` is its package. -/
structure Test where
  pkg : Bytes
  name : Bytes
  targets : List (List Bytes)
deriving DecidableEq, Repr

abbrev Table := AMap Bytes (List Bytes)

/-- The innermost loop, mutation.go:63–73. -/
def addFiles (name : Bytes) (tab : Table) (files : List Bytes) : Table :=
  files.foldl (fun (tab : Table) f =>
    let existing := (tab.get f).getD []
    if name ∈ existing then tab else tab.set f (existing ++ [name])) tab

/-- `fileToTests`, mutation.go:60–75. -/
def fileToTests (tests : List Test) : Table := tests.foldl (fun tab t => t.targets.foldl (addFiles t.name) tab) []

/-- `strings.Join`. -/
def join (sep : UInt8) : List Bytes → Bytes
  | [] => []
  | [x] => x
  | x :: y :: l => x ++ sep :: join sep (y :: l)

/-- The value of an entry of `FILE_TEST_MAP`, mutation.go:247–254: sorted names separated by spaces. -/
def entry (tests : List Bytes) : Bytes := join 32 (sortBy le tests)

/-- `tests="${FILE_TEST_MAP[$orig]}"`, mutation.go:246–262: nothing for a file without entry. -/
def lookup (tab : Table) (file : Bytes) : Bytes :=
  match tab.get file with
  | none => []
  | some tests => entry tests

/-- `tr ' ' '|'`, mutation.go:268. -/
def bars (text : Bytes) : Bytes := text.map fun b => if b = 32 then 124 else b

/-- The pattern, or nothing if the mutant is skipped, mutation.go:263–268: `^(A|B)$`. -/
def pattern (tests : List Test) (file : Bytes) : Option Bytes :=
  let found := lookup (fileToTests tests) file
  if found.isEmpty then none else some ([94, 40] ++ bars found ++ [41, 36])

end Verif.Target
