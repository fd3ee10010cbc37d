import Verif.AMap

/-!
The package of a directory: `/repo/lens/asttweak.go:253–326` and the choice of files in `buildTypesInfo`, 1164–1204.

Not modelled: build constraints and parsing, which appear as what they say about an entry; the type check.
-/

namespace Verif.Pkgs

abbrev Bytes := List UInt8

/-- ".go" and "_test.go". -/
def goSuffix : Bytes := [46, 103, 111]
def testSuffix : Bytes := [95, 116, 101, 115, 116, 46, 103, 111]

/-- An entry of a directory, in the order of `os.ReadDir`. -/
structure File where
  name : Bytes
  isDir : Bool
  /-- `entry.Info()` gives no error. -/
  info : Bool
  /-- `build.Default.MatchFile`; `none` is an error. -/
  fits : Option Bool
  /-- The name in the package clause; `none` if the file cannot be read or parsed. -/
  pkg : Option Bytes
deriving DecidableEq

/-- `makeFileFilter`, asttweak.go:253–264. -/
def filter (f : File) : Bool :=
  if testSuffix.isSuffixOf f.name then false
  else match f.fits with
    | none => false
    | some b => b

/-- A package found: its name and its files, asttweak.go:266–269. -/
abbrev Found := AMap Bytes (List File)

/-- The loop of `parseDir`, asttweak.go:279–307; `none` is an error. -/
def parseLoop : List File → Found → Option Found
  | [], pkgs => some pkgs
  | f :: fs, pkgs =>
    if f.isDir || !goSuffix.isSuffixOf f.name then parseLoop fs pkgs
    else match f.info with
      | false => none
      | true =>
        if !filter f then parseLoop fs pkgs
        else match f.pkg with
          | none => none
          | some p => parseLoop fs (pkgs.set p ((pkgs.get p).getD [] ++ [f]))

/-- `parseDir` with the filter, asttweak.go:274–308, for a directory that can be read. -/
def parseDir (entries : List File) : Option Found := parseLoop entries []

/-- `detectPackageName`, asttweak.go:313–326; `none` is an error. -/
def detect (entries : List File) : Option Bytes :=
  match parseDir entries with
  | none => none
  | some pkgs => match pkgs.keys with
    | [p] => some p
    | _ => none

/-- What `buildTypesInfo` does before the type check. -/
inductive Checked where
  /-- A nil pointer is dereferenced. -/
  | crash
  /-- It gives up. -/
  | gaveUp
  /-- These files are checked. -/
  | files (fs : List File)
deriving DecidableEq

/-- The files for the type check of a file of the directory, asttweak.go:1175–1189: an entry of a map of pointers that does not exist is nil. -/
def toCheck (entries : List File) (package : Bytes) : Checked :=
  match parseDir entries with
  | none => .gaveUp
  | some [] => .gaveUp
  | some pkgs => match pkgs.get package with
    | none => .crash
    | some fs => .files fs

end Verif.Pkgs
