import Verif.Module.Model

/-!
What the user is told when the changed modules cannot be analysed: the error texts of `/repo/lens/module.go:103–187`, `268–303` and their reading in `AnalysisEngine.Run`,
`/repo/lens/engine.go:782–803`.

Simplified: loading a version of a module ends in one of three ways (`Found`), the text of a failing `packages.Load` is a parameter. The texts of errors of the
operating system are those of Linux. Errors of reading the go.mod files of loaded modules (module.go:227–231, 239–243) are left out. The follow-ups (dependencies of
the changed modules) are a parameter: what they are is C38 – C40.
-/

namespace Verif.Advice

open Verif.Module (Bytes Change cacheDir)

/-- The bytes of a text. -/
def utf (s : String) : Bytes := s.toUTF8.toList

/-- `strings.Contains`. -/
def contains : Bytes → Bytes → Bool
  | [], t => t.isEmpty
  | b :: s, t => t.isPrefixOf (b :: s) || contains s t

/-- What is found in the module cache for a version of a module: `absent` no directory (module.go:297–298), `broken` a directory whose packages cannot be loaded
(module.go:279–281), for example because it has no go.mod file, with the text of that error. -/
inductive Found where
  | absent
  | broken (text : Bytes)
  | good
deriving DecidableEq

/-- The module cache. -/
abbrev Disk := Bytes → Bytes → Found

/-- The text of the error of `loadModulePackageFromCache` and `FindModulePathInCache`, module.go:268–303. A path that cannot be escaped gets the text `malformed`. -/
def loadText (cache : Bytes) (disk : Disk) (m v : Bytes) : Option Bytes :=
  match cacheDir cache m v with
  | none => some (utf "malformed")
  | some dir =>
    match disk m v with
    | .absent => some (utf "failed to stat " ++ dir ++ utf ": stat " ++ dir ++ utf ": no such file or directory")
    | .broken text => some text
    | .good => none

/-- `fmt.Errorf("failure loading module %s@%s: %w", …)`, module.go:182 and 186. -/
def failure (m v text : Bytes) : Bytes := utf "failure loading module " ++ m ++ utf "@" ++ v ++ utf ": " ++ text

/-- Loading the versions of one change, module.go:176–187: the new one is looked at first. -/
def attempt (cache : Bytes) (disk : Disk) (c : Change) : Option Bytes :=
  match loadText cache disk c.name c.new with
  | some text => some (failure c.name c.new text)
  | none =>
    match loadText cache disk c.name c.prior with
    | some text => some (failure c.name c.prior text)
    | none => none

/-- The error of `AnalyzeModuleChanges`, module.go:111–148 with 158–161: the changes in the order they are analysed, a module only the first time. -/
def analyse (cache : Bytes) (disk : Disk) : List Bytes → List Change → Option Bytes
  | _, [] => none
  | visited, c :: cs =>
    if c.name ∈ visited then analyse cache disk visited cs
    else
      match attempt cache disk c with
      | some err => some err
      | none => analyse cache disk (c.name :: visited) cs

/-- What the user is told: that a version of a module is missing, or the error itself. -/
inductive Said where
  | missing (m v : Bytes)
  | other (err : Bytes)
deriving DecidableEq

/-- The reading of the error, engine.go:788–802. -/
def advice (err : Bytes) : List Change → Said
  | [] => .other err
  | c :: cs =>
    if !contains err c.name then advice err cs
    else if contains err c.prior then .missing c.name c.prior
    else if contains err c.new then .missing c.name c.new
    else advice err cs

/-- The text of the answer, engine.go:794–795, 797–798 and 801. -/
def message : Said → Bytes
  | .missing m v => utf "module " ++ m ++ utf "@" ++ v ++ utf " not found on disk, run: go install " ++ m ++ utf "@" ++ v
  | .other err => utf "error analyzing changes " ++ err

/-- Analysis of the requested changes and the follow-ups, engine.go:784–802: `none` if it succeeds. -/
def run (cache : Bytes) (disk : Disk) (requested more : List Change) : Option Said :=
  (analyse cache disk [] (requested ++ more)).map fun err => advice err requested

end Verif.Advice
