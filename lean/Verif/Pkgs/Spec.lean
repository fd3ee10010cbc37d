import Verif.Pkgs.Model

/-! What C136 and C137 talk about: the files the go command takes for the package of a directory. -/

namespace Verif.Pkgs

/-- The file's name ends in the bytes. -/
def EndsIn (f : File) (suffix : Bytes) : Prop := ∃ base, f.name = base ++ suffix

/-- ".go" and "_test.go". -/
def dotGo : Bytes := [46, 103, 111]
def dotTest : Bytes := [95, 116, 101, 115, 116, 46, 103, 111]

example : dotGo = ".go".toUTF8.toList ∧ dotTest = "_test.go".toUTF8.toList := by decide +kernel

/-- A source file that is not a test and fits the build. -/
def Source (f : File) : Prop := f.isDir = false ∧ EndsIn f dotGo ∧ ¬ EndsIn f dotTest ∧ f.fits = some true

/-- "documentation". -/
def documentation : Bytes := [100, 111, 99, 117, 109, 101, 110, 116, 97, 116, 105, 111, 110]

/-- The package the go command builds from the directory: all source files have its name, besides those of the package `documentation`, which are left out. -/
def Builds (entries : List File) (p : Bytes) : Prop :=
  (∃ f ∈ entries, Source f ∧ f.pkg = some p ∧ p ≠ documentation) ∧ ∀ f ∈ entries, Source f → f.pkg = some p ∨ f.pkg = some documentation

/-- Nothing fails while the directory is read: the entries are still there and the source files can be parsed. -/
def Readable (entries : List File) : Prop :=
  (∀ f ∈ entries, f.isDir = false → EndsIn f dotGo → f.info = true) ∧ ∀ f ∈ entries, Source f → f.pkg ≠ none

end Verif.Pkgs
