import Verif.Versions.Model
import Verif.Module.Spec

/-! Minimal version selection, as the go command defines it (https://go.dev/ref/mod#minimal-version-selection), and what an update changes. -/

namespace Verif.Versions

open Module (Change compareSem)

/-- A version of a module is needed if the project requires it, or a version that is needed does. -/
inductive Needs (g : Graph) (main : AMap Bytes Bytes) : Bytes → Bytes → Prop
  | main {n v} : main.get n = some v → Needs g main n v
  | dep {n v d w} : Needs g main n v → (g n v).get d = some w → Needs g main d w

/-- The highest version that is needed is the one in the build. -/
def Selected (g : Graph) (main : AMap Bytes Bytes) (n v : Bytes) : Prop := Needs g main n v ∧ ∀ w, Needs g main n w → compareSem w v ≤ 0

/-- Where the sources of a module come from: the cache, or what a `replace` directive of the project says. -/
inductive Source where
  | cache (n v : Bytes)
  | dir (d : Bytes)

def used (repl : Bytes → Option Bytes) (n v : Bytes) : Source := match repl n with
  | some d => .dir d
  | none => .cache n v

/-- The update replaces `v` by `w` in the build. -/
def Changes (g : Graph) (repl : Bytes → Option Bytes) (main main' : AMap Bytes Bytes) (n v w : Bytes) : Prop :=
  Selected g main n v ∧ Selected g main' n w ∧ used repl n v ≠ used repl n w

/-- `go mod tidy`: the file lists all modules, each with the version in the build. -/
structure Tidy (g : Graph) (main : AMap Bytes Bytes) : Prop where
  listed : ∀ n v, Needs g main n v → (main.get n).isSome
  selected : ∀ n v, main.get n = some v → Selected g main n v

/-- Modules to be updated: once each, with the version of the project, to a higher one. -/
structure Upgrade (main : AMap Bytes Bytes) (reqs : List Change) : Prop where
  once : (reqs.map (·.name)).Nodup
  prior : ∀ c ∈ reqs, main.get c.name = some c.prior
  higher : ∀ c ∈ reqs, compareSem c.prior c.new < 0

/-- Versions of one module with the same precedence are the same (they do not differ in build metadata only). -/
def Apart (g : Graph) (main main' : AMap Bytes Bytes) : Prop := ∀ n v w, (Needs g main n v ∨ Needs g main' n v) → (Needs g main n w ∨ Needs g main' n w) → compareSem v w = 0 → v = w

/-- Each go.mod file names a module once. -/
def OneEach (g : Graph) : Prop := ∀ n v, (g n v).keys.Nodup

/-- The requirements that the update touches: what is requested, and requirements that a module which is touched has in its touched version and had not in the version of the project. -/
inductive Touched (g : Graph) (main : AMap Bytes Bytes) (reqs : List Change) : Bytes → Bytes → Prop
  | request {c} : c ∈ reqs → Touched g main reqs c.name c.new
  | dep {n v p d w} : Touched g main reqs n v → main.get n = some p → (g n v).get d = some w → (g n p).get d ≠ some w → Touched g main reqs d w

/-- No module is new to the project. -/
def NoneNew (g : Graph) (main : AMap Bytes Bytes) (reqs : List Change) : Prop := ∀ n v, Touched g main reqs n v → (main.get n).isSome
/-- A module is touched in one version at most, besides that of the project. -/
def OneVersion (g : Graph) (main : AMap Bytes Bytes) (reqs : List Change) : Prop :=
  ∀ n v w, Touched g main reqs n v → Touched g main reqs n w → main.get n ≠ some v → main.get n ≠ some w → v = w
/-- No version is lower than that of the project. -/
def NoneLower (g : Graph) (main : AMap Bytes Bytes) (reqs : List Change) : Prop := ∀ n v p, Touched g main reqs n v → main.get n = some p → v = p ∨ compareSem p v < 0
/-- No module that matters is replaced. -/
def Unreplaced (repl : Bytes → Option Bytes) (main : AMap Bytes Bytes) : Prop := ∀ n, (main.get n).isSome → repl n = none

/-- C167, the full statement: the analysis compares the versions that the update changes in the build, and no others. -/
def Agrees : Prop := ∀ (F : Type) (g : Graph) (repl : Bytes → Option Bytes) (funcs : Change → List F) (main : AMap Bytes Bytes) (reqs : List Change) (rounds : Nat) (s : Module.AState F),
  OneEach g → Tidy g main → Upgrade main reqs → Module.analyze (envOf g funcs main) true reqs rounds = .done s →
  ∀ n v w, Changes g repl main (update main reqs) n v w ↔ ∃ c ∈ s.seen, c.name = n ∧ c.prior = v ∧ c.new = w

end Verif.Versions
