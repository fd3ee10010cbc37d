import Verif.Static.Model

/-!
What C42–C45 and C73–C75 talk about.
-/

namespace Verif.Static

section
variable {N : Type}

/-- Nodes from which calls lead to `start` without passing through an entry point on the way (the node itself may be one). -/
inductive Upward (callers : N → List (Option N)) (root : N → Bool) (start : N) : N → Prop
  | start : Upward callers root start start
  | caller {x y} : Upward callers root start x → root x = false → some y ∈ callers x → Upward callers root start y

/-- Nodes from which calls lead to `start` in any way. -/
inductive Calls (callers : N → List (Option N)) (start : N) : N → Prop
  | start : Calls callers start start
  | caller {x y} : Calls callers start x → some y ∈ callers x → Calls callers start y

/-- A project function worth reporting: compiled source of the project, not generated, not an entry point, declared. -/
def Reportable (f : Fn) : Prop :=
  f.hasPkg = true ∧ f.mainOrInit = false ∧ f.inProject = true ∧ f.generated = false ∧ f.compiles = some true ∧ f.supported = true

/-- A test of the project. -/
def IsProjectTest (f : Fn) : Prop := f.isTest = true ∧ f.inProject = true

/-- Where a way up from a caller ends: at a test of the project, and at an entry point that is not a test. -/
def endsWay (f : Fn) : Bool := (f.isTest && f.inProject) || (!f.isTest && f.mainOrInit)

/-- Packages reachable through imports of typed packages. -/
inductive Imported {P : Type} (pkg : P → Pkg P) (roots : List P) : P → Prop
  | root {p} : p ∈ roots → Imported pkg roots p
  | import_ {p q} : Imported pkg roots p → (pkg p).typed = true → q ∈ (pkg p).imports → Imported pkg roots q

end

/-- Sum of the calls on a line. -/
def callsOn (l : List Ret) (line : UInt32) : UInt32 := ((l.filter fun r => r.line = line).map (·.calls)).foldr (· + ·) 0

/-- What `go test` runs: a function without receiver named Test, or Test and something not starting with a small letter, in a test
file, with a `*testing.T`. Names are bytes here, so this is about names starting with ASCII characters. -/
def RunByGoTest (d : TestDecl) : Prop :=
  d.declared = true ∧ d.hasRecv = false ∧ (∃ rest, d.name = [84, 101, 115, 116] ++ rest ∧ ∀ b, rest.head? = some b → ¬ (97 ≤ b ∧ b ≤ 122)) ∧
    (∃ base, d.file = base ++ [95, 116, 101, 115, 116, 46, 103, 111]) ∧ d.params = 1 ∧ d.testingT = true

end Verif.Static
