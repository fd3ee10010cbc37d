import Verif.Nodes.Model

/-! What holds of programs, and what their analysis should give. -/

namespace Verif.Nodes

open Verif.Static (Bytes)

variable {N : Type}

/-- Package paths are not empty and without ':', names without '.', those of literals have a '$' and those of declarations none. -/
def Kind.Regular : Kind → Prop
  | .declared pkg _ name => pkg ≠ [] ∧ 58 ∉ pkg ∧ 46 ∉ name ∧ 36 ∉ name
  | .applied _ name => 46 ∉ name
  | .literal pkg name => 58 ∉ pkg ∧ 46 ∉ name ∧ 36 ∈ name
  | .initialiser pkg => 58 ∉ pkg
  | .wrapper name => 46 ∉ name

/-- A function that its package, receiver and name tell from all others: not `func init()`, of which there can be any number, and not `func _`. -/
def Kind.Proper : Kind → Prop
  | .declared _ recv name => name ≠ [95] ∧ (recv = [] → name ≠ [105, 110, 105, 116])
  | _ => False

/-- A program as the compiler accepts it: a function that can be named is declared once; calls are from functions of the program. -/
structure Program.Valid (p : Program N) : Prop where
  regular : ∀ x ∈ p.nodes, (p.kind x).Regular
  once : ∀ x ∈ p.nodes, ∀ y ∈ p.nodes, (p.kind x).Proper → p.kind x = p.kind y → x = y
  closed : ∀ x ∈ p.nodes, ∀ y, some y ∈ p.callers x → y ∈ p.nodes

/-- `func main()` of a command or `func init()`. -/
def Entry (p : Program N) (x : N) : Prop :=
  ∃ pkg name, p.kind x = .declared pkg [] name ∧ (p.info x).plain = true ∧ (name = [105, 110, 105, 116] ∨ name = [109, 97, 105, 110] ∧ (p.info x).command = true)

/-- A declared function of the project that can be watched. -/
structure Watchable (p : Program N) (x : N) : Prop where
  declared : ∃ pkg recv name, p.kind x = .declared pkg recv name
  noEntry : ¬ Entry p x
  project : (p.info x).inProject = true
  written : (p.info x).generated = false
  compiled : (p.info x).compiles = some true

/-- Calls lead to `f`, without passing through an entry point on the way. -/
inductive Leads (p : Program N) (f : N) : N → Prop
  | self : Leads p f f
  | call {x y} : Leads p f x → ¬ Entry p x → some y ∈ p.callers x → Leads p f y

/-- What the library guarantees of initialisers: `init` functions are called by the initialiser of their package only, and that by initialisers only. -/
def Started (p : Program N) : Prop :=
  ∀ x ∈ p.nodes, (∃ pkg, p.kind x = .declared pkg [] [105, 110, 105, 116] ∨ p.kind x = .initialiser pkg) → ∀ y, some y ∈ p.callers x → ∃ pkg, p.kind y = .initialiser pkg

end Verif.Nodes
