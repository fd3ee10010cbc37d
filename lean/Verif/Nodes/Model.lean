import Verif.Static.Model

/-!
The functions of a call graph and their identifiers: `MakeSSAFunctionIdent`, `MakeFunctionIdent`, `isMainFunction`, `isInitFunction`, `/repo/lens/static.go:393–427, 618–637`, as `CallerStaticAnalysis`
(static.go:37–52) and `extractCallGraphEdges` (128–173) use them. The program is built without `ssa.InstantiateGenerics` (static.go:336), so that calls of a generic function with type
arguments are calls of a wrapper, which calls the generic function. What the library gives for each sort of function is trusted: wrappers have no package, and those of generic
functions share the syntax of the generic function.
-/

namespace Verif.Nodes

open Verif.Static (Bytes identStr Fn Graph)

/-- "init". -/
def initName : Bytes := [105, 110, 105, 116]

/-- "main". -/
def mainName : Bytes := [109, 97, 105, 110]

/-- The functions of a program: declared ones (generic or not), the wrapper of a generic function for type arguments, function literals, the initialiser of a package, other wrappers. -/
inductive Kind where
  | declared (pkg recv name : Bytes)
  | applied (recv name : Bytes)
  | literal (pkg name : Bytes)
  | initialiser (pkg : Bytes)
  | wrapper (name : Bytes)
deriving DecidableEq

/-- `MakeSSAFunctionIdent`, static.go:395–408: the identifier, and whether the syntax is a declaration. -/
def ident : Kind → Bytes × Bool
  | .declared pkg recv name => (identStr pkg recv name, true)
  | .applied recv name => (identStr [] recv name, true)
  | .literal pkg name => (identStr pkg [] name, false)
  | .initialiser pkg => (identStr pkg [] initName, false)
  | .wrapper name => (identStr [] [] name, false)

/-- `fn.Package() != nil`. -/
def hasPkg : Kind → Bool
  | .declared _ _ _ => true
  | .applied _ _ => false
  | .literal _ _ => true
  | .initialiser _ => true
  | .wrapper _ => false

/-- What is asked of a function besides. `command`: the name of its package is "main"; `plain`: it has no parameters. -/
structure Info where
  inProject : Bool
  generated : Bool
  compiles : Option Bool
  isTest : Bool
  command : Bool
  plain : Bool

/-- `isMainFunction` or `isInitFunction`, static.go:621–637. -/
def mainOrInit (i : Info) : Kind → Bool
  | .declared _ recv name => recv.isEmpty && i.plain && ((i.command && name == mainName) || name == initName)
  | _ => false

/-- A program with its calls. -/
structure Program (N : Type) where
  nodes : List N
  kind : N → Kind
  info : N → Info
  callers : N → List (Option N)

/-- What the analysis has of it. -/
def Program.graph {N : Type} (p : Program N) : Graph N :=
  ⟨p.nodes, fun x => ⟨(ident (p.kind x)).1, (ident (p.kind x)).2, hasPkg (p.kind x), (p.info x).inProject, (p.info x).generated, (p.info x).compiles, mainOrInit (p.info x) (p.kind x), (p.info x).isTest⟩,
    p.callers⟩

end Verif.Nodes
