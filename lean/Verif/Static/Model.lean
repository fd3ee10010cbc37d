import Verif.AMap
import Mathlib.Data.List.Dedup

/-!
Static analysis: `/repo/lens/static.go`.

Not modelled: loading packages, building SSA form and the call graph (libraries).  A call graph appears as a list of nodes in
any order (the code ranges over a map) with their incoming edges, a function as what the code asks about it.
-/

namespace Verif.Static

abbrev Bytes := List UInt8

/-! ### Call graph search -/

/-- What the analysis asks about the function of a node. -/
structure Fn where
  /-- `MakeSSAFunctionIdent`: identifier, and whether the function is a declared one. -/
  ident : Bytes
  supported : Bool
  /-- It has a function and a package. -/
  hasPkg : Bool
  /-- Its file is inside the project directory (`fileWithinDir` without error). -/
  inProject : Bool
  /-- `IsGeneratedFile`. -/
  generated : Bool
  /-- `compilesForBuildContext`; `none` is an error. -/
  compiles : Option Bool
  /-- `isMainFunction` or `isInitFunction`. -/
  mainOrInit : Bool
  /-- `isGoTestFunction`. -/
  isTest : Bool

/-- A call graph: its nodes, and for each the callers of its incoming edges (an edge may have none). -/
structure Graph (N : Type) where
  nodes : List N
  fn : N → Fn
  callers : N → List (Option N)

section
variable {N : Type} [DecidableEq N]

/-- The loop over the incoming edges, static.go:570–589; the top of the stack is the head. -/
def pushCallers : List (Option N) → List N → List N → List N × List N
  | [], stack, visited => (stack, visited)
  | none :: es, stack, visited => pushCallers es stack visited
  | some c :: es, stack, visited => if c ∈ visited then pushCallers es stack visited else pushCallers es (c :: stack) (c :: visited)

/-- Outcome of a search that is cut off after a number of steps. -/
inductive Search (α : Type) where
  | cutOff
  | failed
  | done (out : α)
deriving DecidableEq

/-- The loop of `reverseDFS`, static.go:557–590. `visit` is the callback; it may record something, or fail (`none`). -/
def search {S : Type} (callers : N → List (Option N)) (root : N → Bool) (visit : N → S → Option S) : Nat → List N → List N → S → Search S
  | _, [], _, s => .done s
  | 0, _ :: _, _, _ => .cutOff
  | n + 1, x :: stack, visited, s =>
    match visit x s with
    | none => .failed
    | some s' =>
      if root x then search callers root visit n stack visited s'
      else search callers root visit n (pushCallers (callers x) stack visited).1 (pushCallers (callers x) stack visited).2 s'

/-- `reverseDFS`, static.go:540–592. -/
def reverseDFS {S : Type} (callers : N → List (Option N)) (root : N → Bool) (visit : N → S → Option S) (steps : Nat) (start : N) (s : S) : Search S :=
  search callers root visit steps [start] [start] s

/-! ### Results shared by the workers -/

/-- Entry of `callerFuncMap` or `testFuncMap`: the node described, and the identifiers of what it leads to. -/
structure Entry (N : Type) where
  node : N
  targets : List Bytes
deriving DecidableEq, Repr

/-- One locked update, static.go:81–106 and 246–272: `(identifier, node, target)`. -/
def record (m : AMap Bytes (Entry N)) (e : Bytes × N × Bytes) : AMap Bytes (Entry N) :=
  match m.get e.1 with
  | some x => if e.2.2 ∈ x.targets then m else m.set e.1 ⟨x.node, x.targets ++ [e.2.2]⟩
  | none => m.set e.1 ⟨e.2.1, [e.2.2]⟩

/-- The updates in the order in which the workers get the lock. -/
def recordAll (events : List (Bytes × N × Bytes)) : AMap Bytes (Entry N) := events.foldl record []

/-! ### Callers of changed functions -/

/-- Callback of `CallerStaticAnalysis`, static.go:58–80: the updates it makes; `none` is an error. -/
def visitCaller (g : Graph N) (start : N) (target : Bytes) (x : N) (out : List (Bytes × N × Bytes)) : Option (List (Bytes × N × Bytes)) :=
  let f := g.fn x
  if !f.hasPkg || x = start then some out
  else if f.mainOrInit then some out
  else if !f.inProject then some out
  else if f.generated then some out
  else
    match f.compiles with
    | none => none
    | some false => some out
    | some true => if f.supported then some (out ++ [(f.ident, x, target)]) else some out

/-- `cgNodeFunctions` of `CallerStaticAnalysis`, static.go:37–47: the last node of an identifier wins. -/
def nodeOf (g : Graph N) (ident : Bytes) : Option N := (g.nodes.filter fun x => (g.fn x).ident = ident).getLast?

/-- The worker for a changed function, static.go:57–109. -/
def callerWorker (g : Graph N) (steps : Nat) (ch : Bytes) : Search (List (Bytes × N × Bytes)) :=
  match nodeOf g ch with
  | none => .done []
  | some start => reverseDFS g.callers (fun x => (g.fn x).mainOrInit) (visitCaller g start ch) steps start []

/-! ### Tests of callers -/

/-- Callback of `TestStaticAnalysis`, static.go:231–274. -/
def visitTest (g : Graph N) (target : Bytes) (x : N) (out : List (Bytes × N × Bytes)) : Option (List (Bytes × N × Bytes)) :=
  let f := g.fn x
  if !(f.isTest && f.inProject) then some out
  else if f.supported then some (out ++ [(f.ident, x, target)])
  else some out

/-- `allRoots`, static.go:199–211. -/
def testRoot (g : Graph N) (x : N) : Bool :=
  if (g.fn x).isTest then (g.fn x).inProject else (g.fn x).mainOrInit

/-- The worker for one node of a caller, static.go:230–276. -/
def testWorker (g : Graph N) (steps : Nat) (start : N) (caller : Bytes) : Search (List (Bytes × N × Bytes)) :=
  reverseDFS g.callers (testRoot g) (visitTest g caller) steps start []

/-- The workers started, static.go:217–229: one per node of a caller's identifier. -/
def testStarts (g : Graph N) (callers : List Bytes) : List (N × Bytes) :=
  callers.flatMap fun c => (g.nodes.filter fun x => (g.fn x).ident = c).map fun x => (x, c)

/-! ### Exported edges -/

/-- Edges of one node, static.go:141–168: the identifiers of the callees, each once, without empty ones. -/
def calleeIdents (g : Graph N) (callees : N → List (Option N)) (x : N) : List Bytes :=
  (((callees x).filterMap id).map fun y => (g.fn y).ident).dedup.filter fun i => i ≠ []

/-- `extractCallGraphEdges`, static.go:128–173. -/
def exportEdges (g : Graph N) (callees : N → List (Option N)) : AMap Bytes (List Bytes) :=
  g.nodes.foldl (fun (m : AMap Bytes (List Bytes)) x => if (g.fn x).supported then m.set (g.fn x).ident (calleeIdents g callees x) else m) []

end

/-! ### Packages -/

/-- A loaded package: whether it has type information, and its imports. -/
structure Pkg (P : Type) where
  typed : Bool
  imports : List P

/-- State of `createAll`: packages created and module packages, both newest first. -/
structure Created (P : Type) where
  created : List P
  modules : List P
deriving DecidableEq

/-- `createAll`, static.go:348–374, as a stack of packages still to be created (the recursion visits the imports of a package
before its siblings). -/
def createAll {P : Type} [DecidableEq P] (pkg : P → Pkg P) (project : List P) : Nat → List P → Created P → Option (Created P)
  | _, [], s => some s
  | 0, _ :: _, _ => none
  | n + 1, p :: ps, s =>
    if !(pkg p).typed then createAll pkg project n ps s
    else if p ∈ s.created then createAll pkg project n ps s
    else createAll pkg project n ((pkg p).imports ++ ps) ⟨p :: s.created, if p ∈ project then s.modules else p :: s.modules⟩

/-! ### Identifiers -/

/-- `makeFunctionIdentStr`, static.go:421–427; 58 is ':', 46 is '.'. -/
def identStr (pkg recv name : Bytes) : Bytes :=
  if recv ≠ [] then pkg ++ 58 :: recv ++ 46 :: name else pkg ++ 58 :: name

/-- Position of the last '/' (47). -/
def lastSlash (v : Bytes) : Option Nat :=
  let r := v.reverse.takeWhile (· != 47)
  if r.length = v.length then none else some (v.length - 1 - r.length)

/-- `ShortIdent`, types.go:60–66. -/
def shortIdent (v : Bytes) : Bytes :=
  match lastSlash v with
  | some i => if i > 0 then v.drop (i + 1) else v
  | none => v

/-! ### Return points -/

/-- `FunctionReturn`, types.go. -/
structure Ret where
  line : UInt32
  calls : UInt32
deriving DecidableEq, Repr

/-- The loop of `mergeReturnInfos`, static.go:527–535, on the shared array: `i` is the next entry, `u` the length of `unique`,
whose entries are the first ones of the same array. -/
def mergeLoop (a : List Ret) (i u : Nat) : Nat → List Ret × Nat
  | 0 => (a, u)
  | n + 1 =>
    match a[i]? with
    | none => (a, u)
    | some x =>
      if i = 0 ∨ x.line ≠ (a[i - 1]?.getD ⟨0, 0⟩).line then mergeLoop (a.set u x) (i + 1) (u + 1) n
      else mergeLoop (a.modify (u - 1) fun y => ⟨y.line, y.calls + x.calls⟩) (i + 1) u n

/-- `mergeReturnInfos`, static.go:525–536, after sorting. -/
def merge (sorted : List Ret) : List Ret :=
  let r := mergeLoop sorted 0 0 sorted.length
  r.1.take r.2

/-! ### Kinds of files and functions -/

def hasSuffix (v s : Bytes) : Bool := s.isSuffixOf v

/-- What `isGoTestFunction` asks about a function. -/
structure TestDecl where
  name : Bytes
  /-- It is a function declaration with a package and signature. -/
  declared : Bool
  hasRecv : Bool
  file : Bytes
  params : Nat
  /-- The first parameter is a `*testing.T`. -/
  testingT : Bool

/-- `isGoTestFunction`, static.go:640–663; "Test" and "_test.go". -/
def isGoTest (d : TestDecl) : Bool :=
  d.declared && [84, 101, 115, 116].isPrefixOf d.name && hasSuffix d.file [95, 116, 101, 115, 116, 46, 103, 111] && d.params == 1 && d.testingT

end Verif.Static
