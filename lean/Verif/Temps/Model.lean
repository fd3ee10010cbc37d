import Verif.Base

/-!
The block that replaces a return: `buildReturnInstrumentation`, `makeReturnTemp`, `exprContainsTypeShadow` and `makeSnapshotLit`,
`/repo/lens/asttweak.go:1306–1528, 1670–1694, 1715–1763 and 1771–1793`, with types and names. The order of effects is in `Verif/Returns`.
-/

namespace Verif.Temps

/-- A name of the program or a generated one. -/
abbrev Name := List Char

/-- The types of a Go program: which can be assigned to which, how untyped constants (and untyped booleans) `C` convert, and payloads `P` of values. -/
structure Sys where
  T : Type
  C : Type
  P : Type
  /-- `any` -/
  top : T
  iface : T → Bool
  dflt : C → T
  assign : T → T → Bool
  fits : C → T → Bool
  nilable : T → Bool
  const : C → T → P
  zero : P

/-- A value with its dynamic type; `none` is the nil interface. -/
abbrev Dyn (S : Sys) := Option (S.T × S.P)

/-- What an expression is: a value of a type, an untyped constant, or `nil`. -/
inductive Sem (S : Sys) where
  | typed (t : S.T) (v : Dyn S)
  | untyped (c : S.C)
  | nil

/-- The kinds of expressions `buildReturnInstrumentation` tells apart, asttweak.go:1397–1525. -/
inductive Shape where
  /-- An identifier; whether a temporary is made is decided from types where known, asttweak.go:1399–1428. -/
  | ident (x : Name) (needTmp : Bool)
  /-- A literal; `needTmp`: the result is an interface, asttweak.go:1449–1459. -/
  | lit (needTmp : Bool)
  /-- Anything else; `self`: a call of the function itself, `isRecursiveCall`, asttweak.go:1813–1827. -/
  | other (self : Bool)
deriving DecidableEq

/-- A result of a return: shape, all identifiers in it, and what it is. -/
structure Expr (S : Sys) where
  shape : Shape
  ids : List Name
  sem : Sem S

/-- A result type as written: its identifiers and the type it means in the signature. -/
structure TExpr (S : Sys) where
  ids : List Name
  den : S.T

/-- An expression of the generated block: one of the program's, or a temporary. -/
inductive RExpr (S : Sys) where
  | orig (e : Expr S)
  | tmp (n : Name)

/-- A statement of the generated block: `var n T = e`, `n := e`, or `n0, n1, … := call`. -/
inductive TStmt (S : Sys) where
  | decl (n : Name) (t : TExpr S) (e : RExpr S)
  | define (n : Name) (e : RExpr S)
  | call (ns : List Name) (vs : List (Sem S))

/-- The block: statements, the reported fields and the results of the return. -/
structure Block (S : Sys) where
  pre : List (TStmt S)
  snaps : List (Name × RExpr S)
  ret : List (RExpr S)

/-- `strconv.Itoa` -/
def itoa (i : Nat) : Name := (digits10 i).map fun d => Char.ofNat (48 + d)

/-- "lenSyntheticTmp", "lenSyntheticRet", "lenSyntheticRec", "lenSyntheticArg", "lenSyntheticRecv", asttweak.go:34–38. -/
def pSyn : Name := ['l', 'e', 'n', 'S', 'y', 'n', 't', 'h', 'e', 't', 'i', 'c']
def pTmp : Name := pSyn ++ ['T', 'm', 'p']
def pRet : Name := pSyn ++ ['R', 'e', 't']
def pRec : Name := pSyn ++ ['R', 'e', 'c']
def pArg : Name := pSyn ++ ['A', 'r', 'g']
def pRecv : Name := pSyn ++ ['R', 'e', 'c', 'v']

/-- The name a field is reported under, asttweak.go:1670–1682. -/
def display (n : Name) : Name :=
  if pRet.isPrefixOf n then ['r', 'e', 't'] ++ n.drop pRet.length
  else if pRec.isPrefixOf n then ['r', 'e', 'c'] ++ n.drop pRec.length
  else if pArg.isPrefixOf n then ['a', 'r', 'g'] ++ n.drop pArg.length
  else if pRecv.isPrefixOf n then ['r', 'e', 'c', 'v'] ++ n.drop pRecv.length
  else n

def nameNil : Name := ['n', 'i', 'l']
def nameBlank : Name := ['_']

/-- `exprContainsTypeShadow`, asttweak.go:1771–1793. -/
def typeShadow {S : Sys} (e : Expr S) (t : TExpr S) : Bool := e.ids.any fun x => t.ids.contains x

/-- `makeReturnTemp`, asttweak.go:1715–1763: the statements. -/
def returnTemp {S : Sys} (pre : Name) (i : Nat) (e : Expr S) (t : TExpr S) : List (TStmt S) :=
  match e.shape with
  | .ident x _ => if x = nameNil then [.decl (pre ++ itoa i) t (.orig e)] else main
  | _ => main
where
  main : List (TStmt S) :=
    if typeShadow e t then [.define (pTmp ++ itoa i) (.orig e), .define (pre ++ itoa i) (.tmp (pTmp ++ itoa i))]
    else [.decl (pTmp ++ itoa i) t (.orig e), .decl (pre ++ itoa i) t (.tmp (pTmp ++ itoa i))]

/-- State of the loop over results: statements, fields, results, and the names already reported. -/
structure Acc (S : Sys) where
  pre : List (TStmt S)
  snaps : List (Name × RExpr S)
  ret : List (RExpr S)
  seen : List Name

/-- One result, asttweak.go:1391–1525. -/
def step {S : Sys} (a : Acc S) (i : Nat) (e : Expr S) (t : TExpr S) : Acc S :=
  let pre := match e.shape with | .other true => pRec | _ => pRet
  let temp (stmts : List (TStmt S)) : Acc S :=
    ⟨a.pre ++ stmts, a.snaps ++ [(display (pre ++ itoa i), .tmp (pre ++ itoa i))], a.ret ++ [.tmp (pre ++ itoa i)], (pre ++ itoa i) :: a.seen⟩
  match e.shape with
  | .ident x false =>
    if x ∉ a.seen ∧ x ≠ nameNil then ⟨a.pre, a.snaps ++ [(display x, .orig e)], a.ret ++ [.orig e], x :: a.seen⟩
    else { a with ret := a.ret ++ [.orig e] }
  | .lit false => temp [.decl (pre ++ itoa i) t (.orig e)]
  | _ => temp (returnTemp pre i e t)

def steps {S : Sys} : Acc S → Nat → List (Expr S) → List (TExpr S) → Acc S
  | a, _, [], _ => a
  | a, _, _ :: _, [] => a -- not reached: every result has a type
  | a, i, e :: es, t :: ts => steps (step a i e t) (i + 1) es ts

/-- The visible names, asttweak.go:1313–1320. -/
def visibleSnaps {S : Sys} : List (Expr S) → List Name → List (Name × RExpr S) × List Name
  | [], seen => ([], seen)
  | e :: l, seen => match e.shape with
    | .ident x _ =>
      if x = nameNil ∨ x ∈ seen then visibleSnaps l seen
      else ((display x, .orig e) :: (visibleSnaps l (x :: seen)).1, (visibleSnaps l (x :: seen)).2)
    | _ => visibleSnaps l seen

/-- What is returned. -/
inductive Rets (S : Sys) where
  /-- `return` in a function with named results. -/
  | naked
  /-- `return f(…)` with several values. -/
  | call (vs : List (Sem S))
  | exprs (es : List (Expr S))

/-- The named results, asttweak.go:1328–1340. -/
def namedSnaps {S : Sys} : List (Expr S) → List Name → List (Name × RExpr S)
  | [], _ => []
  | e :: l, seen => match e.shape with
    | .ident x _ => if x = nameBlank ∨ x ∈ seen then namedSnaps l seen else (display x, .orig e) :: namedSnaps l (x :: seen)
    | _ => namedSnaps l seen

/-- The temporaries of a call with several values, asttweak.go:1357–1377. -/
def callTemps (n : Nat) : List Name := (List.range n).map fun i => pRet ++ itoa i

/-- `buildReturnInstrumentation`. `vis` are the visible names (as expressions), `types` the result types, `names` the named results if there are any. -/
def build {S : Sys} (vis : List (Expr S)) (types : List (TExpr S)) (names : List (Expr S)) (r : Rets S) : Block S :=
  let v := visibleSnaps vis []
  match r with
  | .naked => ⟨[], v.1 ++ namedSnaps names v.2,
      if names.any (fun e => e.shape matches .ident ['_'] _) then [] else names.map .orig⟩
  | .call vs => ⟨[.call (callTemps types.length) vs], v.1 ++ (callTemps types.length).map fun n => (display n, .tmp n), (callTemps types.length).map .tmp⟩
  | .exprs es =>
    let a := steps ⟨[], v.1, [], v.2⟩ 0 es types
    ⟨a.pre, a.snaps, a.ret⟩

end Verif.Temps
