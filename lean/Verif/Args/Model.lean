import Verif.Temps.Model

/-!
The statements put before a selected call: `buildCallInstrumentationWithArgs`, `isConstantExpr` and the names of imported packages, `/repo/lens/asttweak.go:716–728,
1072–1157, 1696–1712 and 1796–1810`, with types and names, and where they are put, `793–1003`. The order of effects is in `Verif/Calls`.
-/

namespace Verif.Args

open Verif.Temps (Sys Dyn Sem Name itoa pArg pRecv display nameBlank)

/-- The syntax of an expression as far as it is looked at. -/
inductive Syn where
  | lit
  | ident (x : Name)
  | sel
  | unary (e : Syn)
  | binary (a b : Syn)
  | paren (e : Syn)
  | other
deriving DecidableEq

/-- `isConstantExpr`, asttweak.go:1797–1810. -/
def isConst : Syn → Bool
  | .lit => true
  | .binary a b => isConst a && isConst b
  | .unary e => isConst e
  | .paren e => isConst e
  | _ => false

/-- What an expression is: a value, the results of a call that has none or several, or a package or type. -/
inductive Sense (S : Sys) where
  | one (s : Sem S)
  | many (l : List (Sem S))
  | noValue

/-- An expression: syntax, names used in it, what it is where it stands, and what it is where its names declared by the same statement are not visible (`none`: one of them is
not declared there). -/
structure Expr (S : Sys) where
  syn : Syn
  names : List Name
  sense : Sense S
  alt : Option (Sense S)

/-- A call: `f(…)`, or `x.f(…)`. -/
structure Call (S : Sys) where
  recv : Option (Expr S)
  args : List (Expr S)

/-- An expression of the generated code. -/
inductive RExpr (S : Sys) where
  | orig (e : Expr S)
  | tmp (n : Name)

/-- What is generated: definitions `n := e`, reported fields, and the changed call. -/
structure Built (S : Sys) where
  pre : List (Name × Expr S)
  snaps : List (Name × RExpr S)
  recv : Option (RExpr S)
  args : List (RExpr S)

/-- "recv", asttweak.go:1103. -/
def recvName : Name := ['r', 'e', 'c', 'v']

/-- `fmt.Sprintf("arg%d", i)`, asttweak.go:1115 and others. -/
def argName (i : Nat) : Name := ['a', 'r', 'g'] ++ itoa i

/-- asttweak.go:1089. -/
def recvTmp (pid : Nat) : Name := pRecv ++ itoa pid

/-- asttweak.go:1140. -/
def argTmp (pid i : Nat) : Name := pArg ++ itoa pid ++ '_' :: itoa i

/-- An import: the name given to it, and the path. -/
abbrev Import := Option Name × Name

/-- The part of a path behind its last slash. -/
def lastPart (p : Name) : Name := (p.reverse.takeWhile (· ≠ '/')).reverse

/-- The names taken for those of packages, asttweak.go:716–728. -/
def packageNames (is : List Import) : List Name := is.map fun i => i.1.getD (lastPart i.2)

/-- The receiver, asttweak.go:1077–1107: definitions, fields, and what it is replaced by. -/
def recvStep {S : Sys} (pkgs : List Name) (pid : Nat) : Option (Expr S) → List (Name × Expr S) × List (Name × RExpr S) × Option (RExpr S)
  | none => ([], [], none)
  | some x => match x.syn with
    | .ident n => if n ≠ nameBlank ∧ n ∉ pkgs then ([], [(display n, .orig x)], some (.orig x)) else ([], [], some (.orig x))
    | _ => ([(recvTmp pid, x)], [(recvName, .tmp (recvTmp pid))], some (.tmp (recvTmp pid)))

/-- Whether a variable is made for an argument, asttweak.go:1113–1137. -/
def moved {S : Sys} (e : Expr S) : Bool := match e.syn with
  | .ident _ => false
  | .sel => false
  | .lit => false
  | s => !isConst s

/-- The definition for the argument `i`, its field, and what it is replaced by, asttweak.go:1110–1149. -/
def argPre {S : Sys} (pid i : Nat) (e : Expr S) : List (Name × Expr S) := if moved e then [(argTmp pid i, e)] else []
def argNew {S : Sys} (pid i : Nat) (e : Expr S) : RExpr S := if moved e then .tmp (argTmp pid i) else .orig e

/-- `buildCallInstrumentationWithArgs`, asttweak.go:1072–1157. -/
def build {S : Sys} (is : List Import) (pid : Nat) (c : Call S) : Built S :=
  let r := recvStep (packageNames is) pid c.recv
  { pre := r.1 ++ (c.args.mapIdx (argPre pid)).flatten,
    snaps := r.2.1 ++ c.args.mapIdx (fun i e => (argName i, argNew pid i e)),
    recv := r.2.2,
    args := c.args.mapIdx (argNew pid) }

/-- Where the call stands; the generated code is put before the statement, or (`inPlace`) into a function literal in place of it. -/
inductive Place where
  /-- an expression statement, assignment, return, send, the value of a `range`, or a communication of a `select`, asttweak.go:794–799, 881–883, 901–903, 920–930 -/
  | simple
  /-- the deferred call or that of a `go` statement, asttweak.go:800–877, or one in the post statement of a loop, asttweak.go:975–1003 -/
  | inPlace
  /-- a declaration `var (…)`, the names of the specifications before that of the call, asttweak.go:878–880 -/
  | decl (before : List Name)
  /-- the first part of an `if`, `for` or `switch`, asttweak.go:886–888, 894–896, 906–908, 914–916 -/
  | init
  /-- the condition or tag, which is looked at only if there is no selected call in the first part; the names declared by the first part -/
  | cond (declared : List Name)

/-- The names declared by the statement that are visible to the call, but not to the generated code. -/
def Place.hidden : Place → List Name
  | .simple => []
  | .inPlace => []
  | .decl ns => ns
  | .init => []
  | .cond ns => ns

end Verif.Args
