import Verif.Base

/-!
Which names are reported at a return: `visibleDeclsBefore`, `/repo/lens/asttweak.go:1226–1302`, as used by `InjectFuncPointReturnStates`,
asttweak.go:567–568 and 635, with the positions of `go/ast`.

Statements are reduced to what the scan looks at: where they end, which names they declare, and the blocks inside. `box` stands for every statement
the scan may skip as a whole (asttweak.go:1262–1269), with the names its header declares:
a block is a `box` without header, `if` a `box` of the two branches (each a `box`, or the next `if`), `for` and `range` a `box` of their block, `switch`
and the type switch a `box` of their block of clauses.
-/

namespace Verif.Scope

/-- What a name stands for: a variable, a constant (whether it fits into its default type), or a type. -/
inductive Kind where
  | var
  | const (fits : Bool)
  | type
deriving DecidableEq, Repr

/-- A declared name: `:=`, `var`, `const`, `type`, or of a `range`. -/
structure Decl where
  name : String
  pos : Nat
  kind : Kind
deriving DecidableEq, Repr

mutual
inductive Stmt where
  /-- A statement without statements inside, except in function literals. -/
  | simple (fin : Nat) (ds : List Decl) (lits : Lits)
  | ret (pos fin : Nat) (lits : Lits)
  /-- A return that has been replaced: the generated block without positions (asttweak.go:572) and what it declares. -/
  | gen (fin : Nat) (ds : List Decl)
  /-- `opn` is the position of the brace, or of the character before it for an `if`, which contains the block; `fin` is the end. -/
  | box (opn fin : Nat) (hdr : List Decl) (lits : Lits) (body : Stmts)
  /-- `case …:` -/
  | clause (colon : Nat) (lits : Lits) (body : Stmts)
  | select (opn fin : Nat) (cs : Comms)
  | label (s : Stmt)
inductive Stmts where
  | nil
  | cons (s : Stmt) (rest : Stmts)
/-- Function literals inside a statement: the end and the statements of the body. -/
inductive Lits where
  | nil
  | cons (opn fin : Nat) (body : Stmts) (rest : Lits)
/-- The clauses of a `select`, with the names they declare. -/
inductive Comms where
  | nil
  | cons (colon : Nat) (ds : List Decl) (lits : Lits) (body : Stmts) (rest : Comms)
end

deriving instance DecidableEq for Stmt, Stmts, Lits, Comms

mutual
/-- `End()` of a node. A clause ends with its last statement (go/ast). -/
def Stmt.fin : Stmt → Nat
  | .simple f _ _ => f
  | .ret _ f _ => f
  | .gen f _ => f
  | .box _ f _ _ _ => f
  | .clause colon _ body => body.fin (colon + 1)
  | .select _ f _ => f
  | .label s => s.fin
def Stmts.fin (dflt : Nat) : Stmts → Nat
  | .nil => dflt
  | .cons s rest => rest.fin s.fin
end

/-- `ValueSpec`, `AssignStmt` and `RangeStmt`, asttweak.go:1271–1293; a `TypeSpec` is not looked at. -/
def values (ds : List Decl) : List Decl := ds.filter fun d => d.kind ≠ .type

mutual
/-- `ast.Inspect` over the body: nodes that end before `r` are skipped, asttweak.go:1257–1295. -/
def Stmt.scan (r : Nat) : Stmt → List Decl
  | .simple _ ds lits => values ds ++ lits.scan r
  | .ret _ _ lits => lits.scan r
  | .gen f ds => if f < r then [] else values ds
  | .box _ f hdr lits body => if f < r then [] else values hdr ++ lits.scan r ++ body.scan r
  | .clause colon lits body => if body.fin (colon + 1) < r then [] else lits.scan r ++ body.scan r
  | .select _ f cs => if f < r then [] else cs.scan r
  | .label s => s.scan r
def Stmts.scan (r : Nat) : Stmts → List Decl
  | .nil => []
  | .cons s rest => s.scan r ++ rest.scan r
def Lits.scan (r : Nat) : Lits → List Decl
  | .nil => []
  | .cons _ f body rest => (if f < r then [] else body.scan r) ++ rest.scan r
def Comms.scan (r : Nat) : Comms → List Decl
  | .nil => []
  | .cons _ ds lits body rest => values ds ++ lits.scan r ++ body.scan r ++ rest.scan r
end

/-- `addIdent`, asttweak.go:1232–1238, on the map `latest`. -/
def addIdent (r : Nat) (m : List Decl) (d : Decl) : List Decl :=
  if d.name = "_" ∨ d.pos > r then m
  else match m.find? fun c => c.name = d.name with
    | none => m ++ [d]
    | some c => if d.pos > c.pos then d :: m.filter fun e => e.name ≠ d.name else m

def insertPos (d : Decl) : List Decl → List Decl
  | [] => [d]
  | e :: l => if d.pos ≤ e.pos then d :: e :: l else e :: insertPos d l

/-- `slices.SortFunc` by position, asttweak.go:1298–1300. -/
def sortPos (l : List Decl) : List Decl := l.foldr insertPos []

/-- A function declaration. -/
structure Fn where
  recv : List Decl
  params : List Decl
  results : List Decl
  body : Stmts
  /-- Where the body begins, and its last brace. -/
  opn : Nat
  rbrace : Nat

/-- `visibleDeclsBefore`. -/
def visible (f : Fn) (r : Nat) : List Decl :=
  sortPos ((f.params ++ f.results ++ (Stmt.box f.opn (f.rbrace + 1) [] .nil f.body).scan r).foldl (addIdent r) [])

/-- The names of the snapshots, asttweak.go:1313–1320 and 1654–1663. -/
def reported (f : Fn) (r : Nat) : List String := ((visible f r).map (·.name)).filter (· ≠ "nil")

mutual
/-- The tree once some returns have been replaced; `g` gives end and declared names of the block that replaces the return at a position. -/
def Stmt.replace (g : Nat → Option (Nat × List Decl)) : Stmt → Stmt
  | .simple f ds lits => .simple f ds (lits.replace g)
  | .ret p f lits => match g p with
    | some (gf, ds) => .gen gf ds
    | none => .ret p f (lits.replace g)
  | .gen f ds => .gen f ds
  | .box o f hdr lits body => .box o f hdr (lits.replace g) (body.replace g)
  | .clause colon lits body => .clause colon (lits.replace g) (body.replace g)
  | .select o f cs => .select o f (cs.replace g)
  | .label s => .label (s.replace g)
def Stmts.replace (g : Nat → Option (Nat × List Decl)) : Stmts → Stmts
  | .nil => .nil
  | .cons s rest => .cons (s.replace g) (rest.replace g)
def Lits.replace (g : Nat → Option (Nat × List Decl)) : Lits → Lits
  | .nil => .nil
  | .cons o f body rest => .cons o f (body.replace g) (rest.replace g)
def Comms.replace (g : Nat → Option (Nat × List Decl)) : Comms → Comms
  | .nil => .nil
  | .cons c ds lits body rest => .cons c ds (lits.replace g) (body.replace g) (rest.replace g)
end

end Verif.Scope
