import Verif.Scope.Model

/-! Go's scopes, without positions, and the layout of source text. -/

namespace Verif.Scope

/-- Names in scope, inner and later declarations last. -/
abbrev Scp := List Decl

/-- What a name means: its last declaration. -/
def meaning (sc : Scp) (x : String) : Option Kind := (sc.reverse.find? fun d => d.name = x).map (·.kind)

/-- Names a statement declares for the statements after it. -/
def Stmt.declares : Stmt → List Decl
  | .simple _ ds _ => ds
  | .label s => s.declares
  | _ => []

mutual
/-- The scope at the return `r`, if it is in the statement and not in a `select` or a function literal. -/
def Stmt.scope (sc : Scp) (r : Nat) : Stmt → Option Scp
  | .ret p _ _ => if p = r then some sc else none
  | .box _ _ hdr _ body => body.scope (sc ++ hdr) r
  | .clause _ _ body => body.scope sc r
  | .label s => s.scope sc r
  | _ => none
def Stmts.scope (sc : Scp) (r : Nat) : Stmts → Option Scp
  | .nil => none
  | .cons s rest => match s.scope sc r with
    | some out => some out
    | none => rest.scope (sc ++ s.declares) r
end

/-- The scope at the end of the statements. -/
def Stmts.atEnd (sc : Scp) : Stmts → Scp
  | .nil => sc
  | .cons s rest => rest.atEnd (sc ++ s.declares)

def Fn.outer (f : Fn) : Scp := f.recv ++ f.params ++ f.results

mutual
/-- The statement is source text starting at `lo` or later: nested parts lie inside, and what follows begins after a separator. -/
def Stmt.laid (lo : Nat) : Stmt → Prop
  | .simple f ds lits => lo < f ∧ (∀ d ∈ ds, lo ≤ d.pos ∧ d.pos < f) ∧ lits.laid lo f
  | .ret p f lits => lo ≤ p ∧ p < f ∧ lits.laid p f
  | .gen _ _ => False
  | .box o f hdr lits body => lo ≤ o ∧ (∀ d ∈ hdr, lo ≤ d.pos ∧ d.pos < o) ∧ lits.laid lo o ∧ body.laid (o + 1) ∧ body.fin (o + 1) ≤ f
  | .clause colon lits body => lo ≤ colon ∧ lits.laid lo colon ∧ body.laid (colon + 1)
  | .select o f cs => lo ≤ o ∧ o + 1 < f ∧ cs.laid (o + 1) f
  | .label s => s.laid lo
def Stmts.laid (lo : Nat) : Stmts → Prop
  | .nil => True
  | .cons s rest => s.laid lo ∧ rest.laid (s.fin + 1)
def Lits.laid (lo hi : Nat) : Lits → Prop
  | .nil => True
  | .cons o f body rest => lo ≤ o ∧ body.laid (o + 1) ∧ body.fin (o + 1) < f ∧ f ≤ hi ∧ rest.laid lo hi
def Comms.laid (lo hi : Nat) : Comms → Prop
  | .nil => True
  | .cons colon ds lits body rest => lo ≤ colon ∧ (∀ d ∈ ds, lo ≤ d.pos ∧ d.pos < colon) ∧ lits.laid lo colon ∧ body.laid (colon + 1) ∧
      body.fin (colon + 1) < hi ∧ rest.laid (body.fin (colon + 1) + 1) hi
end

/-- The text of a function. -/
structure Fn.Laid (f : Fn) : Prop where
  params : ∀ d ∈ f.params ++ f.results, d.pos < f.opn ∧ d.kind = .var
  body : f.body.laid (f.opn + 1)
  fin : f.body.fin (f.opn + 1) ≤ f.rbrace

/-- Returns before `r` have been replaced by blocks without positions. -/
def Earlier (g : Nat → Option (Nat × List Decl)) (r : Nat) : Prop := ∀ p gf ds, g p = some (gf, ds) → p < r ∧ gf < r

/-- `x` can be passed to a function with a parameter of type `any`. -/
def passable (sc : Scp) (x : String) : Prop := meaning sc x = some .var ∨ meaning sc x = some (.const true)

/-- No name in scope is declared both as a type and as a variable or constant. -/
def NoClash (sc : Scp) : Prop := ∀ d ∈ sc, ∀ e ∈ sc, d.name = e.name → d.kind = .type → e.kind = .type

end Verif.Scope
