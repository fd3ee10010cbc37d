import Verif.Temps.Model

/-! When statements of the block compile and what they do, from the Go specification: assignability, conversion of untyped constants, declarations. -/

namespace Verif.Temps

/-- What holds of Go's types. -/
structure Laws (S : Sys) : Prop where
  refl : ∀ t, S.assign t t = true
  top : ∀ t, S.assign t S.top = true
  topIface : S.iface S.top = true
  /-- A constant is assigned to an interface as a value of its default type. -/
  ifaceFits : ∀ c t, S.iface t = true → S.fits c t = true → S.fits c (S.dflt c) = true ∧ S.assign (S.dflt c) t = true
  topFits : ∀ c, S.fits c (S.dflt c) = true → S.fits c S.top = true
  /-- Default types are predeclared; other types without methods of that kind are different types. -/
  dfltOnly : ∀ c t, S.iface t = false → S.assign (S.dflt c) t = true → t = S.dflt c
  dfltIface : ∀ c, S.iface (S.dflt c) = false

/-- A value assigned to a variable of type `t`. -/
def conv {S : Sys} (v : Dyn S) (t : S.T) : Dyn S := if S.iface t then v else v.map fun x => (t, x.2)

/-- A constant or `nil` or value assigned to a variable of type `t`, if that compiles. -/
def into {S : Sys} (t : S.T) : Sem S → Option (Dyn S)
  | .typed s v => if S.assign s t then some (conv v t) else none
  | .untyped c => if S.fits c t then some (if S.iface t then some (S.dflt c, S.const c (S.dflt c)) else some (t, S.const c t)) else none
  | .nil => if S.nilable t then some (if S.iface t then none else some (t, S.zero)) else none

/-- The temporaries declared so far. -/
abbrev Ctx (S : Sys) := List (Name × S.T × Dyn S)

def Ctx.get {S : Sys} (c : Ctx S) (n : Name) : Option (S.T × Dyn S) := (c.find? fun x => x.1 = n).map (·.2)

def semOf {S : Sys} (c : Ctx S) : RExpr S → Option (Sem S)
  | .orig e => some e.sem
  | .tmp n => (c.get n).map fun x => .typed x.1 x.2

/-- A new variable; a name can be declared once. -/
def declare {S : Sys} (c : Ctx S) (n : Name) (t : S.T) (v : Dyn S) : Option (Ctx S) := if (c.get n).isSome then none else some (c ++ [(n, t, v)])

def declareAll {S : Sys} : Ctx S → List Name → List (Sem S) → Option (Ctx S)
  | c, [], [] => some c
  | c, n :: ns, .typed t v :: vs => (declare c n t v).bind fun c' => declareAll c' ns vs
  | _, _, _ => none

/-- A statement where the names `hidden` of types and packages are hidden by local declarations. -/
def exec {S : Sys} (hidden : Name → Bool) (c : Ctx S) : TStmt S → Option (Ctx S)
  | .decl n t e =>
    if t.ids.any hidden then none
    else (semOf c e).bind fun s => (into t.den s).bind fun v => declare c n t.den v
  | .define n e => (semOf c e).bind fun
    | .typed t v => declare c n t v
    | .untyped k => (into (S.dflt k) (.untyped k)).bind fun v => declare c n (S.dflt k) v
    | .nil => none
  | .call ns vs => declareAll c ns vs

def execAll {S : Sys} (hidden : Name → Bool) : Ctx S → List (TStmt S) → Option (Ctx S)
  | c, [] => some c
  | c, s :: l => (exec hidden c s).bind fun c' => execAll hidden c' l

/-- The fields of the report have type `any`. -/
def fields {S : Sys} (c : Ctx S) : List (Name × RExpr S) → Option (List (Name × Dyn S))
  | [] => some []
  | (n, e) :: l => (semOf c e).bind fun s => (into S.top s).bind fun v => (fields c l).map ((n, v) :: ·)

/-- Results assigned to the result types. -/
def intoAll {S : Sys} : List (TExpr S) → List (Sem S) → Option (List (Dyn S))
  | [], [] => some []
  | t :: ts, s :: ss => (into t.den s).bind fun v => (intoAll ts ss).map (v :: ·)
  | _, _ => none

def sems {S : Sys} (c : Ctx S) : List (RExpr S) → Option (List (Sem S))
  | [] => some []
  | e :: l => (semOf c e).bind fun s => (sems c l).map (s :: ·)

/-- The results of a return as written, if it compiles; `names` are the named results. -/
def returned {S : Sys} (types : List (TExpr S)) (names : List (Expr S)) : Rets S → Option (List (Dyn S))
  | .naked => intoAll types (names.map (·.sem))
  | .call vs => intoAll types vs
  | .exprs es => intoAll types (es.map (·.sem))

/-- The results of a return in the block. A `return` without results returns the named ones. -/
def final {S : Sys} (c : Ctx S) (types : List (TExpr S)) (names : List (Expr S)) : List (RExpr S) → Option (List (Dyn S))
  | [] => intoAll types (names.map (·.sem))
  | e :: l => (sems c (e :: l)).bind fun ss => intoAll types ss

/-- The blank identifier. -/
def Expr.blank {S : Sys} (e : Expr S) : Bool := match e.shape with
  | .ident x _ => x == ['_']
  | _ => false

def RExpr.blank {S : Sys} : RExpr S → Bool
  | .orig e => e.blank
  | .tmp _ => false

def TStmt.blank {S : Sys} : TStmt S → Bool
  | .decl _ _ e => e.blank
  | .define _ e => e.blank
  | .call _ _ => false

/-- The blank identifier is used as a value, which does not compile. -/
def Block.blank {S : Sys} (b : Block S) : Bool := b.pre.any TStmt.blank || b.snaps.any (fun q => q.2.blank) || b.ret.any RExpr.blank

/-- The reported fields and the results of the block, if it compiles. -/
def outcome {S : Sys} (hidden : Name → Bool) (types : List (TExpr S)) (names : List (Expr S)) (b : Block S) : Option (List (Name × Dyn S) × List (Dyn S)) :=
  if b.blank then none
  else (execAll hidden [] b.pre).bind fun c => (fields c b.snaps).bind fun fs =>
    (final c types names b.ret).map (fs, ·)

/-- The values of typed expressions have these types. -/
def Sem.ok {S : Sys} : Sem S → Prop
  | .typed t v => S.iface t = false → ∃ p, v = some (t, p)
  | _ => True

/-- `x := e` and then `return x` compile. -/
def definable {S : Sys} (t : S.T) : Sem S → Bool
  | .typed _ _ => true
  | .untyped c => S.fits c (S.dflt c) && S.assign (S.dflt c) t
  | .nil => false

/-- An identifier that is returned as it is. -/
def Expr.asIs {S : Sys} (e : Expr S) : Prop := ∃ x, e.shape = .ident x false

/-- A literal or `nil`. -/
def Expr.bare {S : Sys} (e : Expr S) : Prop := (∃ nt, e.shape = .lit nt) ∨ ∃ nt, e.shape = .ident ['n', 'i', 'l'] nt

/-- The return is one Go allows in such a function: named results are variables of the result types, a call has typed values. -/
structure Wf {S : Sys} (types : List (TExpr S)) (names : List (Expr S)) (r : Rets S) : Prop where
  named : ∀ e ∈ names, ∃ x nt t v, e.shape = .ident x nt ∧ e.sem = .typed t v
  naked : r = .naked → names ≠ []
  noNames : ∀ es, r = .exprs es → es = [] → names = [] ∧ types = []
  value : ∀ es, r = .exprs es → ∀ e ∈ es, e.blank = false
  call : ∀ vs, r = .call vs → types ≠ [] ∧ ∀ s ∈ vs, ∃ t v, s = .typed t v

end Verif.Temps
