import Verif.Args.Model
import Verif.Temps.Spec

/-! When a call compiles and what it gets, from the Go specification; the same for the generated statements and the changed call. -/

namespace Verif.Args

open Verif.Temps (Sys Dyn Sem Name Ctx declare into)

variable {S : Sys}

/-- What an expression is in front of the statement. -/
def Expr.before (p : Place) (e : Expr S) : Option (Sense S) := if ∃ n ∈ e.names, n ∈ p.hidden then e.alt else some e.sense

/-- The receiver the function gets: a value with its type, or nothing for functions of packages and method expressions. -/
def received : Sense S → Option (Option (S.T × Dyn S))
  | .one (.typed t v) => some (some (t, v))
  | .one _ => none
  | .many _ => none
  | .noValue => some none

/-- An argument for a parameter of type `t`. -/
def taken (t : S.T) : Sense S → Option (Dyn S)
  | .one s => into t s
  | _ => none

/-- Arguments for parameters: one each, or one call for all. (A parameter of a variadic function counts once for each of its arguments.) -/
def takenAll : List S.T → List (Sense S) → Option (List (Dyn S))
  | ts, [.many ss] => Temps.intoAll (ts.map fun t => ⟨[], t⟩) ss
  | [], [] => some []
  | t :: ts, a :: as => (taken t a).bind fun v => (takenAll ts as).map (v :: ·)
  | _, _ => none

/-- What the function gets from the call as written, if that compiles. -/
def passed (types : List S.T) (c : Call S) : Option (Option (Option (S.T × Dyn S)) × List (Dyn S)) :=
  match c.recv with
  | none => (takenAll types (c.args.map (·.sense))).map (none, ·)
  | some x => (received x.sense).bind fun r => (takenAll types (c.args.map (·.sense))).map (some r, ·)

/-- `n := e` -/
def define (c : Ctx S) (n : Name) : Option (Sense S) → Option (Ctx S)
  | some (.one (.typed t v)) => declare c n t v
  | some (.one (.untyped k)) => (into (S.dflt k) (.untyped k)).bind fun v => declare c n (S.dflt k) v
  | _ => none

def defineAll (p : Place) : Ctx S → List (Name × Expr S) → Option (Ctx S)
  | c, [] => some c
  | c, (n, e) :: l => (define c n (e.before p)).bind fun c' => defineAll p c' l

/-- What an expression of the generated code is. -/
def RExpr.sense (c : Ctx S) : RExpr S → Option (Sense S)
  | .orig e => some e.sense
  | .tmp n => (c.get n).map fun x => .one (.typed x.1 x.2)

def RExpr.before (p : Place) (c : Ctx S) : RExpr S → Option (Sense S)
  | .orig e => e.before p
  | .tmp n => (c.get n).map fun x => .one (.typed x.1 x.2)

/-- Reported fields have type `any`. -/
def reported (p : Place) (c : Ctx S) : List (Name × RExpr S) → Option (List (Name × Dyn S))
  | [] => some []
  | (n, e) :: l => ((e.before p c).bind (taken S.top)).bind fun v => (reported p c l).map ((n, v) :: ·)

def senses (c : Ctx S) : List (RExpr S) → Option (List (Sense S))
  | [] => some []
  | e :: l => (e.sense c).bind fun s => (senses c l).map (s :: ·)

/-- What is reported and what the function gets after the change, if that compiles. -/
def outcome (p : Place) (types : List S.T) (b : Built S) : Option (List (Name × Dyn S) × Option (Option (S.T × Dyn S)) × List (Dyn S)) :=
  (defineAll p [] b.pre).bind fun c => (reported p c b.snaps).bind fun fs => (senses c b.args).bind fun as =>
    match b.recv with
    | none => (takenAll types as).map fun vs => (fs, none, vs)
    | some x => ((x.sense c).bind received).bind fun r => (takenAll types as).map fun vs => (fs, some r, vs)

/-- The statement does not declare a name that the receiver or the arguments use. -/
def InScope (p : Place) (c : Call S) : Prop := (∀ x ∈ c.recv, ∀ n ∈ x.names, n ∉ p.hidden) ∧ ∀ e ∈ c.args, ∀ n ∈ e.names, n ∉ p.hidden

/-- A constant has a value of its default type. -/
def Fits (s : Sem S) : Prop := ∀ k, s = .untyped k → S.fits k (S.dflt k) = true

/-- `x` can be passed after `x := e`: `e` has a type, or the parameter has its default type (or is an interface that has). -/
def Typable (t : S.T) : Sem S → Prop
  | .typed _ _ => True
  | .untyped k => S.assign (S.dflt k) t = true
  | .nil => False

/-- Expressions made of literals. -/
inductive Literal : Syn → Prop
  | lit : Literal .lit
  | unary {e} : Literal e → Literal (.unary e)
  | binary {a b} : Literal a → Literal b → Literal (.binary a b)
  | paren {e} : Literal e → Literal (.paren e)

/-- Arguments that stay where they are: names, selectors and constants made of literals. -/
def Stays (s : Syn) : Prop := (∃ x, s = .ident x) ∨ s = .sel ∨ Literal s

/-- An argument that can be reported and passed to a parameter of type `t`: one value, if a constant, of its default type; and if it does not stay, of a type for the parameter. -/
def ArgOK (t : S.T) (e : Expr S) : Prop := ∃ s, e.sense = .one s ∧ Fits s ∧ (¬ Stays e.syn → Typable t s)

/-- Names taken for those of packages: the name given in the import, or else the end of the path; and the blank. -/
def AsPackage (is : List Import) (n : Name) : Prop := n = ['_'] ∨ ∃ i ∈ is, i.1 = some n ∨ (i.1 = none ∧ (i.2 = n ∨ ∃ d, i.2 = d ++ '/' :: n) ∧ '/' ∉ n)

/-- What stands before the dot is a value, or is taken for a package. -/
def RecvOK (is : List Import) (x : Expr S) : Prop := (∃ s, x.sense = .one s) ∨ ∃ n, x.syn = .ident n ∧ AsPackage is n

/-- The receiver is reported by its name or as "recv", unless it is taken for a package. -/
inductive RecvField (is : List Import) : Option (Expr S) → List (Name × Dyn S) → Prop
  | none : RecvField is none []
  | package {x n} : x.syn = .ident n → AsPackage is n → RecvField is (some x) []
  | ident {x n t v} : x.syn = .ident n → ¬ AsPackage is n → x.sense = .one (.typed t v) → RecvField is (some x) [(Temps.display n, v)]
  | other {x t v} : (∀ n, x.syn ≠ .ident n) → x.sense = .one (.typed t v) → RecvField is (some x) [(['r', 'e', 'c', 'v'], v)]

/-- The fields of the arguments, in order. -/
def ArgFields (args : List (Expr S)) (fs : List (Name × Dyn S)) : Prop :=
  fs.length = args.length ∧ ∀ (i : Nat) e, args[i]? = some e → ∃ s w, e.sense = .one s ∧ into S.top s = some w ∧ fs[i]? = some (['a', 'r', 'g'] ++ Temps.itoa i, w)

end Verif.Args
