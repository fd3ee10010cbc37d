import Verif.Zero.Model

/-! What expressions mean in Go. -/

namespace Verif.Zero

/-- Kinds of types, as far as they matter for zero values. -/
inductive Kind where
  | num | bool | str | ptr | map | chan | func | iface | slice | array | struct
deriving DecidableEq

inductive Val where
  | num0 | false | empty | nil | zeroed
deriving DecidableEq

def zeroOf : Kind → Val
  | .num => .num0
  | .bool => .false
  | .str => .empty
  | .array | .struct => .zeroed
  | _ => .nil

/-- The kind of a type, with the types that names mean in the file. `other` types are given a kind by `sel`. -/
def kindOf (file : String → Option Kind) (sel : List String → Option Kind) : TSyn → Option Kind
  | .ident n => file n
  | .star => some .ptr
  | .map => some .map
  | .chan => some .chan
  | .func => some .func
  | .iface => some .iface
  | .slice => some .slice
  | .array _ => some .array
  | .struct _ => some .struct
  | .other ids => sel ids

/-- The value of an expression assigned to a type of a kind, if it compiles. `scope` are the names declared in the function or at package level that hide
predeclared ones and types, with their values if they can be assigned. -/
def eval (scope : String → Bool) (k : Kind) : ZExpr → Option Val
  | .zero => if k = .num then some .num0 else none
  | .empty => if k = .str then some .empty else none
  | .ident "false" => if k = .bool ∧ scope "false" = false then some .false else none
  | .ident "nil" => if zeroOf k = .nil ∧ scope "nil" = false then some .nil else none
  | .ident _ => none
  | .new ids => if scope "new" = false ∧ ids.all (fun x => !scope x) then some (zeroOf k) else none
  | .comp ids => if (k = .array ∨ k = .struct) ∧ ids.all (fun x => !scope x) then some .zeroed else none

/-- The numeric types of the language specification, and their aliases. -/
def goNumeric : List String := ["uint8", "uint16", "uint32", "uint64", "int8", "int16", "int32", "int64", "float32", "float64", "complex64", "complex128",
  "byte", "rune", "uint", "int", "uintptr"]

/-- The predeclared types have their usual meaning. -/
def Predeclared (file : String → Option Kind) : Prop :=
  (∀ n ∈ goNumeric, file n = some .num) ∧ file "bool" = some .bool ∧ file "string" = some .str ∧ file "error" = some .iface ∧ file "_" = none

def TSyn.ids : TSyn → List String
  | .ident n => [n]
  | .array ids | .struct ids | .other ids => ids
  | _ => []

/-- A result: the content of a named result, or a constant. -/
abbrev Res := String ⊕ Val

/-- The result an expression gives; an identifier may be a named result of the same kind. -/
def evalR (scope : String → Bool) (named : List (String × Kind)) (k : Kind) (e : ZExpr) : Option Res :=
  match e with
  | .ident n => if (n, k) ∈ named then some (.inl n) else (eval scope k e).map .inr
  | e => (eval scope k e).map .inr

/-- Every result of a return with expressions compiles, and there are as many as result types. -/
def evalAll (scope : String → Bool) (named : List (String × Kind)) : List Kind → List ZExpr → Option (List Res)
  | [], [] => some []
  | k :: ks, e :: es =>
    match evalR scope named k e, evalAll scope named ks es with
    | some r, some rs => some (r :: rs)
    | _, _ => none
  | _, _ => none

/-- The results of a return, if it compiles: without expressions all results need names, and blank results are zero values. -/
def results (scope : String → Bool) (named : List (String × Kind)) : Option (List ZExpr) → Option (List Res)
  | none => if named.all (fun q => q.1 ≠ "") then some (named.map fun q => if q.1 = "_" then .inr (zeroOf q.2) else .inl q.1) else none
  | some es => evalAll scope named (named.map Prod.snd) es

/-- What is to be returned: named results with their content, the others as zero values. -/
def wanted (named : List (String × Kind)) : List Res :=
  named.map fun q => if q.1 = "" ∨ q.1 = "_" then .inr (zeroOf q.2) else .inl q.1

/-- The conditions under which types and expressions mean what they seem to. -/
structure Usual (file : String → Option Kind) (scope : String → Bool) : Prop where
  pre : Predeclared file
  nil_ : scope "nil" = false
  fls : scope "false" = false
  new_ : scope "new" = false

end Verif.Zero
