import Verif.Base

/-!
The results of the return that is added at the end of a function without returns: `zeroValueForType` and `newZeroValueExpr`,
`/repo/lens/asttweak.go:1532–1619`, as used at 643–681.
-/

namespace Verif.Zero

/-- A result type as written. `ids` are the identifiers in it. -/
inductive TSyn where
  | ident (n : String)
  | star
  | map
  | chan
  | func
  | iface
  | slice
  | array (ids : List String)
  | struct (ids : List String)
  /-- `pkg.T`, `T[U]`, `T[K, V]`, `(T)`. -/
  | other (ids : List String)
deriving DecidableEq

/-- The generated expressions: `0`, `""`, an identifier, `*new(T)`, `T{}`. -/
inductive ZExpr where
  | zero
  | empty
  | ident (n : String)
  | new (ids : List String)
  | comp (ids : List String)
deriving DecidableEq

def numeric : List String := ["int", "int8", "int16", "int32", "int64", "uint", "uint8", "uint16", "uint32", "uint64", "uintptr",
  "float32", "float64", "complex64", "complex128", "byte", "rune"]

/-- `zeroValueForType` -/
def zeroFor : TSyn → ZExpr
  | .ident n =>
    if n ∈ numeric then .zero
    else if n = "bool" then .ident "false"
    else if n = "string" then .empty
    else if n = "error" then .ident "nil"
    else if n = "_" then .ident "nil"
    else .new [n]
  | .star | .map | .chan | .func | .iface | .slice => .ident "nil"
  | .array ids => .comp ids
  | .struct ids => .comp ids
  | .other ids => .new ids

/-- The results of the added return: named results by name, the others by zero values; none means a `return` without results, asttweak.go:644–678.
A name is empty if the result has none. -/
def added (types : List TSyn) (names : List String) : Option (List ZExpr) :=
  if names.length > 0 ∧ "" ∉ names ∧ "_" ∉ names then none
  else some ((types.zip names).map fun q => if "" ∉ names ∧ q.2 ≠ "_" then .ident q.2 else zeroFor q.1)

end Verif.Zero
