import Verif.Base

/-!
Functions that only panic: `AnalyzeASTFunctionReturnPoints`, `/repo/lens/static.go:480–525`, the part that decides `ReturnPanic` (the lines and call
counts are in `Verif/Static`).

Statements are modelled as far as control flow goes. Conditions, values and calls may come out any way, so an execution is a relation. `goto` is left
out. `range` is a loop that may end.
-/

namespace Verif.Ends

/-- Statements, statement lists and clause lists, in one type. -/
inductive Code where
  /-- The end of a statement list. -/
  | nil
  | seq (s rest : Code)
  /-- No control flow and no run-time error: `x := 1`, an empty statement, a function literal stored away. -/
  | simple
  /-- Anything that may panic: a call, an index expression. -/
  | effect
  | ret
  /-- `panic(v)`; `builtin` is false if the name is declared in the program. -/
  | panic (builtin : Bool)
  /-- `defer panic(v)`. -/
  | deferPanic
  /-- `defer func() { recover() }()`. -/
  | deferRecover
  | block (b : Code)
  /-- `if`, with or without an `else`; without one, `b` is `nil`. -/
  | ite (a : Code) (hasElse : Bool) (b : Code)
  /-- `for` with an optional label; `cond`: there is a condition or a range clause. -/
  | loop (label : Option Nat) (cond : Bool) (body : Code)
  | switch (label : Option Nat) (clauses : Code)
  | select (label : Option Nat) (clauses : Code)
  /-- The end of a clause list. -/
  | cnil
  | clause (dflt : Bool) (body rest : Code)
  | brk (label : Option Nat)
  | cont (label : Option Nat)
  | fall
deriving DecidableEq, Repr

/-- `returnCount`, static.go:491–505: every return statement outside of function literals. -/
def returnCount : Code → Nat
  | .ret => 1
  | .seq s r => returnCount s + returnCount r
  | .block b => returnCount b
  | .ite a _ b => returnCount a + returnCount b
  | .loop _ _ b => returnCount b
  | .switch _ c => returnCount c
  | .select _ c => returnCount c
  | .clause _ b r => returnCount b + returnCount r
  | _ => 0

/-- `panicCount`, static.go:507–511: every call of something named `panic`, deferred calls included, outside of function literals. -/
def panicCount : Code → Nat
  | .panic _ => 1
  | .deferPanic => 1
  | .seq s r => panicCount s + panicCount r
  | .block b => panicCount b
  | .ite a _ b => panicCount a + panicCount b
  | .loop _ _ b => panicCount b
  | .switch _ c => panicCount c
  | .select _ c => panicCount c
  | .clause _ b r => panicCount b + panicCount r
  | _ => 0

/-- `endsInPanic`, static.go:519–521. -/
def endsInPanic (hasResults : Bool) (body : Code) : Bool := hasResults && returnCount body == 0 && decide (panicCount body > 0)

end Verif.Ends
