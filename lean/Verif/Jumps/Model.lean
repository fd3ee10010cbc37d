/-!
What is put into a function body as far as jumps and the end of the function are concerned: `InjectFuncPointReturnStates`, `/repo/lens/asttweak.go:551–620` with
`buildReturnInstrumentation`, and `InjectFuncPointBeforeCall`, `/repo/lens/asttweak.go:782–1055`. Which statements have a selected call or are replaced is in `Calls` and `Returns`; here it
is a mark on the statement. Function literals are bodies of their own.
-/

namespace Verif.Jumps

abbrev Label := List Char

/-- Statements without bodies: `decl` declares variables, `panics` is a call of `panic`. -/
inductive Kind where
  | other | decl | panics
deriving DecidableEq

/-- Statements with bodies; `cond` says that a loop has a condition or a range. -/
inductive Head where
  | block | branch | loop (cond : Bool) | switch | select
deriving DecidableEq

/-- Statements in a row. `own` is the number of variables made for the call that is reported before the statement; `repl` that for the results of a return that is replaced. An `if` has
its `else` as the default clause; blocks and loops have one clause. A labelled statement is `inner`. -/
inductive Code where
  | done
  | simple (k : Kind) (own : Option Nat) (rest : Code)
  | jump (l : Label) (rest : Code)
  | leave (l : Option Label) (rest : Code)
  | through (rest : Code)
  | ret (own repl : Option Nat) (rest : Code)
  | label (l : Label) (inner rest : Code)
  | nest (h : Head) (own : Option Nat) (clauses rest : Code)
  | clause (dflt : Bool) (body rest : Code)
deriving DecidableEq

/-- Definitions of variables. -/
def defs : Nat → Code → Code
  | 0, c => c
  | n + 1, c => .simple .decl none (defs n c)

/-- The definitions and the report before a call, asttweak.go:933–951: in the same block. -/
def pre : Option Nat → Code → Code
  | none, c => c
  | some n, c => defs n (.simple .other none c)

/-- The loop over the statements, asttweak.go:782–1050. Labelled statements are not looked into. -/
def calls : Code → Code
  | .done => .done
  | .simple k own rest => pre own (.simple k none (calls rest))
  | .jump l rest => .jump l (calls rest)
  | .leave l rest => .leave l (calls rest)
  | .through rest => .through (calls rest)
  | .ret own repl rest => pre own (.ret none repl (calls rest))
  | .label l inner rest => .label l inner (calls rest)
  | .nest h own cl rest => pre own (.nest h none (calls cl) (calls rest))
  | .clause d b rest => .clause d (calls b) (calls rest)

/-- `rewriteBlock`, asttweak.go:556–620: a return becomes a block of definitions, the report and the return. -/
def returns : Code → Code
  | .done => .done
  | .simple k own rest => .simple k own (returns rest)
  | .jump l rest => .jump l (returns rest)
  | .leave l rest => .leave l (returns rest)
  | .through rest => .through (returns rest)
  | .ret own none rest => .ret own none (returns rest)
  | .ret own (some n) rest => .nest .block none (.clause true (defs n (.simple .other none (.ret own none .done))) .done) (returns rest)
  | .label l inner rest => .label l inner (returns rest)
  | .nest h own cl rest => .nest h own (returns cl) (returns rest)
  | .clause d b rest => .clause d (returns b) (returns rest)

end Verif.Jumps
