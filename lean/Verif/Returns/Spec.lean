import Verif.Returns.Model

/-!
What C49 talks about: programs, the returns they contain, and what a report has to say.
-/

namespace Verif.Returns

/-- Results that contain what a program can contain. -/
def srcR (sig : Sig) : Rets → Prop
  | .naked => allNamed sig = true ∨ sig = []
  | .multi _ => True
  | .exprs _ => True

mutual
/-- Statements of a program: nothing generated. -/
def src (sig : Sig) : Stmt → Prop
  | .simple _ => True
  | .ret r _ => srcR sig r
  | .block b => srcs sig b
  | .ifs _ body els => srcs sig body ∧ srcElse sig els
  | .loop _ _ body => srcs sig body
  | .switch _ cs => srcCl sig cs
  | .select _ cs => srcCl sig cs
  | .labeled _ s => src sig s
  | .brk _ => True
  | .cont _ => True
  | .setTmp _ _ => False
  | .setTmps _ _ => False
  | .report _ _ => False
  | .retG _ => False
def srcs (sig : Sig) : Stmts → Prop
  | .nil => True
  | .cons s b => src sig s ∧ srcs sig b
def srcElse (sig : Sig) : Else → Prop
  | .none => True
  | .block b => srcs sig b
  | .elseIf _ body els => srcs sig body ∧ srcElse sig els
def srcCl (sig : Sig) : Clauses → Prop
  | .nil => True
  | .cons body _ cs => srcs sig body ∧ srcCl sig cs
end

mutual
/-- The `return` statements in the order of the source. -/
def rets : Stmt → List (Rets × List Var)
  | .ret r vis => [(r, vis)]
  | .block b => retss b
  | .ifs _ body els => retss body ++ retsElse els
  | .loop _ _ body => retss body
  | .switch _ cs => retsCl cs
  | .select _ cs => retsCl cs
  | .labeled _ s => rets s
  | _ => []
def retss : Stmts → List (Rets × List Var)
  | .nil => []
  | .cons s b => rets s ++ retss b
def retsElse : Else → List (Rets × List Var)
  | .none => []
  | .block b => retss b
  | .elseIf _ body els => retss body ++ retsElse els
def retsCl : Clauses → List (Rets × List Var)
  | .nil => []
  | .cons body _ cs => retss body ++ retsCl cs
end

mutual
/-- No `return` in a `select`, behind a label, or in what follows an `else if`. -/
def covered : Stmt → Prop
  | .block b => covereds b
  | .ifs _ body els => covereds body ∧
    match els with
    | .none => True
    | .block b => covereds b
    | .elseIf _ b e => covereds b ∧ retsElse e = []
  | .loop _ _ body => covereds body
  | .switch _ cs => coveredCl cs
  | .select _ cs => retsCl cs = []
  | .labeled _ s => rets s = []
  | _ => True
def covereds : Stmts → Prop
  | .nil => True
  | .cons s b => covered s ∧ covereds b
def coveredCl : Clauses → Prop
  | .nil => True
  | .cons body _ cs => covereds body ∧ coveredCl cs
end

/-- Whether the `i`-th result is read in its turn if it is a variable: the choice the instrumented program makes. -/
def inTurn : Rets → Nat → Bool
  | .exprs es, i =>
    match es[i]? with
    | some (.ident _ b) => b
    | _ => false
  | _, _ => false

/-- A variable among the results of a `return`. -/
def resultVar (sig : Sig) (r : Rets) (x : Var) : Prop :=
  match r with
  | .naked => some (some x) ∈ sig
  | .multi _ => False
  | .exprs es => Expr.ident x false ∈ es

/-- What a report before `return r` has to contain when the function returns `vs` with these variables: every visible variable, and every
result under the name the tool gives it (a `nil` that needs no temporary is not shown); no name twice, and nothing
else or untrue. -/
def ReportOk (sig : Sig) (r : Rets) (vis : List Var) (env : Env) (vs : List Val) (fields : List (FName × Val)) : Prop :=
  (∀ x ∈ vis, (.var x, env x) ∈ fields) ∧
  (match r with
  | .naked => ∀ x, some (some x) ∈ sig → (.var x, env x) ∈ fields
  | .multi _ => ∀ (i : Nat) (v : Val), vs[i]? = some v → (.ret i, v) ∈ fields
  | .exprs es => ∀ (i : Nat) (e : Expr) (v : Val), es[i]? = some e → vs[i]? = some v →
    match e with
    | .ident x false => (.var x, v) ∈ fields
    | .nil false => v = nilVal
    | .other _ true => (.recur i, v) ∈ fields
    | _ => (.ret i, v) ∈ fields) ∧
  (fields.map Prod.fst).Nodup ∧
  ∀ f ∈ fields,
    match f with
    | (.var x, v) => v = env x ∧ (x ∈ vis ∨ resultVar sig r x)
    | (.ret i, v) => vs[i]? = some v
    | (.recur i, v) => vs[i]? = some v

/-- The results of a signature have names or not, all of them. -/
def WfSig (sig : Sig) : Prop := (∀ n ∈ sig, n ≠ none) ∨ ∀ n ∈ sig, n = none

def Ev.isReport : Ev → Prop
  | .user _ => False
  | .report _ _ => True

/-- The same result, the same variables and the same events in the same order, followed by at most one report. -/
def Same : Option (FOut × Env × List Ev) → Option (FOut × Env × List Ev) → Prop
  | none, none => True
  | some (o, env, evs), some (o', env', evs') => o' = o ∧ env' = env ∧ ∃ reps : List Ev, evs' = evs ++ reps ∧ reps.length ≤ 1 ∧ ∀ r ∈ reps, r.isReport
  | _, _ => False

end Verif.Returns
