import Verif.Calls.Model

/-!
What C50, C87 and C88 talk about: programs, the selected calls they contain, which call of a statement the tool picks, and when the parts
of that call are evaluated before everything else in the statement.
-/

namespace Verif.Calls

mutual
/-- Number of selected calls in an expression. -/
def hits (hit : Nat → Bool) : Expr → Nat
  | .sel e _ => hits hit e
  | .op _ es => hitss hit es
  | .logic _ a b => hits hit a + hits hit b
  | .call id r args => (if hit id then 1 else 0) + hitsR hit r + hitss hit args
  | _ => 0
def hitsR (hit : Nat → Bool) : Recv → Nat
  | .expr e => hits hit e
  | _ => 0
def hitss (hit : Nat → Bool) : Exprs → Nat
  | .nil => 0
  | .cons e es => hits hit e + hitss hit es
end

mutual
/-- An expression of a program: nothing generated. -/
def srcE : Expr → Prop
  | .tmp _ => False
  | .sel e _ => srcE e
  | .op _ es => srcEs es
  | .logic _ a b => srcE a ∧ srcE b
  | .call _ r args => srcR r ∧ srcEs args
  | _ => True
def srcR : Recv → Prop
  | .tmp _ => False
  | .expr e => srcE e
  | _ => True
def srcEs : Exprs → Prop
  | .nil => True
  | .cons e es => srcE e ∧ srcEs es
end

/-- Constants, variables, and fields of them. -/
def quiet : Expr → Prop
  | .lit _ => True
  | .var _ => True
  | .place _ => True
  | .sel e _ => quiet e
  | _ => False

/-- The variables such an expression reads. -/
def reads : Expr → List Var
  | .var x => [x]
  | .place x => [x]
  | .sel e _ => reads e
  | _ => []

mutual
/-- The variables that methods called in an expression may change. -/
def mods : Expr → List Var
  | .sel e _ => mods e
  | .op _ es => modss es
  | .logic _ a b => mods a ++ mods b
  | .call _ r args => modsR r ++ modss args
  | _ => []
def modsR : Recv → List Var
  | .ident x => [x]
  | .place x => [x]
  | .expr e => mods e
  | _ => []
def modss : Exprs → List Var
  | .nil => []
  | .cons e es => mods e ++ modss es
end

/-- Variables changed by the evaluation of what stands before the dot. -/
def modsBefore : Recv → List Var
  | .expr e => mods e
  | _ => []

mutual
/-- The variables that may be changed by the evaluation of the receiver and the arguments of the picked call: the last selected one that
is not part of another selected one. -/
def moved (hit : Nat → Bool) : Expr → List Var
  | .sel e _ => moved hit e
  | .op _ es => moveds hit es
  | .logic _ a b => if hits hit b = 0 then moved hit a else moved hit b
  | .call id r args => if hit id then modsBefore r ++ modss args else if hitss hit args = 0 then movedR hit r else moveds hit args
  | _ => []
def movedR (hit : Nat → Bool) : Recv → List Var
  | .expr e => moved hit e
  | _ => []
def moveds (hit : Nat → Bool) : Exprs → List Var
  | .nil => []
  | .cons e es => if hitss hit es = 0 then moved hit e else moveds hit es
end

/-- An argument that is an identifier, a selector or a constant has no calls in it, and the arguments after it do not change what it reads. -/
def ownArgs : Exprs → Prop
  | .nil => True
  | .cons e es =>
    (match e with
    | .lit _ => True
    | .var x => x ∉ modss es
    | .place x => x ∉ modss es
    | .sel e _ => quiet e ∧ ∀ x ∈ reads e, x ∉ modss es
    | _ => True) ∧ ownArgs es

/-- A field as receiver: the method does not change it, neither do the arguments. -/
def ownRecv (I : Interp) (id : Nat) (args : Exprs) : Recv → Prop
  | .place x => x ∉ modss args ∧ ∀ v vs h, I.after id v vs h = v
  | _ => True

mutual
/-- The parts of the picked call are evaluated before any other part of the expression that does something, and always. -/
def headE (I : Interp) (hit : Nat → Bool) : Expr → Prop
  | .sel e _ => headE I hit e
  | .op _ es => headEs I hit es
  | .logic _ a b => hits hit b = 0 ∧ headE I hit a
  | .call id r args =>
    if hit id then ownRecv I id args r ∧ ownArgs args
    else if hitss hit args = 0 then headR I hit r
    else
      (match r with
      | .expr e => quiet e ∧ ∀ x ∈ reads e, x ∉ moveds hit args
      | _ => True) ∧ headEs I hit args
  | _ => False
def headR (I : Interp) (hit : Nat → Bool) : Recv → Prop
  | .expr e => headE I hit e
  | _ => False
def headEs (I : Interp) (hit : Nat → Bool) : Exprs → Prop
  | .nil => False
  | .cons e es =>
    if hitss hit es = 0 then headE I hit e
    else (quiet e ∧ ∀ x ∈ reads e, x ∉ moveds hit es) ∧ headEs I hit es
end

/-- The same for the communications of a `select`, of which the first with a selected call counts. -/
def movedFirst (hit : Nat → Bool) : Exprs → List Var
  | .nil => []
  | .cons e es => if hits hit e = 0 then movedFirst hit es else moved hit e

/-- `cov`: no selected calls beside the picked one. -/
def goodFirst (I : Interp) (hit : Nat → Bool) (cov : Bool) : Exprs → Prop
  | .nil => True
  | .cons e es =>
    if hits hit e = 0 then hitss hit es = 0 ∨ ((quiet e ∧ ∀ x ∈ reads e, x ∉ movedFirst hit es) ∧ goodFirst I hit cov es)
    else headE I hit e ∧ (cov = true → hits hit e = 1 ∧ hitss hit es = 0)

/-- An expression in which a call can be picked safely. -/
def goodE (I : Interp) (hit : Nat → Bool) (cov : Bool) (e : Expr) : Prop :=
  (hits hit e ≠ 0 → headE I hit e) ∧ (cov = true → hits hit e ≤ 1)

def hitsInit (hit : Nat → Bool) : Option Simple → Nat
  | none => 0
  | some c => hits hit c.val

def srcInit : Option Simple → Prop
  | none => True
  | some c => srcE c.val

/-- The first part of an `if` or `switch` and the expression after it. -/
def goodInit (I : Interp) (hit : Nat → Bool) (cov : Bool) (init : Option Simple) (e : Expr) : Prop :=
  match init with
  | none => goodE I hit cov e
  | some c => goodE I hit cov c.val ∧ (hits hit c.val = 0 → hits hit e = 0) ∧ (cov = true → hits hit e = 0)

mutual
/-- Statements of a program: nothing generated. -/
def src : Stmt → Prop
  | .simple c => srcE c.val
  | .ret e => srcE e
  | .brk => True
  | .cont => True
  | .block b => srcs b
  | .ifs init cond body els => srcInit init ∧ srcE cond ∧ srcs body ∧ srcElse els
  | .loop init cond post body => srcInit init ∧ srcE cond ∧ (post = .nil ∨ ∃ c, post = .cons (.simple c) .nil ∧ srcE c.val) ∧ srcs body
  | .range _ e body => srcE e ∧ srcs body
  | .switch init tag cs => srcInit init ∧ srcE tag ∧ srcCl cs
  | .select comms _ cs => srcEs comms ∧ srcCl cs
  | .labeled s => src s
  | .later _ _ r args => srcR r ∧ srcEs args
  | .setTmp _ _ => False
  | .report _ _ => False
  | .laterLit _ _ => False
def srcs : Stmts → Prop
  | .nil => True
  | .cons s b => src s ∧ srcs b
def srcElse : Else → Prop
  | .none => True
  | .block b => srcs b
  | .elseIf init cond body els => srcInit init ∧ srcE cond ∧ srcs body ∧ srcElse els
def srcCl : Clauses → Prop
  | .nil => True
  | .cons body cs => srcs body ∧ srcCl cs
end

mutual
/-- Number of selected calls in a statement. -/
def hitsS (hit : Nat → Bool) : Stmt → Nat
  | .simple c => hits hit c.val
  | .ret e => hits hit e
  | .block b => hitsSs hit b
  | .ifs init cond body els => hitsInit hit init + hits hit cond + hitsSs hit body + hitsElse hit els
  | .loop init cond post body => hitsInit hit init + hits hit cond + hitsSs hit post + hitsSs hit body
  | .range _ e body => hits hit e + hitsSs hit body
  | .switch init tag cs => hitsInit hit init + hits hit tag + hitsCl hit cs
  | .select comms _ cs => hitss hit comms + hitsCl hit cs
  | .labeled s => hitsS hit s
  | .later _ id r args => (if hit id then 1 else 0) + hitsR hit r + hitss hit args
  | .laterLit _ b => hitsSs hit b
  | .setTmp _ e => hits hit e
  | .report _ es => hitss hit es
  | _ => 0
def hitsSs (hit : Nat → Bool) : Stmts → Nat
  | .nil => 0
  | .cons s b => hitsS hit s + hitsSs hit b
def hitsElse (hit : Nat → Bool) : Else → Nat
  | .none => 0
  | .block b => hitsSs hit b
  | .elseIf init cond body els => hitsInit hit init + hits hit cond + hitsSs hit body + hitsElse hit els
def hitsCl (hit : Nat → Bool) : Clauses → Nat
  | .nil => 0
  | .cons body cs => hitsSs hit body + hitsCl hit cs
end

/-- The last part of a `for`. -/
def goodPost (I : Interp) (hit : Nat → Bool) (cov : Bool) : Stmts → Prop
  | .cons (.simple c) .nil => goodE I hit cov c.val
  | _ => True

mutual
/-- In every statement that is rewritten the picked call is evaluated first, no loop condition has a selected call, and no selected call is
deferred or started with `go`. With `cov`, no statement has selected calls that are not picked. -/
def good (I : Interp) (hit : Nat → Bool) (cov : Bool) : Stmt → Prop
  | .simple c => goodE I hit cov c.val
  | .ret e => goodE I hit cov e
  | .block b => goods I hit cov b
  | .ifs init cond body els => goodInit I hit cov init cond ∧ goods I hit cov body ∧ goodElse I hit cov els
  | .loop init cond post body =>
    (match init with
    | none => True
    | some c => goodE I hit cov c.val) ∧ (hitsInit hit init = 0 ∨ cov = true → hits hit cond = 0) ∧
    goodPost I hit cov post ∧ goods I hit cov body
  | .range _ e body => goodE I hit cov e ∧ goods I hit cov body
  | .switch init tag cs => goodInit I hit cov init tag ∧ goodCl I hit cov cs
  | .select comms _ cs => goodFirst I hit cov comms ∧ goodCl I hit cov cs
  | .labeled s => cov = true → hitsS hit s = 0
  | .later _ id r args => hit id = false ∧ (cov = true → hitsR hit r = 0 ∧ hitss hit args = 0)
  | _ => True
def goods (I : Interp) (hit : Nat → Bool) (cov : Bool) : Stmts → Prop
  | .nil => True
  | .cons s b => good I hit cov s ∧ goods I hit cov b
def goodElse (I : Interp) (hit : Nat → Bool) (cov : Bool) : Else → Prop
  | .none => True
  | .block b => goods I hit cov b
  | .elseIf init cond body els => goods I hit cov body ∧ (cov = true → hitsInit hit init = 0 ∧ hits hit cond = 0 ∧ hitsElse hit els = 0)
def goodCl (I : Interp) (hit : Nat → Bool) (cov : Bool) : Clauses → Prop
  | .nil => True
  | .cons body cs => goods I hit cov body ∧ goodCl I hit cov cs
end

/-- What is passed to a call: the receiver if there is one, then the arguments. -/
def Call.vals (c : Call) : List Val := c.recv.toList ++ c.args

/-- The second list is the first with reports added: each immediately before a selected call and with what is passed to it. With `cov`, there
is one before every selected call. -/
inductive Reported (hit : Nat → Bool) (cov : Bool) : List Ev → List Ev → Prop where
  | nil : Reported hit cov [] []
  | plain (a b : List Ev) (c : Call) : Reported hit cov a b → (cov = true → hit c.id = false) → Reported hit cov (a ++ [.call c]) (b ++ [.call c])
  | rep (a b : List Ev) (c : Call) (pid : Nat) : Reported hit cov a b → hit c.id = true →
      Reported hit cov (a ++ [.call c]) (b ++ [.report pid c.vals, .call c])

/-- The same end, the same variables, and the same calls with the same values in the same order. -/
def Same : Option (FOut × Env × List Ev) → Option (FOut × Env × List Ev) → Prop
  | none, none => True
  | some (o, env, evs), some (o', env', evs') => o' = o ∧ env' = env ∧ hist evs' = hist evs
  | _, _ => False

/-- Both functions end, or neither does, and the reports among the calls are as in `Reported`. -/
def SameReported (hit : Nat → Bool) (cov : Bool) : Option (FOut × Env × List Ev) → Option (FOut × Env × List Ev) → Prop
  | none, none => True
  | some (_, _, evs), some (_, _, evs') => Reported hit cov evs evs'
  | _, _ => False

/-! ### Instrumenting twice, and point numbers -/

/-- No selected call is part of a selected call that is picked. -/
def onceInit (hit : Nat → Bool) (init : Option Simple) (e : Expr) : Prop :=
  if hitsInit hit init = 0 then hits hit e ≤ 1 else hitsInit hit init ≤ 1

def onceFirst (hit : Nat → Bool) : Exprs → Prop
  | .nil => True
  | .cons e es => if hits hit e = 0 then onceFirst hit es else hits hit e ≤ 1

mutual
/-- At most one selected call in everything that is searched. -/
def once (hit : Nat → Bool) : Stmt → Prop
  | .simple c => hits hit c.val ≤ 1
  | .ret e => hits hit e ≤ 1
  | .block b => onces hit b
  | .ifs init cond body els => onceInit hit init cond ∧ onces hit body ∧ onceElse hit els
  | .loop init cond post body => onceInit hit init cond ∧ hitsSs hit post ≤ 1 ∧ onces hit body
  | .range _ e body => hits hit e ≤ 1 ∧ onces hit body
  | .switch init tag cs => onceInit hit init tag ∧ onceCl hit cs
  | .select comms _ cs => onceFirst hit comms ∧ onceCl hit cs
  | .later _ id r args => hit id = true → hitsR hit r = 0 ∧ hitss hit args = 0
  | _ => True
def onces (hit : Nat → Bool) : Stmts → Prop
  | .nil => True
  | .cons s b => once hit s ∧ onces hit b
def onceElse (hit : Nat → Bool) : Else → Prop
  | .none => True
  | .block b => onces hit b
  | .elseIf _ _ body _ => onces hit body
def onceCl (hit : Nat → Bool) : Clauses → Prop
  | .nil => True
  | .cons body cs => onces hit body ∧ onceCl hit cs
end

mutual
/-- The numbers of the reports in a program. -/
def pids : Stmt → List Nat
  | .report pid _ => [pid]
  | .block b => pidss b
  | .ifs _ _ body els => pidss body ++ pidsElse els
  | .loop _ _ post body => pidss post ++ pidss body
  | .range _ _ body => pidss body
  | .switch _ _ cs => pidsCl cs
  | .select _ _ cs => pidsCl cs
  | .labeled s => pids s
  | .laterLit _ b => pidss b
  | _ => []
def pidss : Stmts → List Nat
  | .nil => []
  | .cons s b => pids s ++ pidss b
def pidsElse : Else → List Nat
  | .none => []
  | .block b => pidss b
  | .elseIf _ _ body els => pidss body ++ pidsElse els
def pidsCl : Clauses → List Nat
  | .nil => []
  | .cons body cs => pidss body ++ pidsCl cs
end

/-- How a function ends and the calls it makes. -/
def obs (r : Option (FOut × Env × List Ev)) : Option (FOut × List Call) := r.map fun x => (x.1, hist x.2.2)

/-- How a function ends and everything that happens. -/
def trace (r : Option (FOut × Env × List Ev)) : Option (FOut × List Ev) := r.map fun x => (x.1, x.2.2)

end Verif.Calls
