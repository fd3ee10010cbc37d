import Verif.Base

/-!
Model of `InjectFuncPointBeforeCall` (/repo/lens/asttweak.go 693–1057) and `buildCallInstrumentationWithArgs` (1072–1157): the rewriting of a
function body so that the receiver and the arguments of the selected calls are reported before the call, together with what the statements
of a body do.

Simplifications. Values are numbers. Operands are evaluated from left to right. A call may do anything to a variable it is a method of, gives
any value or panics depending on its name, its receiver, its arguments and all the calls made before; it changes no other variable of the
function. Function literals of the program are not modelled, so the second look the code takes at function literals (`rewriteFuncLitsIn`
762–778), including the ones it has generated itself for `defer`, `go` and the last part of a `for`, is left out. There are no labels on
`break` and `continue`. Several values on one side of an assignment or after `return` are one operand list (`op`). The predicate is a set of
call numbers, the metadata of a point is left out.
-/

namespace Verif.Calls

abbrev Val := Nat
abbrev Var := Nat

/-- Generated names: `lenSyntheticRecv<pid>` and `lenSyntheticArg<pid>_<i>` (asttweak.go 1089, 1140). -/
inductive TName where
  | recv (pid : Nat)
  | arg (pid i : Nat)
deriving DecidableEq, Repr

mutual
/-- Expressions. -/
inductive Expr where
  /-- `*ast.BasicLit` and what `isConstantExpr` (1797–1810) accepts -/
  | lit (v : Val)
  /-- `*ast.Ident` -/
  | var (x : Var)
  /-- an addressable `*ast.SelectorExpr` such as `a.b`, with its own storage -/
  | place (x : Var)
  /-- any other `*ast.SelectorExpr` -/
  | sel (e : Expr) (f : Nat)
  /-- anything else whose operands are all evaluated -/
  | op (f : Nat) (es : Exprs)
  /-- `&&` and `||` -/
  | logic (isAnd : Bool) (a b : Expr)
  | call (id : Nat) (recv : Recv) (args : Exprs)
  /-- a generated variable -/
  | tmp (t : TName)
/-- What stands before the dot of the called function. -/
inductive Recv where
  /-- no receiver: a function of this or of another package -/
  | none
  | ident (x : Var)
  | place (x : Var)
  | expr (e : Expr)
  | tmp (t : TName)
inductive Exprs where
  | nil
  | cons (e : Expr) (es : Exprs)
end

/-- A simple statement: an expression, or the assignment of its value (assignments, declarations, sends). -/
structure Simple where
  dst : Option Var
  val : Expr

mutual
/-- Statements. The last three are generated. -/
inductive Stmt where
  | simple (c : Simple)
  | ret (e : Expr)
  | brk
  | cont
  | block (b : Stmts)
  | ifs (init : Option Simple) (cond : Expr) (body : Stmts) (els : Else)
  /-- `post` is executed after each iteration: one simple statement at most, or the call of a generated function literal -/
  | loop (init : Option Simple) (cond : Expr) (post : Stmts) (body : Stmts)
  /-- `for i := range e` -/
  | range (i : Var) (e : Expr) (body : Stmts)
  /-- `switch init; tag {…}`, also for types -/
  | switch (init : Option Simple) (tag : Expr) (cs : Clauses)
  /-- the operands of all the communications are evaluated, then one clause is chosen -/
  | select (comms : Exprs) (choice : Nat) (cs : Clauses)
  | labeled (s : Stmt)
  /-- `defer` and `go` -/
  | later (go : Bool) (id : Nat) (recv : Recv) (args : Exprs)
  | setTmp (t : TName) (e : Expr)
  | report (pid : Nat) (snaps : Exprs)
  /-- `defer func() { … }()` and `go func() { … }()` -/
  | laterLit (go : Bool) (b : Stmts)
inductive Stmts where
  | nil
  | cons (s : Stmt) (b : Stmts)
inductive Else where
  | none
  | block (b : Stmts)
  | elseIf (init : Option Simple) (cond : Expr) (body : Stmts) (els : Else)
inductive Clauses where
  | nil
  | cons (body : Stmts) (cs : Clauses)
end

def Stmts.app : Stmts → Stmts → Stmts
  | .nil, c => c
  | .cons s b, c => .cons s (b.app c)

def Exprs.app : Exprs → Exprs → Exprs
  | .nil, c => c
  | .cons s b, c => .cons s (b.app c)

/-! ### What programs do -/

/-- A call that happened: what was called on what and with what. -/
structure Call where
  id : Nat
  recv : Option Val
  args : List Val
deriving DecidableEq, Repr

inductive Ev where
  | call (c : Call)
  | report (pid : Nat) (vals : List Val)
deriving DecidableEq, Repr

def callOf : Ev → Option Call
  | .call c => some c
  | .report _ _ => none

/-- The calls among the events. -/
def hist (evs : List Ev) : List Call := evs.filterMap callOf

/-- What the parts of the program that are not modelled do: the result of a call (`none` is a panic), what it leaves in the receiver, the other
operations, and the calls that stop a panic when they are deferred. -/
structure Interp where
  res : Nat → Option Val → List Val → List Call → Option Val
  after : Nat → Val → List Val → List Call → Val
  op : Nat → List Val → Option Val
  sel : Nat → Val → Val
  recovers : Nat → Bool

abbrev Env := Var → Val
abbrev Tmps := TName → Val

def setV (env : Env) (x : Var) (v : Val) : Env := fun y => if y = x then v else env y
def setT (tmps : Tmps) (t : TName) (v : Val) : Tmps := fun u => if u = t then v else tmps u

/-- What a `defer` or `go` statement leaves behind. -/
inductive Deferred where
  | call (go : Bool) (id : Nat) (recv : Option Val) (args : List Val)
  | lit (go : Bool) (b : Stmts)

structure St where
  env : Env
  tmps : Tmps
  evs : List Ev
  defers : List Deferred

/-- The value of the receiver when the call happens; `ev` is the value of a receiver that is an expression. -/
def recvVal (r : Recv) (ev : Option Val) (s : St) : Option Val :=
  match r with
  | .none => none
  | .ident x => some (s.env x)
  | .place x => some (s.env x)
  | .tmp t => some (s.tmps t)
  | .expr _ => ev

/-- The call itself. A method can change the variable it is called on. -/
def doCall (I : Interp) (id : Nat) (r : Recv) (ev : Option Val) (vs : List Val) (s : St) : Option Val × St :=
  let rv := recvVal r ev s
  let h := hist s.evs
  let evs := s.evs ++ [.call ⟨id, rv, vs⟩]
  (I.res id rv vs h,
    match r with
    | .ident x => { s with evs := evs, env := setV s.env x (I.after id (s.env x) vs h) }
    | .place x => { s with evs := evs, env := setV s.env x (I.after id (s.env x) vs h) }
    | .tmp t => { s with evs := evs, tmps := setT s.tmps t (I.after id (s.tmps t) vs h) }
    | _ => { s with evs := evs })

mutual
/-- Value of an expression, `none` if it panics. -/
def eval (I : Interp) : Expr → St → Option Val × St
  | .lit v, s => (some v, s)
  | .var x, s => (some (s.env x), s)
  | .place x, s => (some (s.env x), s)
  | .tmp t, s => (some (s.tmps t), s)
  | .sel e f, s =>
    match eval I e s with
    | (some v, s1) => (some (I.sel f v), s1)
    | (none, s1) => (none, s1)
  | .op f es, s =>
    match evals I es s with
    | (some vs, s1) => (I.op f vs, s1)
    | (none, s1) => (none, s1)
  | .logic isAnd a b, s =>
    match eval I a s with
    | (none, s1) => (none, s1)
    | (some v, s1) => if (v != 0) = isAnd then eval I b s1 else (some v, s1)
  | .call id r args, s =>
    match evalR I r s with
    | (none, s1) => (none, s1)
    | (some ev, s1) =>
      match evals I args s1 with
      | (none, s2) => (none, s2)
      | (some vs, s2) => doCall I id r ev vs s2
def evalR (I : Interp) : Recv → St → Option (Option Val) × St
  | .expr e, s =>
    match eval I e s with
    | (some v, s1) => (some (some v), s1)
    | (none, s1) => (none, s1)
  | .none, s => (some none, s)
  | .ident _, s => (some none, s)
  | .place _, s => (some none, s)
  | .tmp _, s => (some none, s)
def evals (I : Interp) : Exprs → St → Option (List Val) × St
  | .nil, s => (some [], s)
  | .cons e es, s =>
    match eval I e s with
    | (none, s1) => (none, s1)
    | (some v, s1) =>
      match evals I es s1 with
      | (none, s2) => (none, s2)
      | (some vs, s2) => (some (v :: vs), s2)
end

inductive Out where
  | normal
  | brk
  | cont
  | ret (v : Val)
  | panic
deriving DecidableEq, Repr

/-- `none`: some loop needs more iterations than allowed. -/
abbrev Res := Option (Out × St)

def assign (x : Option Var) (v : Val) (s : St) : St :=
  match x with
  | none => s
  | some x => { s with env := setV s.env x v }

def denSimple (I : Interp) (c : Simple) (s : St) : Out × St :=
  match eval I c.val s with
  | (none, s1) => (.panic, s1)
  | (some v, s1) => (.normal, assign c.dst v s1)

def denInit (I : Interp) (c : Option Simple) (s : St) : Out × St :=
  match c with
  | none => (.normal, s)
  | some c => denSimple I c s

/-- At most `n` iterations of `for ; cond; post { body }`. -/
def loopN (I : Interp) (cond : Expr) (post body : St → Res) : Nat → St → Res
  | 0, _ => none
  | n + 1, s =>
    match eval I cond s with
    | (none, s1) => some (.panic, s1)
    | (some v, s1) =>
      if v = 0 then some (.normal, s1)
      else
        match body s1 with
        | none => none
        | some (.brk, s2) => some (.normal, s2)
        | some (.ret v, s2) => some (.ret v, s2)
        | some (.panic, s2) => some (.panic, s2)
        | some (_, s2) =>
          match post s2 with
          | none => none
          | some (.panic, s3) => some (.panic, s3)
          | some (_, s3) => loopN I cond post body n s3

/-- `n` iterations of `for i := range …`, the next index is `k`. -/
def rangeN (i : Var) (body : St → Res) : Nat → Nat → St → Res
  | 0, _, s => some (.normal, s)
  | n + 1, k, s =>
    match body (assign (some i) k s) with
    | none => none
    | some (.brk, s2) => some (.normal, s2)
    | some (.ret v, s2) => some (.ret v, s2)
    | some (.panic, s2) => some (.panic, s2)
    | some (_, s2) => rangeN i body n (k + 1) s2

/-- `break` leaves a `switch` or `select`. -/
def breakOut : Out → Out
  | .brk => .normal
  | o => o

mutual
/-- Meaning of a statement; loops do at most `N` iterations. -/
def den (I : Interp) (N : Nat) : Stmt → St → Res
  | .simple c, s => some (denSimple I c s)
  | .ret e, s =>
    match eval I e s with
    | (none, s1) => some (.panic, s1)
    | (some v, s1) => some (.ret v, s1)
  | .brk, s => some (.brk, s)
  | .cont, s => some (.cont, s)
  | .block b, s => dens I N b s
  | .ifs init cond body els, s =>
    match denInit I init s with
    | (.normal, s1) =>
      match eval I cond s1 with
      | (none, s2) => some (.panic, s2)
      | (some v, s2) => if v = 0 then denElse I N els s2 else dens I N body s2
    | (_, s1) => some (.panic, s1)
  | .loop init cond post body, s =>
    match denInit I init s with
    | (.normal, s1) => loopN I cond (dens I N post) (dens I N body) N s1
    | (_, s1) => some (.panic, s1)
  | .range i e body, s =>
    match eval I e s with
    | (none, s1) => some (.panic, s1)
    | (some v, s1) => rangeN i (dens I N body) v 0 s1
  | .switch init tag cs, s =>
    match denInit I init s with
    | (.normal, s1) =>
      match eval I tag s1 with
      | (none, s2) => some (.panic, s2)
      | (some v, s2) => (denCl I N cs v s2).map fun x => (breakOut x.1, x.2)
    | (_, s1) => some (.panic, s1)
  | .select comms choice cs, s =>
    match evals I comms s with
    | (none, s1) => some (.panic, s1)
    | (some vs, s1) =>
      match I.op choice vs with
      | none => some (.panic, s1)
      | some v => (denCl I N cs v s1).map fun x => (breakOut x.1, x.2)
  | .labeled st, s => den I N st s
  | .later go id r args, s =>
    match evalR I r s with
    | (none, s1) => some (.panic, s1)
    | (some ev, s1) =>
      match evals I args s1 with
      | (none, s2) => some (.panic, s2)
      | (some vs, s2) => some (.normal, { s2 with defers := .call go id (recvVal r ev s2) vs :: s2.defers })
  | .setTmp t e, s =>
    match eval I e s with
    | (none, s1) => some (.panic, s1)
    | (some v, s1) => some (.normal, { s1 with tmps := setT s1.tmps t v })
  | .report pid snaps, s =>
    match evals I snaps s with
    | (none, s1) => some (.panic, s1)
    | (some vs, s1) => some (.normal, { s1 with evs := s1.evs ++ [.report pid vs] })
  | .laterLit go b, s => some (.normal, { s with defers := .lit go b :: s.defers })
def dens (I : Interp) (N : Nat) : Stmts → St → Res
  | .nil, s => some (.normal, s)
  | .cons st b, s =>
    match den I N st s with
    | none => none
    | some (.normal, s1) => dens I N b s1
    | some (o, s1) => some (o, s1)
def denElse (I : Interp) (N : Nat) : Else → St → Res
  | .none, s => some (.normal, s)
  | .block b, s => dens I N b s
  | .elseIf init cond body els, s =>
    match denInit I init s with
    | (.normal, s1) =>
      match eval I cond s1 with
      | (none, s2) => some (.panic, s2)
      | (some v, s2) => if v = 0 then denElse I N els s2 else dens I N body s2
    | (_, s1) => some (.panic, s1)
/-- The `k`-th clause; none if `k` is too high. -/
def denCl (I : Interp) (N : Nat) : Clauses → Nat → St → Res
  | .nil, _, s => some (.normal, s)
  | .cons body _, 0, s => dens I N body s
  | .cons _ cs, k + 1, s => denCl I N cs k s
end

/-- How a function ends. -/
inductive FOut where
  | returns (v : Val)
  | panics
deriving DecidableEq, Repr

/-- Execute what was deferred, the last first. Calls of a `go` statement are executed here too: one of the moments at which they may be.
A deferred call stops a panic only if it is itself the deferred function. -/
def finish (I : Interp) (N : Nat) : List Deferred → FOut → St → Option (FOut × St)
  | [], o, s => some (o, s)
  | .call go id rv vs :: ds, o, s =>
    let s1 : St := { s with evs := s.evs ++ [.call ⟨id, rv, vs⟩] }
    match I.res id rv vs (hist s.evs) with
    | none => finish I N ds .panics s1
    | some _ => finish I N ds (if o = .panics ∧ I.recovers id = true ∧ go = false then .returns 0 else o) s1
  | .lit _ b :: ds, o, s =>
    match dens I N b s with
    | none => none
    | some (.panic, s1) => finish I N ds .panics s1
    | some (_, s1) => finish I N ds o s1

/-- The end of the body is a `return`. -/
def endOf : Out → FOut
  | .ret v => .returns v
  | .panic => .panics
  | _ => .returns 0

/-- Call a function with this body: how it ends, its variables, and what happened. -/
def run (I : Interp) (N : Nat) (body : Stmts) (env : Env) : Option (FOut × Env × List Ev) :=
  match dens I N body ⟨env, fun _ => 0, [], []⟩ with
  | none => none
  | some (o, s) => (finish I N s.defers (endOf o) s).map fun x => (x.1, x.2.env, x.2.evs)

/-! ### The rewriting -/

/-- Statements to be put before the call, what is reported, and the changed expression. -/
structure Inj (α : Type) where
  pre : List (TName × Expr)
  snaps : Exprs
  out : α

/-- Arguments that are reported but not replaced (asttweak.go 1111–1137). -/
def kept : Expr → Bool
  | .lit _ => true
  | .var _ => true
  | .place _ => true
  | .sel _ _ => true
  | .tmp _ => true
  | _ => false

/-- The loop over the arguments (asttweak.go 1108–1149). -/
def buildArgs (pid : Nat) : Nat → Exprs → Inj Exprs
  | _, .nil => ⟨[], .nil, .nil⟩
  | i, .cons e es =>
    let r := buildArgs pid (i + 1) es
    if kept e then ⟨r.pre, .cons e r.snaps, .cons e r.out⟩
    else ⟨(.arg pid i, e) :: r.pre, .cons (.tmp (.arg pid i)) r.snaps, .cons (.tmp (.arg pid i)) r.out⟩

/-- The receiver (asttweak.go 1077–1105): an identifier is reported, anything else is replaced by a variable. -/
def buildRecv (pid : Nat) : Recv → Inj Recv
  | .none => ⟨[], .nil, .none⟩
  | .ident x => ⟨[], .cons (.var x) .nil, .ident x⟩
  | .tmp t => ⟨[], .cons (.tmp t) .nil, .tmp t⟩
  | .place x => ⟨[(.recv pid, .place x)], .cons (.tmp (.recv pid)) .nil, .tmp (.recv pid)⟩
  | .expr e => ⟨[(.recv pid, e)], .cons (.tmp (.recv pid)) .nil, .tmp (.recv pid)⟩

/-- `buildCallInstrumentationWithArgs` (asttweak.go 1072–1157). -/
def buildCall (pid id : Nat) (r : Recv) (args : Exprs) : Inj Expr :=
  let br := buildRecv pid r
  let ba := buildArgs pid 0 args
  ⟨br.pre ++ ba.pre, br.snaps.app ba.snaps, .call id br.out ba.out⟩

mutual
/-- `findMatchingCall` (asttweak.go 736–754) and the change of the call it finds. `ast.Inspect` goes on with the rest of the tree after a
match, so that it is the last match that counts; it does not go into the parts of a call that matches. -/
def inj (hit : Nat → Bool) (pid : Nat) : Expr → Option (Inj Expr)
  | .lit _ => none
  | .var _ => none
  | .place _ => none
  | .tmp _ => none
  | .sel e f => (inj hit pid e).map fun i => ⟨i.pre, i.snaps, .sel i.out f⟩
  | .op f es => (injs hit pid es).map fun i => ⟨i.pre, i.snaps, .op f i.out⟩
  | .logic k a b =>
    match inj hit pid b with
    | some i => some ⟨i.pre, i.snaps, .logic k a i.out⟩
    | none => (inj hit pid a).map fun i => ⟨i.pre, i.snaps, .logic k i.out b⟩
  | .call id r args =>
    if hit id then some (buildCall pid id r args)
    else
      match injs hit pid args with
      | some i => some ⟨i.pre, i.snaps, .call id r i.out⟩
      | none => (injR hit pid r).map fun i => (⟨i.pre, i.snaps, .call id i.out args⟩ : Inj Expr)
def injR (hit : Nat → Bool) (pid : Nat) : Recv → Option (Inj Recv)
  | .expr e => (inj hit pid e).map fun i => ⟨i.pre, i.snaps, .expr i.out⟩
  | .none => none
  | .ident _ => none
  | .place _ => none
  | .tmp _ => none
def injs (hit : Nat → Bool) (pid : Nat) : Exprs → Option (Inj Exprs)
  | .nil => none
  | .cons e es =>
    match injs hit pid es with
    | some i => some ⟨i.pre, i.snaps, .cons e i.out⟩
    | none => (inj hit pid e).map fun i => ⟨i.pre, i.snaps, .cons i.out es⟩
end

/-- The communications of a `select` are searched one by one, the first with a match counts (asttweak.go 920–930). -/
def injFirst (hit : Nat → Bool) (pid : Nat) : Exprs → Option (Inj Exprs)
  | .nil => none
  | .cons e es =>
    match inj hit pid e with
    | some i => some ⟨i.pre, i.snaps, .cons i.out es⟩
    | none => (injFirst hit pid es).map fun i => ⟨i.pre, i.snaps, .cons e i.out⟩

/-- The statements put before the changed one. -/
def preStmts (pid : Nat) (pre : List (TName × Expr)) (snaps : Exprs) : Stmts :=
  match pre with
  | [] => .cons (.report pid snaps) .nil
  | (t, e) :: pre => .cons (.setTmp t e) (preStmts pid pre snaps)

/-- Search in the optional first part of an `if`, `for` or `switch`. -/
def injInit0 (hit : Nat → Bool) (pid : Nat) (e : Expr) : Option Simple → Option (Inj (Option Simple × Expr))
  | none => none
  | some c => (inj hit pid c.val).map fun i => ⟨i.pre, i.snaps, (some ⟨c.dst, i.out⟩, e)⟩

/-- Search in the optional first part of an `if`, `for` or `switch`, then in an expression (asttweak.go 884–919). -/
def injInit (hit : Nat → Bool) (pid : Nat) (init : Option Simple) (e : Expr) : Option (Inj (Option Simple × Expr)) :=
  match injInit0 hit pid e init with
  | some i => some i
  | none => (inj hit pid e).map fun i => ⟨i.pre, i.snaps, (init, i.out)⟩

/-- The last part of a `for` (asttweak.go 977–1001). -/
def injPost (hit : Nat → Bool) (n : Nat) : Stmts → Nat × Stmts
  | .cons (.simple c) .nil =>
    match inj hit n c.val with
    | some i => (n + 1, (preStmts n i.pre i.snaps).app (.cons (.simple ⟨c.dst, i.out⟩) .nil))
    | none => (n, .cons (.simple c) .nil)
  | b => (n, b)

/-- `isPrevStmtSendLensPoint` (asttweak.go 1209–1224) for the statement just put into the new list. -/
def isReport : Stmt → Bool
  | .report _ _ => true
  | _ => false

/-- New number, statements to put before, and the new statement, for a search with this result. -/
def place1 {α : Type} (n : Nat) (r : Option (Inj α)) (orig : α) : Nat × Stmts × α :=
  match r with
  | some i => (n + 1, preStmts n i.pre i.snaps, i.out)
  | none => (n, .nil, orig)

mutual
/-- One statement in `rewriteBlock` (asttweak.go 782–1049): the next point number, the statements put before, the statement. -/
def rwS (hit : Nat → Bool) (n : Nat) : Stmt → Nat × Stmts × Stmt
  | .simple c =>
    let r := place1 n (inj hit n c.val) c.val
    (r.1, r.2.1, .simple ⟨c.dst, r.2.2⟩)
  | .ret e =>
    let r := place1 n (inj hit n e) e
    (r.1, r.2.1, .ret r.2.2)
  | .block b =>
    let r := rws hit n false b
    (r.1, .nil, .block r.2)
  | .ifs init cond body els =>
    let r := place1 n (injInit hit n init cond) (init, cond)
    let rb := rws hit r.1 false body
    let re := rwElse hit rb.1 els
    (re.1, r.2.1, .ifs r.2.2.1 r.2.2.2 rb.2 re.2)
  | .loop init cond post body =>
    let r := place1 n (injInit hit n init cond) (init, cond)
    let rp := injPost hit r.1 post
    let rb := rws hit rp.1 false body
    (rb.1, r.2.1, .loop r.2.2.1 r.2.2.2 rp.2 rb.2)
  | .range i e body =>
    let r := place1 n (inj hit n e) e
    let rb := rws hit r.1 false body
    (rb.1, r.2.1, .range i r.2.2 rb.2)
  | .switch init tag cs =>
    let r := place1 n (injInit hit n init tag) (init, tag)
    let rc := rwCl hit r.1 cs
    (rc.1, r.2.1, .switch r.2.2.1 r.2.2.2 rc.2)
  | .select comms choice cs =>
    let r := place1 n (injFirst hit n comms) comms
    let rc := rwCl hit r.1 cs
    (rc.1, r.2.1, .select r.2.2 choice rc.2)
  | .later go id r args =>
    if hit id then
      let i := buildCall n id r args
      (n + 1, .nil, .laterLit go ((preStmts n i.pre i.snaps).app (.cons (.simple ⟨none, i.out⟩) .nil)))
    else (n, .nil, .later go id r args)
  | .setTmp t e =>
    let r := place1 n (inj hit n e) e
    (r.1, r.2.1, .setTmp t r.2.2)
  | .brk => (n, .nil, .brk)
  | .cont => (n, .nil, .cont)
  | .labeled s => (n, .nil, .labeled s)
  | .report pid snaps =>
    let r := place1 n (injs hit n snaps) snaps
    (r.1, r.2.1, .report pid r.2.2)
  | .laterLit go b => (n, .nil, .laterLit go b)
/-- `rewriteBlock`; `prev` says whether the statement before is a report, after which a statement is left alone. -/
def rws (hit : Nat → Bool) (n : Nat) (prev : Bool) : Stmts → Nat × Stmts
  | .nil => (n, .nil)
  | .cons s b =>
    if prev then
      let r := rws hit n (isReport s) b
      (r.1, .cons s r.2)
    else
      let r := rwS hit n s
      let rb := rws hit r.1 (isReport r.2.2) b
      (rb.1, r.2.1.app (.cons r.2.2 rb.2))
/-- `else` (asttweak.go 963–974): of an `else if`, only the body is rewritten. -/
def rwElse (hit : Nat → Bool) (n : Nat) : Else → Nat × Else
  | .none => (n, .none)
  | .block b =>
    let r := rws hit n false b
    (r.1, .block r.2)
  | .elseIf init cond body els =>
    let r := rws hit n false body
    (r.1, .elseIf init cond r.2 els)
def rwCl (hit : Nat → Bool) (n : Nat) : Clauses → Nat × Clauses
  | .nil => (n, .nil)
  | .cons body cs =>
    let r := rws hit n false body
    let rc := rwCl hit r.1 cs
    (rc.1, .cons r.2 rc.2)
end

/-- `InjectFuncPointBeforeCall` on a body; `n` is the first free point number. -/
def instrument (hit : Nat → Bool) (n : Nat) (body : Stmts) : Stmts := (rws hit n false body).2

end Verif.Calls
