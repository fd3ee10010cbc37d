import Verif.Base

/-!
Instrumenting the returns of a function: `InjectFuncPointReturnStates` and `buildReturnInstrumentation`, `/repo/lens/asttweak.go`.

Function bodies are statements of a small language with Go's control flow (without `goto`). Everything that is not control flow or a
result of a `return` is opaque: an identifier whose meaning is an arbitrary effect on the variables, which also emits events and may
panic. Names of temporaries are taken to be different from all names of the program. Types, positions, deferred calls and the
conversion of results to the result types are not modelled.
-/

namespace Verif.Returns

abbrev Val := Nat
abbrev Var := Nat
abbrev Env := Var → Val

/-- The temporaries the tool declares: `lenSyntheticRet<i>`, `…Rec<i>`, `…Temp<i>`. -/
inductive TName where
  | ret (i : Nat)
  | recur (i : Nat)
  | temp (i : Nat)
deriving DecidableEq, Repr

abbrev Tmps := TName → Val

def Tmps.set (t : Tmps) (n : TName) (v : Val) : Tmps := fun m => if m = n then v else t m

/-- Name of a reported field. -/
inductive FName where
  | var (x : Var)
  | ret (i : Nat)
  | recur (i : Nat)
deriving DecidableEq, Repr

/-- What is observed: effects of the program, and reports. -/
inductive Ev where
  | user (n : Nat)
  | report (pid : Nat) (fields : List (FName × Val))
deriving DecidableEq, Repr

/-- Effect of something opaque: new variables, events, and its values unless it panics. -/
structure Eff where
  env : Env
  evs : List Nat
  vals : Option (List Val)

/-- Meaning of the opaque parts. -/
abbrev Interp := Nat → Env → Eff

/-- A result of a `return`; the flags are the decisions made from types, asttweak.go:1380–1412 and 1434–1444. -/
inductive Expr where
  | ident (x : Var) (needTmp : Bool)
  | nil (needTmp : Bool)
  | lit (v : Val) (needTmp : Bool)
  | other (id : Nat) (recursive : Bool)
deriving DecidableEq, Repr

/-- The results of a `return`: none, a call with several values, or expressions. -/
inductive Rets where
  | naked
  | multi (id : Nat)
  | exprs (es : List Expr)
deriving DecidableEq, Repr

/-- Expressions of generated code. -/
inductive GExpr where
  | var (x : Var)
  | tmp (t : TName)
  | const (v : Val)
  | user (id : Nat)
deriving DecidableEq, Repr

mutual
inductive Stmt where
  /-- any statement without statements inside, also function literals -/
  | simple (id : Nat)
  /-- `return`; `vis` are the names found by `visibleDeclsBefore` -/
  | ret (r : Rets) (vis : List Var)
  | block (b : Stmts)
  | ifs (cond : Nat) (body : Stmts) (els : Else)
  /-- `for` and `range`: condition, step, body -/
  | loop (cond post : Nat) (body : Stmts)
  /-- `switch` and type switch -/
  | switch (sel : Nat) (cs : Clauses)
  | select (sel : Nat) (cs : Clauses)
  | labeled (l : Nat) (s : Stmt)
  | brk (l : Option Nat)
  | cont (l : Option Nat)
  /-- generated: `var t = e` -/
  | setTmp (t : TName) (e : GExpr)
  /-- generated: `ret0, …, ret<n-1> := call` -/
  | setTmps (n : Nat) (id : Nat)
  /-- generated: `sendLensPointStateMessage(pid, fields…)` -/
  | report (pid : Nat) (fields : List (FName × GExpr))
  /-- generated `return` -/
  | retG (es : List GExpr)
inductive Stmts where
  | nil
  | cons (s : Stmt) (b : Stmts)
inductive Else where
  | none
  | block (b : Stmts)
  | elseIf (cond : Nat) (body : Stmts) (els : Else)
/-- Clauses, each with its body and whether it ends in `fallthrough`. -/
inductive Clauses where
  | nil
  | cons (body : Stmts) (ft : Bool) (cs : Clauses)
end

/-- The result part of a signature: names of the results, `some none` for the blank identifier, `none` if not named. -/
abbrev Sig := List (Option (Option Var))

/-- All results have names, asttweak.go:1330 (also the blank identifier); there is at least one. -/
def allNamed (sig : Sig) : Bool := !sig.isEmpty && sig.all Option.isSome

/-! ### Semantics -/

structure State where
  env : Env
  tmps : Tmps

inductive Out where
  | normal
  | ret (vs : List Val)
  | brk (l : Option Nat)
  | cont (l : Option Nat)
  | panic
deriving DecidableEq, Repr

/-- Outcome, state and events; `none` if a loop takes more steps than allowed. -/
abbrev Res := Option (Out × State × List Ev)

/-- Run something opaque. -/
def opaque_ (I : Interp) (id : Nat) (s : State) : Option (List Val) × State × List Ev :=
  ((I id s.env).vals, ⟨(I id s.env).env, s.tmps⟩, (I id s.env).evs.map .user)

/-- The value of `nil`. -/
def nilVal : Val := 0

/-- The values of a bare `return`: the named results; a blank one is never assigned and so has its zero value. -/
def namedVals (sig : Sig) (env : Env) : List Val :=
  sig.map fun n => match n with
    | some (some x) => env x
    | _ => nilVal

/-- Go evaluates calls from left to right but does not say when a plain variable is read: `early i` says whether the `i`-th result, if it is
a variable, is read in its turn or after all calls. First pass; variables to be read later are left as they are. -/
def evalFirst (I : Interp) (early : Nat → Bool) : Nat → List Expr → State → Option (List (Val ⊕ Var)) × State × List Ev
  | _, [], s => (some [], s, [])
  | i, e :: es, s =>
    match e with
    | .ident x _ =>
      match evalFirst I early (i + 1) es s with
      | (r, s', evs) => (r.map ((if early i then .inl (s.env x) else .inr x) :: ·), s', evs)
    | .nil _ =>
      match evalFirst I early (i + 1) es s with
      | (r, s', evs) => (r.map (.inl nilVal :: ·), s', evs)
    | .lit v _ =>
      match evalFirst I early (i + 1) es s with
      | (r, s', evs) => (r.map (.inl v :: ·), s', evs)
    | .other id _ =>
      match opaque_ I id s with
      | (none, s', evs) => (none, s', evs)
      | (some vs, s', evs) =>
        match evalFirst I early (i + 1) es s' with
        | (r, s'', evs') => (r.map (.inl (vs.headD nilVal) :: ·), s'', evs ++ evs')

/-- Second pass. -/
def readLate (env : Env) (l : List (Val ⊕ Var)) : List Val :=
  l.map fun v => match v with
    | .inl v => v
    | .inr x => env x

/-- Execute a `return`. -/
def evalRet (I : Interp) (sig : Sig) (early : Nat → Bool) (r : Rets) (s : State) : Out × State × List Ev :=
  match r with
  | .naked => (.ret (namedVals sig s.env), s, [])
  | .multi id =>
    match opaque_ I id s with
    | (none, s', evs) => (.panic, s', evs)
    | (some vs, s', evs) => (.ret ((List.range sig.length).map fun i => vs.getD i nilVal), s', evs)
  | .exprs es =>
    match evalFirst I early 0 es s with
    | (none, s', evs) => (.panic, s', evs)
    | (some l, s', evs) => (.ret (readLate s'.env l), s', evs)

/-- Value of a generated expression without calls. -/
def gval (s : State) : GExpr → Val
  | .var x => s.env x
  | .tmp t => s.tmps t
  | .const v => v
  | .user _ => nilVal

/-- Run `r` after what already happened. -/
def after (evs : List Ev) (r : Res) : Res := r.map fun x => (x.1, x.2.1, evs ++ x.2.2)

/-- A loop with at most `n` iterations. -/
def loopN (I : Interp) (lbl : Option Nat) (cond post : Nat) (body : State → Res) : Nat → State → Res
  | 0, _ => none
  | n + 1, s =>
    match opaque_ I cond s with
    | (none, s, evs) => some (.panic, s, evs)
    | (some vs, s, evs) =>
      if vs.headD 0 = 0 then some (.normal, s, evs)
      else
        match body s with
        | none => none
        | some (out, s, evs') =>
          let next : Res :=
            match opaque_ I post s with
            | (none, s, evs'') => some (.panic, s, evs'')
            | (some _, s, evs'') => after evs'' (loopN I lbl cond post body n s)
          match out with
          | .normal => after (evs ++ evs') next
          | .brk none => some (.normal, s, evs ++ evs')
          | .cont none => after (evs ++ evs') next
          | .cont (some l) => if lbl = some l then after (evs ++ evs') next else some (.cont (some l), s, evs ++ evs')
          | out => some (out, s, evs ++ evs')

/-- `break` leaves a `switch` or `select`. -/
def breakOut : Out → Out
  | .brk none => .normal
  | out => out

mutual
/-- Meaning of a statement: `N` bounds the iterations of each loop, `lbl` is the label in front of the statement. -/
def den (I : Interp) (sig : Sig) (early : Rets → Nat → Bool) (N : Nat) (lbl : Option Nat) : Stmt → State → Res
  | .simple id, s =>
    match opaque_ I id s with
    | (none, s, evs) => some (.panic, s, evs)
    | (some _, s, evs) => some (.normal, s, evs)
  | .ret r _, s => some (evalRet I sig (early r) r s)
  | .block b, s => dens I sig early N b s
  | .ifs cond body els, s =>
    match opaque_ I cond s with
    | (none, s, evs) => some (.panic, s, evs)
    | (some vs, s, evs) => if vs.headD 0 = 0 then after evs (denElse I sig early N els s) else after evs (dens I sig early N body s)
  | .loop cond post body, s => loopN I lbl cond post (dens I sig early N body) N s
  | .switch sel cs, s =>
    match opaque_ I sel s with
    | (none, s, evs) => some (.panic, s, evs)
    | (some vs, s, evs) => (after evs (denCl I sig early N cs (vs.headD 0) s)).map fun x => (breakOut x.1, x.2)
  | .select sel cs, s =>
    match opaque_ I sel s with
    | (none, s, evs) => some (.panic, s, evs)
    | (some vs, s, evs) => (after evs (denCl I sig early N cs (vs.headD 0) s)).map fun x => (breakOut x.1, x.2)
  | .labeled l st, s => (den I sig early N (some l) st s).map fun x => (if x.1 = .brk (some l) then .normal else x.1, x.2)
  | .brk l, s => some (.brk l, s, [])
  | .cont l, s => some (.cont l, s, [])
  | .setTmp t e, s =>
    match e with
    | .user id =>
      match opaque_ I id s with
      | (none, s, evs) => some (.panic, s, evs)
      | (some vs, s, evs) => some (.normal, ⟨s.env, s.tmps.set t (vs.headD nilVal)⟩, evs)
    | e => some (.normal, ⟨s.env, s.tmps.set t (gval s e)⟩, [])
  | .setTmps n id, s =>
    match opaque_ I id s with
    | (none, s, evs) => some (.panic, s, evs)
    | (some vs, s, evs) => some (.normal, ⟨s.env, (List.range n).foldl (fun t i => t.set (.ret i) (vs.getD i nilVal)) s.tmps⟩, evs)
  | .report pid fields, s => some (.normal, s, [.report pid (fields.map fun f => (f.1, gval s f.2))])
  | .retG es, s => some (.ret (es.map (gval s)), s, [])
def dens (I : Interp) (sig : Sig) (early : Rets → Nat → Bool) (N : Nat) : Stmts → State → Res
  | .nil, s => some (.normal, s, [])
  | .cons st b, s =>
    match den I sig early N none st s with
    | none => none
    | some (.normal, s, evs) => after evs (dens I sig early N b s)
    | some (out, s, evs) => some (out, s, evs)
def denElse (I : Interp) (sig : Sig) (early : Rets → Nat → Bool) (N : Nat) : Else → State → Res
  | .none, s => some (.normal, s, [])
  | .block b, s => dens I sig early N b s
  | .elseIf cond body els, s =>
    match opaque_ I cond s with
    | (none, s, evs) => some (.panic, s, evs)
    | (some vs, s, evs) => if vs.headD 0 = 0 then after evs (denElse I sig early N els s) else after evs (dens I sig early N body s)
/-- The `k`-th clause, and the next one after `fallthrough`. No clause if `k` is too high. -/
def denCl (I : Interp) (sig : Sig) (early : Rets → Nat → Bool) (N : Nat) : Clauses → Nat → State → Res
  | .nil, _, s => some (.normal, s, [])
  | .cons body ft cs, 0, s =>
    match dens I sig early N body s with
    | none => none
    | some (.normal, s, evs) => if ft then after evs (denCl I sig early N cs 0 s) else some (.normal, s, evs)
    | some (out, s, evs) => some (out, s, evs)
  | .cons _ _ cs, k + 1, s => denCl I sig early N cs k s
end

/-- Result of calling the function. -/
inductive FOut where
  | returns (vs : List Val)
  | panics
deriving DecidableEq, Repr

/-- Call a function with this body. The end of the body is a bare `return`. -/
def call (I : Interp) (sig : Sig) (early : Rets → Nat → Bool) (N : Nat) (body : Stmts) (env : Env) : Option (FOut × Env × List Ev) :=
  (dens I sig early N body ⟨env, fun _ => 0⟩).map fun x =>
    match x with
    | (.ret vs, s, evs) => (.returns vs, s.env, evs)
    | (.panic, s, evs) => (.panics, s.env, evs)
    | (_, s, evs) => (.returns (namedVals sig s.env), s.env, evs)

/-! ### The rewriting -/

/-- The first occurrences. -/
def dedupe : List Var → List Var → List Var
  | [], _ => []
  | x :: xs, seen => if x ∈ seen then dedupe xs seen else x :: dedupe xs (x :: seen)

/-- Statements appended one after the other. -/
def Stmts.ofList : List Stmt → Stmts
  | [] => .nil
  | s :: l => .cons s (Stmts.ofList l)

def Stmts.append : Stmts → Stmts → Stmts
  | .nil, c => c
  | .cons s b, c => .cons s (b.append c)

/-- One result: statements, returned expression, and reported field; asttweak.go:1375–1484. `seen` are the variables already reported. -/
def buildOne (i : Nat) (e : Expr) (seen : List Var) : List Stmt × GExpr × List (FName × GExpr) × List Var :=
  match e with
  | .ident x true => ([.setTmp (.temp i) (.var x), .setTmp (.ret i) (.tmp (.temp i))], .tmp (.ret i), [(.ret i, .tmp (.ret i))], seen)
  | .ident x false => if x ∈ seen then ([], .var x, [], seen) else ([], .var x, [(.var x, .var x)], x :: seen)
  | .nil true => ([.setTmp (.ret i) (.const nilVal)], .tmp (.ret i), [(.ret i, .tmp (.ret i))], seen)
  | .nil false => ([], .const nilVal, [], seen)
  | .lit v true => ([.setTmp (.temp i) (.const v), .setTmp (.ret i) (.tmp (.temp i))], .tmp (.ret i), [(.ret i, .tmp (.ret i))], seen)
  | .lit v false => ([.setTmp (.ret i) (.const v)], .tmp (.ret i), [(.ret i, .tmp (.ret i))], seen)
  | .other id false => ([.setTmp (.temp i) (.user id), .setTmp (.ret i) (.tmp (.temp i))], .tmp (.ret i), [(.ret i, .tmp (.ret i))], seen)
  | .other id true => ([.setTmp (.temp i) (.user id), .setTmp (.recur i) (.tmp (.temp i))], .tmp (.recur i), [(.recur i, .tmp (.recur i))], seen)

/-- The loop over the results. -/
def buildEach : Nat → List Expr → List Var → List Stmt × List GExpr × List (FName × GExpr)
  | _, [], _ => ([], [], [])
  | i, e :: es, seen =>
    match buildOne i e seen with
    | (st, g, f, seen) =>
      match buildEach (i + 1) es seen with
      | (sts, gs, fs) => (st ++ sts, g :: gs, f ++ fs)

/-- `buildReturnInstrumentation`, asttweak.go:1306–1495. -/
def buildReturn (sig : Sig) (r : Rets) (vis : List Var) (pid : Nat) : Stmt :=
  let vs := dedupe vis []
  let snaps : List (FName × GExpr) := vs.map fun x => (.var x, .var x)
  match r with
  | .naked =>
    let named := sig.filterMap fun n => n.join
    let extra := (dedupe named vs).map fun x => ((.var x, .var x) : FName × GExpr)
    if allNamed sig then
      .block (Stmts.ofList [.report pid (snaps ++ extra), if sig.all (fun n => n.join.isSome) then .retG (named.map .var) else .ret .naked []])
    else .block (Stmts.ofList [.report pid snaps, .ret .naked []])
  | .multi id =>
    let temps := (List.range sig.length).map TName.ret
    .block (Stmts.ofList [.setTmps sig.length id,
      .report pid (snaps ++ (List.range sig.length).map fun i => (.ret i, .tmp (.ret i))), .retG (temps.map .tmp)])
  | .exprs es =>
    match buildEach 0 es vs with
    | (pre, gs, fs) => .block (Stmts.ofList (pre ++ [.report pid (snaps ++ fs), .retG gs]))

mutual
/-- `rewriteBlock`, asttweak.go:556–624: new statement, next point id and whether a `return` was found. -/
def rw_ (sig : Sig) : Stmt → Nat → Stmt × Nat × Bool
  | .ret r vis, n => (buildReturn sig r vis n, n + 1, true)
  | .block b, n => match rws sig b n with | (b, n, f) => (.block b, n, f)
  | .ifs cond body els, n =>
    match rws sig body n with
    | (body, n, f) =>
      match els with
      | .none => (.ifs cond body .none, n, f)
      | .block b => match rws sig b n with | (b, n, g) => (.ifs cond body (.block b), n, f || g)
      | .elseIf c b e => match rws sig b n with | (b, n, g) => (.ifs cond body (.elseIf c b e), n, f || g)
  | .loop cond post body, n => match rws sig body n with | (body, n, f) => (.loop cond post body, n, f)
  | .switch sel cs, n => match rwCl sig cs n with | (cs, n, f) => (.switch sel cs, n, f)
  | s, n => (s, n, false)
def rws (sig : Sig) : Stmts → Nat → Stmts × Nat × Bool
  | .nil, n => (.nil, n, false)
  | .cons s b, n =>
    match rw_ sig s n with
    | (s, n, f) => match rws sig b n with | (b, n, g) => (.cons s b, n, f || g)
def rwCl (sig : Sig) : Clauses → Nat → Clauses × Nat × Bool
  | .nil, n => (.nil, n, false)
  | .cons body ft cs, n =>
    match rws sig body n with
    | (body, n, f) => match rwCl sig cs n with | (cs, n, g) => (.cons body ft cs, n, f || g)
end

/-- `InjectFuncPointReturnStates`, asttweak.go:510–691: the new body and the next point id. `endVis` are the names visible at the end. -/
def instrument (sig : Sig) (body : Stmts) (endVis : List Var) (n : Nat) : Stmts × Nat :=
  match rws sig body n with
  | (b, n', true) => (b, n')
  | (b, n', false) =>
    let rep : Stmt := .report n' ((dedupe endVis []).map fun x => (.var x, .var x))
    if sig.isEmpty then (b.append (.cons rep .nil), n' + 1)
    else if sig.all (fun n => n.join.isSome) then (b.append (.cons rep (.cons (.ret .naked []) .nil)), n' + 1)
    else
      -- zero values for results without usable name
      let es := sig.map fun m => match m with
        | some (some x) => if allNamed sig then GExpr.var x else .const nilVal
        | _ => .const nilVal
      (b.append (.cons rep (.cons (.retG es) .nil)), n' + 1)

end Verif.Returns
