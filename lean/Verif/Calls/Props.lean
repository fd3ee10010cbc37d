import Verif.Calls.BodyLemmas
import Verif.Calls.TwiceLemmas

/-!
C50: instrumenting calls does not change what the program does. C87: a report shows what is passed. C88: every selected call is reported.
C89: instrumenting twice adds nothing. C90: numbers of the points.
-/

namespace Verif.Calls

/-! ### C50 -/

/-- C50, for bodies in which the call picked in a statement is the first thing evaluated there, in no loop condition, and neither deferred nor
started with `go`: the rewritten function ends like the original, with the same variables, and makes the same calls with the same
receivers and arguments in the same order — for every interpretation of the parts not modelled, every input and every number of iterations.
Missing: all other bodies, for which the claim is false, see the theorems that follow. -/
theorem C50_calls_partial (I : Interp) (hit : Nat → Bool) (N n : Nat) (body : Stmts) (env : Env) (h : srcs body) (hg : goods I hit false body) :
    Same (run I N body env) (run I N (instrument hit n body) env) := by
  rcases run_sim (I := I) (N := N) n body env h hg with ⟨h1, h2⟩ | ⟨o, env', evs, evs', h1, h2, h3⟩
  · rw [h1, h2]; trivial
  · rw [h1, h2]; exact ⟨rfl, rfl, h3.hist⟩

/-- A program to test with: calls give 1 until there have been three, 4 panics, 7 stops panics, methods add one to their receiver. -/
def wI : Interp where
  res := fun id _ _ h => if id = 4 then none else some (if h.length < 3 then 1 else 0)
  after := fun _ v _ _ => v + 1
  op := fun _ vs => some vs.sum
  sel := fun f v => f + v
  recovers := fun id => id == 7

def wHit : Nat → Bool := fun id => id == 0

/-- `f(args)`, the selected call. -/
def cf (args : Exprs) : Expr := .call 0 .none args
/-- `g()` -/
def cg : Expr := .call 1 .none .nil
/-- `h()` -/
def ch : Expr := .call 2 .none .nil
def one (e : Expr) : Exprs := .cons e .nil
def stmt (e : Expr) : Stmt := .simple ⟨none, e⟩
def prog1 (s : Stmt) : Stmts := .cons s .nil
def zeros : Env := fun _ => 0

def before (b : Stmts) : Option (FOut × List Call) := obs (run wI 10 b zeros)
def afterwards (b : Stmts) : Option (FOut × List Call) := obs (run wI 10 (instrument wHit 1 b) zeros)

/-- `y.m(1, f(x, g() + 1)); if v := f(g()); v { return h(f(v)) }`. -/
def wGood : Stmts :=
  .cons (stmt (.call 3 (.ident 8) (.cons (.lit 1) (one (cf (.cons (.var 0) (one (.op 0 (.cons cg (one (.lit 1)))))))))))
    (prog1 (.ifs (some ⟨some 1, cf (one cg)⟩) (.var 1) (prog1 (.ret (.call 2 .none (one (cf (one (.var 1))))))) .none))

example : srcs wGood ∧ goods wI wHit false wGood ∧ goods wI wHit true wGood := by
  simp [wGood, stmt, prog1, one, cf, cg, srcs, src, srcE, srcR, srcEs, srcInit, srcElse, goods, good, goodE, goodInit, goodElse, hits, hitsR, hitss, headE, headEs, ownRecv, ownArgs, quiet, reads,
    moveds, moved, modsBefore, mods, modss, modsR, wHit]

example : before wGood = some (.returns 0, [⟨1, none, []⟩, ⟨0, none, [0, 2]⟩, ⟨3, some 0, [1, 1]⟩, ⟨1, none, []⟩, ⟨0, none, [0]⟩]) ∧ afterwards wGood = before wGood := by decide +kernel

/-- `for f(g()) {}`: the argument is evaluated once instead of once per iteration. -/
theorem C50_loop_violated : let b := prog1 (.loop none (cf (one cg)) .nil .nil)
    srcs b ∧ before b = some (.returns 0, [⟨1, none, []⟩, ⟨0, none, [1]⟩, ⟨1, none, []⟩, ⟨0, none, [1]⟩]) ∧
    afterwards b = some (.returns 0, [⟨1, none, []⟩, ⟨0, none, [1]⟩, ⟨0, none, [1]⟩, ⟨0, none, [1]⟩]) := by
  refine ⟨by simp [srcs, src, prog1, cf, cg, one, srcE, srcR, srcEs, srcInit], by decide +kernel, by decide +kernel⟩

/-- `false && f(g())`: the argument of a call that is not made is evaluated. -/
theorem C50_condition_violated : let b := prog1 (stmt (.logic true (.lit 0) (cf (one cg))))
    srcs b ∧ before b = some (.returns 0, []) ∧ afterwards b = some (.returns 0, [⟨1, none, []⟩]) := by
  refine ⟨by simp [srcs, src, prog1, stmt, cf, cg, one, srcE, srcR, srcEs], by decide +kernel, by decide +kernel⟩

/-- `h() + f(g())`: the argument is evaluated before `h()`. -/
theorem C50_order_violated : let b := prog1 (stmt (.op 0 (.cons ch (one (cf (one cg))))))
    srcs b ∧ before b = some (.returns 0, [⟨2, none, []⟩, ⟨1, none, []⟩, ⟨0, none, [1]⟩]) ∧
    afterwards b = some (.returns 0, [⟨1, none, []⟩, ⟨2, none, []⟩, ⟨0, none, [1]⟩]) := by
  refine ⟨by simp [srcs, src, prog1, stmt, cf, cg, ch, one, srcE, srcR, srcEs], by decide +kernel, by decide +kernel⟩

/-- `f(g().x)`: the argument is evaluated twice, once for the report. -/
theorem C50_selector_violated : let b := prog1 (stmt (cf (one (.sel cg 3))))
    srcs b ∧ before b = some (.returns 0, [⟨1, none, []⟩, ⟨0, none, [4]⟩]) ∧
    afterwards b = some (.returns 0, [⟨1, none, []⟩, ⟨1, none, []⟩, ⟨0, none, [4]⟩]) := by
  refine ⟨by simp [srcs, src, prog1, stmt, cf, cg, one, srcE, srcR, srcEs], by decide +kernel, by decide +kernel⟩

/-- `if x = 2; f(x + 0) {}`: the argument is evaluated before the assignment. -/
theorem C50_init_violated : let b := prog1 (.ifs (some ⟨some 0, .lit 2⟩) (cf (one (.op 0 (one (.var 0))))) .nil .none)
    srcs b ∧ before b = some (.returns 0, [⟨0, none, [2]⟩]) ∧ afterwards b = some (.returns 0, [⟨0, none, [0]⟩]) := by
  refine ⟨by simp [srcs, src, srcInit, srcElse, prog1, cf, one, srcE, srcR, srcEs], by decide +kernel, by decide +kernel⟩

/-- Whatever is done to the condition, the first part of an `if`, `for` or `switch` stays in its place if it has no selected call. -/
theorem C50_init_kept (hit : Nat → Bool) (n : Nat) (init : Option Simple) (e : Expr) (post body : Stmts) (els : Else) (cs : Clauses) (h : hitsInit hit init = 0) :
    (∃ e' body' els', (rwS hit n (.ifs init e body els)).2.2 = .ifs init e' body' els') ∧
    (∃ e' post' body', (rwS hit n (.loop init e post body)).2.2 = .loop init e' post' body') ∧
    ∃ e' cs', (rwS hit n (.switch init e cs)).2.2 = .switch init e' cs' := by
  have key : (place1 n (injInit hit n init e) (init, e)).2.2.1 = init := by
    have h0 : injInit0 hit n e init = none := by
      cases init with
      | none => rfl
      | some c => simp [injInit0, (inj_none n c.val).2 h]
    simp only [injInit, h0]
    cases inj hit n e <;> rfl
  refine ⟨?_, ?_, ?_⟩
  · simp only [rwS, key]; exact ⟨_, _, _, rfl⟩
  · simp only [rwS, key]; exact ⟨_, _, _, rfl⟩
  · simp only [rwS, key]; exact ⟨_, _, rfl⟩

/-- `if x = 2; f(1) {}`. -/
example : hitsInit wHit (some ⟨some 0, .lit 2⟩) = 0 ∧
    before (.cons (.ifs (some ⟨some 0, .lit 2⟩) (cf (one (.lit 1))) .nil .none) (prog1 (stmt (.call 2 .none (one (.var 0)))))) = some (.returns 0, [⟨0, none, [1]⟩, ⟨2, none, [2]⟩]) ∧
    afterwards (.cons (.ifs (some ⟨some 0, .lit 2⟩) (cf (one (.lit 1))) .nil .none) (prog1 (stmt (.call 2 .none (one (.var 0)))))) = some (.returns 0, [⟨0, none, [1]⟩, ⟨2, none, [2]⟩]) := by
  decide +kernel

/-- `x = 1; defer f(x); x = 2`, and the same with `go`: the argument is evaluated when the call happens. -/
theorem C50_defer_violated (go : Bool) : let b := .cons (.simple ⟨some 0, .lit 1⟩) (.cons (.later go 0 .none (one (.var 0))) (prog1 (.simple ⟨some 0, .lit 2⟩)))
    srcs b ∧ before b = some (.returns 0, [⟨0, none, [1]⟩]) ∧ afterwards b = some (.returns 0, [⟨0, none, [2]⟩]) := by
  refine ⟨by simp [srcs, src, prog1, one, srcE, srcR, srcEs], ?_, ?_⟩ <;> cases go <;> decide +kernel

/-- `defer r(); p()` with the call of `r` selected: `r` no longer stops the panic of `p`. -/
theorem C50_recover_violated : let b := .cons (.later false 7 .none .nil) (prog1 (stmt (.call 4 .none .nil)))
    srcs b ∧ obs (run wI 10 b zeros) = some (.returns 0, [⟨4, none, []⟩, ⟨7, none, []⟩]) ∧
    obs (run wI 10 (instrument (fun id => id == 7) 1 b) zeros) = some (.panics, [⟨4, none, []⟩, ⟨7, none, []⟩]) := by
  refine ⟨by simp [srcs, src, prog1, stmt, srcE, srcR, srcEs], by decide +kernel, by decide +kernel⟩

/-- `a.b.f(); h(a.b)` with a method that changes its receiver: it changes a copy. -/
theorem C50_receiver_violated : let b := .cons (stmt (.call 0 (.place 5) .nil)) (prog1 (stmt (.call 2 .none (one (.place 5)))))
    srcs b ∧ before b = some (.returns 0, [⟨0, some 0, []⟩, ⟨2, none, [1]⟩]) ∧ afterwards b = some (.returns 0, [⟨0, some 0, []⟩, ⟨2, none, [0]⟩]) := by
  refine ⟨by simp [srcs, src, prog1, stmt, one, srcE, srcR, srcEs], by decide +kernel, by decide +kernel⟩

/-! ### C87 -/

/-- C87, for the bodies of C50: what happens in the rewritten function is what happens in the original with reports added, each immediately
before a selected call and with exactly the receiver and the arguments the call gets. Missing: other bodies. -/
theorem C87_reports_partial (I : Interp) (hit : Nat → Bool) (N n : Nat) (body : Stmts) (env : Env) (h : srcs body) (hg : goods I hit false body) :
    SameReported hit false (run I N body env) (run I N (instrument hit n body) env) := by
  rcases run_sim (I := I) (N := N) n body env h hg with ⟨h1, h2⟩ | ⟨o, env', evs, evs', h1, h2, h3⟩
  · rw [h1, h2]; trivial
  · rw [h1, h2]; exact h3

example : trace (run wI 10 (instrument wHit 1 wGood) zeros) = some (.returns 0,
    [.call ⟨1, none, []⟩, .report 1 [0, 2], .call ⟨0, none, [0, 2]⟩, .call ⟨3, some 0, [1, 1]⟩, .call ⟨1, none, []⟩, .report 2 [0], .call ⟨0, none, [0]⟩]) := by decide +kernel

/-- `false && f(1)`: a report for a call that is not made. `f(1) + f(2)`: the report for the second call comes before the first. -/
theorem C87_uncalled_violated :
    (let b := prog1 (stmt (.logic true (.lit 0) (cf (one (.lit 1)))))
    srcs b ∧ trace (run wI 10 (instrument wHit 1 b) zeros) = some (.returns 0, [.report 1 [1]])) ∧
    (let b := prog1 (stmt (.op 0 (.cons (cf (one (.lit 1))) (one (cf (one (.lit 2)))))))
    srcs b ∧ trace (run wI 10 (instrument wHit 1 b) zeros) = some (.returns 0, [.report 1 [2], .call ⟨0, none, [1]⟩, .call ⟨0, none, [2]⟩])) := by
  refine ⟨⟨by simp [srcs, src, prog1, stmt, cf, one, srcE, srcR, srcEs], by decide +kernel⟩, by simp [srcs, src, prog1, stmt, cf, one, srcE, srcR, srcEs], by decide +kernel⟩

/-! ### C88 -/

/-- C88, for the bodies of C50 that have at most one selected call in a statement, and none after a label, in an `else if` condition or in what
follows it, or among the arguments of a deferred call: every selected call is reported immediately before it is made.
Missing: other bodies. -/
theorem C88_every_call_partial (I : Interp) (hit : Nat → Bool) (N n : Nat) (body : Stmts) (env : Env) (h : srcs body) (hg : goods I hit true body) :
    SameReported hit true (run I N body env) (run I N (instrument hit n body) env) := by
  rcases run_sim (I := I) (N := N) n body env h hg with ⟨h1, h2⟩ | ⟨o, env', evs, evs', h1, h2, h3⟩
  · rw [h1, h2]; trivial
  · rw [h1, h2]; exact h3

/-- With one report per selected call there are as many reports as selected calls. -/
theorem C88_count_partial (I : Interp) (hit : Nat → Bool) (N n : Nat) (body : Stmts) (env : Env) (h : srcs body) (hg : goods I hit true body)
    (o : FOut) (env' : Env) (evs : List Ev) (hr : run I N (instrument hit n body) env = some (o, env', evs)) :
    (evs.filter fun e => match e with
      | .report _ _ => true
      | _ => false).length = ((hist evs).filter fun c => hit c.id).length := by
  rcases run_sim (I := I) (N := N) n body env h hg with ⟨_, h2⟩ | ⟨o', env'', evs0, evs', h1, h2, h3⟩
  · rw [h2] at hr; simp at hr
  · rw [h2] at hr
    simp only [Option.some.injEq, Prod.mk.injEq] at hr
    obtain ⟨-, -, rfl⟩ := hr
    clear h2 h1
    induction h3 with
    | nil => rfl
    | plain a b c _ hc ih => simp only [hist, List.filterMap_append, List.filter_append, List.length_append] at ih ⊢; rw [ih]; simp [callOf, hc rfl]
    | rep a b c pid _ hc ih => simp only [hist, List.filterMap_append, List.filter_append, List.length_append] at ih ⊢; rw [ih]; simp [callOf, hc, List.filterMap]

/-- Calls that are not reported: an inner one, the condition of an `else if`, everything after a label, all but the first evaluation of
a loop condition. -/
theorem C88_missed_violated :
    (let b := prog1 (stmt (cf (one (cf (one (.lit 1))))))
    trace (run wI 10 (instrument wHit 1 b) zeros) = some (.returns 0, [.call ⟨0, none, [1]⟩, .report 1 [1], .call ⟨0, none, [1]⟩])) ∧
    (let b := prog1 (.ifs none (.lit 0) .nil (.elseIf none (cf (one (.lit 1))) .nil .none))
    trace (run wI 10 (instrument wHit 1 b) zeros) = some (.returns 0, [.call ⟨0, none, [1]⟩])) ∧
    (let b := prog1 (.labeled (.block (prog1 (stmt (cf (one (.lit 1)))))))
    trace (run wI 10 (instrument wHit 1 b) zeros) = some (.returns 0, [.call ⟨0, none, [1]⟩])) ∧
    (let b := prog1 (.loop none (cf .nil) .nil .nil)
    trace (run wI 10 (instrument wHit 1 b) zeros) = some (.returns 0, [.report 1 [], .call ⟨0, none, []⟩, .call ⟨0, none, []⟩, .call ⟨0, none, []⟩, .call ⟨0, none, []⟩])) := by
  refine ⟨by decide +kernel, by decide +kernel, by decide +kernel, by decide +kernel⟩

/-! ### C89 -/

/-- C89, for bodies with at most one selected call in each part that is searched: instrumenting the result again changes nothing and uses
no point number. Missing: other bodies. -/
theorem C89_twice_partial (hit : Nat → Bool) (n m : Nat) (body : Stmts) (h : srcs body) (ho : onces hit body) :
    rws hit m false (instrument hit n body) = (m, instrument hit n body) := rws_twice body n m h ho

example : onces wHit wGood ∧ pidss (instrument wHit 1 wGood) = [1, 2, 3] ∧ pidss (instrument wHit 7 (instrument wHit 1 wGood)) = [1, 2, 3] := by
  refine ⟨by simp [wGood, stmt, prog1, one, cf, cg, onces, once, onceInit, onceElse, hitsInit, hits, hitsR, hitss, wHit], by decide +kernel, by decide +kernel⟩

/-- `f(f(1))`: the inner call is instrumented the second time. -/
theorem C89_inner_violated : let b := prog1 (stmt (cf (one (cf (one (.lit 1))))))
    srcs b ∧ pidss (instrument wHit 1 b) = [1] ∧ pidss (instrument wHit 2 (instrument wHit 1 b)) = [2, 1] := by
  refine ⟨by simp [srcs, src, prog1, stmt, cf, one, srcE, srcR, srcEs], by decide +kernel, by decide +kernel⟩

/-! ### C90 -/

/-- C90: the reports in the result have the numbers from the first free one on, each exactly once, and the next free number comes after them. -/
theorem C90_numbers (hit : Nat → Bool) (n : Nat) (body : Stmts) (h : srcs body) :
    pidss (instrument hit n body) = List.range' n ((rws hit n false body).1 - n) ∧ n ≤ (rws hit n false body).1 ∧ (pidss (instrument hit n body)).Nodup := by
  obtain ⟨h1, h2⟩ := rws_run (hit := hit) body n h
  refine ⟨h2, h1, ?_⟩
  show (pidss (rws hit n false body).2).Nodup
  rw [h2]
  exact List.nodup_range'

example : pidss (instrument wHit 5 wGood) = [5, 6, 7] := by decide +kernel

end Verif.Calls
