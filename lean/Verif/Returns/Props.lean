import Verif.Returns.Rewrite

/-! Property C49. -/

namespace Verif.Returns

variable (I : Interp) (sig : Sig) (early : Rets → Nat → Bool) (N : Nat)

/-- Instrumenting the returns of a function changes neither its results nor its effects, if the results of its returns do not depend on when plain
variables are read: for every body, meaning of its parts and starting state, the instrumented function computes the same results, leaves the
same variables, and does the same in the same order; it only reports, at most once and at the very end. -/
theorem C49_same_any (hw : WfSig sig) (body : Stmts) (hs : srcs sig body) (endVis : List Var) (n : Nat) (env : Env)
    (ha : ∀ p ∈ retss body, ∀ s, evalRet I sig (early p.1) p.1 s = evalRet I sig (inTurn p.1) p.1 s) :
    Same (call I sig early N body env) (call I sig early N (instrument sig body endVis n).1 env) := by
  have h := run_instrument I sig early N hw body hs endVis n (fun p hp => ha p (visiteds_sub body p hp)) ⟨env, fun _ => 0⟩
  unfold call
  cases h1 : dens I sig early N body ⟨env, fun _ => 0⟩ with
  | none =>
      rw [h1] at h
      simp only at h
      rw [h]
      trivial
  | some x =>
      obtain ⟨o, t, evs⟩ := x
      rw [h1] at h
      obtain ⟨o', t', evs', h2, he, hm⟩ := h
      rw [h2]
      cases o with
      | normal =>
          simp only at hm
          split at hm
          · obtain ⟨rfl | rfl, rfl⟩ := hm
            · exact ⟨by simp only [he], he, _, rfl, by simp, by simp [Ev.isReport]⟩
            · exact ⟨by simp only, he, _, rfl, by simp, by simp [Ev.isReport]⟩
          · obtain ⟨rfl, rfl⟩ := hm
            exact ⟨by simp only [he], he, [], by simp, by simp, by simp⟩
      | ret vs =>
          obtain ⟨rfl, ⟨k, r, vis, hk, fields, rfl, hf⟩ | ⟨_, rfl⟩⟩ := hm
          · exact ⟨rfl, he, _, rfl, by simp, by simp [Ev.isReport]⟩
          · exact ⟨rfl, he, [], by simp, by simp, by simp⟩
      | panic =>
          obtain ⟨rfl, rfl⟩ := hm
          exact ⟨rfl, he, [], by simp, by simp, by simp⟩
      | brk l =>
          obtain ⟨rfl, rfl⟩ := hm
          exact ⟨by simp only [he], he, [], by simp, by simp, by simp⟩
      | cont l =>
          obtain ⟨rfl, rfl⟩ := hm
          exact ⟨by simp only [he], he, [], by simp, by simp, by simp⟩

/-- Go leaves open when plain variables among the results are read. With the order the instrumented function fixes, which is one Go allows, it is
always the same as the original. -/
theorem C49_same (hw : WfSig sig) (body : Stmts) (hs : srcs sig body) (endVis : List Var) (n : Nat) (env : Env) :
    Same (call I sig inTurn N body env) (call I sig inTurn N (instrument sig body endVis n).1 env) :=
  C49_same_any I sig inTurn N hw body hs endVis n env fun _ _ _ => rfl

/-- With variables read as late as possible: no difference if no variable that is copied first is followed by something that can change it. -/
theorem C49_same_late (hw : WfSig sig) (body : Stmts) (hs : srcs sig body) (endVis : List Var) (n : Nat) (env : Env)
    (ha : ∀ p ∈ retss body, ∀ es, p.1 = .exprs es → ∀ (i j : Nat) (x : Var) (id : Nat) (rc : Bool), es[i]? = some (Expr.ident x true) → es[j]? = some (Expr.other id rc) → j < i) :
    Same (call I sig (fun _ _ => false) N body env) (call I sig (fun _ _ => false) N (instrument sig body endVis n).1 env) := by
  exact C49_same_any I sig (fun _ _ => false) N hw body hs endVis n env fun p hp s => evalRet_late I sig p.1 s (ha p hp)

/-- A function whose returns are all found (none in a `select`, behind a label, or after `else if`): when it ends by executing a `return`, it reports
exactly once, as its last action, under the id of a return of the body (ids are given in the order of the source), and the report shows the
visible variables and the returned values. Missing: the returns that are not found, see the violations below. -/
theorem C49_reports_partial (hw : WfSig sig) (body : Stmts) (hs : srcs sig body) (hc : covereds body) (endVis : List Var) (n : Nat) (env : Env)
    (vs : List Val) (t : State) (evs : List Ev) (hrun : dens I sig inTurn N body ⟨env, fun _ => 0⟩ = some (.ret vs, t, evs)) :
    ∃ (k : Nat) (r : Rets) (vis : List Var) (fields : List (FName × Val)), (retss body)[k]? = some (r, vis) ∧ ReportOk sig r vis t.env vs fields ∧
      call I sig inTurn N (instrument sig body endVis n).1 env = some (.returns vs, t.env, evs ++ [.report (n + k) fields]) := by
  have h := run_instrument I sig inTurn N hw body hs endVis n (fun _ _ _ => rfl) ⟨env, fun _ => 0⟩
  rw [hrun] at h
  obtain ⟨o', t', evs', h2, he, hm⟩ := h
  obtain ⟨rfl, ⟨k, r, vis, hk, fields, rfl, hf⟩ | ⟨hn, _⟩⟩ := hm
  · rw [visiteds_covered body hc] at hk
    exact ⟨k, r, vis, fields, hk, hf, by unfold call; rw [h2]; simp [he]⟩
  · exact absurd hc hn

/-- A function without `return` reports once, at its end, showing what is visible there. -/
theorem C49_end (hw : WfSig sig) (body : Stmts) (hs : srcs sig body) (hno : retss body = []) (endVis : List Var) (n : Nat) (env : Env)
    (t : State) (evs : List Ev) (hrun : dens I sig early N body ⟨env, fun _ => 0⟩ = some (.normal, t, evs)) :
    ∃ fields : List (FName × Val), call I sig early N (instrument sig body endVis n).1 env = some (.returns (namedVals sig t.env), t.env, evs ++ [.report n fields]) ∧
      (∀ f : FName × Val, f ∈ fields ↔ ∃ x ∈ endVis, f = (.var x, t.env x)) ∧ (fields.map Prod.fst).Nodup := by
  have hv : visiteds body = [] := by
    cases hv : visiteds body with
    | nil => rfl
    | cons p l => exact absurd (visiteds_sub body p (by rw [hv]; exact List.mem_cons_self ..)) (by rw [hno]; simp)
  have h := run_instrument I sig early N hw body hs endVis n (fun p hp => by rw [hv] at hp; simp at hp) ⟨env, fun _ => 0⟩
  rw [hrun] at h
  obtain ⟨o', t', evs', h2, he, hm⟩ := h
  simp only [hv, if_true] at hm
  obtain ⟨ho, rfl⟩ := hm
  obtain ⟨d1, d2, d3⟩ := dedupe_spec endVis []
  refine ⟨(dedupe endVis []).map fun x => (.var x, t.env x), ?_, fun f => ?_, ?_⟩
  · unfold call
    rw [h2]
    rcases ho with rfl | rfl
    · simp [he]
    · simp [he]
  · simp only [List.mem_map]
    constructor
    · rintro ⟨x, hx, rfl⟩; exact ⟨x, (d2 x hx).1, rfl⟩
    · rintro ⟨x, hx, rfl⟩; exact ⟨x, (d3 x hx).resolve_left (by simp), rfl⟩
  · rw [List.map_map]
    exact vars_nodup d1

/-- A function that panics reports nothing at its returns. -/
theorem C49_panic (hw : WfSig sig) (body : Stmts) (hs : srcs sig body) (endVis : List Var) (n : Nat) (env : Env)
    (t : State) (evs : List Ev) (hrun : dens I sig inTurn N body ⟨env, fun _ => 0⟩ = some (.panic, t, evs)) :
    call I sig inTurn N (instrument sig body endVis n).1 env = some (.panics, t.env, evs) := by
  have h := run_instrument I sig inTurn N hw body hs endVis n (fun _ _ _ => rfl) ⟨env, fun _ => 0⟩
  rw [hrun] at h
  obtain ⟨o', t', evs', h2, he, hm⟩ := h
  obtain ⟨rfl, rfl⟩ := hm
  unfold call
  rw [h2]
  simp [he]

/-- The ids used are `n`, `n + 1`, …: one for each return, or a single one if there is none. -/
theorem C49_ids (body : Stmts) (hc : covereds body) (endVis : List Var) (n : Nat) :
    (instrument sig body endVis n).2 = n + max 1 (retss body).length := by
  by_cases hv : visiteds body = []
  · obtain ⟨c, hi, -⟩ := instrument_none (fun _ e => ⟨e, [], none⟩) sig inTurn 0 body endVis n hv
    rw [hi, ← visiteds_covered body hc, hv]
    rfl
  · rw [instrument_some sig body endVis n hv, visiteds_covered body hc]
    rw [visiteds_covered body hc] at hv
    have : 1 ≤ (retss body).length := by
      cases hr : retss body with
      | nil => exact absurd hr hv
      | cons => simp
    simp only
    omega

/-! ### A case -/

/-- Parts with number `0` are false, others true and count up variable 0; each shows its number. -/
def demoI : Interp := fun id e => ⟨fun x => if x = 0 ∧ id ≠ 0 then e 0 + 1 else e x, [id], some [if id = 0 then 0 else e 0 + 10]⟩

/-- `for c { if 5 { return f(), x, 3 } else { return x } }`-like body -/
def demoBody : Stmts :=
  Stmts.ofList [.simple 1, .loop 2 3 (Stmts.ofList [.ifs 0 (Stmts.ofList [.ret (.exprs [.lit 3 false, .nil false]) [0]]) (.block (Stmts.ofList [.ret (.exprs [.other 4 false, .ident 0 false]) [0, 1, 0]]))])]

example : srcs [none, none] demoBody ∧ covereds demoBody ∧ WfSig [none, none] ∧ (retss demoBody).length = 2 := by
  refine ⟨?_, ?_, Or.inr (by simp), rfl⟩
  · simp [demoBody, Stmts.ofList, srcs, src, srcElse, srcR]
  · simp [demoBody, Stmts.ofList, covereds, covered]

example : ((call demoI [none, none] inTurn 5 (instrument [none, none] demoBody [0] 100).1 fun _ => 0).map fun x => (x.1, x.2.2)) =
    some (.returns [12, 3], [.user 1, .user 2, .user 0, .user 4, .report 101 [(.var 0, 3), (.var 1, 0), (.ret 0, 12)]]) := by decide

example : ((call demoI [none, none] inTurn 5 demoBody fun _ => 0).map fun x => (x.1, x.2.2)) = some (.returns [12, 3], [.user 1, .user 2, .user 0, .user 4]) := by decide

example : ((call demoI [some (some 1)] inTurn 5 (instrument [some (some 1)] (Stmts.ofList [.simple 3]) [1, 0, 1] 9).1 fun _ => 4).map fun x => (x.1, x.2.2)) =
    some (.returns [4], [.user 3, .report 9 [(.var 1, 4), (.var 0, 5)]]) := by decide

/-- Part 2 panics. -/
def panicI : Interp := fun id e => ⟨e, [id], if id = 2 then none else some [1]⟩

example : ((call panicI [none, none] inTurn 5 (instrument [none, none] demoBody [0] 100).1 fun _ => 0).map fun x => (x.1, x.2.2)) = some (.panics, [.user 1, .user 2]) := by decide

/-! ### Where the claim fails -/

/-- A return in the `else` after an `else if` is executed but not reported. -/
theorem C49_elseif_violated : ∃ (I : Interp) (body : Stmts) (env : Env), srcs [none] body ∧
    call I [none] inTurn 5 (instrument [none] body [] 1).1 env = call I [none] inTurn 5 body env ∧
    (call I [none] inTurn 5 body env).map (fun x => x.1) = some (.returns [7]) ∧
    (call I [none] inTurn 5 body env).map (fun x => x.2.2) = some [.user 0, .user 0] :=
  ⟨demoI, Stmts.ofList [.ifs 0 (Stmts.ofList [.ret (.exprs [.lit 5 false]) []]) (.elseIf 0 (Stmts.ofList [.ret (.exprs [.lit 6 false]) []])
      (.block (Stmts.ofList [.ret (.exprs [.lit 7 false]) []])))], fun _ => 0,
    by simp [Stmts.ofList, srcs, src, srcElse, srcR], rfl, by decide, by decide⟩

/-- A return in a `select` is executed but not reported. -/
theorem C49_select_violated : ∃ (I : Interp) (body : Stmts) (env : Env), srcs [none] body ∧
    (call I [none] inTurn 5 (instrument [none] body [] 1).1 env).map (fun x => (x.1, x.2.2)) = some (.returns [7], [.user 0]) :=
  ⟨demoI, Stmts.ofList [.select 0 (.cons (Stmts.ofList [.ret (.exprs [.lit 7 false]) []]) false .nil)], fun _ => 0,
    by simp [Stmts.ofList, srcs, src, srcCl, srcR], by decide⟩

/-- A return in a labelled loop is executed but not reported. -/
theorem C49_label_violated : ∃ (I : Interp) (body : Stmts) (env : Env), srcs [none] body ∧
    (call I [none] inTurn 5 (instrument [none] body [] 1).1 env).map (fun x => (x.1, x.2.2)) = some (.returns [7], [.user 1]) :=
  ⟨demoI, Stmts.ofList [.labeled 0 (.loop 1 1 (Stmts.ofList [.ret (.exprs [.lit 7 false]) []]))], fun _ => 0,
    by simp [Stmts.ofList, srcs, src, srcR], by decide⟩

/-- The end of the body is not reported if there is a `return` somewhere else. -/
theorem C49_end_violated : ∃ (I : Interp) (body : Stmts) (env : Env), srcs [] body ∧ covereds body ∧
    (call I [] inTurn 5 (instrument [] body [] 1).1 env).map (fun x => (x.1, x.2.2)) = some (.returns [], [.user 0, .user 2]) :=
  ⟨demoI, Stmts.ofList [.ifs 0 (Stmts.ofList [.ret .naked []]) .none, .simple 2], fun _ => 0,
    by simp [Stmts.ofList, srcs, src, srcElse, srcR], by simp [Stmts.ofList, covereds, covered], by decide⟩

/-- If the compiler reads plain variables after the calls, as Go allows, `return x, f()` where `f` changes `x` and `x` is converted to the result
type returns something else when instrumented. -/
theorem C49_order_violated : ∃ (I : Interp) (body : Stmts) (env : Env), srcs [none, none] body ∧
    (call I [none, none] (fun _ _ => false) 5 body env).map (fun x => x.1) = some (.returns [1, 10]) ∧
    (call I [none, none] (fun _ _ => false) 5 (instrument [none, none] body [] 1).1 env).map (fun x => x.1) = some (.returns [0, 10]) :=
  ⟨demoI, Stmts.ofList [.ret (.exprs [.ident 0 true, .other 1 false]) []], fun _ => 0,
    by simp [Stmts.ofList, srcs, src, srcR], by decide, by decide⟩

end Verif.Returns
