import Verif.Calls.Spec

namespace Verif.Calls

variable {I : Interp} {hit : Nat → Bool} {cov : Bool}

/-! ### The search finds a call if there is one -/

mutual
theorem inj_none (pid : Nat) : ∀ e : Expr, inj hit pid e = none ↔ hits hit e = 0
  | .lit _ => by simp [inj, hits]
  | .var _ => by simp [inj, hits]
  | .place _ => by simp [inj, hits]
  | .tmp _ => by simp [inj, hits]
  | .sel e f => by simp [inj, hits, inj_none pid e]
  | .op f es => by simp [inj, hits, injs_none pid es]
  | .logic k a b => by
    have ha := inj_none pid a
    have hb := inj_none pid b
    simp only [inj, hits]
    cases h : inj hit pid b with
    | none => simp [h] at hb; simp [ha, hb]
    | some i => simp [h] at hb; simp [hb]
  | .call id r args => by
    have ha := injs_none pid args
    have hr := injR_none pid r
    simp only [inj, hits]
    by_cases hid : hit id = true
    · simp [hid]
    · simp only [hid, if_false, Bool.false_eq_true]
      cases h : injs hit pid args with
      | none => simp [h] at ha; simp [ha, hr]
      | some i => simp [h] at ha; simp [ha]
theorem injR_none (pid : Nat) : ∀ r : Recv, injR hit pid r = none ↔ hitsR hit r = 0
  | .expr e => by simp [injR, hitsR, inj_none pid e]
  | .none => by simp [injR, hitsR]
  | .ident _ => by simp [injR, hitsR]
  | .place _ => by simp [injR, hitsR]
  | .tmp _ => by simp [injR, hitsR]
theorem injs_none (pid : Nat) : ∀ es : Exprs, injs hit pid es = none ↔ hitss hit es = 0
  | .nil => by simp [injs, hitss]
  | .cons e es => by
    have ha := inj_none pid e
    have hb := injs_none pid es
    simp only [injs, hitss]
    cases h : injs hit pid es with
    | none => simp [h] at hb; simp [ha, hb]
    | some i => simp [h] at hb; simp [hb]
end

theorem injFirst_none (pid : Nat) : ∀ es : Exprs, injFirst hit pid es = none ↔ hitss hit es = 0
  | .nil => by simp [injFirst, hitss]
  | .cons e es => by
    have ha := inj_none (hit := hit) pid e
    have hb := injFirst_none pid es
    simp only [injFirst, hitss]
    cases h : inj hit pid e with
    | none => simp [h] at ha; simp [ha, hb]
    | some i => simp [h] at ha; simp [ha]

theorem injInit_none {init : Option Simple} {e : Expr} {n : Nat} (h : injInit hit n init e = none) : hitsInit hit init = 0 ∧ hits hit e = 0 := by
  cases init with
  | none =>
    simp only [injInit, injInit0, Option.map_eq_none_iff] at h
    exact ⟨rfl, (inj_none n e).1 h⟩
  | some c =>
    simp only [injInit, injInit0] at h
    cases hc : inj hit n c.val with
    | none => simp [hc] at h; exact ⟨(inj_none n c.val).1 hc, (inj_none n e).1 h⟩
    | some j => simp [hc] at h

theorem injInit_none' {init : Option Simple} {e : Expr} {n : Nat} (m : Nat) (h : injInit hit n init e = none) : injInit hit m init e = none := by
  obtain ⟨h1, h2⟩ := injInit_none h
  cases init with
  | none => simp [injInit, injInit0, (inj_none m e).2 h2]
  | some c => simp [injInit, injInit0, (inj_none m e).2 h2, (inj_none m c.val).2 h1]

/-! ### Evaluation and variables -/

theorem setV_same (env : Env) (x : Var) : setV env x (env x) = env := by
  funext y; simp only [setV]; split <;> simp_all

theorem setT_get (t : Tmps) (n : TName) (v : Val) : setT t n v n = v := by simp [setT]

theorem setT_ne (t : Tmps) {n m : TName} (v : Val) (h : m ≠ n) : setT t n v m = t m := by simp [setT, h]

/-- Evaluating part of a program does not change generated variables. -/
theorem doCall_tmps {id : Nat} {r : Recv} {ev : Option Val} {vs : List Val} {s : St} (h : srcR r) : (doCall I id r ev vs s).2.tmps = s.tmps := by
  cases r with
  | tmp t => exact absurd h (by simp [srcR])
  | _ => rfl

mutual
theorem eval_tmps : ∀ (e : Expr) (s : St), srcE e → (eval I e s).2.tmps = s.tmps
  | .lit _, _, _ => rfl
  | .var _, _, _ => rfl
  | .place _, _, _ => rfl
  | .tmp _, _, h => absurd h (by simp [srcE])
  | .sel e f, s, h => by
    have ih := eval_tmps e s h
    simp only [eval]
    split <;> rename_i h1 <;> rw [h1] at ih <;> exact ih
  | .op f es, s, h => by
    have ih := evals_tmps es s h
    simp only [eval]
    split <;> rename_i h1 <;> rw [h1] at ih <;> exact ih
  | .logic k a b, s, h => by
    have ih := eval_tmps a s h.1
    simp only [eval]
    split
    · rename_i h1; rw [h1] at ih; exact ih
    · rename_i v s1 h1
      rw [h1] at ih
      split
      · rw [eval_tmps b s1 h.2]; exact ih
      · exact ih
  | .call id r args, s, h => by
    have ih := evalR_tmps r s h.1
    simp only [eval]
    split
    · rename_i h1; rw [h1] at ih; exact ih
    · rename_i v s1 h1
      rw [h1] at ih
      have ih2 := evals_tmps args s1 h.2
      split
      · rename_i h2; rw [h2] at ih2; exact ih2.trans ih
      · rename_i h2; rw [h2] at ih2; rw [doCall_tmps h.1]; exact ih2.trans ih
theorem evalR_tmps : ∀ (r : Recv) (s : St), srcR r → (evalR I r s).2.tmps = s.tmps
  | .expr e, s, h => by
    have ih := eval_tmps e s h
    simp only [evalR]
    split <;> rename_i h1 <;> rw [h1] at ih <;> exact ih
  | .none, _, _ => rfl
  | .ident _, _, _ => rfl
  | .place _, _, _ => rfl
  | .tmp _, _, _ => rfl
theorem evals_tmps : ∀ (es : Exprs) (s : St), srcEs es → (evals I es s).2.tmps = s.tmps
  | .nil, _, _ => rfl
  | .cons e es, s, h => by
    have ih := eval_tmps e s h.1
    simp only [evals]
    split
    · rename_i h1; rw [h1] at ih; exact ih
    · rename_i v s1 h1
      rw [h1] at ih
      have ih2 := evals_tmps es s1 h.2
      split <;> rename_i h2 <;> rw [h2] at ih2 <;> exact ih2.trans ih
end

theorem doCall_env {id : Nat} {r : Recv} {ev : Option Val} {vs : List Val} {s : St} {x : Var} (h : x ∉ modsR r) : (doCall I id r ev vs s).2.env x = s.env x := by
  cases r with
  | ident y => simp only [modsR, List.mem_singleton] at h; simp [doCall, setV, h]
  | place y => simp only [modsR, List.mem_singleton] at h; simp [doCall, setV, h]
  | _ => rfl

mutual
/-- An expression changes only the variables its methods are called on. -/
theorem eval_env {x : Var} : ∀ (e : Expr) (s : St), x ∉ mods e → (eval I e s).2.env x = s.env x
  | .lit _, _, _ => rfl
  | .var _, _, _ => rfl
  | .place _, _, _ => rfl
  | .tmp _, _, _ => rfl
  | .sel e f, s, h => by
    have ih := eval_env e s h
    simp only [eval]
    split <;> rename_i h1 <;> rw [h1] at ih <;> exact ih
  | .op f es, s, h => by
    have ih := evals_env es s h
    simp only [eval]
    split <;> rename_i h1 <;> rw [h1] at ih <;> exact ih
  | .logic k a b, s, h => by
    simp only [mods, List.mem_append, not_or] at h
    have ih := eval_env a s h.1
    simp only [eval]
    split
    · rename_i h1; rw [h1] at ih; exact ih
    · rename_i v s1 h1
      rw [h1] at ih
      split
      · rw [eval_env b s1 h.2]; exact ih
      · exact ih
  | .call id r args, s, h => by
    simp only [mods, List.mem_append, not_or] at h
    have ih := evalR_env r s h.1
    simp only [eval]
    split
    · rename_i h1; rw [h1] at ih; exact ih
    · rename_i v s1 h1
      rw [h1] at ih
      have ih2 := evals_env args s1 h.2
      split
      · rename_i h2; rw [h2] at ih2; exact ih2.trans ih
      · rename_i h2; rw [h2] at ih2; rw [doCall_env h.1]; exact ih2.trans ih
theorem evalR_env {x : Var} : ∀ (r : Recv) (s : St), x ∉ modsR r → (evalR I r s).2.env x = s.env x
  | .expr e, s, h => by
    have ih := eval_env e s h
    simp only [evalR]
    split <;> rename_i h1 <;> rw [h1] at ih <;> exact ih
  | .none, _, _ => rfl
  | .ident _, _, _ => rfl
  | .place _, _, _ => rfl
  | .tmp _, _, _ => rfl
theorem evals_env {x : Var} : ∀ (es : Exprs) (s : St), x ∉ modss es → (evals I es s).2.env x = s.env x
  | .nil, _, _ => rfl
  | .cons e es, s, h => by
    simp only [modss, List.mem_append, not_or] at h
    have ih := eval_env e s h.1
    simp only [evals]
    split
    · rename_i h1; rw [h1] at ih; exact ih
    · rename_i v s1 h1
      rw [h1] at ih
      have ih2 := evals_env es s1 h.2
      split <;> rename_i h2 <;> rw [h2] at ih2 <;> exact ih2.trans ih
end

/-- Value of an expression without calls. -/
def qval (I : Interp) (env : Env) : Expr → Val
  | .lit v => v
  | .var x => env x
  | .place x => env x
  | .sel e f => I.sel f (qval I env e)
  | _ => 0

theorem eval_quiet : ∀ (e : Expr) (s : St), quiet e → eval I e s = (some (qval I s.env e), s)
  | .lit _, _, _ => rfl
  | .var _, _, _ => rfl
  | .place _, _, _ => rfl
  | .sel e f, s, h => by simp only [eval, eval_quiet e s h, qval]
  | .tmp _, _, h => absurd h (by simp [quiet])
  | .op _ _, _, h => absurd h (by simp [quiet])
  | .logic _ _ _, _, h => absurd h (by simp [quiet])
  | .call _ _ _, _, h => absurd h (by simp [quiet])

theorem qval_congr {env env' : Env} : ∀ (e : Expr), (∀ x ∈ reads e, env' x = env x) → qval I env' e = qval I env e
  | .lit _, _ => rfl
  | .var x, h => h x (by simp [reads])
  | .place x, h => h x (by simp [reads])
  | .sel e f, h => by simp only [qval]; rw [qval_congr e h]
  | .tmp _, _ => rfl
  | .op _ _, _ => rfl
  | .logic _ _ _, _ => rfl
  | .call _ _ _, _ => rfl

/-! ### States of the original and the rewritten program -/

theorem Reported.hist {a b : List Ev} (h : Reported hit cov a b) : hist b = hist a := by
  induction h with
  | nil => rfl
  | plain a b c _ _ ih => simp only [Verif.Calls.hist, List.filterMap_append] at ih ⊢; rw [ih]
  | rep a b c pid _ _ ih => simp only [Verif.Calls.hist, List.filterMap_append] at ih ⊢; rw [ih]; rfl

/-- The original program and the rewritten one between two statements. -/
structure Sim (hit : Nat → Bool) (cov : Bool) (s s' : St) : Prop where
  env : s'.env = s.env
  defers : s'.defers = s.defers
  calls : ∀ d ∈ s.defers, ∃ go id rv vs, d = .call go id rv vs ∧ (cov = true → hit id = false)
  evs : Reported hit cov s.evs s'.evs

theorem Sim.setTmps {s s' : St} (h : Sim hit cov s s') (t : Tmps) : Sim hit cov s { s' with tmps := t } := ⟨h.env, h.defers, h.calls, h.evs⟩

theorem Sim.assign {s s' : St} (h : Sim hit cov s s') (x : Option Var) (v : Val) : Sim hit cov (assign x v s) (assign x v s') := by
  cases x with
  | none => exact h
  | some x => exact ⟨by simp [Verif.Calls.assign, h.env], h.defers, h.calls, h.evs⟩

theorem doCall_sim {s s' : St} {id : Nat} {r : Recv} {ev : Option Val} {vs : List Val} (hs : Sim hit cov s s') (hr : srcR r) (hc : cov = true → hit id = false) :
    (doCall I id r ev vs s').1 = (doCall I id r ev vs s).1 ∧ Sim hit cov (doCall I id r ev vs s).2 (doCall I id r ev vs s').2 := by
  have hh := hs.evs.hist
  have hv : recvVal r ev s' = recvVal r ev s := by
    cases r with
    | tmp t => exact absurd hr (by simp [srcR])
    | _ => simp [recvVal, hs.env]
  refine ⟨by simp only [doCall, hv, hh], ?_⟩
  have he : Reported hit cov (s.evs ++ [.call ⟨id, recvVal r ev s, vs⟩]) (s'.evs ++ [.call ⟨id, recvVal r ev s', vs⟩]) := by
    rw [hv]; exact .plain _ _ _ hs.evs hc
  cases r with
  | tmp t => exact absurd hr (by simp [srcR])
  | none => exact ⟨hs.env, hs.defers, hs.calls, he⟩
  | expr e => exact ⟨hs.env, hs.defers, hs.calls, he⟩
  | ident x => exact ⟨by simp only [doCall, hs.env, hh], hs.defers, hs.calls, he⟩
  | place x => exact ⟨by simp only [doCall, hs.env, hh], hs.defers, hs.calls, he⟩

mutual
/-- An expression of the program means the same in both. -/
theorem eval_sim : ∀ (e : Expr) (s s' : St), Sim hit cov s s' → srcE e → (cov = true → hits hit e = 0) →
    (eval I e s').1 = (eval I e s).1 ∧ Sim hit cov (eval I e s).2 (eval I e s').2
  | .lit _, _, _, hs, _, _ => ⟨rfl, hs⟩
  | .var x, s, s', hs, _, _ => ⟨by simp [eval, hs.env], hs⟩
  | .place x, s, s', hs, _, _ => ⟨by simp [eval, hs.env], hs⟩
  | .tmp _, _, _, _, h, _ => absurd h (by simp [srcE])
  | .sel e f, s, s', hs, h, hc => by
    obtain ⟨h1, h2⟩ := eval_sim e s s' hs h hc
    simp only [eval]
    rcases ha : eval I e s with ⟨_ | v, s1⟩ <;> rcases hb : eval I e s' with ⟨_ | v', s1'⟩ <;> rw [ha, hb] at h1 h2 <;> simp_all
  | .op f es, s, s', hs, h, hc => by
    obtain ⟨h1, h2⟩ := evals_sim es s s' hs h hc
    simp only [eval]
    rcases ha : evals I es s with ⟨_ | v, s1⟩ <;> rcases hb : evals I es s' with ⟨_ | v', s1'⟩ <;> rw [ha, hb] at h1 h2 <;> simp_all
  | .logic k a b, s, s', hs, h, hc => by
    simp only [hits] at hc
    obtain ⟨h1, h2⟩ := eval_sim a s s' hs h.1 (fun h => by have := hc h; omega)
    simp only [eval]
    rcases ha : eval I a s with ⟨_ | v, s1⟩ <;> rcases hb : eval I a s' with ⟨_ | v', s1'⟩ <;> rw [ha, hb] at h1 h2
    · exact ⟨rfl, h2⟩
    · simp at h1
    · simp at h1
    · simp only [Option.some.injEq] at h1
      subst h1
      dsimp only
      split
      · exact eval_sim b s1 s1' h2 h.2 (fun h => by have := hc h; omega)
      · exact ⟨rfl, h2⟩
  | .call id r args, s, s', hs, h, hc => by
    simp only [hits] at hc
    obtain ⟨h1, h2⟩ := evalR_sim r s s' hs h.1 (fun h => by have := hc h; omega)
    simp only [eval]
    rcases ha : evalR I r s with ⟨_ | v, s1⟩ <;> rcases hb : evalR I r s' with ⟨_ | v', s1'⟩ <;> rw [ha, hb] at h1 h2
    · exact ⟨rfl, h2⟩
    · simp at h1
    · simp at h1
    · simp only [Option.some.injEq] at h1
      subst h1
      dsimp only
      obtain ⟨h3, h4⟩ := evals_sim args s1 s1' h2 h.2 (fun h => by have := hc h; omega)
      rcases hc1 : evals I args s1 with ⟨_ | vs, s2⟩ <;> rcases hd : evals I args s1' with ⟨_ | vs', s2'⟩ <;> rw [hc1, hd] at h3 h4
      · exact ⟨rfl, h4⟩
      · simp at h3
      · simp at h3
      · simp only [Option.some.injEq] at h3
        subst h3
        refine doCall_sim h4 h.1 (fun h => ?_)
        have := hc h
        cases hh : hit id with
        | false => rfl
        | true => simp [hh] at this
theorem evalR_sim : ∀ (r : Recv) (s s' : St), Sim hit cov s s' → srcR r → (cov = true → hitsR hit r = 0) →
    (evalR I r s').1 = (evalR I r s).1 ∧ Sim hit cov (evalR I r s).2 (evalR I r s').2
  | .expr e, s, s', hs, h, hc => by
    obtain ⟨h1, h2⟩ := eval_sim e s s' hs h hc
    simp only [evalR]
    rcases ha : eval I e s with ⟨_ | v, s1⟩ <;> rcases hb : eval I e s' with ⟨_ | v', s1'⟩ <;> rw [ha, hb] at h1 h2 <;> simp_all
  | .none, _, _, hs, _, _ => ⟨rfl, hs⟩
  | .ident _, _, _, hs, _, _ => ⟨rfl, hs⟩
  | .place _, _, _, hs, _, _ => ⟨rfl, hs⟩
  | .tmp _, _, _, hs, _, _ => ⟨rfl, hs⟩
theorem evals_sim : ∀ (es : Exprs) (s s' : St), Sim hit cov s s' → srcEs es → (cov = true → hitss hit es = 0) →
    (evals I es s').1 = (evals I es s).1 ∧ Sim hit cov (evals I es s).2 (evals I es s').2
  | .nil, _, _, hs, _, _ => ⟨rfl, hs⟩
  | .cons e es, s, s', hs, h, hc => by
    simp only [hitss] at hc
    obtain ⟨h1, h2⟩ := eval_sim e s s' hs h.1 (fun h => by have := hc h; omega)
    simp only [evals]
    rcases ha : eval I e s with ⟨_ | v, s1⟩ <;> rcases hb : eval I e s' with ⟨_ | v', s1'⟩ <;> rw [ha, hb] at h1 h2
    · exact ⟨rfl, h2⟩
    · simp at h1
    · simp at h1
    · simp only [Option.some.injEq] at h1
      subst h1
      dsimp only
      obtain ⟨h3, h4⟩ := evals_sim es s1 s1' h2 h.2 (fun h => by have := hc h; omega)
      rcases hc1 : evals I es s1 with ⟨_ | vs, s2⟩ <;> rcases hd : evals I es s1' with ⟨_ | vs', s2'⟩ <;> rw [hc1, hd] at h3 h4 <;> simp_all
end

end Verif.Calls
