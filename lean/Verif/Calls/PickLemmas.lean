import Verif.Calls.Lemmas

namespace Verif.Calls

variable {I : Interp} {hit : Nat → Bool} {cov : Bool}

/-- The statements put before the changed one, without the report. -/
def runPre (I : Interp) : List (TName × Expr) → St → Bool × St
  | [], s => (true, s)
  | (t, e) :: pre, s =>
    match eval I e s with
    | (none, s1) => (false, s1)
    | (some v, s1) => runPre I pre { s1 with tmps := setT s1.tmps t v }

theorem runPre_append (a b : List (TName × Expr)) (s : St) :
    runPre I (a ++ b) s = if (runPre I a s).1 then runPre I b (runPre I a s).2 else (false, (runPre I a s).2) := by
  induction a generalizing s with
  | nil => simp [runPre]
  | cons x a ih =>
    obtain ⟨t, e⟩ := x
    obtain ⟨o, s1, h⟩ : ∃ o s1, eval I e s = (o, s1) := ⟨_, _, rfl⟩
    simp only [List.cons_append, runPre, h]
    rcases o with _ | v
    · simp
    · exact ih _

/-- A report is sent. -/
def rep (pid : Nat) (vs : List Val) (s : St) : St := { s with evs := s.evs ++ [.report pid vs] }

theorem dens_pre (N pid : Nat) (pre : List (TName × Expr)) (snaps : Exprs) (rest : Stmts) (s : St) :
    dens I N ((preStmts pid pre snaps).app rest) s =
      if (runPre I pre s).1 then
        match evals I snaps (runPre I pre s).2 with
        | (none, s2) => some (.panic, s2)
        | (some vs, s2) => dens I N rest (rep pid vs s2)
      else some (.panic, (runPre I pre s).2) := by
  induction pre generalizing s with
  | nil =>
    simp only [preStmts, Stmts.app, dens, den, runPre, if_true]
    rcases evals I snaps s with ⟨_ | vs, s2⟩ <;> rfl
  | cons x pre ih =>
    obtain ⟨t, e⟩ := x
    obtain ⟨o, s1, h⟩ : ∃ o s1, eval I e s = (o, s1) := ⟨_, _, rfl⟩
    simp only [preStmts, Stmts.app, dens, den, runPre, h]
    rcases o with _ | v
    · simp
    · exact ih _

theorem evals_app {a b : Exprs} {s : St} {va vb : List Val} (ha : evals I a s = (some va, s)) (hb : evals I b s = (some vb, s)) :
    evals I (a.app b) s = (some (va ++ vb), s) := by
  suffices h : ∀ (a : Exprs) (s0 : St) (va : List Val), evals I a s0 = (some va, s) → evals I (a.app b) s0 = (some (va ++ vb), s) from h a s va ha
  intro a
  induction a using Exprs.rec (motive_1 := fun _ => True) (motive_2 := fun _ => True) with
  | nil => intro s0 va h; simp only [evals, Prod.mk.injEq, Option.some.injEq] at h; rw [← h.1, h.2]; exact hb
  | cons e es _ ih =>
    intro s0 va h
    simp only [evals, Exprs.app] at h ⊢
    rcases he : eval I e s0 with ⟨_ | v, s1⟩
    · simp [he] at h
    · simp only [he] at h ⊢
      rcases h2 : evals I es s1 with ⟨_ | vs, s2⟩
      · simp [h2] at h
      · simp only [h2, Prod.mk.injEq, Option.some.injEq] at h
        obtain ⟨rfl, rfl⟩ := h
        rw [ih s1 vs h2]
        rfl
  | _ => trivial

/-! ### The picked call -/

theorem kept_quiet {e : Expr} {es : Exprs} (ho : ownArgs (.cons e es)) (hs : srcE e) (hk : kept e = true) : quiet e ∧ ∀ x ∈ reads e, x ∉ modss es := by
  cases e with
  | lit v => simp [quiet, reads]
  | var x => simpa [quiet, reads, ownArgs] using ho.1
  | place x => simpa [quiet, reads, ownArgs] using ho.1
  | sel e f => exact ho.1
  | tmp t => exact absurd hs (by simp [srcE])
  | op _ _ => simp [kept] at hk
  | logic _ _ _ => simp [kept] at hk
  | call _ _ _ => simp [kept] at hk

/-- The arguments of the picked call. -/
theorem args_sim (pid : Nat) : ∀ (es : Exprs) (i : Nat) (s s' : St), Sim hit cov s s' → srcEs es → ownArgs es → (cov = true → hitss hit es = 0) →
    ((runPre I (buildArgs pid i es).pre s').1 = false ∧ (evals I es s).1 = none ∧ Sim hit cov (evals I es s).2 (runPre I (buildArgs pid i es).pre s').2) ∨
    ((runPre I (buildArgs pid i es).pre s').1 = true ∧ ∃ vs, (evals I es s).1 = some vs ∧ Sim hit cov (evals I es s).2 (runPre I (buildArgs pid i es).pre s').2 ∧
      (∀ t : TName, (∀ j, i ≤ j → t ≠ .arg pid j) → (runPre I (buildArgs pid i es).pre s').2.tmps t = s'.tmps t) ∧
      ∀ s'' : St, s''.env = (runPre I (buildArgs pid i es).pre s').2.env → s''.tmps = (runPre I (buildArgs pid i es).pre s').2.tmps →
        evals I (buildArgs pid i es).out s'' = (some vs, s'') ∧ evals I (buildArgs pid i es).snaps s'' = (some vs, s''))
  | .nil, i, s, s', hs, _, _, _ => by
    right
    simp [buildArgs, runPre, evals, hs]
  | .cons e es, i, s, s', hs, hsrc, ho, hc => by
    simp only [hitss] at hc
    have hc1 : cov = true → hits hit e = 0 := fun h => by have := hc h; omega
    have hc2 : cov = true → hitss hit es = 0 := fun h => by have := hc h; omega
    by_cases hk : kept e = true
    · obtain ⟨hq, hd⟩ := kept_quiet ho hsrc.1 hk
      have ih := args_sim pid es (i + 1) s s' hs hsrc.2 ho.2 hc2
      have hb : buildArgs pid i (.cons e es) = ⟨(buildArgs pid (i + 1) es).pre, .cons e (buildArgs pid (i + 1) es).snaps, .cons e (buildArgs pid (i + 1) es).out⟩ := by
        simp [buildArgs, hk]
      rw [hb]
      have hev : evals I (.cons e es) s = match evals I es s with
          | (none, s2) => (none, s2)
          | (some vs, s2) => (some (qval I s.env e :: vs), s2) := by
        simp only [evals, eval_quiet e s hq]
        all_goals (rcases evals I es s with ⟨_ | _, _⟩ <;> rfl)
      rcases ih with ⟨h1, h2, h3⟩ | ⟨h1, vs, h2, h3, h4, h5⟩
      · left
        refine ⟨h1, ?_, ?_⟩
        · rw [hev]; rcases h : evals I es s with ⟨_ | vs, s2⟩ <;> rw [h] at h2 <;> simp_all
        · rw [hev]; rcases h : evals I es s with ⟨_ | vs, s2⟩ <;> rw [h] at h2 h3 <;> simp_all
      · right
        have henv : ∀ x ∈ reads e, (runPre I (buildArgs pid (i + 1) es).pre s').2.env x = s.env x := by
          intro x hx
          rw [h3.env]
          exact evals_env es s (hd x hx)
        refine ⟨h1, qval I s.env e :: vs, ?_, ?_, ?_, ?_⟩
        · rw [hev]; rcases h : evals I es s with ⟨_ | vs, s2⟩ <;> rw [h] at h2 <;> simp_all
        · rw [hev]; rcases h : evals I es s with ⟨_ | vs, s2⟩ <;> rw [h] at h2 h3 <;> simp_all
        · intro t ht; exact h4 t fun j hj => ht j (by omega)
        · intro s'' he ht
          obtain ⟨h6, h7⟩ := h5 s'' he ht
          have hqv : qval I s''.env e = qval I s.env e := qval_congr e fun x hx => by rw [he]; exact henv x hx
          simp only [evals, eval_quiet e s'' hq, h6, h7, hqv, and_self]
    · have hb : buildArgs pid i (.cons e es) = ⟨(.arg pid i, e) :: (buildArgs pid (i + 1) es).pre, .cons (.tmp (.arg pid i)) (buildArgs pid (i + 1) es).snaps,
          .cons (.tmp (.arg pid i)) (buildArgs pid (i + 1) es).out⟩ := by
        simp [buildArgs, hk]
      rw [hb]
      obtain ⟨h1, h2⟩ := eval_sim (I := I) e s s' hs hsrc.1 hc1
      simp only [runPre, evals]
      have htm := eval_tmps (I := I) e s' hsrc.1
      rcases ha : eval I e s with ⟨_ | v, s1⟩ <;> rcases hb : eval I e s' with ⟨_ | v', s1'⟩ <;> rw [ha, hb] at h1 h2
      · left; exact ⟨rfl, rfl, h2⟩
      · simp at h1
      · simp at h1
      · simp only [Option.some.injEq] at h1
        subst h1
        rw [hb] at htm
        dsimp only
        have ih := args_sim pid es (i + 1) s1 { s1' with tmps := setT s1'.tmps (.arg pid i) v' } (h2.setTmps _) hsrc.2 ho.2 hc2
        rcases ih with ⟨h3, h4, h5⟩ | ⟨h3, vs, h4, h5, h6, h7⟩
        · left
          refine ⟨h3, ?_, ?_⟩
          · rcases h : evals I es s1 with ⟨_ | vs, s2⟩ <;> rw [h] at h4 <;> simp_all
          · rcases h : evals I es s1 with ⟨_ | vs, s2⟩ <;> rw [h] at h4 h5 <;> simp_all
        · right
          refine ⟨h3, v' :: vs, ?_, ?_, ?_, ?_⟩
          · rcases h : evals I es s1 with ⟨_ | vs, s2⟩ <;> rw [h] at h4 <;> simp_all
          · rcases h : evals I es s1 with ⟨_ | vs, s2⟩ <;> rw [h] at h4 h5 <;> simp_all
          · intro t ht
            rw [h6 t fun j hj => ht j (by omega)]
            dsimp only
            rw [setT_ne _ _ (ht i (Nat.le_refl _))]
            exact congrFun htm t
          · intro s'' he ht
            obtain ⟨h8, h9⟩ := h7 s'' he ht
            have hv : s''.tmps (.arg pid i) = v' := by
              rw [ht, h6 (.arg pid i) (by intro j hj; simp only [ne_eq, TName.arg.injEq, true_and]; omega)]
              exact setT_get _ _ _
            simp only [eval, h8, h9, hv, and_self]

/-- The result of putting statements before something: `f` is what is evaluated in the original, `f'` in the rewritten program; `mv` are
variables that may have changed before the report. -/
def Inst (I : Interp) (hit : Nat → Bool) (cov : Bool) (pid : Nat) {α : Type} (pre : List (TName × Expr)) (snaps : Exprs) (f f' : St → Option α × St)
    (mv : List Var) (s s' : St) : Prop :=
  ((runPre I pre s').1 = false ∧ (f s).1 = none ∧ Sim hit cov (f s).2 (runPre I pre s').2) ∨
  ((runPre I pre s').1 = true ∧ (∀ x, x ∉ mv → (runPre I pre s').2.env x = s.env x) ∧ ∃ vs, evals I snaps (runPre I pre s').2 = (some vs, (runPre I pre s').2) ∧
    (f' (rep pid vs (runPre I pre s').2)).1 = (f s).1 ∧ Sim hit cov (f s).2 (f' (rep pid vs (runPre I pre s').2)).2)

/-- The call after the report. -/
theorem doCall_rep {s s' t : St} {pid id : Nat} {r r' : Recv} {ev : Option Val} {vs : List Val} (hs : Sim hit cov s s') (hid : hit id = true)
    (ht : t = rep pid ((recvVal r ev s).toList ++ vs) s') (hv : recvVal r' none t = recvVal r ev s)
    (henv : (doCall I id r' none vs t).2.env = (doCall I id r ev vs s).2.env) :
    (doCall I id r' none vs t).1 = (doCall I id r ev vs s).1 ∧ Sim hit cov (doCall I id r ev vs s).2 (doCall I id r' none vs t).2 := by
  have hh : hist t.evs = hist s.evs := by
    rw [ht, rep]
    simp only [hist, List.filterMap_append]
    have := hs.evs.hist
    simp only [hist] at this
    rw [this]; simp [callOf]
  refine ⟨by simp only [doCall, hv, hh], henv, ?_, ?_, ?_⟩
  · have h1 : (doCall I id r' none vs t).2.defers = t.defers := by cases r' <;> rfl
    have h2 : (doCall I id r ev vs s).2.defers = s.defers := by cases r <;> rfl
    rw [h1, h2, ht]; exact hs.defers
  · have h2 : (doCall I id r ev vs s).2.defers = s.defers := by cases r <;> rfl
    rw [h2]; exact hs.calls
  · have h1 : (doCall I id r' none vs t).2.evs = t.evs ++ [.call ⟨id, recvVal r' none t, vs⟩] := by cases r' <;> rfl
    have h2 : (doCall I id r ev vs s).2.evs = s.evs ++ [.call ⟨id, recvVal r ev s, vs⟩] := by cases r <;> rfl
    rw [h1, h2, hv, ht, rep]
    simp only [List.append_assoc, List.singleton_append]
    exact .rep s.evs s'.evs ⟨id, recvVal r ev s, vs⟩ pid hs.evs hid

/-- The picked call itself. -/
theorem call_sim (pid id : Nat) (r : Recv) (args : Exprs) {s s' : St} (hs : Sim hit cov s s') (hid : hit id = true) (hr : srcR r) (ha : srcEs args)
    (ho : ownRecv I id args r) (hoa : ownArgs args) (hc : cov = true → hitsR hit r = 0 ∧ hitss hit args = 0) :
    Inst I hit cov pid (buildCall pid id r args).pre (buildCall pid id r args).snaps (eval I (.call id r args)) (eval I (buildCall pid id r args).out)
      (modsBefore r ++ modss args) s s' := by
  have hca : cov = true → hitss hit args = 0 := fun h => (hc h).2
  have hbefore : ∀ {s1 : St} {vs : List Val} {s2 : St} {x : Var}, evals I args s1 = (some vs, s2) → x ∉ modss args → s2.env x = s1.env x := by
    intro s1 vs s2 x h hx
    have := evals_env (I := I) args s1 hx
    rw [h] at this; exact this
  cases r with
  | tmp t => exact absurd hr (by simp [srcR])
  | none =>
    simp only [Inst, buildCall, buildRecv, List.nil_append, Exprs.app]
    rcases args_sim (I := I) pid args 0 s s' hs ha hoa hca with ⟨h1, h2, h3⟩ | ⟨h1, vs, h2, h3, h4, h5⟩
    · left
      refine ⟨h1, ?_, ?_⟩ <;> simp only [eval, evalR] <;> rcases h : evals I args s with ⟨_ | vs, s2⟩ <;> rw [h] at h2 h3 <;> simp_all
    · right
      rcases h : evals I args s with ⟨_ | vs', s2⟩ <;> rw [h] at h2 h3 <;> simp at h2
      subst h2
      refine ⟨h1, ?_, vs', (h5 _ rfl rfl).2, ?_⟩
      · intro x hx
        rw [h3.env]; exact hbefore h (by simpa [modsBefore] using hx)
      · simp only [eval, evalR, h]
        rw [(h5 (rep pid _ _) rfl rfl).1]
        exact doCall_rep (pid := pid) (r := .none) (r' := .none) h3 hid rfl rfl (by simp [doCall, rep, h3.env])
  | ident x =>
    simp only [Inst, buildCall, buildRecv, List.nil_append, Exprs.app]
    rcases args_sim (I := I) pid args 0 s s' hs ha hoa hca with ⟨h1, h2, h3⟩ | ⟨h1, vs, h2, h3, h4, h5⟩
    · left
      refine ⟨h1, ?_, ?_⟩ <;> simp only [eval, evalR] <;> rcases h : evals I args s with ⟨_ | vs, s2⟩ <;> rw [h] at h2 h3 <;> simp_all
    · right
      rcases h : evals I args s with ⟨_ | vs', s2⟩ <;> rw [h] at h2 h3 <;> simp at h2
      subst h2
      refine ⟨h1, ?_, s2.env x :: vs', ?_, ?_⟩
      · intro y hy
        rw [h3.env]; exact hbefore h (by simpa [modsBefore] using hy)
      · simp only [evals, eval, (h5 _ rfl rfl).2, h3.env]
      · simp only [eval, evalR, h]
        rw [(h5 (rep pid _ _) rfl rfl).1]
        refine doCall_rep (pid := pid) (r := .ident x) (r' := .ident x) h3 hid rfl ?_ ?_
        · simp [recvVal, rep, h3.env]
        · have hh := h3.evs.hist
          simp only [doCall, rep, h3.env]
          congr 2
          simp only [hist, List.filterMap_append] at hh ⊢
          rw [hh]; simp [callOf]
  | place x =>
    have hb : (buildCall pid id (.place x) args).pre = (.recv pid, .place x) :: (buildArgs pid 0 args).pre := rfl
    have hb2 : (buildCall pid id (.place x) args).snaps = .cons (.tmp (.recv pid)) (buildArgs pid 0 args).snaps := rfl
    have hb3 : (buildCall pid id (.place x) args).out = .call id (.tmp (.recv pid)) (buildArgs pid 0 args).out := rfl
    simp only [Inst, hb, hb2, hb3, runPre, eval]
    rcases args_sim (I := I) pid args 0 s { s' with tmps := setT s'.tmps (.recv pid) (s'.env x) } (hs.setTmps _) ha hoa hca with ⟨h1, h2, h3⟩ | ⟨h1, vs, h2, h3, h4, h5⟩
    · left
      refine ⟨h1, ?_, ?_⟩ <;> simp only [evalR] <;> rcases h : evals I args s with ⟨_ | vs, s2⟩ <;> rw [h] at h2 h3 <;> simp_all
    · right
      rcases h : evals I args s with ⟨_ | vs', s2⟩ <;> rw [h] at h2 h3 <;> simp at h2
      subst h2
      have ht := h4 (.recv pid) (by intro j _; simp)
      dsimp only at ht
      rw [setT_get] at ht
      replace ht := ht.trans (congrFun hs.env x)
      have hx : s2.env x = s.env x := hbefore h ho.1
      refine ⟨h1, ?_, s.env x :: vs', ?_, ?_⟩
      · intro y hy
        rw [h3.env]; exact hbefore h (by simpa [modsBefore] using hy)
      · simp only [evals, eval, (h5 _ rfl rfl).2, ht]
      · simp only [evalR]
        rw [(h5 (rep pid _ _) rfl rfl).1]
        simp only [h]
        refine doCall_rep (pid := pid) (r := .place x) (r' := .tmp (.recv pid)) h3 hid ?_ ?_ ?_
        · simp [recvVal, hx]
        · simp [recvVal, rep, ht, hx]
        · simp only [doCall, rep, ho.2, setV_same, h3.env]
  | expr e =>
    have hb : (buildCall pid id (.expr e) args).pre = (.recv pid, e) :: (buildArgs pid 0 args).pre := rfl
    have hb2 : (buildCall pid id (.expr e) args).snaps = .cons (.tmp (.recv pid)) (buildArgs pid 0 args).snaps := rfl
    have hb3 : (buildCall pid id (.expr e) args).out = .call id (.tmp (.recv pid)) (buildArgs pid 0 args).out := rfl
    simp only [Inst, hb, hb2, hb3, runPre, eval]
    obtain ⟨h1, h2⟩ := eval_sim (I := I) e s s' hs hr (fun h => (hc h).1)
    rcases hae : eval I e s with ⟨_ | v, s1⟩ <;> rcases hbe : eval I e s' with ⟨_ | v', s1'⟩ <;> rw [hae, hbe] at h1 h2
    · left; exact ⟨rfl, by simp only [evalR, hae], by simp only [evalR, hae]; exact h2⟩
    · simp at h1
    · simp at h1
    simp only [Option.some.injEq] at h1
    subst h1
    dsimp only
    rcases args_sim (I := I) pid args 0 s1 { s1' with tmps := setT s1'.tmps (.recv pid) v' } (h2.setTmps _) ha hoa hca with ⟨h1, h3, h4⟩ | ⟨h1, vs, h3, h4, h5, h6⟩
    · left
      refine ⟨h1, ?_, ?_⟩ <;> simp only [evalR, hae] <;> rcases h : evals I args s1 with ⟨_ | vs, s2⟩ <;> rw [h] at h3 h4 <;> simp_all
    · right
      rcases h : evals I args s1 with ⟨_ | vs', s2⟩ <;> rw [h] at h3 h4 <;> simp at h3
      subst h3
      have ht := h5 (.recv pid) (by intro j _; simp)
      dsimp only at ht
      rw [setT_get] at ht
      refine ⟨h1, ?_, v' :: vs', ?_, ?_⟩
      · intro y hy
        simp only [modsBefore, List.mem_append, not_or] at hy
        rw [h4.env, hbefore h hy.2]
        have := eval_env (I := I) e s hy.1
        rw [hae] at this; exact this
      · simp only [evals, eval, (h6 _ rfl rfl).2, ht]
      · simp only [evalR, hae]
        rw [(h6 (rep pid _ _) rfl rfl).1]
        simp only [h]
        refine doCall_rep (pid := pid) (r := .expr e) (r' := .tmp (.recv pid)) h4 hid ?_ ?_ ?_
        · simp [recvVal]
        · simp [recvVal, rep, ht]
        · simp only [doCall, rep, h4.env]

/-! ### The picked call inside an expression -/

/-- Go on with the value. -/
def bindE {α β : Type} (f : St → Option α × St) (k : α → St → Option β × St) (s : St) : Option β × St :=
  match f s with
  | (none, s1) => (none, s1)
  | (some v, s1) => k v s1

theorem Inst.bind {α β : Type} {pid : Nat} {pre : List (TName × Expr)} {snaps : Exprs} {f f' : St → Option α × St} {g g' : St → Option β × St} {mv : List Var} {s s' : St}
    {k k' : α → St → Option β × St}
    (h : Inst I hit cov pid pre snaps f f' mv s s') (hg : g s = bindE f k s) (hg' : ∀ t : St, (∀ x, x ∉ mv → t.env x = s.env x) → g' t = bindE f' k' t)
    (hk : ∀ v s1 s1', Sim hit cov s1 s1' → (k' v s1').1 = (k v s1).1 ∧ Sim hit cov (k v s1).2 (k' v s1').2) :
    Inst I hit cov pid pre snaps g g' mv s s' := by
  rcases h with ⟨h1, h2, h3⟩ | ⟨h1, h2, vs, h3, h4, h5⟩
  · left
    refine ⟨h1, ?_, ?_⟩ <;> rw [hg, bindE] <;> rcases hf : f s with ⟨_ | v, s1⟩ <;> rw [hf] at h2 h3 <;> simp_all
  · right
    refine ⟨h1, h2, vs, h3, ?_⟩
    rw [hg, hg' (rep pid vs _) (fun x hx => h2 x hx)]
    simp only [bindE]
    rcases ha : f s with ⟨_ | v, s1⟩ <;> rcases hb : f' (rep pid vs (runPre I pre s').2) with ⟨_ | v', s1'⟩ <;> rw [ha, hb] at h4 h5
    · exact ⟨rfl, h5⟩
    · simp at h4
    · simp at h4
    · simp only [Option.some.injEq] at h4
      subst h4
      exact hk _ _ _ h5

theorem eval_sel_bind (e : Expr) (f : Nat) : eval I (.sel e f) = bindE (eval I e) (fun v s => (some (I.sel f v), s)) := by
  funext s; simp only [eval, bindE]; rcases eval I e s with ⟨_ | v, s1⟩ <;> rfl

theorem eval_op_bind (es : Exprs) (f : Nat) : eval I (.op f es) = bindE (evals I es) (fun vs s => (I.op f vs, s)) := by
  funext s; simp only [eval, bindE]; rcases evals I es s with ⟨_ | v, s1⟩ <;> rfl

theorem eval_logic_bind (k : Bool) (a b : Expr) : eval I (.logic k a b) = bindE (eval I a) (fun v s => if (v != 0) = k then eval I b s else (some v, s)) := by
  funext s; simp only [eval, bindE]; rcases eval I a s with ⟨_ | v, s1⟩ <;> rfl

theorem evals_cons_bind (e : Expr) (es : Exprs) : evals I (.cons e es) = bindE (eval I e) (fun v => bindE (evals I es) fun vs s => (some (v :: vs), s)) := by
  funext s; simp only [evals, bindE]
  rcases eval I e s with ⟨_ | v, s1⟩
  · rfl
  · dsimp only; rcases evals I es s1 with ⟨_ | v, s1⟩ <;> rfl

theorem evalR_expr_bind (e : Expr) : evalR I (.expr e) = bindE (eval I e) (fun v s => (some (some v), s)) := by
  funext s; simp only [evalR, bindE]; rcases eval I e s with ⟨_ | v, s1⟩ <;> rfl

theorem eval_call_bind (id : Nat) (r : Recv) (args : Exprs) :
    eval I (.call id r args) = bindE (evalR I r) (fun ev => bindE (evals I args) fun vs s => doCall I id r ev vs s) := by
  funext s; simp only [eval, bindE]
  rcases evalR I r s with ⟨_ | v, s1⟩
  · rfl
  · dsimp only; rcases evals I args s1 with ⟨_ | v, s1⟩ <;> rfl

/-- `doCall` depends only on the kind of receiver. -/
theorem doCall_expr (id : Nat) (e e' : Expr) (ev : Option Val) (vs : List Val) (s : St) : doCall I id (.expr e) ev vs s = doCall I id (.expr e') ev vs s := rfl

theorem hits_call {id : Nat} {r : Recv} {args : Exprs} (hid : ¬ hit id = true) (hc : cov = true → hits hit (.call id r args) ≤ 1) :
    (cov = true → hit id = false) ∧ (cov = true → hitsR hit r + hitss hit args ≤ 1) := by
  refine ⟨fun _ => by simpa using hid, fun h => ?_⟩
  have := hc h
  simp only [hits, hid] at this
  simpa using this

mutual
theorem inj_sim (pid : Nat) : ∀ (e : Expr) (i : Inj Expr) (s s' : St), inj hit pid e = some i → Sim hit cov s s' → srcE e → headE I hit e → (cov = true → hits hit e ≤ 1) →
    Inst I hit cov pid i.pre i.snaps (eval I e) (eval I i.out) (moved hit e) s s'
  | .lit _, i, _, _, h, _, _, _, _ => by simp [inj] at h
  | .var _, i, _, _, h, _, _, _, _ => by simp [inj] at h
  | .place _, i, _, _, h, _, _, _, _ => by simp [inj] at h
  | .tmp _, i, _, _, h, _, _, _, _ => by simp [inj] at h
  | .sel e f, i, s, s', h, hs, hsrc, hh, hc => by
    simp only [inj, Option.map_eq_some_iff] at h
    obtain ⟨j, hj, rfl⟩ := h
    refine (inj_sim pid e j s s' hj hs hsrc hh hc).bind (congrFun (eval_sel_bind e f) s) (fun t _ => congrFun (eval_sel_bind j.out f) t) ?_
    intro v s1 s1' h1; exact ⟨rfl, h1⟩
  | .op f es, i, s, s', h, hs, hsrc, hh, hc => by
    simp only [inj, Option.map_eq_some_iff] at h
    obtain ⟨j, hj, rfl⟩ := h
    refine (injs_sim pid es j s s' hj hs hsrc hh hc).bind (congrFun (eval_op_bind es f) s) (fun t _ => congrFun (eval_op_bind j.out f) t) ?_
    intro v s1 s1' h1; exact ⟨rfl, h1⟩
  | .logic k a b, i, s, s', h, hs, hsrc, hh, hc => by
    have hb : inj hit pid b = none := (inj_none pid b).2 hh.1
    simp only [inj, hb, Option.map_eq_some_iff] at h
    obtain ⟨j, hj, rfl⟩ := h
    simp only [hits, hh.1, Nat.add_zero] at hc
    have hm : moved hit (.logic k a b) = moved hit a := by simp [moved, hh.1]
    rw [hm]
    refine (inj_sim pid a j s s' hj hs hsrc.1 hh.2 hc).bind (congrFun (eval_logic_bind k a b) s) (fun t _ => congrFun (eval_logic_bind k j.out b) t) ?_
    intro v s1 s1' h1
    split
    · exact eval_sim b s1 s1' h1 hsrc.2 (fun _ => hh.1)
    · exact ⟨rfl, h1⟩
  | .call id r args, i, s, s', h, hs, hsrc, hh, hc => by
    by_cases hid : hit id = true
    · simp only [inj, hid, if_true, Option.some.injEq] at h
      subst h
      simp only [headE, hid, if_true] at hh
      have hm : moved hit (.call id r args) = modsBefore r ++ modss args := by simp [moved, hid]
      rw [hm]
      refine call_sim pid id r args hs hid hsrc.1 hsrc.2 hh.1 hh.2 (fun h => ?_)
      have := hc h
      simp only [hits, hid, if_true] at this
      omega
    · obtain ⟨hc1, hc2⟩ := hits_call hid hc
      simp only [headE, hid, if_false, Bool.false_eq_true] at hh
      by_cases h0 : hitss hit args = 0
      · simp only [h0, if_true] at hh
        have hn := (injs_none pid args).2 h0
        simp only [inj, hid, hn, if_false, Bool.false_eq_true, Option.map_eq_some_iff] at h
        obtain ⟨j, hj, rfl⟩ := h
        have hm : moved hit (.call id r args) = movedR hit r := by simp [moved, hid, h0]
        rw [hm]
        cases r with
        | expr e =>
          simp only [injR, Option.map_eq_some_iff] at hj
          obtain ⟨l, hl, rfl⟩ := hj
          have := inj_sim pid e l s s' hl hs hsrc.1 hh (fun h => by have := hc2 h; simp only [hitsR] at this; omega)
          have h2 : Inst I hit cov pid l.pre l.snaps (evalR I (.expr e)) (evalR I (.expr l.out)) (moved hit e) s s' :=
            this.bind (congrFun (evalR_expr_bind e) s) (fun t _ => congrFun (evalR_expr_bind l.out) t) (fun v s1 s1' h1 => ⟨rfl, h1⟩)
          refine h2.bind (congrFun (eval_call_bind id (.expr e) args) s) (fun t _ => congrFun (eval_call_bind id (.expr l.out) args) t) ?_
          intro ev s1 s1' h1
          obtain ⟨h3, h4⟩ := evals_sim (I := I) args s1 s1' h1 hsrc.2 (fun _ => h0)
          simp only [bindE]
          rcases ha : evals I args s1 with ⟨_ | vs, s2⟩ <;> rcases hb : evals I args s1' with ⟨_ | vs', s2'⟩ <;> rw [ha, hb] at h3 h4
          · exact ⟨rfl, h4⟩
          · simp at h3
          · simp at h3
          · simp only [Option.some.injEq] at h3
            subst h3
            exact doCall_sim (I := I) (r := .expr e) h4 hsrc.1 hc1
        | none => simp [headR] at hh
        | ident _ => simp [headR] at hh
        | place _ => simp [headR] at hh
        | tmp _ => simp [headR] at hh
      · simp only [h0, if_false] at hh
        have hn : injs hit pid args ≠ none := fun hn => h0 ((injs_none pid args).1 hn)
        obtain ⟨j, hj⟩ := Option.ne_none_iff_exists'.1 hn
        simp only [inj, hid, hj, if_false, Bool.false_eq_true, Option.some.injEq] at h
        subst h
        have hm : moved hit (.call id r args) = moveds hit args := by simp [moved, hid, h0]
        rw [hm]
        have ih := injs_sim pid args j s s' hj hs hsrc.2 hh.2 (fun h => by have := hc2 h; omega)
        -- the receiver is evaluated without doing anything
        have hr : ∃ ev : Option Val, evalR I r s = (some ev, s) ∧ ∀ t : St, (∀ x, x ∉ moveds hit args → t.env x = s.env x) → evalR I r t = (some ev, t) := by
          cases r with
          | tmp t => exact absurd hsrc.1 (by simp [srcR])
          | none => exact ⟨none, rfl, fun t _ => rfl⟩
          | ident x => exact ⟨none, rfl, fun t _ => rfl⟩
          | place x => exact ⟨none, rfl, fun t _ => rfl⟩
          | expr e =>
            refine ⟨some (qval I s.env e), ?_, ?_⟩
            · simp only [evalR, eval_quiet e s hh.1.1]
            · intro t ht
              simp only [evalR, eval_quiet e t hh.1.1]
              rw [qval_congr e fun x hx => ht x (hh.1.2 x hx)]
        obtain ⟨ev, hr1, hr2⟩ := hr
        refine ih.bind (k := fun vs s => doCall I id r ev vs s) (k' := fun vs s => doCall I id r ev vs s) ?_ ?_ ?_
        · rw [eval_call_bind, bindE, hr1]
        · intro t ht; rw [eval_call_bind, bindE, hr2 t ht]
        · intro vs s1 s1' h1; exact doCall_sim (I := I) h1 hsrc.1 hc1
theorem injs_sim (pid : Nat) : ∀ (es : Exprs) (i : Inj Exprs) (s s' : St), injs hit pid es = some i → Sim hit cov s s' → srcEs es → headEs I hit es → (cov = true → hitss hit es ≤ 1) →
    Inst I hit cov pid i.pre i.snaps (evals I es) (evals I i.out) (moveds hit es) s s'
  | .nil, i, _, _, h, _, _, _, _ => by simp [injs] at h
  | .cons e es, i, s, s', h, hs, hsrc, hh, hc => by
    simp only [hitss] at hc
    by_cases h0 : hitss hit es = 0
    · have hn := (injs_none pid es).2 h0
      simp only [injs, hn, Option.map_eq_some_iff] at h
      obtain ⟨j, hj, rfl⟩ := h
      simp only [headEs, h0, if_true] at hh
      have hm : moveds hit (.cons e es) = moved hit e := by simp [moveds, h0]
      rw [hm]
      refine (inj_sim pid e j s s' hj hs hsrc.1 hh (fun h => by have := hc h; omega)).bind (congrFun (evals_cons_bind e es) s) (fun t _ => congrFun (evals_cons_bind j.out es) t) ?_
      intro v s1 s1' h1
      obtain ⟨h3, h4⟩ := evals_sim (I := I) es s1 s1' h1 hsrc.2 (fun _ => h0)
      simp only [bindE]
      rcases ha : evals I es s1 with ⟨_ | vs, s2⟩ <;> rcases hb : evals I es s1' with ⟨_ | vs', s2'⟩ <;> rw [ha, hb] at h3 h4 <;> simp_all
    · have hn : injs hit pid es ≠ none := fun hn => h0 ((injs_none pid es).1 hn)
      obtain ⟨j, hj⟩ := Option.ne_none_iff_exists'.1 hn
      simp only [injs, hj, Option.some.injEq] at h
      subst h
      simp only [headEs, h0, if_false] at hh
      have hm : moveds hit (.cons e es) = moveds hit es := by simp [moveds, h0]
      rw [hm]
      have ih := injs_sim pid es j s s' hj hs hsrc.2 hh.2 (fun h => by have := hc h; omega)
      refine ih.bind (k := fun vs s1 => (some (qval I s.env e :: vs), s1)) (k' := fun vs s1 => (some (qval I s.env e :: vs), s1)) ?_ ?_ ?_
      · rw [evals_cons_bind, bindE, eval_quiet e s hh.1.1]
      · intro t ht
        rw [evals_cons_bind, bindE, eval_quiet e t hh.1.1, qval_congr e fun x hx => ht x (hh.1.2 x hx)]
      · intro vs s1 s1' h1; exact ⟨rfl, h1⟩
end

/-- The communications of a `select`. -/
theorem injFirst_sim (pid : Nat) : ∀ (es : Exprs) (i : Inj Exprs) (s s' : St), injFirst hit pid es = some i → Sim hit cov s s' → srcEs es → goodFirst I hit cov es →
    Inst I hit cov pid i.pre i.snaps (evals I es) (evals I i.out) (movedFirst hit es) s s'
  | .nil, i, _, _, h, _, _, _ => by simp [injFirst] at h
  | .cons e es, i, s, s', h, hs, hsrc, hh => by
    by_cases h0 : hits hit e = 0
    · have hn := (inj_none pid e).2 h0
      simp only [injFirst, hn, Option.map_eq_some_iff] at h
      obtain ⟨j, hj, rfl⟩ := h
      simp only [goodFirst, h0, if_true] at hh
      have hne : hitss hit es ≠ 0 := fun hz => by have := (injFirst_none pid es).2 hz; rw [this] at hj; simp at hj
      have hh := hh.resolve_left hne
      have hm : movedFirst hit (.cons e es) = movedFirst hit es := by simp [movedFirst, h0]
      rw [hm]
      have ih := injFirst_sim pid es j s s' hj hs hsrc.2 hh.2
      refine ih.bind (k := fun vs s1 => (some (qval I s.env e :: vs), s1)) (k' := fun vs s1 => (some (qval I s.env e :: vs), s1)) ?_ ?_ ?_
      · rw [evals_cons_bind, bindE, eval_quiet e s hh.1.1]
      · intro t ht
        rw [evals_cons_bind, bindE, eval_quiet e t hh.1.1, qval_congr e fun x hx => ht x (hh.1.2 x hx)]
      · intro vs s1 s1' h1; exact ⟨rfl, h1⟩
    · have hn : inj hit pid e ≠ none := fun hn => h0 ((inj_none pid e).1 hn)
      obtain ⟨j, hj⟩ := Option.ne_none_iff_exists'.1 hn
      simp only [injFirst, hj, Option.some.injEq] at h
      subst h
      simp only [goodFirst, h0, if_false] at hh
      have hm : movedFirst hit (.cons e es) = moved hit e := by simp [movedFirst, h0]
      rw [hm]
      refine (inj_sim pid e j s s' hj hs hsrc.1 hh.1 (fun h => by have := (hh.2 h).1; omega)).bind (congrFun (evals_cons_bind e es) s) (fun t _ => congrFun (evals_cons_bind j.out es) t) ?_
      intro v s1 s1' h1
      obtain ⟨h3, h4⟩ := evals_sim (I := I) es s1 s1' h1 hsrc.2 (fun h => (hh.2 h).2)
      simp only [bindE]
      rcases ha : evals I es s1 with ⟨_ | vs, s2⟩ <;> rcases hb : evals I es s1' with ⟨_ | vs', s2'⟩ <;> rw [ha, hb] at h3 h4 <;> simp_all

end Verif.Calls
