import Verif.Calls.PickLemmas

namespace Verif.Calls

variable {I : Interp} {hit : Nat → Bool} {cov : Bool} {N : Nat}

/-- The same end of a statement in related states. -/
def SimR (hit : Nat → Bool) (cov : Bool) : Res → Res → Prop
  | none, none => True
  | some (o, s), some (o', s') => o' = o ∧ Sim hit cov s s'
  | _, _ => False

theorem SimR.cases {a b : Res} (h : SimR hit cov a b) : (a = none ∧ b = none) ∨ ∃ o s s', a = some (o, s) ∧ b = some (o, s') ∧ Sim hit cov s s' := by
  rcases a with _ | ⟨o, s⟩ <;> rcases b with _ | ⟨o', s'⟩
  · exact .inl ⟨rfl, rfl⟩
  · exact h.elim
  · exact h.elim
  · obtain ⟨h1, h2⟩ := h
    subst h1
    exact .inr ⟨_, _, _, rfl, rfl, h2⟩

theorem seq_sim {st st' : Stmt} {b b' : Stmts} {s s' : St} (h : SimR hit cov (den I N st s) (den I N st' s'))
    (hb : ∀ s1 s1', Sim hit cov s1 s1' → SimR hit cov (dens I N b s1) (dens I N b' s1')) :
    SimR hit cov (dens I N (.cons st b) s) (dens I N (.cons st' b') s') := by
  simp only [dens]
  rcases h.cases with ⟨h1, h2⟩ | ⟨o, s1, s1', h1, h2, h3⟩
  · rw [h1, h2]; trivial
  · rw [h1, h2]
    cases o with
    | normal => exact hb _ _ h3
    | _ => exact ⟨rfl, h3⟩

theorem breakOut_sim {a b : Res} (h : SimR hit cov a b) : SimR hit cov (a.map fun x => (breakOut x.1, x.2)) (b.map fun x => (breakOut x.1, x.2)) := by
  rcases h.cases with ⟨h1, h2⟩ | ⟨o, s1, s1', h1, h2, h3⟩
  · rw [h1, h2]; trivial
  · rw [h1, h2]; exact ⟨rfl, h3⟩

/-- Evaluate, then go on; a panic ends the statement. -/
def bindR {α : Type} (f : St → Option α × St) (K : α → St → Res) (s : St) : Res :=
  match f s with
  | (none, s1) => some (.panic, s1)
  | (some v, s1) => K v s1

theorem bindR_sim {α : Type} {f f' : St → Option α × St} {K K' : α → St → Res} {s s' : St} (h1 : (f' s').1 = (f s).1) (h2 : Sim hit cov (f s).2 (f' s').2)
    (hK : ∀ v s1 s1', Sim hit cov s1 s1' → SimR hit cov (K v s1) (K' v s1')) : SimR hit cov (bindR f K s) (bindR f' K' s') := by
  simp only [bindR]
  rcases ha : f s with ⟨_ | v, s1⟩ <;> rcases hb : f' s' with ⟨_ | v', s1'⟩ <;> rw [ha, hb] at h1 h2
  · exact ⟨rfl, h2⟩
  · simp at h1
  · simp at h1
  · simp only [Option.some.injEq] at h1
    subst h1
    exact hK _ _ _ h2

/-- A statement with the picked call, after the statements put before it. -/
theorem pre_sim {α : Type} {pid : Nat} {pre : List (TName × Expr)} {snaps : Exprs} {f f' : St → Option α × St} {K K' : α → St → Res} {mv : List Var} {s s' : St} {st st' : Stmt}
    {b b' : Stmts} (h : Inst I hit cov pid pre snaps f f' mv s s') (h1 : ∀ t, den I N st t = bindR f K t) (h2 : ∀ t, den I N st' t = bindR f' K' t)
    (hK : ∀ v s1 s1', Sim hit cov s1 s1' → SimR hit cov (K v s1) (K' v s1'))
    (hb : ∀ s1 s1', Sim hit cov s1 s1' → SimR hit cov (dens I N b s1) (dens I N b' s1')) :
    SimR hit cov (dens I N (.cons st b) s) (dens I N ((preStmts pid pre snaps).app (.cons st' b')) s') := by
  rw [dens_pre]
  rcases h with ⟨h3, h4, h5⟩ | ⟨h3, _, vs, h4, h5, h6⟩
  · simp only [h3, Bool.false_eq_true, if_false, dens, h1, bindR]
    rcases ha : f s with ⟨_ | v, s1⟩ <;> rw [ha] at h4 h5
    · exact ⟨rfl, h5⟩
    · simp at h4
  · simp only [h3, if_true, h4]
    refine seq_sim ?_ hb
    rw [h1, h2]
    exact bindR_sim h5 h6 hK

/-! ### Loops -/

theorem loopN_sim {cond : Expr} {post post' body body' : St → Res} (hc : srcE cond) (hh : cov = true → hits hit cond = 0)
    (hp : ∀ s s', Sim hit cov s s' → SimR hit cov (post s) (post' s')) (hb : ∀ s s', Sim hit cov s s' → SimR hit cov (body s) (body' s')) :
    ∀ (n : Nat) (s s' : St), Sim hit cov s s' → SimR hit cov (loopN I cond post body n s) (loopN I cond post' body' n s')
  | 0, _, _, _ => trivial
  | n + 1, s, s', hs => by
    obtain ⟨h1, h2⟩ := eval_sim (I := I) cond s s' hs hc hh
    simp only [loopN]
    rcases ha : eval I cond s with ⟨_ | v, s1⟩ <;> rcases hb' : eval I cond s' with ⟨_ | v', s1'⟩ <;> rw [ha, hb'] at h1 h2
    · exact ⟨rfl, h2⟩
    · simp at h1
    · simp at h1
    · simp only [Option.some.injEq] at h1
      subst h1
      dsimp only
      split
      · exact ⟨rfl, h2⟩
      · have next : ∀ t t', Sim hit cov t t' → SimR hit cov
            (match post t with
            | none => none
            | some (.panic, s3) => some (.panic, s3)
            | some (_, s3) => loopN I cond post body n s3)
            (match post' t' with
            | none => none
            | some (.panic, s3) => some (.panic, s3)
            | some (_, s3) => loopN I cond post' body' n s3) := by
          intro t t' ht
          rcases (hp t t' ht).cases with ⟨h3, h4⟩ | ⟨o, s2, s2', h3, h4, h5⟩
          · rw [h3, h4]; trivial
          · rw [h3, h4]
            cases o with
            | panic => exact ⟨rfl, h5⟩
            | _ => exact loopN_sim hc hh hp hb n _ _ h5
        rcases (hb s1 s1' h2).cases with ⟨h3, h4⟩ | ⟨o, s2, s2', h3, h4, h5⟩
        · rw [h3, h4]; trivial
        · rw [h3, h4]
          cases o with
          | normal => exact next _ _ h5
          | cont => exact next _ _ h5
          | _ => exact ⟨rfl, h5⟩

theorem rangeN_sim {i : Var} {body body' : St → Res} (hb : ∀ s s', Sim hit cov s s' → SimR hit cov (body s) (body' s')) :
    ∀ (n k : Nat) (s s' : St), Sim hit cov s s' → SimR hit cov (rangeN i body n k s) (rangeN i body' n k s')
  | 0, _, _, _, hs => ⟨rfl, hs⟩
  | n + 1, k, s, s', hs => by
    simp only [rangeN]
    rcases (hb _ _ (hs.assign (some i) k)).cases with ⟨h3, h4⟩ | ⟨o, s2, s2', h3, h4, h5⟩
    · rw [h3, h4]; trivial
    · rw [h3, h4]
      cases o with
      | normal => exact rangeN_sim hb n (k + 1) _ _ h5
      | cont => exact rangeN_sim hb n (k + 1) _ _ h5
      | _ => exact ⟨rfl, h5⟩

/-! ### The statements as one evaluation -/

/-- The first part of an `if`, `for` or `switch`, then an expression. -/
def evInit (I : Interp) (init : Option Simple) (e : Expr) (s : St) : Option Val × St :=
  match denInit I init s with
  | (.normal, s1) => eval I e s1
  | (_, s1) => (none, s1)

/-- The first part alone. -/
def evFirst (I : Interp) (init : Option Simple) (s : St) : Option Unit × St :=
  match denInit I init s with
  | (.normal, s1) => (some (), s1)
  | (_, s1) => (none, s1)

theorem evFirst_some (c : Simple) : evFirst I (some c) = bindE (eval I c.val) (fun v s => (some (), assign c.dst v s)) := by
  funext s
  simp only [evFirst, denInit, denSimple, bindE]
  rcases eval I c.val s with ⟨_ | v, s1⟩ <;> rfl

theorem evInit_bind (init : Option Simple) (e : Expr) : evInit I init e = bindE (evFirst I init) (fun _ => eval I e) := by
  funext s
  simp only [evInit, evFirst, bindE]
  rcases denInit I init s with ⟨o, s1⟩
  cases o <;> rfl

theorem evInit_none (e : Expr) : evInit I none e = eval I e := rfl

theorem bindE_sim {α β : Type} {f f' : St → Option α × St} {k k' : α → St → Option β × St} {s s' : St} (h1 : (f' s').1 = (f s).1) (h2 : Sim hit cov (f s).2 (f' s').2)
    (hk : ∀ v s1 s1', Sim hit cov s1 s1' → (k' v s1').1 = (k v s1).1 ∧ Sim hit cov (k v s1).2 (k' v s1').2) :
    (bindE f' k' s').1 = (bindE f k s).1 ∧ Sim hit cov (bindE f k s).2 (bindE f' k' s').2 := by
  simp only [bindE]
  rcases ha : f s with ⟨_ | v, s1⟩ <;> rcases hb : f' s' with ⟨_ | v', s1'⟩ <;> rw [ha, hb] at h1 h2
  · exact ⟨rfl, h2⟩
  · simp at h1
  · simp at h1
  · simp only [Option.some.injEq] at h1
    subst h1
    exact hk _ _ _ h2

theorem evFirst_sim {init : Option Simple} {s s' : St} (hs : Sim hit cov s s') (h : srcInit init) (hc : cov = true → hitsInit hit init = 0) :
    (evFirst I init s').1 = (evFirst I init s).1 ∧ Sim hit cov (evFirst I init s).2 (evFirst I init s').2 := by
  cases init with
  | none => exact ⟨rfl, hs⟩
  | some c =>
    rw [evFirst_some]
    obtain ⟨h1, h2⟩ := eval_sim (I := I) c.val s s' hs h hc
    exact bindE_sim h1 h2 fun v s1 s1' h => ⟨rfl, h.assign _ _⟩

theorem evInit_sim {init : Option Simple} {e : Expr} {s s' : St} (hs : Sim hit cov s s') (h : srcInit init) (he : srcE e) (hc : cov = true → hitsInit hit init = 0 ∧ hits hit e = 0) :
    (evInit I init e s').1 = (evInit I init e s).1 ∧ Sim hit cov (evInit I init e s).2 (evInit I init e s').2 := by
  rw [evInit_bind]
  obtain ⟨h1, h2⟩ := evFirst_sim (I := I) hs h (fun h => (hc h).1)
  exact bindE_sim h1 h2 fun v s1 s1' h => eval_sim e s1 s1' h he (fun h => (hc h).2)

theorem den_ifs (init : Option Simple) (cond : Expr) (body : Stmts) (els : Else) (t : St) :
    den I N (.ifs init cond body els) t = bindR (evInit I init cond) (fun v s => if v = 0 then denElse I N els s else dens I N body s) t := by
  simp only [den, bindR, evInit]
  rcases denInit I init t with ⟨o, s1⟩
  cases o with
  | normal => dsimp only; rcases eval I cond s1 with ⟨_ | v, s2⟩ <;> rfl
  | _ => rfl

theorem denElse_elseIf (init : Option Simple) (cond : Expr) (body : Stmts) (els : Else) (t : St) :
    denElse I N (.elseIf init cond body els) t = bindR (evInit I init cond) (fun v s => if v = 0 then denElse I N els s else dens I N body s) t := by
  simp only [denElse, bindR, evInit]
  rcases denInit I init t with ⟨o, s1⟩
  cases o with
  | normal => dsimp only; rcases eval I cond s1 with ⟨_ | v, s2⟩ <;> rfl
  | _ => rfl

theorem den_switch (init : Option Simple) (tag : Expr) (cs : Clauses) (t : St) :
    den I N (.switch init tag cs) t = bindR (evInit I init tag) (fun v s => (denCl I N cs v s).map fun x => (breakOut x.1, x.2)) t := by
  simp only [den, bindR, evInit]
  rcases denInit I init t with ⟨o, s1⟩
  cases o with
  | normal => dsimp only; rcases eval I tag s1 with ⟨_ | v, s2⟩ <;> rfl
  | _ => rfl

theorem den_loop (init : Option Simple) (cond : Expr) (post body : Stmts) (t : St) :
    den I N (.loop init cond post body) t = bindR (evFirst I init) (fun _ => loopN I cond (dens I N post) (dens I N body) N) t := by
  simp only [den, bindR, evFirst]
  rcases denInit I init t with ⟨o, s1⟩
  cases o <;> rfl

theorem den_simple (c : Simple) (t : St) : den I N (.simple c) t = bindR (eval I c.val) (fun v s => some (.normal, assign c.dst v s)) t := by
  simp only [den, bindR, denSimple]
  rcases eval I c.val t with ⟨_ | v, s2⟩ <;> rfl

theorem den_ret (e : Expr) (t : St) : den I N (.ret e) t = bindR (eval I e) (fun v s => some (.ret v, s)) t := by
  simp only [den, bindR]
  rcases eval I e t with ⟨_ | v, s2⟩ <;> rfl

theorem den_range (i : Var) (e : Expr) (body : Stmts) (t : St) :
    den I N (.range i e body) t = bindR (eval I e) (fun v => rangeN i (dens I N body) v 0) t := by
  simp only [den, bindR]
  rcases eval I e t with ⟨_ | v, s2⟩ <;> rfl

theorem den_select (comms : Exprs) (choice : Nat) (cs : Clauses) (t : St) :
    den I N (.select comms choice cs) t = bindR (evals I comms) (fun vs s =>
      match I.op choice vs with
      | none => some (.panic, s)
      | some v => (denCl I N cs v s).map fun x => (breakOut x.1, x.2)) t := by
  simp only [den, bindR]
  rcases evals I comms t with ⟨_ | v, s2⟩ <;> rfl

theorem den_later (go : Bool) (id : Nat) (r : Recv) (args : Exprs) (t : St) :
    den I N (.later go id r args) t = bindR (evalR I r) (fun ev => bindR (evals I args) fun vs s => some (.normal, { s with defers := .call go id (recvVal r ev s) vs :: s.defers })) t := by
  simp only [den, bindR]
  rcases evalR I r t with ⟨_ | v, s2⟩
  · rfl
  · dsimp only; rcases evals I args s2 with ⟨_ | v, s2⟩ <;> rfl

theorem later_sim {go : Bool} {id : Nat} {r : Recv} {args : Exprs} {s s' : St} (hs : Sim hit cov s s') (hr : srcR r) (ha : srcEs args) (hid : cov = true → hit id = false)
    (hc : cov = true → hitsR hit r = 0 ∧ hitss hit args = 0) : SimR hit cov (den I N (.later go id r args) s) (den I N (.later go id r args) s') := by
  rw [den_later, den_later]
  obtain ⟨h1, h2⟩ := evalR_sim (I := I) r s s' hs hr (fun h => (hc h).1)
  refine bindR_sim h1 h2 fun ev s1 s1' h3 => ?_
  obtain ⟨h4, h5⟩ := evals_sim (I := I) args s1 s1' h3 ha (fun h => (hc h).2)
  refine bindR_sim h4 h5 fun vs s2 s2' h6 => ⟨rfl, h6.env, ?_, ?_, h6.evs⟩
  · have hv : recvVal r ev s2' = recvVal r ev s2 := by
      cases r with
      | tmp t => exact absurd hr (by simp [srcR])
      | _ => simp [recvVal, h6.env]
    simp [hv, h6.defers]
  · intro d hd
    rcases List.mem_cons.1 hd with rfl | hd
    · exact ⟨go, id, _, vs, rfl, hid⟩
    · exact h6.calls d hd

/-! ### Statements that are not rewritten -/

theorem srcs_post {post : Stmts} (h : post = .nil ∨ ∃ c, post = .cons (.simple c) .nil ∧ srcE c.val) : srcs post := by
  rcases h with rfl | ⟨c, rfl, h⟩
  · trivial
  · exact ⟨h, trivial⟩

theorem hit_false {id : Nat} {n : Nat} (h : (if hit id then 1 else 0) + n = 0) : hit id = false := by
  cases hh : hit id with
  | false => rfl
  | true => simp [hh] at h

mutual
theorem den_same : ∀ (st : Stmt) (s s' : St), Sim hit cov s s' → src st → (cov = true → hitsS hit st = 0) → SimR hit cov (den I N st s) (den I N st s')
  | .simple c, s, s', hs, h, hc => by
    rw [den_simple, den_simple]
    obtain ⟨h1, h2⟩ := eval_sim (I := I) c.val s s' hs h hc
    exact bindR_sim h1 h2 fun v s1 s1' h => ⟨rfl, h.assign _ _⟩
  | .ret e, s, s', hs, h, hc => by
    rw [den_ret, den_ret]
    obtain ⟨h1, h2⟩ := eval_sim (I := I) e s s' hs h hc
    exact bindR_sim h1 h2 fun v s1 s1' h => ⟨rfl, h⟩
  | .brk, s, s', hs, h, hc => ⟨rfl, hs⟩
  | .cont, s, s', hs, h, hc => ⟨rfl, hs⟩
  | .block b, s, s', hs, h, hc => by simp only [den]; exact dens_same b s s' hs h hc
  | .ifs init cond body els, s, s', hs, h, hc => by
    simp only [hitsS] at hc
    rw [den_ifs, den_ifs]
    obtain ⟨h1, h2⟩ := evInit_sim (I := I) hs h.1 h.2.1 (fun h => by have := hc h; omega)
    refine bindR_sim h1 h2 fun v s1 s1' h3 => ?_
    split
    · exact denElse_same els s1 s1' h3 h.2.2.2 (fun h => by have := hc h; omega)
    · exact dens_same body s1 s1' h3 h.2.2.1 (fun h => by have := hc h; omega)
  | .loop init cond post body, s, s', hs, h, hc => by
    simp only [hitsS] at hc
    rw [den_loop, den_loop]
    obtain ⟨h1, h2⟩ := evFirst_sim (I := I) hs h.1 (fun h => by have := hc h; omega)
    refine bindR_sim h1 h2 fun v s1 s1' h3 => ?_
    exact loopN_sim h.2.1 (fun h => by have := hc h; omega) (fun t t' ht => dens_same post t t' ht (srcs_post h.2.2.1) (fun h => by have := hc h; omega))
      (fun t t' ht => dens_same body t t' ht h.2.2.2 (fun h => by have := hc h; omega)) N s1 s1' h3
  | .range i e body, s, s', hs, h, hc => by
    simp only [hitsS] at hc
    rw [den_range, den_range]
    obtain ⟨h1, h2⟩ := eval_sim (I := I) e s s' hs h.1 (fun h => by have := hc h; omega)
    refine bindR_sim h1 h2 fun v s1 s1' h3 => ?_
    exact rangeN_sim (fun t t' ht => dens_same body t t' ht h.2 (fun h => by have := hc h; omega)) v 0 s1 s1' h3
  | .switch init tag cs, s, s', hs, h, hc => by
    simp only [hitsS] at hc
    rw [den_switch, den_switch]
    obtain ⟨h1, h2⟩ := evInit_sim (I := I) hs h.1 h.2.1 (fun h => by have := hc h; omega)
    refine bindR_sim h1 h2 fun v s1 s1' h3 => ?_
    exact breakOut_sim (denCl_same cs v s1 s1' h3 h.2.2 (fun h => by have := hc h; omega))
  | .select comms choice cs, s, s', hs, h, hc => by
    simp only [hitsS] at hc
    rw [den_select, den_select]
    obtain ⟨h1, h2⟩ := evals_sim (I := I) comms s s' hs h.1 (fun h => by have := hc h; omega)
    refine bindR_sim h1 h2 fun v s1 s1' h3 => ?_
    split
    · exact ⟨rfl, h3⟩
    · exact breakOut_sim (denCl_same cs _ s1 s1' h3 h.2 (fun h => by have := hc h; omega))
  | .labeled st, s, s', hs, h, hc => by simp only [den]; exact den_same st s s' hs h hc
  | .later go id r args, s, s', hs, h, hc => by
    simp only [hitsS] at hc
    exact later_sim hs h.1 h.2 (fun h => by have := hc h; rw [Nat.add_assoc] at this; exact hit_false this) (fun h => by have := hc h; omega)
  | .setTmp _ _, _, _, _, h, _ => absurd h (by simp [src])
  | .report _ _, _, _, _, h, _ => absurd h (by simp [src])
  | .laterLit _ _, _, _, _, h, _ => absurd h (by simp [src])
theorem dens_same : ∀ (b : Stmts) (s s' : St), Sim hit cov s s' → srcs b → (cov = true → hitsSs hit b = 0) → SimR hit cov (dens I N b s) (dens I N b s')
  | .nil, _, _, hs, _, _ => ⟨rfl, hs⟩
  | .cons st b, s, s', hs, h, hc => by
    simp only [hitsSs] at hc
    exact seq_sim (den_same st s s' hs h.1 (fun h => by have := hc h; omega)) fun t t' ht => dens_same b t t' ht h.2 (fun h => by have := hc h; omega)
theorem denElse_same : ∀ (els : Else) (s s' : St), Sim hit cov s s' → srcElse els → (cov = true → hitsElse hit els = 0) → SimR hit cov (denElse I N els s) (denElse I N els s')
  | .none, _, _, hs, _, _ => ⟨rfl, hs⟩
  | .block b, s, s', hs, h, hc => by simp only [denElse]; exact dens_same b s s' hs h hc
  | .elseIf init cond body els, s, s', hs, h, hc => by
    simp only [hitsElse] at hc
    rw [denElse_elseIf, denElse_elseIf]
    obtain ⟨h1, h2⟩ := evInit_sim (I := I) hs h.1 h.2.1 (fun h => by have := hc h; omega)
    refine bindR_sim h1 h2 fun v s1 s1' h3 => ?_
    split
    · exact denElse_same els s1 s1' h3 h.2.2.2 (fun h => by have := hc h; omega)
    · exact dens_same body s1 s1' h3 h.2.2.1 (fun h => by have := hc h; omega)
theorem denCl_same : ∀ (cs : Clauses) (k : Nat) (s s' : St), Sim hit cov s s' → srcCl cs → (cov = true → hitsCl hit cs = 0) → SimR hit cov (denCl I N cs k s) (denCl I N cs k s')
  | .nil, _, _, _, hs, _, _ => ⟨rfl, hs⟩
  | .cons body cs, 0, s, s', hs, h, hc => by
    simp only [hitsCl] at hc
    simp only [denCl]; exact dens_same body s s' hs h.1 (fun h => by have := hc h; omega)
  | .cons body cs, k + 1, s, s', hs, h, hc => by
    simp only [hitsCl] at hc
    simp only [denCl]; exact denCl_same cs k s s' hs h.2 (fun h => by have := hc h; omega)
end

/-! ### Rewritten statements -/

theorem goodE_none {e : Expr} (hg : goodE I hit cov e) (n : Nat) (h : inj hit n e = none) : cov = true → hits hit e = 0 := fun _ => (inj_none n e).1 h

/-- A statement whose only searched part is one expression. -/
theorem expr_stmt {mkS : Expr → Stmt} {K K' : Val → St → Res} {e : Expr} {n : Nat} {b b' : Stmts} {s s' : St} {mkS' : Expr → Stmt} (hs : Sim hit cov s s') (hsrc : srcE e) (hg : goodE I hit cov e)
    (h1 : ∀ (e : Expr) (t : St), den I N (mkS e) t = bindR (eval I e) K t) (h2 : ∀ (e : Expr) (t : St), den I N (mkS' e) t = bindR (eval I e) K' t)
    (hK : ∀ v s1 s1', Sim hit cov s1 s1' → SimR hit cov (K v s1) (K' v s1'))
    (hb : ∀ s1 s1', Sim hit cov s1 s1' → SimR hit cov (dens I N b s1) (dens I N b' s1')) :
    SimR hit cov (dens I N (.cons (mkS e) b) s) (dens I N ((place1 n (inj hit n e) e).2.1.app (.cons (mkS' (place1 n (inj hit n e) e).2.2) b')) s') := by
  cases hi : inj hit n e with
  | none =>
    simp only [place1, Stmts.app]
    refine seq_sim ?_ hb
    rw [h1, h2]
    obtain ⟨h3, h4⟩ := eval_sim (I := I) e s s' hs hsrc (goodE_none hg n hi)
    exact bindR_sim h3 h4 hK
  | some i =>
    simp only [place1]
    have hne : hits hit e ≠ 0 := fun h0 => by rw [(inj_none n e).2 h0] at hi; simp at hi
    exact pre_sim (inj_sim n e i s s' hi hs hsrc (hg.1 hne) hg.2) (h1 e) (h2 i.out) hK hb

theorem injInit_sim {init : Option Simple} {e : Expr} {n : Nat} {i : Inj (Option Simple × Expr)} {s s' : St} (hi : injInit hit n init e = some i) (hs : Sim hit cov s s')
    (h1 : srcInit init) (h2 : srcE e) (hg : goodInit I hit cov init e) :
    ∃ mv, Inst I hit cov n i.pre i.snaps (evInit I init e) (evInit I i.out.1 i.out.2) mv s s' := by
  cases init with
  | none =>
    simp only [injInit, injInit0, Option.map_eq_some_iff] at hi
    obtain ⟨j, hj, rfl⟩ := hi
    have hne : hits hit e ≠ 0 := fun h0 => by rw [(inj_none n e).2 h0] at hj; simp at hj
    exact ⟨_, inj_sim n e j s s' hj hs h2 (hg.1 hne) hg.2⟩
  | some c =>
    by_cases h0 : hits hit c.val = 0
    · exfalso
      have he := hg.2.1 h0
      simp [injInit, injInit0, (inj_none n c.val).2 h0, (inj_none n e).2 he] at hi
    · have hn : inj hit n c.val ≠ none := fun hn => h0 ((inj_none n c.val).1 hn)
      obtain ⟨j, hj⟩ := Option.ne_none_iff_exists'.1 hn
      simp only [injInit, injInit0, hj, Option.map_some, Option.some.injEq] at hi
      subst hi
      refine ⟨_, (((inj_sim n c.val j s s' hj hs h1 (hg.1.1 h0) hg.1.2).bind (congrFun (evFirst_some c) s) (fun t _ => congrFun (evFirst_some ⟨c.dst, j.out⟩) t)
        (fun v s1 s1' h => ⟨rfl, h.assign _ _⟩)).bind (congrFun (evInit_bind (some c) e) s) (fun t _ => congrFun (evInit_bind (some ⟨c.dst, j.out⟩) e) t) ?_)⟩
      intro v s1 s1' h
      exact eval_sim e s1 s1' h h2 hg.2.2

theorem init_stmt {K K' : Val → St → Res} {init : Option Simple} {e : Expr} {n : Nat} {b b' : Stmts} {s s' : St} {mkS mkS' : Option Simple → Expr → Stmt} (hs : Sim hit cov s s')
    (hi : srcInit init) (hsrc : srcE e) (hg : goodInit I hit cov init e)
    (h1 : ∀ (init : Option Simple) (e : Expr) (t : St), den I N (mkS init e) t = bindR (evInit I init e) K t)
    (h2 : ∀ (init : Option Simple) (e : Expr) (t : St), den I N (mkS' init e) t = bindR (evInit I init e) K' t)
    (hK : ∀ v s1 s1', Sim hit cov s1 s1' → SimR hit cov (K v s1) (K' v s1'))
    (hb : ∀ s1 s1', Sim hit cov s1 s1' → SimR hit cov (dens I N b s1) (dens I N b' s1')) :
    SimR hit cov (dens I N (.cons (mkS init e) b) s)
      (dens I N ((place1 n (injInit hit n init e) (init, e)).2.1.app (.cons (mkS' (place1 n (injInit hit n init e) (init, e)).2.2.1 (place1 n (injInit hit n init e) (init, e)).2.2.2) b')) s') := by
  cases hj : injInit hit n init e with
  | none =>
    simp only [place1, Stmts.app]
    refine seq_sim ?_ hb
    rw [h1, h2]
    have h0 := injInit_none hj
    obtain ⟨h3, h4⟩ := evInit_sim (I := I) hs hi hsrc (fun _ => h0)
    exact bindR_sim h3 h4 hK
  | some i =>
    simp only [place1]
    obtain ⟨mv, h⟩ := injInit_sim hj hs hi hsrc hg
    exact pre_sim h (h1 init e) (h2 _ _) hK hb

theorem post_sim {post : Stmts} (n : Nat) (hsrc : post = .nil ∨ ∃ c, post = .cons (.simple c) .nil ∧ srcE c.val)
    (hg : goodPost I hit cov post) {s s' : St} (hs : Sim hit cov s s') : SimR hit cov (dens I N post s) (dens I N (injPost hit n post).2 s') := by
  rcases hsrc with rfl | ⟨c, rfl, h⟩
  · exact ⟨rfl, hs⟩
  · have := expr_stmt (I := I) (N := N) (n := n) (K := fun v s => some (.normal, assign c.dst v s)) (K' := fun v s => some (.normal, assign c.dst v s)) (mkS := fun e => .simple ⟨c.dst, e⟩) (mkS' := fun e => .simple ⟨c.dst, e⟩) (b := .nil) (b' := .nil) hs h hg
      (fun e t => den_simple ⟨c.dst, e⟩ t) (fun e t => den_simple ⟨c.dst, e⟩ t) (fun v s1 s1' h => ⟨rfl, h.assign _ _⟩) (fun s1 s1' h => ⟨rfl, h⟩)
    simp only [injPost]
    cases hi : inj hit n c.val with
    | none => simpa [hi, place1, Stmts.app] using this
    | some i => simpa [hi, place1] using this

mutual
theorem rwS_sim : ∀ (st : Stmt) (n : Nat) (b b' : Stmts) (s s' : St), Sim hit cov s s' → src st → good I hit cov st →
    (∀ s1 s1', Sim hit cov s1 s1' → SimR hit cov (dens I N b s1) (dens I N b' s1')) →
    SimR hit cov (dens I N (.cons st b) s) (dens I N ((rwS hit n st).2.1.app (.cons (rwS hit n st).2.2 b')) s')
  | .simple c, n, b, b', s, s', hs, h, hg, hb => by
    simp only [rwS]
    exact expr_stmt (K := fun v s => some (.normal, assign c.dst v s)) (K' := fun v s => some (.normal, assign c.dst v s)) (mkS := fun e => .simple ⟨c.dst, e⟩) (mkS' := fun e => .simple ⟨c.dst, e⟩) hs h hg (fun e t => den_simple ⟨c.dst, e⟩ t) (fun e t => den_simple ⟨c.dst, e⟩ t)
      (fun v s1 s1' h => ⟨rfl, h.assign _ _⟩) hb
  | .ret e, n, b, b', s, s', hs, h, hg, hb => by
    simp only [rwS]
    exact expr_stmt (mkS := .ret) (mkS' := .ret) hs h hg (fun e t => den_ret e t) (fun e t => den_ret e t) (fun v s1 s1' h => ⟨rfl, h⟩) hb
  | .brk, n, b, b', s, s', hs, h, hg, hb => seq_sim ⟨rfl, hs⟩ hb
  | .cont, n, b, b', s, s', hs, h, hg, hb => seq_sim ⟨rfl, hs⟩ hb
  | .block b1, n, b, b', s, s', hs, h, hg, hb => by
    simp only [rwS, Stmts.app]
    refine seq_sim ?_ hb
    simp only [den]
    exact rws_sim b1 n s s' hs h hg
  | .ifs init cond body els, n, b, b', s, s', hs, h, hg, hb => by
    simp only [rwS]
    refine init_stmt (mkS := fun i e => .ifs i e body els) (mkS' := fun i e => .ifs i e _ _) hs h.1 h.2.1 hg.1 (fun i e t => den_ifs i e body els t) (fun i e t => den_ifs i e _ _ t) ?_ hb
    intro v s1 s1' h3
    split
    · exact rwElse_sim els _ s1 s1' h3 h.2.2.2 hg.2.2
    · exact rws_sim body _ s1 s1' h3 h.2.2.1 hg.2.1
  | .loop init cond post body, n, b, b', s, s', hs, h, hg, hb => by
    simp only [rwS]
    obtain ⟨g1, g2, g3, g4⟩ := hg
    have hK : ∀ (m : Nat) (m' : Nat) (v : Unit) (s1 s1' : St), (cov = true → hits hit cond = 0) → Sim hit cov s1 s1' →
        SimR hit cov (loopN I cond (dens I N post) (dens I N body) N s1) (loopN I cond (dens I N (injPost hit m post).2) (dens I N (rws hit m' false body).2) N s1') := by
      intro m m' v s1 s1' hcc h3
      exact loopN_sim h.2.1 hcc (fun t t' ht => post_sim m h.2.2.1 g3 ht) (fun t t' ht => rws_sim body m' t t' ht h.2.2.2 g4) N s1 s1' h3
    cases hj : injInit hit n init cond with
    | none =>
      simp only [place1, Stmts.app]
      refine seq_sim ?_ hb
      rw [den_loop, den_loop]
      have h0 := injInit_none hj
      obtain ⟨h3, h4⟩ := evFirst_sim (I := I) hs h.1 (fun _ => h0.1)
      exact bindR_sim h3 h4 fun v s1 s1' h5 => hK _ _ v s1 s1' (fun _ => h0.2) h5
    | some i =>
      simp only [place1]
      cases init with
      | none =>
        exfalso
        have hc0 := g2 (.inl rfl)
        simp [injInit, injInit0, (inj_none n cond).2 hc0] at hj
      | some c =>
        by_cases h0 : hits hit c.val = 0
        · exfalso
          have hc0 := g2 (.inl h0)
          simp [injInit, injInit0, (inj_none n c.val).2 h0, (inj_none n cond).2 hc0] at hj
        · have hn : inj hit n c.val ≠ none := fun hn => h0 ((inj_none n c.val).1 hn)
          obtain ⟨j, hj'⟩ := Option.ne_none_iff_exists'.1 hn
          simp only [injInit, injInit0, hj', Option.map_some, Option.some.injEq] at hj
          subst hj
          refine pre_sim ((inj_sim n c.val j s s' hj' hs h.1 (g1.1 h0) g1.2).bind (congrFun (evFirst_some c) s) (fun t _ => congrFun (evFirst_some ⟨c.dst, j.out⟩) t)
            (fun v s1 s1' h => ⟨rfl, h.assign _ _⟩)) (fun t => den_loop (some c) cond post body t) (fun t => den_loop (some ⟨c.dst, j.out⟩) cond _ _ t) ?_ hb
          intro v s1 s1' h5
          exact hK _ _ v s1 s1' (fun hc => g2 (.inr hc)) h5
  | .range i e body, n, b, b', s, s', hs, h, hg, hb => by
    simp only [rwS]
    refine expr_stmt (mkS := fun e => .range i e body) (mkS' := fun e => .range i e _) hs h.1 hg.1 (fun e t => den_range i e body t) (fun e t => den_range i e _ t) ?_ hb
    intro v s1 s1' h3
    exact rangeN_sim (fun t t' ht => rws_sim body _ t t' ht h.2 hg.2) v 0 s1 s1' h3
  | .switch init tag cs, n, b, b', s, s', hs, h, hg, hb => by
    simp only [rwS]
    refine init_stmt (mkS := fun i e => .switch i e cs) (mkS' := fun i e => .switch i e _) hs h.1 h.2.1 hg.1 (fun i e t => den_switch i e cs t) (fun i e t => den_switch i e _ t) ?_ hb
    intro v s1 s1' h3
    exact breakOut_sim (rwCl_sim cs _ v s1 s1' h3 h.2.2 hg.2)
  | .select comms choice cs, n, b, b', s, s', hs, h, hg, hb => by
    simp only [rwS]
    have hK : ∀ (m : Nat) (vs : List Val) (s1 s1' : St), Sim hit cov s1 s1' → SimR hit cov
        (match I.op choice vs with
        | none => some (.panic, s1)
        | some v => (denCl I N cs v s1).map fun x => (breakOut x.1, x.2))
        (match I.op choice vs with
        | none => some (.panic, s1')
        | some v => (denCl I N (rwCl hit m cs).2 v s1').map fun x => (breakOut x.1, x.2)) := by
      intro m vs s1 s1' h3
      split
      · exact ⟨rfl, h3⟩
      · exact breakOut_sim (rwCl_sim cs m _ s1 s1' h3 h.2 hg.2)
    cases hj : injFirst hit n comms with
    | none =>
      simp only [place1, Stmts.app]
      refine seq_sim ?_ hb
      rw [den_select, den_select]
      obtain ⟨h3, h4⟩ := evals_sim (I := I) comms s s' hs h.1 (fun _ => (injFirst_none n comms).1 hj)
      exact bindR_sim h3 h4 fun vs s1 s1' h5 => hK n vs s1 s1' h5
    | some i =>
      simp only [place1]
      exact pre_sim (injFirst_sim n comms i s s' hj hs h.1 hg.1) (fun t => den_select comms choice cs t) (fun t => den_select i.out choice _ t) (fun vs s1 s1' h5 => hK (n + 1) vs s1 s1' h5) hb
  | .labeled st, n, b, b', s, s', hs, h, hg, hb => by
    simp only [rwS, Stmts.app]
    refine seq_sim ?_ hb
    exact den_same (.labeled st) s s' hs h hg
  | .later go id r args, n, b, b', s, s', hs, h, hg, hb => by
    simp only [rwS, hg.1, Bool.false_eq_true, if_false, Stmts.app]
    refine seq_sim ?_ hb
    exact later_sim hs h.1 h.2 (fun _ => hg.1) hg.2
  | .setTmp _ _, _, _, _, _, _, _, h, _, _ => absurd h (by simp [src])
  | .report _ _, _, _, _, _, _, _, h, _, _ => absurd h (by simp [src])
  | .laterLit _ _, _, _, _, _, _, _, h, _, _ => absurd h (by simp [src])
theorem rws_sim : ∀ (b : Stmts) (n : Nat) (s s' : St), Sim hit cov s s' → srcs b → goods I hit cov b → SimR hit cov (dens I N b s) (dens I N (rws hit n false b).2 s')
  | .nil, _, _, _, hs, _, _ => ⟨rfl, hs⟩
  | .cons st b, n, s, s', hs, h, hg => by
    have hr : isReport (rwS hit n st).2.2 = false := by
      cases st with
      | report pid snaps => exact absurd h.1 (by simp [src])
      | later go id r args => simp only [rwS]; split <;> rfl
      | _ => rfl
    simp only [rws, Bool.false_eq_true, if_false, hr]
    exact rwS_sim st n b _ s s' hs h.1 hg.1 fun t t' ht => rws_sim b _ t t' ht h.2 hg.2
theorem rwElse_sim : ∀ (els : Else) (n : Nat) (s s' : St), Sim hit cov s s' → srcElse els → goodElse I hit cov els →
    SimR hit cov (denElse I N els s) (denElse I N (rwElse hit n els).2 s')
  | .none, _, _, _, hs, _, _ => ⟨rfl, hs⟩
  | .block b, n, s, s', hs, h, hg => by
    simp only [rwElse, denElse]
    exact rws_sim b n s s' hs h hg
  | .elseIf init cond body els, n, s, s', hs, h, hg => by
    simp only [rwElse]
    rw [denElse_elseIf, denElse_elseIf]
    obtain ⟨h1, h2⟩ := evInit_sim (I := I) hs h.1 h.2.1 (fun h => ⟨(hg.2 h).1, (hg.2 h).2.1⟩)
    refine bindR_sim h1 h2 fun v s1 s1' h3 => ?_
    split
    · exact denElse_same els s1 s1' h3 h.2.2.2 (fun h => (hg.2 h).2.2)
    · exact rws_sim body n s1 s1' h3 h.2.2.1 hg.1
theorem rwCl_sim : ∀ (cs : Clauses) (n k : Nat) (s s' : St), Sim hit cov s s' → srcCl cs → goodCl I hit cov cs →
    SimR hit cov (denCl I N cs k s) (denCl I N (rwCl hit n cs).2 k s')
  | .nil, _, _, _, _, hs, _, _ => ⟨rfl, hs⟩
  | .cons body cs, n, 0, s, s', hs, h, hg => by
    simp only [rwCl, denCl]
    exact rws_sim body n s s' hs h.1 hg.1
  | .cons body cs, n, k + 1, s, s', hs, h, hg => by
    simp only [rwCl, denCl]
    exact rwCl_sim cs _ k s s' hs h.2 hg.2
end

/-! ### Whole functions -/

theorem finish_sim : ∀ (ds : List Deferred) (o : FOut) (s s' : St), (∀ d ∈ ds, ∃ go id rv vs, d = .call go id rv vs ∧ (cov = true → hit id = false)) → Sim hit cov s s' →
    ∃ o1 t t', finish I N ds o s = some (o1, t) ∧ finish I N ds o s' = some (o1, t') ∧ Sim hit cov t t'
  | [], o, s, s', _, hs => ⟨o, s, s', rfl, rfl, hs⟩
  | d :: ds, o, s, s', h, hs => by
    obtain ⟨go, id, rv, vs, rfl, hid⟩ := h d (by simp)
    have hh := hs.evs.hist
    have hs1 : Sim hit cov { s with evs := s.evs ++ [.call ⟨id, rv, vs⟩] } { s' with evs := s'.evs ++ [.call ⟨id, rv, vs⟩] } :=
      ⟨hs.env, hs.defers, hs.calls, .plain _ _ _ hs.evs hid⟩
    simp only [finish, hh]
    split
    · exact finish_sim ds _ _ _ (fun d hd => h d (by simp [hd])) hs1
    · exact finish_sim ds _ _ _ (fun d hd => h d (by simp [hd])) hs1

theorem run_sim (n : Nat) (body : Stmts) (env : Env) (h : srcs body) (hg : goods I hit cov body) :
    (run I N body env = none ∧ run I N (instrument hit n body) env = none) ∨
    ∃ o env' evs evs', run I N body env = some (o, env', evs) ∧ run I N (instrument hit n body) env = some (o, env', evs') ∧ Reported hit cov evs evs' := by
  have h0 : Sim hit cov ⟨env, fun _ => 0, [], []⟩ ⟨env, fun _ => 0, [], []⟩ := ⟨rfl, rfl, by simp, .nil⟩
  have h1 := rws_sim (I := I) (N := N) body n _ _ h0 h hg
  simp only [run, instrument]
  rcases h1.cases with ⟨h2, h3⟩ | ⟨o, s, s', h2, h3, h4⟩
  · left; rw [h2, h3]; exact ⟨rfl, rfl⟩
  · right
    rw [h2, h3]
    dsimp only
    rw [h4.defers]
    obtain ⟨o1, t, t', h5, h6, h7⟩ := finish_sim (I := I) (N := N) s.defers (endOf o) s s' h4.calls h4
    rw [h5, h6]
    exact ⟨o1, t.env, t.evs, t'.evs, rfl, by simp [h7.env], h7.evs⟩

end Verif.Calls
