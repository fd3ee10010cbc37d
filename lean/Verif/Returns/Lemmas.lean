import Verif.Returns.Spec

namespace Verif.Returns

/-! ### Relating executions -/

/-- Same outcome and variables; events related by `P` if a `return` was executed, else the same. -/
def Rel (P : List Val → Env → List Ev → List Ev → Prop) : Res → Res → Prop
  | none, none => True
  | some (o, s, evs), some (o', s', evs') => o' = o ∧ s'.env = s.env ∧ (match o with | .ret vs => P vs s.env evs evs' | _ => evs' = evs)
  | _, _ => False

def Closed (P : List Val → Env → List Ev → List Ev → Prop) : Prop := ∀ vs env p evs evs', P vs env evs evs' → P vs env (p ++ evs) (p ++ evs')

theorem Rel.mono {P Q : List Val → Env → List Ev → List Ev → Prop} (h : ∀ vs env evs evs', P vs env evs evs' → Q vs env evs evs') {r r' : Res} (hr : Rel P r r') : Rel Q r r' := by
  match r, r', hr with
  | none, none, _ => trivial
  | some (o, s, evs), some (o', s', evs'), hr =>
      obtain ⟨h1, h2, h3⟩ := hr
      refine ⟨h1, h2, ?_⟩
      cases o with
      | ret vs => exact h _ _ _ _ h3
      | _ => exact h3

theorem Rel.after {P : List Val → Env → List Ev → List Ev → Prop} (hP : Closed P) (p : List Ev) {r r' : Res} (hr : Rel P r r') : Rel P (after p r) (after p r') := by
  match r, r', hr with
  | none, none, _ => trivial
  | some (o, s, evs), some (o', s', evs'), hr =>
      obtain ⟨h1, h2, h3⟩ := hr
      refine ⟨h1, h2, ?_⟩
      cases o with
      | ret vs => exact hP _ _ _ _ _ h3
      | _ => simp only at h3 ⊢; rw [h3]

/-- Outcomes mapped by something that does not concern returns. -/
theorem Rel.mapOut {P : List Val → Env → List Ev → List Ev → Prop} (f : Out → Out) (hf : ∀ o vs, f o = .ret vs ↔ o = .ret vs) {r r' : Res} (hr : Rel P r r') :
    Rel P (r.map fun x => (f x.1, x.2)) (r'.map fun x => (f x.1, x.2)) := by
  match r, r', hr with
  | none, none, _ => trivial
  | some (o, s, evs), some (o', s', evs'), hr =>
      obtain ⟨h1, h2, h3⟩ := hr
      subst h1
      refine ⟨rfl, h2, ?_⟩
      cases ho : f o' with
      | ret vs =>
          rw [(hf o' vs).mp ho] at h3
          simp only [ho]
          exact h3
      | _ =>
          cases o' with
          | ret vs => rw [(hf (.ret vs) vs).mpr rfl] at ho; cases ho
          | _ => simp only [ho]; exact h3

theorem breakOut_ret (o : Out) (vs : List Val) : breakOut o = .ret vs ↔ o = .ret vs := by
  unfold breakOut
  split
  · simp
  · rfl

theorem labelOut_ret (l : Nat) (o : Out) (vs : List Val) : (if o = .brk (some l) then Out.normal else o) = .ret vs ↔ o = .ret vs := by
  split
  · rename_i h; subst h; simp
  · rfl

theorem opaque_env (I : Interp) (id : Nat) {s s' : State} (h : s'.env = s.env) :
    (opaque_ I id s').1 = (opaque_ I id s).1 ∧ (opaque_ I id s').2.1.env = (opaque_ I id s).2.1.env ∧ (opaque_ I id s').2.2 = (opaque_ I id s).2.2 := by
  simp [opaque_, h]

/-- Continue after something opaque. -/
theorem opaque_rel {P : List Val → Env → List Ev → List Ev → Prop} (I : Interp) (id : Nat) {s s' : State} (h : s'.env = s.env) (k k' : List Val → State → List Ev → Res)
    (hk : ∀ vs s s' evs, s'.env = s.env → Rel P (k vs s evs) (k' vs s' evs)) :
    Rel P (match opaque_ I id s with | (none, s, evs) => some (.panic, s, evs) | (some vs, s, evs) => k vs s evs)
      (match opaque_ I id s' with | (none, s, evs) => some (.panic, s, evs) | (some vs, s, evs) => k' vs s evs) := by
  obtain ⟨h1, h2, h3⟩ := opaque_env I id h
  cases ho : opaque_ I id s with
  | mk r x =>
      obtain ⟨t, evs⟩ := x
      cases ho' : opaque_ I id s' with
      | mk r' x' =>
          obtain ⟨t', evs'⟩ := x'
          rw [ho, ho'] at h1 h2 h3
          simp only at h1 h2 h3
          subst h1 h3
          cases r' with
          | none => exact ⟨rfl, h2, rfl⟩
          | some vs => exact hk vs t t' evs' h2

theorem loopN_rel {P : List Val → Env → List Ev → List Ev → Prop} (hP : Closed P) (I : Interp) (lbl : Option Nat) (cond post : Nat) (b b' : State → Res)
    (hb : ∀ s s' : State, s'.env = s.env → Rel P (b s) (b' s')) : ∀ (n : Nat) (s s' : State), s'.env = s.env → Rel P (loopN I lbl cond post b n s) (loopN I lbl cond post b' n s') := by
  intro n
  induction n with
  | zero => intro s s' _; trivial
  | succ n ih =>
      intro s s' h
      simp only [loopN]
      refine opaque_rel I cond h (fun vs s evs => if vs.headD 0 = 0 then some (.normal, s, evs)
      else
        match b s with
        | none => none
        | some (out, s, evs') =>
          let next : Res :=
            match opaque_ I post s with
            | (none, s, evs'') => some (.panic, s, evs'')
            | (some _, s, evs'') => after evs'' (loopN I lbl cond post b n s)
          match out with
          | .normal => after (evs ++ evs') next
          | .brk none => some (.normal, s, evs ++ evs')
          | .cont none => after (evs ++ evs') next
          | .cont (some l) => if lbl = some l then after (evs ++ evs') next else some (.cont (some l), s, evs ++ evs')
          | out => some (out, s, evs ++ evs')) _ ?_
      intro vs s s' evs h
      by_cases hv : vs.headD 0 = 0
      · simp only [hv, if_true]
        exact ⟨rfl, h, rfl⟩
      · simp only [hv, if_false]
        have hbr := hb s s' h
        cases h1 : b s with
        | none =>
            cases h2 : b' s' with
            | none => trivial
            | some x => rw [h1, h2] at hbr; exact hbr.elim
        | some x =>
            obtain ⟨o, t, e⟩ := x
            cases h2 : b' s' with
            | none => rw [h1, h2] at hbr; exact hbr.elim
            | some x' =>
                obtain ⟨o', t', e'⟩ := x'
                rw [h1, h2] at hbr
                obtain ⟨r1, r2, r3⟩ := hbr
                subst r1
                have hnext : Rel P (match opaque_ I post t with
                    | (none, s, evs'') => some (.panic, s, evs'')
                    | (some _, s, evs'') => after evs'' (loopN I lbl cond post b n s)) (match opaque_ I post t' with
                    | (none, s, evs'') => some (.panic, s, evs'')
                    | (some _, s, evs'') => after evs'' (loopN I lbl cond post b' n s)) :=
                  opaque_rel I post r2 (fun _ s e => after e (loopN I lbl cond post b n s)) (fun _ s e => after e (loopN I lbl cond post b' n s))
                    fun vs s s' evs h => (ih s s' h).after hP evs
                simp only
                cases o' with
                | ret vs => exact ⟨rfl, r2, hP _ _ _ _ _ r3⟩
                | normal => simp only at r3; subst r3; exact hnext.after hP _
                | panic => simp only at r3; subst r3; exact ⟨rfl, r2, rfl⟩
                | brk l =>
                    simp only at r3; subst r3
                    cases l with
                    | none => exact ⟨rfl, r2, rfl⟩
                    | some l => exact ⟨rfl, r2, rfl⟩
                | cont l =>
                    simp only at r3; subst r3
                    cases l with
                    | none => exact hnext.after hP _
                    | some l =>
                        simp only
                        split
                        · exact hnext.after hP _
                        · exact ⟨rfl, r2, rfl⟩

/-- One statement after another. -/
theorem seq_rel {P : List Val → Env → List Ev → List Ev → Prop} (hP : Closed P) {a a' : Res} (k k' : State → Res)
    (hk : ∀ s s' : State, s'.env = s.env → Rel P (k s) (k' s')) : Rel P a a' →
    Rel P (match a with | none => none | some (.normal, s, evs) => after evs (k s) | some (out, s, evs) => some (out, s, evs))
      (match a' with | none => none | some (.normal, s, evs) => after evs (k' s) | some (out, s, evs) => some (out, s, evs)) := by
  intro ha
  match a, a', ha with
  | none, none, _ => trivial
  | some (o, s, evs), some (o', s', evs'), ha =>
      obtain ⟨h1, h2, h3⟩ := ha
      subst h1
      cases o' with
      | ret vs => exact ⟨rfl, h2, h3⟩
      | normal => simp only at h3; subst h3; exact (hk s s' h2).after hP _
      | panic => exact ⟨rfl, h2, h3⟩
      | brk l => exact ⟨rfl, h2, h3⟩
      | cont l => exact ⟨rfl, h2, h3⟩

/-- A clause and, after `fallthrough`, the next one. -/
theorem clause_rel {P : List Val → Env → List Ev → List Ev → Prop} (hP : Closed P) {a a' : Res} (ft : Bool) (k k' : State → Res)
    (hk : ∀ s s' : State, s'.env = s.env → Rel P (k s) (k' s')) : Rel P a a' →
    Rel P (match a with | none => none | some (.normal, s, evs) => if ft then after evs (k s) else some (.normal, s, evs) | some (out, s, evs) => some (out, s, evs))
      (match a' with | none => none | some (.normal, s, evs) => if ft then after evs (k' s) else some (.normal, s, evs) | some (out, s, evs) => some (out, s, evs)) := by
  intro ha
  match a, a', ha with
  | none, none, _ => trivial
  | some (o, s, evs), some (o', s', evs'), ha =>
      obtain ⟨h1, h2, h3⟩ := ha
      subst h1
      cases o' with
      | ret vs => exact ⟨rfl, h2, h3⟩
      | normal =>
          simp only at h3; subst h3
          cases ft with
          | true => exact (hk s s' h2).after hP _
          | false => exact ⟨rfl, h2, rfl⟩
      | panic => exact ⟨rfl, h2, h3⟩
      | brk l => exact ⟨rfl, h2, h3⟩
      | cont l => exact ⟨rfl, h2, h3⟩

/-! ### Programs do not see the temporaries -/

theorem evalFirst_env (I : Interp) (early : Nat → Bool) : ∀ (es : List Expr) (i : Nat) (s s' : State), s'.env = s.env →
    (evalFirst I early i es s').1 = (evalFirst I early i es s).1 ∧ (evalFirst I early i es s').2.1.env = (evalFirst I early i es s).2.1.env ∧
    (evalFirst I early i es s').2.2 = (evalFirst I early i es s).2.2 := by
  intro es
  induction es with
  | nil => intro i s s' h; exact ⟨rfl, h, rfl⟩
  | cons e es ih =>
      intro i s s' h
      cases e with
      | ident x b =>
          obtain ⟨h1, h2, h3⟩ := ih (i + 1) s s' h
          simp only [evalFirst, h1, h2, h3, h, and_self]
      | nil b =>
          obtain ⟨h1, h2, h3⟩ := ih (i + 1) s s' h
          simp only [evalFirst, h1, h2, h3, and_self]
      | lit v b =>
          obtain ⟨h1, h2, h3⟩ := ih (i + 1) s s' h
          simp only [evalFirst, h1, h2, h3, and_self]
      | other id r =>
          simp only [evalFirst, opaque_, h]
          cases (I id s.env).vals with
          | none => exact ⟨rfl, rfl, rfl⟩
          | some vs =>
              obtain ⟨h1, h2, h3⟩ := ih (i + 1) ⟨(I id s.env).env, s.tmps⟩ ⟨(I id s.env).env, s'.tmps⟩ rfl
              simp only [h1, h2, h3, and_self]

theorem evalRet_env (I : Interp) (sig : Sig) (early : Nat → Bool) (r : Rets) {s s' : State} (h : s'.env = s.env) :
    (evalRet I sig early r s').1 = (evalRet I sig early r s).1 ∧ (evalRet I sig early r s').2.1.env = (evalRet I sig early r s).2.1.env ∧
    (evalRet I sig early r s').2.2 = (evalRet I sig early r s).2.2 := by
  cases r with
  | naked => simp [evalRet, h]
  | multi id =>
      simp only [evalRet, opaque_, h]
      cases (I id s.env).vals <;> simp
  | exprs es =>
      obtain ⟨h1, h2, h3⟩ := evalFirst_env I early es 0 s s' h
      simp only [evalRet]
      cases hx : evalFirst I early 0 es s with
      | mk r x =>
          cases hx' : evalFirst I early 0 es s' with
          | mk r' x' =>
              rw [hx, hx'] at h1 h2 h3
              obtain ⟨t, e⟩ := x
              obtain ⟨t', e'⟩ := x'
              simp only at h1 h2 h3
              subst h1 h3
              cases r' with
              | none => exact ⟨rfl, h2, rfl⟩
              | some l => exact ⟨by simp [h2], h2, rfl⟩

theorem evalRet_out (I : Interp) (sig : Sig) (early : Nat → Bool) (r : Rets) (s : State) :
    (evalRet I sig early r s).1 = .panic ∨ ∃ vs, (evalRet I sig early r s).1 = .ret vs := by
  cases r with
  | naked => exact Or.inr ⟨_, rfl⟩
  | multi id =>
      simp only [evalRet]
      cases opaque_ I id s with
      | mk r x =>
          cases r with
          | none => exact Or.inl rfl
          | some vs => exact Or.inr ⟨_, rfl⟩
  | exprs es =>
      simp only [evalRet]
      cases evalFirst I early 0 es s with
      | mk r x =>
          cases r with
          | none => exact Or.inl rfl
          | some vs => exact Or.inr ⟨_, rfl⟩

/-- The same events, and `Q`. -/
def Eq_ (Q : Prop) : List Val → Env → List Ev → List Ev → Prop := fun _ _ evs evs' => Q ∧ evs' = evs

theorem closed_eq (Q : Prop) : Closed (Eq_ Q) := fun _ _ p _ _ h => ⟨h.1, congrArg (p ++ ·) h.2⟩

variable (I : Interp) (sig : Sig) (early : Rets → Nat → Bool) (N : Nat)

mutual
theorem den_env (lbl : Option Nat) (st : Stmt) (h : src sig st) (Q : Prop) (hq : rets st ≠ [] → Q) (s s' : State) (he : s'.env = s.env) :
    Rel (Eq_ Q) (den I sig early N lbl st s) (den I sig early N lbl st s') := by
  match st, h, hq with
  | .simple id, _, hq =>
      simp only [den]
      exact opaque_rel I id he (fun _ s evs => some (.normal, s, evs)) _ fun vs s s' evs h => ⟨rfl, h, rfl⟩
  | .ret r vis, _, hq =>
      obtain ⟨h1, h2, h3⟩ := evalRet_env I sig (early r) r he
      simp only [den]
      cases hx : evalRet I sig (early r) r s with
      | mk o x =>
          cases hx' : evalRet I sig (early r) r s' with
          | mk o' x' =>
              rw [hx, hx'] at h1 h2 h3
              refine ⟨h1, h2, ?_⟩
              cases o <;> first | exact h3 | exact ⟨hq (by simp [rets]), h3⟩
  | .block b, h, hq =>
      simp only [den]
      simp only [src] at h
      exact dens_env b h Q hq s s' he
  | .ifs cond body els, h, hq =>
      simp only [den]
      simp only [src] at h
      refine opaque_rel I cond he (fun vs s evs => if vs.headD 0 = 0 then after evs (denElse I sig early N els s) else after evs (dens I sig early N body s)) _
        fun vs s s' evs he => ?_
      split
      · exact (denElse_env els h.2 Q (fun hne => hq (by simp [rets, retsElse, hne])) s s' he).after (closed_eq Q) evs
      · exact (dens_env body h.1 Q (fun hne => hq (by simp [rets, retsElse, retsCl, hne])) s s' he).after (closed_eq Q) evs
  | .loop cond post body, h, hq =>
      simp only [den]
      simp only [src] at h
      exact loopN_rel (closed_eq Q) I lbl cond post _ _ (fun s s' he => dens_env body h Q hq s s' he) N s s' he
  | .switch sel cs, h, hq =>
      simp only [den]
      simp only [src] at h
      exact opaque_rel I sel he (fun vs s evs => (after evs (denCl I sig early N cs (vs.headD 0) s)).map fun x => (breakOut x.1, x.2)) _
        fun vs s s' evs he => Rel.mapOut breakOut breakOut_ret ((denCl_env cs h Q hq (vs.headD 0) s s' he).after (closed_eq Q) evs)
  | .select sel cs, h, hq =>
      simp only [den]
      simp only [src] at h
      exact opaque_rel I sel he (fun vs s evs => (after evs (denCl I sig early N cs (vs.headD 0) s)).map fun x => (breakOut x.1, x.2)) _
        fun vs s s' evs he => Rel.mapOut breakOut breakOut_ret ((denCl_env cs h Q hq (vs.headD 0) s s' he).after (closed_eq Q) evs)
  | .labeled l st, h, hq =>
      simp only [den]
      simp only [src] at h
      exact Rel.mapOut (fun o => if o = .brk (some l) then .normal else o) (labelOut_ret l) (den_env (some l) st h Q hq s s' he)
  | .brk l, _, hq => simp only [den]; exact ⟨rfl, he, rfl⟩
  | .cont l, _, hq => simp only [den]; exact ⟨rfl, he, rfl⟩
  | .setTmp _ _, h, hq => simp only [src] at h
  | .setTmps _ _, h, hq => simp only [src] at h
  | .report _ _, h, hq => simp only [src] at h
  | .retG _, h, hq => simp only [src] at h
theorem dens_env (b : Stmts) (h : srcs sig b) (Q : Prop) (hq : retss b ≠ [] → Q) (s s' : State) (he : s'.env = s.env) : Rel (Eq_ Q) (dens I sig early N b s) (dens I sig early N b s') := by
  match b, h, hq with
  | .nil, _, hq => simp only [dens]; exact ⟨rfl, he, rfl⟩
  | .cons st b, h, hq =>
      simp only [dens]
      simp only [srcs] at h
      exact seq_rel (closed_eq Q) _ _ (fun s s' he => dens_env b h.2 Q (fun hne => hq (by simp [retss, hne])) s s' he) (den_env none st h.1 Q (fun hne => hq (by simp [retss, hne])) s s' he)
theorem denElse_env (e : Else) (h : srcElse sig e) (Q : Prop) (hq : retsElse e ≠ [] → Q) (s s' : State) (he : s'.env = s.env) : Rel (Eq_ Q) (denElse I sig early N e s) (denElse I sig early N e s') := by
  match e, h, hq with
  | .none, _, hq => simp only [denElse]; exact ⟨rfl, he, rfl⟩
  | .block b, h, hq => simp only [denElse]; simp only [srcElse] at h; exact dens_env b h Q hq s s' he
  | .elseIf cond body els, h, hq =>
      simp only [denElse]
      simp only [srcElse] at h
      refine opaque_rel I cond he (fun vs s evs => if vs.headD 0 = 0 then after evs (denElse I sig early N els s) else after evs (dens I sig early N body s)) _
        fun vs s s' evs he => ?_
      split
      · exact (denElse_env els h.2 Q (fun hne => hq (by simp [rets, retsElse, hne])) s s' he).after (closed_eq Q) evs
      · exact (dens_env body h.1 Q (fun hne => hq (by simp [rets, retsElse, retsCl, hne])) s s' he).after (closed_eq Q) evs
theorem denCl_env (cs : Clauses) (h : srcCl sig cs) (Q : Prop) (hq : retsCl cs ≠ [] → Q) (k : Nat) (s s' : State) (he : s'.env = s.env) : Rel (Eq_ Q) (denCl I sig early N cs k s) (denCl I sig early N cs k s') := by
  match cs, k, h, hq with
  | .nil, _, _, hq => simp only [denCl]; exact ⟨rfl, he, rfl⟩
  | .cons body ft cs, 0, h, hq =>
      simp only [denCl]
      simp only [srcCl] at h
      exact clause_rel (closed_eq Q) ft _ _ (fun s s' he => denCl_env cs h.2 Q (fun hne => hq (by simp [retsCl, hne])) 0 s s' he) (dens_env body h.1 Q (fun hne => hq (by simp [rets, retsElse, retsCl, hne])) s s' he)
  | .cons body ft cs, k + 1, h, hq =>
      simp only [denCl]
      simp only [srcCl] at h
      exact denCl_env cs h.2 Q (fun hne => hq (by simp [retsCl, hne])) k s s' he
end

end Verif.Returns
