import Verif.Calls.Lemmas

namespace Verif.Calls

variable {hit : Nat → Bool}

/-! ### What is put before a statement is not changed again -/

theorem buildArgs_clean (pid : Nat) : ∀ (es : Exprs) (i : Nat), hitss hit es = 0 →
    (∀ p ∈ (buildArgs pid i es).pre, hits hit p.2 = 0) ∧ hitss hit (buildArgs pid i es).snaps = 0
  | .nil, _, _ => by simp [buildArgs, hitss]
  | .cons e es, i, h => by
    simp only [hitss] at h
    obtain ⟨h1, h2⟩ := buildArgs_clean pid es (i + 1) (by omega)
    have he : hits hit e = 0 := by omega
    simp only [buildArgs]
    split
    · exact ⟨h1, by simp [hitss, he, h2]⟩
    · refine ⟨?_, by simp [hitss, hits, h2]⟩
      intro p hp
      rcases List.mem_cons.1 hp with rfl | hp
      · exact he
      · exact h1 p hp

theorem hitss_app (a b : Exprs) : hitss hit (a.app b) = hitss hit a + hitss hit b := by
  induction a using Exprs.rec (motive_1 := fun _ => True) (motive_2 := fun _ => True) with
  | nil => simp [Exprs.app, hitss]
  | cons e es _ ih => simp only [Exprs.app, hitss, ih]; omega
  | _ => trivial

theorem buildCall_clean (pid id : Nat) (r : Recv) (args : Exprs) (hr : hitsR hit r = 0) (ha : hitss hit args = 0) :
    (∀ p ∈ (buildCall pid id r args).pre, hits hit p.2 = 0) ∧ hitss hit (buildCall pid id r args).snaps = 0 := by
  obtain ⟨h1, h2⟩ := buildArgs_clean (hit := hit) pid args 0 ha
  simp only [buildCall, hitss_app, h2, Nat.add_zero, List.mem_append]
  cases r with
  | none => exact ⟨fun p hp => h1 p (by simpa [buildRecv] using hp), by simp [buildRecv, hitss]⟩
  | ident x => exact ⟨fun p hp => h1 p (by simpa [buildRecv] using hp), by simp [buildRecv, hitss, hits]⟩
  | tmp t => exact ⟨fun p hp => h1 p (by simpa [buildRecv] using hp), by simp [buildRecv, hitss, hits]⟩
  | place x =>
    refine ⟨fun p hp => ?_, by simp [buildRecv, hitss, hits]⟩
    rcases hp with hp | hp
    · simp only [buildRecv, List.mem_singleton] at hp; subst hp; simp [hits]
    · exact h1 p hp
  | expr e =>
    refine ⟨fun p hp => ?_, by simp [buildRecv, hitss, hits]⟩
    rcases hp with hp | hp
    · simp only [buildRecv, List.mem_singleton] at hp; subst hp; exact hr
    · exact h1 p hp

mutual
theorem inj_clean (pid : Nat) : ∀ (e : Expr) (i : Inj Expr), inj hit pid e = some i → hits hit e ≤ 1 → (∀ p ∈ i.pre, hits hit p.2 = 0) ∧ hitss hit i.snaps = 0
  | .lit _, i, h, _ => by simp [inj] at h
  | .var _, i, h, _ => by simp [inj] at h
  | .place _, i, h, _ => by simp [inj] at h
  | .tmp _, i, h, _ => by simp [inj] at h
  | .sel e f, i, h, hc => by
    simp only [inj, Option.map_eq_some_iff] at h
    obtain ⟨j, hj, rfl⟩ := h
    exact inj_clean pid e j hj hc
  | .op f es, i, h, hc => by
    simp only [inj, Option.map_eq_some_iff] at h
    obtain ⟨j, hj, rfl⟩ := h
    exact injs_clean pid es j hj hc
  | .logic k a b, i, h, hc => by
    simp only [hits] at hc
    simp only [inj] at h
    cases hb : inj hit pid b with
    | some j =>
      simp only [hb, Option.some.injEq] at h
      subst h
      exact inj_clean pid b j hb (by omega)
    | none =>
      simp only [hb, Option.map_eq_some_iff] at h
      obtain ⟨j, hj, rfl⟩ := h
      exact inj_clean pid a j hj (by omega)
  | .call id r args, i, h, hc => by
    simp only [hits] at hc
    simp only [inj] at h
    by_cases hid : hit id = true
    · simp only [hid, if_true, Option.some.injEq] at h hc
      subst h
      exact buildCall_clean pid id r args (by omega) (by omega)
    · simp only [hid, if_false, Bool.false_eq_true] at h hc
      cases hb : injs hit pid args with
      | some j =>
        simp only [hb, Option.some.injEq] at h
        subst h
        exact injs_clean pid args j hb (by omega)
      | none =>
        simp only [hb, Option.map_eq_some_iff] at h
        obtain ⟨j, hj, rfl⟩ := h
        exact injR_clean pid r j hj (by omega)
theorem injR_clean (pid : Nat) : ∀ (r : Recv) (i : Inj Recv), injR hit pid r = some i → hitsR hit r ≤ 1 → (∀ p ∈ i.pre, hits hit p.2 = 0) ∧ hitss hit i.snaps = 0
  | .expr e, i, h, hc => by
    simp only [injR, Option.map_eq_some_iff] at h
    obtain ⟨j, hj, rfl⟩ := h
    exact inj_clean pid e j hj hc
  | .none, i, h, _ => by simp [injR] at h
  | .ident _, i, h, _ => by simp [injR] at h
  | .place _, i, h, _ => by simp [injR] at h
  | .tmp _, i, h, _ => by simp [injR] at h
theorem injs_clean (pid : Nat) : ∀ (es : Exprs) (i : Inj Exprs), injs hit pid es = some i → hitss hit es ≤ 1 → (∀ p ∈ i.pre, hits hit p.2 = 0) ∧ hitss hit i.snaps = 0
  | .nil, i, h, _ => by simp [injs] at h
  | .cons e es, i, h, hc => by
    simp only [hitss] at hc
    simp only [injs] at h
    cases hb : injs hit pid es with
    | some j =>
      simp only [hb, Option.some.injEq] at h
      subst h
      exact injs_clean pid es j hb (by omega)
    | none =>
      simp only [hb, Option.map_eq_some_iff] at h
      obtain ⟨j, hj, rfl⟩ := h
      exact inj_clean pid e j hj (by omega)
end

theorem injFirst_clean (pid : Nat) : ∀ (es : Exprs) (i : Inj Exprs), injFirst hit pid es = some i → onceFirst hit es → (∀ p ∈ i.pre, hits hit p.2 = 0) ∧ hitss hit i.snaps = 0
  | .nil, i, h, _ => by simp [injFirst] at h
  | .cons e es, i, h, hc => by
    simp only [injFirst] at h
    cases hb : inj hit pid e with
    | some j =>
      simp only [hb, Option.some.injEq] at h
      subst h
      have hne : hits hit e ≠ 0 := fun h0 => by rw [(inj_none pid e).2 h0] at hb; simp at hb
      simp only [onceFirst, hne, if_false] at hc
      exact inj_clean pid e j hb hc
    | none =>
      simp only [hb, Option.map_eq_some_iff] at h
      obtain ⟨j, hj, rfl⟩ := h
      simp only [onceFirst, (inj_none pid e).1 hb, if_true] at hc
      exact injFirst_clean pid es j hj hc

theorem injInit_clean (pid : Nat) (init : Option Simple) (e : Expr) (i : Inj (Option Simple × Expr)) (h : injInit hit pid init e = some i) (hc : onceInit hit init e) :
    (∀ p ∈ i.pre, hits hit p.2 = 0) ∧ hitss hit i.snaps = 0 := by
  cases init with
  | none =>
    simp only [injInit, injInit0, Option.map_eq_some_iff] at h
    obtain ⟨j, hj, rfl⟩ := h
    exact inj_clean pid e j hj (by simpa [onceInit, hitsInit] using hc)
  | some c =>
    simp only [injInit, injInit0] at h
    cases hb : inj hit pid c.val with
    | some j =>
      simp only [hb, Option.map_some, Option.some.injEq] at h
      subst h
      have hne : hits hit c.val ≠ 0 := fun h0 => by rw [(inj_none pid c.val).2 h0] at hb; simp at hb
      exact inj_clean pid c.val j hb (by simpa [onceInit, hitsInit, hne] using hc)
    | none =>
      simp only [hb, Option.map_none, Option.map_eq_some_iff] at h
      obtain ⟨j, hj, rfl⟩ := h
      exact inj_clean pid e j hj (by simpa [onceInit, hitsInit, (inj_none pid c.val).1 hb] using hc)

/-- The second time, the statements put before are left alone and so is the statement after them. -/
theorem rws_pre (m pid : Nat) (pre : List (TName × Expr)) (snaps : Exprs) (st : Stmt) (b : Stmts) (h : ∀ p ∈ pre, hits hit p.2 = 0) (hs : hitss hit snaps = 0) :
    rws hit m false ((preStmts pid pre snaps).app (.cons st b)) =
      ((rws hit m (isReport st) b).1, (preStmts pid pre snaps).app (.cons st (rws hit m (isReport st) b).2)) := by
  induction pre with
  | nil => simp [preStmts, Stmts.app, rws, rwS, (injs_none m snaps).2 hs, place1, isReport]
  | cons p pre ih =>
    obtain ⟨t, e⟩ := p
    have he : inj hit m e = none := (inj_none m e).2 (h (t, e) (by simp))
    simp [preStmts, Stmts.app, rws, rwS, he, place1, isReport, ih fun p hp => h p (by simp [hp])]

/-! ### Twice -/

/-- The result of the second time on one statement with what was put before it. -/
def Stable (hit : Nat → Bool) (pre : Stmts) (st : Stmt) : Prop :=
  isReport st = false ∧ ∀ (m : Nat) (b : Stmts), rws hit m false (pre.app (.cons st b)) = ((rws hit m false b).1, pre.app (.cons st (rws hit m false b).2))

theorem stable_nil {st : Stmt} (hr : isReport st = false) (h : ∀ m, rwS hit m st = (m, .nil, st)) : Stable hit .nil st := by
  refine ⟨hr, fun m b => ?_⟩
  simp [Stmts.app, rws, h, hr]

theorem stable_pre {pid : Nat} {pre : List (TName × Expr)} {snaps : Exprs} {st : Stmt} (hr : isReport st = false) (h : (∀ p ∈ pre, hits hit p.2 = 0) ∧ hitss hit snaps = 0) :
    Stable hit (preStmts pid pre snaps) st := by
  refine ⟨hr, fun m b => ?_⟩
  rw [rws_pre m pid pre snaps st b h.1 h.2, hr]

theorem injPost_twice (n m : Nat) (post : Stmts) (h : post = .nil ∨ ∃ c, post = .cons (.simple c) .nil ∧ srcE c.val) :
    injPost hit m (injPost hit n post).2 = (m, (injPost hit n post).2) := by
  rcases h with rfl | ⟨c, rfl, -⟩
  · rfl
  · simp only [injPost]
    cases hi : inj hit n c.val with
    | none =>
      have := (inj_none m c.val).2 ((inj_none n c.val).1 hi)
      simp [this]
    | some i =>
      dsimp only
      cases hp : i.pre with
      | nil => simp only [preStmts, Stmts.app]
      | cons p pre => obtain ⟨t, e⟩ := p; simp only [preStmts, Stmts.app]

mutual
theorem rwS_twice : ∀ (st : Stmt) (n : Nat), src st → once hit st → Stable hit (rwS hit n st).2.1 (rwS hit n st).2.2
  | .simple c, n, _, h => by
    simp only [rwS]
    cases hi : inj hit n c.val with
    | none =>
      have h0 := fun m => (inj_none m c.val).2 ((inj_none n c.val).1 hi)
      exact stable_nil rfl fun m => by simp [rwS, place1, h0]
    | some i => exact stable_pre rfl (inj_clean n c.val i hi h)
  | .ret e, n, _, h => by
    simp only [rwS]
    cases hi : inj hit n e with
    | none =>
      have h0 := fun m => (inj_none m e).2 ((inj_none n e).1 hi)
      exact stable_nil rfl fun m => by simp [rwS, place1, h0]
    | some i => exact stable_pre rfl (inj_clean n e i hi h)
  | .brk, n, _, _ => stable_nil rfl fun _ => rfl
  | .cont, n, _, _ => stable_nil rfl fun _ => rfl
  | .block b, n, hs, h => stable_nil rfl fun m => by simp only [rwS, rws_twice b n m hs h]
  | .ifs init cond body els, n, hs, h => by
    simp only [rwS]
    cases hi : injInit hit n init cond with
    | none =>
      have h0 := fun m => injInit_none' (hit := hit) m hi
      refine stable_nil rfl fun m => ?_
      simp [rwS, place1, h0, rws_twice body _ _ hs.2.2.1 h.2.1, rwElse_twice els _ _ hs.2.2.2 h.2.2]
    | some i => exact stable_pre rfl (injInit_clean n init cond i hi h.1)
  | .loop init cond post body, n, hs, h => by
    simp only [rwS]
    cases hi : injInit hit n init cond with
    | none =>
      have h0 := fun m => injInit_none' (hit := hit) m hi
      refine stable_nil rfl fun m => ?_
      simp [rwS, place1, h0, injPost_twice _ _ post hs.2.2.1, rws_twice body _ _ hs.2.2.2 h.2.2]
    | some i => exact stable_pre rfl (injInit_clean n init cond i hi h.1)
  | .range x e body, n, hs, h => by
    simp only [rwS]
    cases hi : inj hit n e with
    | none =>
      have h0 := fun m => (inj_none m e).2 ((inj_none n e).1 hi)
      exact stable_nil rfl fun m => by simp [rwS, place1, h0, rws_twice body _ _ hs.2 h.2]
    | some i => exact stable_pre rfl (inj_clean n e i hi h.1)
  | .switch init tag cs, n, hs, h => by
    simp only [rwS]
    cases hi : injInit hit n init tag with
    | none =>
      have h0 := fun m => injInit_none' (hit := hit) m hi
      refine stable_nil rfl fun m => ?_
      simp [rwS, place1, h0, rwCl_twice cs _ _ hs.2.2 h.2]
    | some i => exact stable_pre rfl (injInit_clean n init tag i hi h.1)
  | .select comms choice cs, n, hs, h => by
    simp only [rwS]
    cases hi : injFirst hit n comms with
    | none =>
      have h0 := fun m => (injFirst_none m comms).2 ((injFirst_none n comms).1 hi)
      refine stable_nil rfl fun m => ?_
      simp [rwS, place1, h0, rwCl_twice cs _ _ hs.2 h.2]
    | some i => exact stable_pre rfl (injFirst_clean n comms i hi h.1)
  | .labeled s, n, _, _ => stable_nil rfl fun _ => rfl
  | .later go id r args, n, _, _ => by
    simp only [rwS]
    split
    · exact stable_nil rfl fun _ => rfl
    · rename_i hid; exact stable_nil rfl fun m => by simp [rwS, hid]
  | .setTmp _ _, _, h, _ => absurd h (by simp [src])
  | .report _ _, _, h, _ => absurd h (by simp [src])
  | .laterLit _ _, _, h, _ => absurd h (by simp [src])
theorem rws_twice : ∀ (b : Stmts) (n m : Nat), srcs b → onces hit b → rws hit m false (rws hit n false b).2 = (m, (rws hit n false b).2)
  | .nil, _, _, _, _ => rfl
  | .cons st b, n, m, hs, h => by
    obtain ⟨h1, h2⟩ := rwS_twice st n hs.1 h.1
    simp only [rws, Bool.false_eq_true, if_false, h1]
    rw [h2, rws_twice b _ _ hs.2 h.2]
theorem rwElse_twice : ∀ (els : Else) (n m : Nat), srcElse els → onceElse hit els → rwElse hit m (rwElse hit n els).2 = (m, (rwElse hit n els).2)
  | .none, _, _, _, _ => rfl
  | .block b, n, m, hs, h => by simp only [rwElse, rws_twice b n m hs h]
  | .elseIf init cond body els, n, m, hs, h => by simp only [rwElse, rws_twice body n m hs.2.2.1 h]
theorem rwCl_twice : ∀ (cs : Clauses) (n m : Nat), srcCl cs → onceCl hit cs → rwCl hit m (rwCl hit n cs).2 = (m, (rwCl hit n cs).2)
  | .nil, _, _, _, _ => rfl
  | .cons body cs, n, m, hs, h => by simp only [rwCl, rws_twice body n m hs.1 h.1, rwCl_twice cs _ m hs.2 h.2]
end

/-! ### Point numbers -/

theorem pidss_app (a b : Stmts) : pidss (a.app b) = pidss a ++ pidss b := by
  induction a using Stmts.rec (motive_1 := fun _ => True) (motive_3 := fun _ => True) (motive_4 := fun _ => True) with
  | nil => rfl
  | cons s b _ ih => simp [Stmts.app, pidss, ih]
  | _ => trivial

theorem pidss_preStmts (pid : Nat) (pre : List (TName × Expr)) (snaps : Exprs) : pidss (preStmts pid pre snaps) = [pid] := by
  induction pre with
  | nil => simp [preStmts, pidss, pids]
  | cons p pre ih => obtain ⟨t, e⟩ := p; simp [preStmts, pidss, pids, ih]

/-- `l` are the numbers from `n` up to `m`. -/
def Run (n m : Nat) (l : List Nat) : Prop := n ≤ m ∧ l = List.range' n (m - n)

theorem Run.refl (n : Nat) : Run n n [] := ⟨Nat.le_refl _, by simp⟩

theorem Run.one (n : Nat) : Run n (n + 1) [n] := ⟨Nat.le_succ _, by simp⟩

theorem Run.app {a b c : Nat} {l k : List Nat} (h1 : Run a b l) (h2 : Run b c k) : Run a c (l ++ k) := by
  obtain ⟨h1, rfl⟩ := h1
  obtain ⟨h2, rfl⟩ := h2
  refine ⟨by omega, ?_⟩
  have hb : b = a + (b - a) := by omega
  have hc : c - a = (b - a) + (c - b) := by omega
  rw [hc, ← List.range'_append_1, ← hb]

theorem place1_run {α : Type} (n : Nat) (r : Option (Inj α)) (o : α) : Run n (place1 n r o).1 (pidss (place1 n r o).2.1) := by
  cases r with
  | none => exact Run.refl n
  | some i => simp only [place1, pidss_preStmts]; exact Run.one n

theorem injPost_run (n : Nat) (post : Stmts) (h : post = .nil ∨ ∃ c, post = .cons (.simple c) .nil ∧ srcE c.val) : Run n (injPost hit n post).1 (pidss (injPost hit n post).2) := by
  rcases h with rfl | ⟨c, rfl, -⟩
  · exact Run.refl n
  · simp only [injPost]
    cases inj hit n c.val with
    | none => simp only [pidss, pids, List.append_nil]; exact Run.refl n
    | some i => simp only [pidss_app, pidss_preStmts, pidss, pids, List.append_nil]; exact Run.one n

mutual
theorem src_pids : ∀ s : Stmt, src s → pids s = []
  | .simple _, _ => rfl
  | .ret _, _ => rfl
  | .brk, _ => rfl
  | .cont, _ => rfl
  | .block b, h => by simp only [pids]; exact srcs_pids b h
  | .ifs _ _ body els, h => by simp [pids, srcs_pids body h.2.2.1, srcElse_pids els h.2.2.2]
  | .loop _ _ post body, h => by
    have hp : pidss post = [] := by
      rcases h.2.2.1 with rfl | ⟨c, rfl, -⟩ <;> rfl
    simp [pids, hp, srcs_pids body h.2.2.2]
  | .range _ _ body, h => by simp [pids, srcs_pids body h.2]
  | .switch _ _ cs, h => by simp [pids, srcCl_pids cs h.2.2]
  | .select _ _ cs, h => by simp [pids, srcCl_pids cs h.2]
  | .labeled s, h => by simp only [pids]; exact src_pids s h
  | .later _ _ _ _, _ => rfl
  | .setTmp _ _, h => absurd h (by simp [src])
  | .report _ _, h => absurd h (by simp [src])
  | .laterLit _ _, h => absurd h (by simp [src])
theorem srcs_pids : ∀ b : Stmts, srcs b → pidss b = []
  | .nil, _ => rfl
  | .cons s b, h => by simp [pidss, src_pids s h.1, srcs_pids b h.2]
theorem srcElse_pids : ∀ e : Else, srcElse e → pidsElse e = []
  | .none, _ => rfl
  | .block b, h => by simp only [pidsElse]; exact srcs_pids b h
  | .elseIf _ _ body els, h => by simp [pidsElse, srcs_pids body h.2.2.1, srcElse_pids els h.2.2.2]
theorem srcCl_pids : ∀ c : Clauses, srcCl c → pidsCl c = []
  | .nil, _ => rfl
  | .cons body cs, h => by simp [pidsCl, srcs_pids body h.1, srcCl_pids cs h.2]
end

mutual
theorem rwS_run : ∀ (st : Stmt) (n : Nat), src st → Run n (rwS hit n st).1 (pidss (rwS hit n st).2.1 ++ pids (rwS hit n st).2.2)
  | .simple c, n, _ => by simp only [rwS, pids, List.append_nil]; exact place1_run n _ _
  | .ret e, n, _ => by simp only [rwS, pids, List.append_nil]; exact place1_run n _ _
  | .brk, n, _ => Run.refl n
  | .cont, n, _ => Run.refl n
  | .block b, n, h => by simp only [rwS, pids, pidss, List.nil_append]; exact rws_run b n h
  | .ifs init cond body els, n, h => by
    simp only [rwS, pids]
    exact (place1_run n _ _).app ((rws_run body _ h.2.2.1).app (rwElse_run els _ h.2.2.2))
  | .loop init cond post body, n, h => by
    simp only [rwS, pids]
    exact (place1_run n _ _).app ((injPost_run _ post h.2.2.1).app (rws_run body _ h.2.2.2))
  | .range x e body, n, h => by
    simp only [rwS, pids]
    exact (place1_run n _ _).app (rws_run body _ h.2)
  | .switch init tag cs, n, h => by
    simp only [rwS, pids]
    exact (place1_run n _ _).app (rwCl_run cs _ h.2.2)
  | .select comms choice cs, n, h => by
    simp only [rwS, pids]
    exact (place1_run n _ _).app (rwCl_run cs _ h.2)
  | .labeled s, n, h => by simp only [rwS, pidss, List.nil_append]; rw [src_pids (.labeled s) h]; exact Run.refl n
  | .later go id r args, n, _ => by
    simp only [rwS]
    split
    · simp only [pidss, pids, pidss_app, pidss_preStmts, List.append_nil, List.nil_append]; exact Run.one n
    · exact Run.refl n
  | .setTmp _ _, _, h => absurd h (by simp [src])
  | .report _ _, _, h => absurd h (by simp [src])
  | .laterLit _ _, _, h => absurd h (by simp [src])
theorem rws_run : ∀ (b : Stmts) (n : Nat), srcs b → Run n (rws hit n false b).1 (pidss (rws hit n false b).2)
  | .nil, n, _ => Run.refl n
  | .cons st b, n, h => by
    have hr : isReport (rwS hit n st).2.2 = false := by
      cases st with
      | report pid snaps => exact absurd h.1 (by simp [src])
      | later go id r args => simp only [rwS]; split <;> rfl
      | _ => rfl
    simp only [rws, Bool.false_eq_true, if_false, hr, pidss_app, pidss]
    rw [← List.append_assoc]
    exact (rwS_run st n h.1).app (rws_run b _ h.2)
theorem rwElse_run : ∀ (els : Else) (n : Nat), srcElse els → Run n (rwElse hit n els).1 (pidsElse (rwElse hit n els).2)
  | .none, n, _ => Run.refl n
  | .block b, n, h => by simp only [rwElse, pidsElse]; exact rws_run b n h
  | .elseIf init cond body els, n, h => by
    simp only [rwElse, pidsElse, srcElse_pids els h.2.2.2, List.append_nil]
    exact rws_run body n h.2.2.1
theorem rwCl_run : ∀ (cs : Clauses) (n : Nat), srcCl cs → Run n (rwCl hit n cs).1 (pidsCl (rwCl hit n cs).2)
  | .nil, n, _ => Run.refl n
  | .cons body cs, n, h => by
    simp only [rwCl, pidsCl]
    exact (rws_run body n h.1).app (rwCl_run cs _ h.2)
end

end Verif.Calls
