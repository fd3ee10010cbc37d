import Verif.Returns.Build

/-! One instrumented `return`, and then whole bodies. -/

namespace Verif.Returns

variable (I : Interp) (sig : Sig) (early : Rets → Nat → Bool) (N : Nat)

/-- One more event, a good report. -/
def Reported (r : Rets) (vis : List Var) (pid : Nat) (vs : List Val) (env : Env) (evs evs' : List Ev) : Prop :=
  ∃ fields, evs' = evs ++ [.report pid fields] ∧ ReportOk sig r vis env vs fields

theorem foldl_set (vs : List Val) : ∀ (n : Nat) (t : Tmps) (i : Nat), i < n →
    ((List.range n).foldl (fun t i => t.set (.ret i) (vs.getD i nilVal)) t) (.ret i) = vs.getD i nilVal := by
  intro n
  induction n with
  | zero => intro t i h; omega
  | succ n ih =>
      intro t i h
      rw [List.range_succ, List.foldl_append]
      simp only [List.foldl_cons, List.foldl_nil]
      by_cases hi : i = n
      · subst hi; exact set_same _ _ _
      · rw [set_other _ _ (by simpa using hi)]
        exact ih t i (by omega)

/-- A list of distinct variables, reported. -/
theorem vars_nodup {l : List Var} (h : l.Nodup) : (l.map FName.var).Nodup :=
  List.nodup_iff_pairwise_ne.mpr (List.pairwise_map.mpr ((List.nodup_iff_pairwise_ne.mp h).imp fun hne he => hne (by injection he)))

theorem namedVals_all (env : Env) : ∀ sig : Sig, sig.all (fun n => n.join.isSome) = true → (sig.filterMap fun n => n.join).map env = namedVals sig env := by
  intro sig
  induction sig with
  | nil => intro _; rfl
  | cons n sig ih =>
      intro h
      rw [List.all_cons, Bool.and_eq_true] at h
      rcases n with _ | _ | x
      · exact absurd h.1 (by simp)
      · exact absurd h.1 (by simp)
      · have := ih h.2
        simp only [List.filterMap_cons, namedVals, List.map_cons] at this ⊢
        simp only [Option.join_some, List.map_cons, this]

theorem mem_named {sig : Sig} {x : Var} : x ∈ (sig.filterMap fun n => n.join) ↔ some (some x) ∈ sig := by
  simp only [List.mem_filterMap]
  constructor
  · rintro ⟨a, ha, h⟩
    rcases a with _ | _ | y
    · cases h
    · cases h
    · simp only [Option.join_some, Option.some.injEq] at h; subst h; exact ha
  · intro h; exact ⟨_, h, rfl⟩

theorem buildReturn_run (lbl : Option Nat) (r : Rets) (vis : List Var) (pid : Nat) (hr : srcR sig r) (s s' : State) (h : s'.env = s.env) :
    Rel (Reported sig r vis pid) (some (evalRet I sig (inTurn r) r s)) (den I sig early N lbl (buildReturn sig r vis pid) s') := by
  obtain ⟨d1, d2, d3⟩ := dedupe_spec vis []
  have snapIn : ∀ x ∈ vis, x ∈ dedupe vis [] := fun x hx => (d3 x hx).resolve_left (by simp)
  cases r with
  | naked =>
      by_cases hn : allNamed sig = true
      · obtain ⟨n1, n2, n3⟩ := dedupe_spec (sig.filterMap fun n => n.join) (dedupe vis [])
        have hok : ReportOk sig .naked vis s.env (namedVals sig s.env)
            (((dedupe vis []).map (fun x => ((.var x, .var x) : FName × GExpr)) ++ (dedupe (sig.filterMap fun n => n.join) (dedupe vis [])).map fun x => ((.var x, .var x) : FName × GExpr)).map fun f => (f.1, gval s' f.2)) := by
          refine ⟨fun x hx => ?_, fun x hx => ?_, ?_, ?_⟩
          · simp only [List.map_append, List.map_map, List.mem_append, List.mem_map]
            exact Or.inl ⟨x, snapIn x hx, by simp [gval, h]⟩
          · simp only [List.map_append, List.map_map, List.mem_append, List.mem_map]
            rcases n3 x (mem_named.mpr hx) with h1 | h1
            · exact Or.inl ⟨x, h1, by simp [gval, h]⟩
            · exact Or.inr ⟨x, h1, by simp [gval, h]⟩
          · have e : (((dedupe vis []).map (fun x => ((.var x, .var x) : FName × GExpr)) ++ (dedupe (sig.filterMap fun n => n.join) (dedupe vis [])).map fun x => ((.var x, .var x) : FName × GExpr)).map fun f => (f.1, gval s' f.2)).map Prod.fst
                = (dedupe vis [] ++ dedupe (sig.filterMap fun n => n.join) (dedupe vis [])).map FName.var := by
              simp [List.map_append, List.map_map, Function.comp_def]
            rw [e]
            refine vars_nodup (List.nodup_append.mpr ⟨d1, n1, fun a ha b hb hab => ?_⟩)
            subst hab
            exact (n2 a hb).2 ha
          · intro f hf
            simp only [List.map_append, List.map_map, List.mem_append, List.mem_map] at hf
            rcases hf with ⟨x, hx, rfl⟩ | ⟨x, hx, rfl⟩
            · exact ⟨by simp [gval, h], Or.inl (d2 x hx).1⟩
            · exact ⟨by simp [gval, h], Or.inr (mem_named.mp (n2 x hx).1)⟩
        simp only [buildReturn, hn, if_true]
        by_cases ha : sig.all (fun n => n.join.isSome) = true
        · simp only [ha, if_true, den, Stmts.ofList, dens, after, evalRet, Option.map_some]
          refine ⟨?_, h, _, rfl, hok⟩
          rw [List.map_map, ← namedVals_all s.env sig ha]
          simp only [Function.comp_def, gval, h]
        · rw [if_neg ha]
          simp only [den, Stmts.ofList, dens, after, evalRet, Option.map_some]
          exact ⟨by rw [h], h, _, rfl, hok⟩
      · have hs : sig = [] := hr.resolve_left hn
        subst hs
        simp only [buildReturn, hn]
        simp only [den, Stmts.ofList, dens, after, evalRet, Option.map_some]
        refine ⟨by simp [namedVals], h, _, rfl, ?_⟩
        refine ⟨fun x hx => ?_, fun x hx => by simp at hx, ?_, ?_⟩
        · simp only [List.map_map, List.mem_map]
          exact ⟨x, snapIn x hx, by simp [gval, h]⟩
        · have e : (((dedupe vis []).map (fun x => ((.var x, .var x) : FName × GExpr))).map fun f => (f.1, gval s' f.2)).map Prod.fst = (dedupe vis []).map FName.var := by
            simp [List.map_map, Function.comp_def]
          rw [e]; exact vars_nodup d1
        · intro f hf
          simp only [List.map_map, List.mem_map] at hf
          obtain ⟨x, hx, rfl⟩ := hf
          exact ⟨by simp [gval, h], Or.inl (d2 x hx).1⟩
  | multi id =>
      simp only [buildReturn, den, Stmts.ofList, dens, evalRet, opaque_, h]
      cases hv : (I id s.env).vals with
      | none => exact ⟨rfl, rfl, rfl⟩
      | some vs =>
          simp only [after, Option.map_some]
          have hg : ∀ i, i < sig.length → ((List.range sig.length).foldl (fun t i => t.set (.ret i) (vs.getD i nilVal)) s'.tmps) (.ret i) = vs.getD i nilVal := foldl_set vs sig.length s'.tmps
          refine ⟨?_, rfl, ?_⟩
          · rw [List.map_map, List.map_map]
            congr 1
            refine List.map_congr_left fun i hi => ?_
            simp only [Function.comp_def, gval]
            exact hg i (List.mem_range.mp hi)
          · refine ⟨_, rfl, ?_⟩
            refine ⟨fun x hx => ?_, fun i v hi => ?_, ?_, ?_⟩
            · simp only [List.map_append, List.map_map, List.mem_append, List.mem_map]
              exact Or.inl ⟨x, snapIn x hx, by simp [gval]⟩
            · simp only [List.map_append, List.map_map, List.mem_append, List.mem_map]
              simp only [List.getElem?_map, Option.map_eq_some_iff] at hi
              obtain ⟨j, hj, rfl⟩ := hi
              have hj' := List.getElem?_eq_some_iff.mp hj
              obtain ⟨hlt, he⟩ := hj'
              simp only [List.getElem_range] at he
              subst he
              simp only [List.length_range] at hlt
              exact Or.inr ⟨i, List.mem_range.mpr hlt, by simp only [Function.comp_def, gval]; rw [hg i hlt]⟩
            · have e : (((dedupe vis []).map (fun x => ((.var x, .var x) : FName × GExpr)) ++ (List.range sig.length).map fun i => ((.ret i, .tmp (.ret i)) : FName × GExpr)).map
                  fun f => (f.1, gval ⟨(I id s.env).env, (List.range sig.length).foldl (fun t i => t.set (.ret i) (vs.getD i nilVal)) s'.tmps⟩ f.2)).map Prod.fst
                  = (dedupe vis []).map FName.var ++ (List.range sig.length).map FName.ret := by
                simp [List.map_append, List.map_map, Function.comp_def]
              rw [e]
              refine List.nodup_append.mpr ⟨vars_nodup d1, ?_, ?_⟩
              · exact List.nodup_iff_pairwise_ne.mpr (List.pairwise_map.mpr ((List.nodup_iff_pairwise_ne.mp List.nodup_range).imp fun hne he => hne (by injection he)))
              · intro a ha b hb hab
                subst hab
                obtain ⟨x, _, rfl⟩ := List.mem_map.mp ha
                obtain ⟨i, _, hi⟩ := List.mem_map.mp hb
                cases hi
            · intro f hf
              simp only [List.map_append, List.map_map, List.mem_append, List.mem_map] at hf
              rcases hf with ⟨x, hx, rfl⟩ | ⟨i, hi, rfl⟩
              · exact ⟨by simp [gval], Or.inl (d2 x hx).1⟩
              · have hlt := List.mem_range.mp hi
                simp only [Function.comp_def, gval]
                rw [hg i hlt]
                simp [hlt]
  | exprs es =>
      have hrun := buildEach_run I sig early N (inTurn (.exprs es)) es 0 (dedupe vis []) s s' h
        (fun j x b hj => by simp only [Nat.zero_add, inTurn, hj])
      obtain ⟨f1, f2, f3⟩ := buildEach_fields es 0 (dedupe vis [])
      have hg := buildEach_g es 0 (dedupe vis [])
      simp only [buildReturn, den]
      rw [ofList_append]
      simp only [evalRet]
      cases hx : evalFirst I (inTurn (.exprs es)) 0 es s with
      | mk r x =>
          obtain ⟨t, evs⟩ := x
          rw [hx] at hrun
          cases r with
          | none =>
              obtain ⟨t', ht, hd⟩ := hrun
              rw [dens_append_other I sig early N _ _ (by rw [hd]; simp), hd]
              exact ⟨rfl, ht, rfl⟩
          | some l =>
              obtain ⟨t', ht, hd, -, hgs⟩ := hrun
              rw [dens_append_normal I sig early N _ _ hd]
              simp only [Stmts.ofList, dens, den, after, Option.map_some]
              -- the value of the `j`-th result
              have hval : ∀ (j : Nat) (e : Expr), es[j]? = some e → (readLate t.env l)[j]? = some (gval t' (gOf j e)) := by
                intro j e hj
                rw [← hgs, List.getElem?_map, hg j, hj]
                simp
              refine ⟨by rw [hgs], ht, _, by simp only [List.append_nil]; rfl, ?_⟩
              refine ⟨fun x hx => ?_, fun j e v hj hv => ?_, ?_, ?_⟩
              · simp only [List.map_append, List.map_map, List.mem_append, List.mem_map]
                exact Or.inl ⟨x, snapIn x hx, by simp [gval, ht]⟩
              · rw [hval j e hj, Option.some.injEq] at hv
                have hf := f3 j e hj
                simp only [Nat.zero_add] at hf
                have inF : ∀ f : FName × GExpr, f ∈ (buildEach 0 es (dedupe vis [])).2.2 →
                    (f.1, gval t' f.2) ∈ (((dedupe vis []).map fun x => ((.var x, .var x) : FName × GExpr)) ++ (buildEach 0 es (dedupe vis [])).2.2).map fun f => (f.1, gval t' f.2) :=
                  fun f hf => List.mem_map.mpr ⟨f, List.mem_append_right _ hf, rfl⟩
                rcases e with ⟨x, _ | _⟩ | ⟨_ | _⟩ | ⟨w, _ | _⟩ | ⟨id, _ | _⟩ <;> simp only [gOf] at hv hf ⊢
                · rcases hf with hf | hf
                  · refine List.mem_map.mpr ⟨(.var x, .var x), List.mem_append_left _ (List.mem_map.mpr ⟨x, hf, rfl⟩), ?_⟩
                    rw [hv]
                  · rw [← hv]; exact inF _ hf
                · rw [← hv]; exact inF _ hf
                · rw [← hv]; rfl
                · rw [← hv]; exact inF _ hf
                · rw [← hv]; exact inF _ hf
                · rw [← hv]; exact inF _ hf
                · rw [← hv]; exact inF _ hf
                · rw [← hv]; exact inF _ hf
              · have e : ((((dedupe vis []).map fun x => ((.var x, .var x) : FName × GExpr)) ++ (buildEach 0 es (dedupe vis [])).2.2).map fun f => (f.1, gval t' f.2)).map Prod.fst
                    = (dedupe vis []).map FName.var ++ (buildEach 0 es (dedupe vis [])).2.2.map Prod.fst := by
                  simp [List.map_append, List.map_map, Function.comp_def]
                rw [e]
                refine List.nodup_append.mpr ⟨vars_nodup d1, f1, ?_⟩
                intro a ha b hb hab
                subst hab
                obtain ⟨x, hx, rfl⟩ := List.mem_map.mp ha
                obtain ⟨f, hf, hfe⟩ := List.mem_map.mp hb
                have := (f2 f hf).1
                rw [hfe] at this
                exact this hx
              · intro f hf
                obtain ⟨g, hg', rfl⟩ := List.mem_map.mp hf
                rcases List.mem_append.mp hg' with hg' | hg'
                · obtain ⟨x, hx, rfl⟩ := List.mem_map.mp hg'
                  exact ⟨by simp [gval, ht], Or.inl (d2 x hx).1⟩
                · rcases (f2 g hg').2 with ⟨x, rfl, hxe⟩ | ⟨j, e, hj, ⟨rfl, hge⟩ | ⟨rfl, hge⟩⟩
                  · exact ⟨by simp [gval, ht], Or.inr hxe⟩
                  · simp only [Nat.zero_add] at hge ⊢
                    rw [hval j e hj, hge]
                  · simp only [Nat.zero_add] at hge ⊢
                    rw [hval j e hj, hge]

/-! ### Bodies -/

mutual
/-- The returns the rewriting finds. -/
def visited : Stmt → List (Rets × List Var)
  | .ret r vis => [(r, vis)]
  | .block b => visiteds b
  | .ifs _ body els => visiteds body ++
    match els with
    | .none => []
    | .block b => visiteds b
    | .elseIf _ b _ => visiteds b
  | .loop _ _ body => visiteds body
  | .switch _ cs => visitedCl cs
  | _ => []
def visiteds : Stmts → List (Rets × List Var)
  | .nil => []
  | .cons s b => visited s ++ visiteds b
def visitedCl : Clauses → List (Rets × List Var)
  | .nil => []
  | .cons body _ cs => visiteds body ++ visitedCl cs
end

mutual
theorem visited_sub (st : Stmt) (p : Rets × List Var) (h : p ∈ visited st) : p ∈ rets st := by
  match st, h with
  | .ret _ _, h => exact h
  | .block b, h => simp only [visited, rets] at h ⊢; exact visiteds_sub b p h
  | .ifs _ body .none, h =>
      simp only [visited, rets, List.mem_append] at h ⊢
      exact h.imp (visiteds_sub body p) (by simp)
  | .ifs _ body (.block b), h =>
      simp only [visited, rets, List.mem_append, retsElse] at h ⊢
      exact h.imp (visiteds_sub body p) (visiteds_sub b p)
  | .ifs _ body (.elseIf _ b e), h =>
      simp only [visited, rets, List.mem_append, retsElse] at h ⊢
      exact h.imp (visiteds_sub body p) fun h => Or.inl (visiteds_sub b p h)
  | .loop _ _ body, h => simp only [visited, rets] at h ⊢; exact visiteds_sub body p h
  | .switch _ cs, h => simp only [visited, rets] at h ⊢; exact visitedCl_sub cs p h
  | .simple _, h => simp [visited] at h
  | .select _ _, h => simp [visited] at h
  | .labeled _ _, h => simp [visited] at h
  | .brk _, h => simp [visited] at h
  | .cont _, h => simp [visited] at h
  | .setTmp _ _, h => simp [visited] at h
  | .setTmps _ _, h => simp [visited] at h
  | .report _ _, h => simp [visited] at h
  | .retG _, h => simp [visited] at h
theorem visiteds_sub (b : Stmts) (p : Rets × List Var) (h : p ∈ visiteds b) : p ∈ retss b := by
  match b, h with
  | .nil, h => exact h
  | .cons s b, h =>
      simp only [visiteds, retss, List.mem_append] at h ⊢
      exact h.imp (visited_sub s p) (visiteds_sub b p)
theorem visitedCl_sub (cs : Clauses) (p : Rets × List Var) (h : p ∈ visitedCl cs) : p ∈ retsCl cs := by
  match cs, h with
  | .nil, h => exact h
  | .cons body _ cs, h =>
      simp only [visitedCl, retsCl, List.mem_append] at h ⊢
      exact h.imp (visiteds_sub body p) (visitedCl_sub cs p)
end

mutual
theorem visited_covered (st : Stmt) (h : covered st) : visited st = rets st := by
  match st, h with
  | .simple _, _ => rfl
  | .ret _ _, _ => rfl
  | .block b, h => simp only [covered] at h; simp only [visited, rets]; exact visiteds_covered b h
  | .ifs _ body .none, h =>
      simp only [covered] at h; simp only [visited, rets, retsElse]; rw [visiteds_covered body h.1]
  | .ifs _ body (.block b), h =>
      simp only [covered] at h; simp only [visited, rets, retsElse]; rw [visiteds_covered body h.1, visiteds_covered b h.2]
  | .ifs _ body (.elseIf _ b e), h =>
      simp only [covered] at h; simp only [visited, rets, retsElse]; rw [visiteds_covered body h.1, visiteds_covered b h.2.1, h.2.2, List.append_nil]
  | .loop _ _ body, h => simp only [covered] at h; simp only [visited, rets]; exact visiteds_covered body h
  | .switch _ cs, h => simp only [covered] at h; simp only [visited, rets]; exact visitedCl_covered cs h
  | .select _ cs, h => simp only [covered] at h; simp only [visited, rets, h]
  | .labeled _ s, h => simp only [covered] at h; simp only [visited, rets, h]
  | .brk _, _ => rfl
  | .cont _, _ => rfl
  | .setTmp _ _, _ => rfl
  | .setTmps _ _, _ => rfl
  | .report _ _, _ => rfl
  | .retG _, _ => rfl
theorem visiteds_covered (b : Stmts) (h : covereds b) : visiteds b = retss b := by
  match b, h with
  | .nil, _ => rfl
  | .cons s b, h => simp only [covereds] at h; simp only [visiteds, retss]; rw [visited_covered s h.1, visiteds_covered b h.2]
theorem visitedCl_covered (cs : Clauses) (h : coveredCl cs) : visitedCl cs = retsCl cs := by
  match cs, h with
  | .nil, _ => rfl
  | .cons body _ cs, h => simp only [coveredCl] at h; simp only [visitedCl, retsCl]; rw [visiteds_covered body h.1, visitedCl_covered cs h.2]
end

theorem isEmpty_or {α : Type} (a b : List α) : (!a.isEmpty || !b.isEmpty) = !(a ++ b).isEmpty := by
  cases a <;> simp

theorem rw_if_block (c : Nat) (body b : Stmts) (n : Nat) : rw_ sig (.ifs c body (.block b)) n =
    (.ifs c (rws sig body n).1 (.block (rws sig b (rws sig body n).2.1).1), (rws sig b (rws sig body n).2.1).2.1, (rws sig body n).2.2 || (rws sig b (rws sig body n).2.1).2.2) := rfl

theorem rw_if_elseIf (c d : Nat) (body b : Stmts) (e : Else) (n : Nat) : rw_ sig (.ifs c body (.elseIf d b e)) n =
    (.ifs c (rws sig body n).1 (.elseIf d (rws sig b (rws sig body n).2.1).1 e), (rws sig b (rws sig body n).2.1).2.1, (rws sig body n).2.2 || (rws sig b (rws sig body n).2.1).2.2) := rfl

theorem rws_cons (s : Stmt) (b : Stmts) (n : Nat) : rws sig (.cons s b) n =
    (.cons (rw_ sig s n).1 (rws sig b (rw_ sig s n).2.1).1, (rws sig b (rw_ sig s n).2.1).2.1, (rw_ sig s n).2.2 || (rws sig b (rw_ sig s n).2.1).2.2) := rfl

theorem rwCl_cons (body : Stmts) (ft : Bool) (cs : Clauses) (n : Nat) : rwCl sig (.cons body ft cs) n =
    (.cons (rws sig body n).1 ft (rwCl sig cs (rws sig body n).2.1).1, (rwCl sig cs (rws sig body n).2.1).2.1, (rws sig body n).2.2 || (rwCl sig cs (rws sig body n).2.1).2.2) := rfl

mutual
/-- Ids are taken in order, one for each return found. -/
theorem rw_count (st : Stmt) (n : Nat) : (rw_ sig st n).2 = (n + (visited st).length, !(visited st).isEmpty) := by
  match st with
  | .simple _ => simp [rw_, visited]
  | .ret _ _ => simp [rw_, visited]
  | .block b =>
      have := rws_count b n
      simp only [rw_, visited]
      rw [show ((rws sig b n).2.1, (rws sig b n).2.2) = (rws sig b n).2 from rfl, this]
  | .ifs _ body .none =>
      have := rws_count body n
      simp only [rw_, visited, List.append_nil]
      rw [show ((rws sig body n).2.1, (rws sig body n).2.2) = (rws sig body n).2 from rfl, this]
  | .ifs _ body (.block b) =>
      have h1 := rws_count body n
      have h2 := rws_count b (n + (visiteds body).length)
      rw [rw_if_block]; simp only [visited]
      rw [h1]
      simp only
      rw [h2]
      simp [Nat.add_assoc, isEmpty_or]
  | .ifs _ body (.elseIf _ b _) =>
      have h1 := rws_count body n
      have h2 := rws_count b (n + (visiteds body).length)
      rw [rw_if_elseIf]; simp only [visited]
      rw [h1]
      simp only
      rw [h2]
      simp [Nat.add_assoc, isEmpty_or]
  | .loop _ _ body =>
      have := rws_count body n
      simp only [rw_, visited]
      rw [show ((rws sig body n).2.1, (rws sig body n).2.2) = (rws sig body n).2 from rfl, this]
  | .switch _ cs =>
      have := rwCl_count cs n
      simp only [rw_, visited]
      rw [show ((rwCl sig cs n).2.1, (rwCl sig cs n).2.2) = (rwCl sig cs n).2 from rfl, this]
  | .select _ _ => simp [rw_, visited]
  | .labeled _ _ => simp [rw_, visited]
  | .brk _ => simp [rw_, visited]
  | .cont _ => simp [rw_, visited]
  | .setTmp _ _ => simp [rw_, visited]
  | .setTmps _ _ => simp [rw_, visited]
  | .report _ _ => simp [rw_, visited]
  | .retG _ => simp [rw_, visited]
theorem rws_count (b : Stmts) (n : Nat) : (rws sig b n).2 = (n + (visiteds b).length, !(visiteds b).isEmpty) := by
  match b with
  | .nil => simp [rws, visiteds]
  | .cons s b =>
      have h1 := rw_count s n
      have h2 := rws_count b (n + (visited s).length)
      rw [rws_cons]; simp only [visiteds]
      rw [h1]
      simp only
      rw [h2]
      simp [Nat.add_assoc, isEmpty_or]
theorem rwCl_count (cs : Clauses) (n : Nat) : (rwCl sig cs n).2 = (n + (visitedCl cs).length, !(visitedCl cs).isEmpty) := by
  match cs with
  | .nil => simp [rwCl, visitedCl]
  | .cons body _ cs =>
      have h1 := rws_count body n
      have h2 := rwCl_count cs (n + (visiteds body).length)
      rw [rwCl_cons]; simp only [visitedCl]
      rw [h1]
      simp only
      rw [h2]
      simp [Nat.add_assoc, isEmpty_or]
end

/-- A good report by one of the returns `l`, numbered from `n`; or nothing, if `miss`. -/
def Good (n : Nat) (l : List (Rets × List Var)) (miss : Prop) (vs : List Val) (env : Env) (evs evs' : List Ev) : Prop :=
  (∃ (k : Nat) (r : Rets) (vis : List Var), l[k]? = some (r, vis) ∧ Reported sig r vis (n + k) vs env evs evs') ∨ (miss ∧ evs' = evs)

theorem closed_good (n : Nat) (l : List (Rets × List Var)) (miss : Prop) : Closed (Good sig n l miss) := by
  rintro vs env p evs evs' (⟨k, r, vis, hk, fields, rfl, hf⟩ | ⟨hm, rfl⟩)
  · exact Or.inl ⟨k, r, vis, hk, fields, by simp, hf⟩
  · exact Or.inr ⟨hm, rfl⟩

theorem good_left {n : Nat} {l l' : List (Rets × List Var)} {m m' : Prop} (h : m → m') (vs : List Val) (env : Env) (evs evs' : List Ev)
    (hg : Good sig n l m vs env evs evs') : Good sig n (l ++ l') m' vs env evs evs' := by
  rcases hg with ⟨k, r, vis, hk, hr⟩ | ⟨hm, he⟩
  · refine Or.inl ⟨k, r, vis, ?_, hr⟩
    rw [List.getElem?_append_left (List.getElem?_eq_some_iff.mp hk).1]; exact hk
  · exact Or.inr ⟨h hm, he⟩

theorem good_right {n : Nat} {l l' : List (Rets × List Var)} {m m' : Prop} (h : m → m') (vs : List Val) (env : Env) (evs evs' : List Ev)
    (hg : Good sig (n + l.length) l' m vs env evs evs') : Good sig n (l ++ l') m' vs env evs evs' := by
  rcases hg with ⟨k, r, vis, hk, hr⟩ | ⟨hm, he⟩
  · refine Or.inl ⟨l.length + k, r, vis, ?_, ?_⟩
    · rw [List.getElem?_append_right (by omega), show l.length + k - l.length = k by omega]; exact hk
    · rw [show n + (l.length + k) = n + l.length + k by omega]; exact hr
  · exact Or.inr ⟨h hm, he⟩

/-- The strategy reads the results of these returns as the instrumented program does. -/
def Agrees (l : List (Rets × List Var)) : Prop := ∀ p ∈ l, ∀ s, evalRet I sig (early p.1) p.1 s = evalRet I sig (inTurn p.1) p.1 s

theorem Agrees.left {l l' : List (Rets × List Var)} (h : Agrees I sig early (l ++ l')) : Agrees I sig early l := fun p hp => h p (List.mem_append_left _ hp)
theorem Agrees.right {l l' : List (Rets × List Var)} (h : Agrees I sig early (l ++ l')) : Agrees I sig early l' := fun p hp => h p (List.mem_append_right _ hp)

mutual
theorem den_rw (lbl : Option Nat) (st : Stmt) (h : src sig st) (n : Nat) (ha : Agrees I sig early (visited st)) (s s' : State) (he : s'.env = s.env) :
    Rel (Good sig n (visited st) (¬ covered st)) (den I sig early N lbl st s) (den I sig early N lbl (rw_ sig st n).1 s') := by
  match st, h with
  | .ret r vis, h =>
      simp only [src] at h
      simp only [rw_]
      have := buildReturn_run I sig early N lbl r vis n h s s' he
      rw [← ha (r, vis) (by simp [visited]) s] at this
      exact Rel.mono (fun vs env evs evs' hr => Or.inl ⟨0, r, vis, by simp [visited], hr⟩) this
  | .simple id, h =>
      exact Rel.mono (fun _ _ _ _ hq => Or.inr hq) (den_env I sig early N lbl (.simple id) h (¬ covered (.simple id)) (by simp [rets]) s s' he)
  | .brk l, h =>
      exact Rel.mono (fun _ _ _ _ hq => Or.inr hq) (den_env I sig early N lbl (.brk l) h (¬ covered (.brk l)) (by simp [rets]) s s' he)
  | .cont l, h =>
      exact Rel.mono (fun _ _ _ _ hq => Or.inr hq) (den_env I sig early N lbl (.cont l) h (¬ covered (.cont l)) (by simp [rets]) s s' he)
  | .select sel cs, h =>
      exact Rel.mono (fun _ _ _ _ hq => Or.inr hq) (den_env I sig early N lbl (.select sel cs) h (¬ covered (.select sel cs)) (by simp [rets, covered]) s s' he)
  | .labeled l st, h =>
      exact Rel.mono (fun _ _ _ _ hq => Or.inr hq) (den_env I sig early N lbl (.labeled l st) h (¬ covered (.labeled l st)) (by simp [rets, covered]) s s' he)
  | .block b, h =>
      simp only [src] at h
      simp only [visited] at ha
      have := dens_rw b h n ha s s' he
      simp only [rw_, den, visited, covered]
      exact this
  | .loop cond post body, h =>
      simp only [src] at h
      simp only [visited] at ha
      simp only [rw_, den, visited, covered]
      exact loopN_rel (closed_good sig _ _ _) I lbl cond post _ _ (fun s s' he => dens_rw body h n ha s s' he) N s s' he
  | .switch sel cs, h =>
      simp only [src] at h
      simp only [visited] at ha
      simp only [rw_, den, visited, covered]
      exact opaque_rel I sel he (fun vs s evs => (after evs (denCl I sig early N cs (vs.headD 0) s)).map fun x => (breakOut x.1, x.2)) _
        fun vs s s' evs he => Rel.mapOut breakOut breakOut_ret ((denCl_rw cs h n ha (vs.headD 0) s s' he).after (closed_good sig _ _ _) evs)
  | .ifs cond body .none, h =>
      simp only [src] at h
      simp only [visited] at ha
      simp only [rw_, den, visited]
      refine opaque_rel I cond he (fun vs s evs => if vs.headD 0 = 0 then after evs (denElse I sig early N .none s) else after evs (dens I sig early N body s)) _
        fun vs s s' evs he => ?_
      split
      · simp only [denElse]; exact ⟨rfl, he, rfl⟩
      · exact ((dens_rw body h.1 n ha.left s s' he).mono (good_left sig fun hm hc => hm (by simp only [covered] at hc; exact hc.1))).after (closed_good sig _ _ _) evs
  | .ifs cond body (.block b), h =>
      simp only [src, srcElse] at h
      simp only [visited] at ha
      have h1 := rws_count sig body n
      rw [rw_if_block]; simp only [den, visited]
      refine opaque_rel I cond he (fun vs s evs => if vs.headD 0 = 0 then after evs (denElse I sig early N (.block b) s) else after evs (dens I sig early N body s)) _
        fun vs s s' evs he => ?_
      rw [h1]
      simp only
      split
      · simp only [denElse]
        exact ((dens_rw b h.2 (n + (visiteds body).length) ha.right s s' he).mono (good_right sig fun hm hc => hm (by simp only [covered] at hc; exact hc.2))).after (closed_good sig _ _ _) evs
      · exact ((dens_rw body h.1 n ha.left s s' he).mono (good_left sig fun hm hc => hm (by simp only [covered] at hc; exact hc.1))).after (closed_good sig _ _ _) evs
  | .ifs cond body (.elseIf c b e), h =>
      simp only [src, srcElse] at h
      simp only [visited] at ha
      have h1 := rws_count sig body n
      rw [rw_if_elseIf]; simp only [den, visited]
      refine opaque_rel I cond he (fun vs s evs => if vs.headD 0 = 0 then after evs (denElse I sig early N (.elseIf c b e) s) else after evs (dens I sig early N body s)) _
        fun vs s s' evs he => ?_
      rw [h1]
      simp only
      split
      · simp only [denElse]
        refine Rel.after (closed_good sig _ _ _) evs ?_
        refine opaque_rel I c he (fun vs s evs => if vs.headD 0 = 0 then after evs (denElse I sig early N e s) else after evs (dens I sig early N b s)) _
          fun vs s s' evs he => ?_
        split
        · exact (Rel.mono (fun _ _ _ _ hq => Or.inr hq) (denElse_env I sig early N e h.2.2 (¬ covered (.ifs cond body (.elseIf c b e)))
            (fun hne hc => hne (by simp only [covered] at hc; exact hc.2.2)) s s' he)).after (closed_good sig _ _ _) evs
        · exact ((dens_rw b h.2.1 (n + (visiteds body).length) ha.right s s' he).mono (good_right sig fun hm hc => hm (by simp only [covered] at hc; exact hc.2.1))).after (closed_good sig _ _ _) evs
      · exact ((dens_rw body h.1 n ha.left s s' he).mono (good_left sig fun hm hc => hm (by simp only [covered] at hc; exact hc.1))).after (closed_good sig _ _ _) evs
  | .setTmp _ _, h => simp only [src] at h
  | .setTmps _ _, h => simp only [src] at h
  | .report _ _, h => simp only [src] at h
  | .retG _, h => simp only [src] at h
theorem dens_rw (b : Stmts) (h : srcs sig b) (n : Nat) (ha : Agrees I sig early (visiteds b)) (s s' : State) (he : s'.env = s.env) :
    Rel (Good sig n (visiteds b) (¬ covereds b)) (dens I sig early N b s) (dens I sig early N (rws sig b n).1 s') := by
  match b, h with
  | .nil, _ => simp only [dens, rws]; exact ⟨rfl, he, rfl⟩
  | .cons st b, h =>
      simp only [srcs] at h
      simp only [visiteds] at ha
      have h1 := rw_count sig st n
      rw [rws_cons]; simp only [dens, visiteds]
      rw [h1]
      simp only
      exact seq_rel (closed_good sig _ _ _) _ _
        (fun s s' he => (dens_rw b h.2 (n + (visited st).length) ha.right s s' he).mono (good_right sig fun hm hc => hm (by simp only [covereds] at hc; exact hc.2)))
        ((den_rw none st h.1 n ha.left s s' he).mono (good_left sig fun hm hc => hm (by simp only [covereds] at hc; exact hc.1)))
theorem denCl_rw (cs : Clauses) (h : srcCl sig cs) (n : Nat) (ha : Agrees I sig early (visitedCl cs)) (k : Nat) (s s' : State) (he : s'.env = s.env) :
    Rel (Good sig n (visitedCl cs) (¬ coveredCl cs)) (denCl I sig early N cs k s) (denCl I sig early N (rwCl sig cs n).1 k s') := by
  match cs, k, h with
  | .nil, _, _ => simp only [denCl, rwCl]; exact ⟨rfl, he, rfl⟩
  | .cons body ft cs, 0, h =>
      simp only [srcCl] at h
      simp only [visitedCl] at ha
      have h1 := rws_count sig body n
      rw [rwCl_cons]; simp only [denCl, visitedCl]
      rw [h1]
      simp only
      exact clause_rel (closed_good sig _ _ _) ft _ _
        (fun s s' he => (denCl_rw cs h.2 (n + (visiteds body).length) ha.right 0 s s' he).mono (good_right sig fun hm hc => hm (by simp only [coveredCl] at hc; exact hc.2)))
        ((dens_rw body h.1 n ha.left s s' he).mono (good_left sig fun hm hc => hm (by simp only [coveredCl] at hc; exact hc.1)))
  | .cons body ft cs, k + 1, h =>
      simp only [srcCl] at h
      simp only [visitedCl] at ha
      have h1 := rws_count sig body n
      rw [rwCl_cons]; simp only [denCl, visitedCl]
      rw [h1]
      simp only
      exact (denCl_rw cs h.2 (n + (visiteds body).length) ha.right k s s' he).mono (good_right sig fun hm hc => hm (by simp only [coveredCl] at hc; exact hc.2))
end

/-! ### The whole function -/

/-- The end of the instrumented body if no return was found. -/
theorem instrument_none (body : Stmts) (endVis : List Var) (n : Nat) (h : visiteds body = []) :
    ∃ c, instrument sig body endVis n = ((rws sig body n).1.append c, n + 1) ∧ (WfSig sig → ∀ s : State,
      ∃ o, (o = .normal ∨ o = .ret (namedVals sig s.env)) ∧ dens I sig early N c s = some (o, s, [.report n ((dedupe endVis []).map fun x => (.var x, s.env x))])) := by
  have hc := rws_count sig body n
  rw [h] at hc
  simp only [List.length_nil, Nat.add_zero, List.isEmpty_nil, Bool.not_true] at hc
  have hr : rws sig body n = ((rws sig body n).1, n, false) := by rw [← hc]
  have hm : ∀ s : State, ((dedupe endVis []).map fun x => ((.var x, .var x) : FName × GExpr)).map (fun f => (f.1, gval s f.2)) = (dedupe endVis []).map fun x => (.var x, s.env x) := by
    intro s; simp [List.map_map, Function.comp_def, gval]
  unfold instrument
  rw [hr]
  simp only
  split
  · refine ⟨_, rfl, fun _ s => ⟨.normal, Or.inl rfl, ?_⟩⟩
    simp only [dens, den, after, Option.map_some, hm, List.append_nil]
  · split
    · refine ⟨_, rfl, fun _ s => ⟨_, Or.inr rfl, ?_⟩⟩
      simp only [dens, den, evalRet, after, Option.map_some, hm, List.append_nil]
    · rename_i h1 h2
      refine ⟨_, rfl, fun hw s => ⟨_, Or.inr rfl, ?_⟩⟩
      simp only [dens, den, after, Option.map_some, hm, List.append_nil, List.map_map]
      congr 3
      unfold namedVals
      refine List.map_congr_left fun m hmem => ?_
      rcases m with _ | _ | x
      · rfl
      · rfl
      · have ha : allNamed sig = true := by
          rcases hw with hw | hw
          · simp only [allNamed, Bool.and_eq_true, List.all_eq_true]
            refine ⟨by simpa using h1, fun y hy => ?_⟩
            cases y with
            | none => exact absurd rfl (hw _ hy)
            | some _ => rfl
          · exact absurd (hw _ hmem) (by simp)
        simp [ha, gval]

/-- The instrumented body if some return was found. -/
theorem instrument_some (body : Stmts) (endVis : List Var) (n : Nat) (h : visiteds body ≠ []) :
    instrument sig body endVis n = ((rws sig body n).1, n + (visiteds body).length) := by
  have hc := rws_count sig body n
  have hr : rws sig body n = ((rws sig body n).1, n + (visiteds body).length, true) := by
    rw [show true = !(visiteds body).isEmpty by cases hv : visiteds body <;> simp_all, ← hc]
  unfold instrument
  rw [hr]

/-- A run of the instrumented body, given the run of the original. -/
theorem run_instrument (hw : WfSig sig) (body : Stmts) (hs : srcs sig body) (endVis : List Var) (n : Nat) (ha : Agrees I sig early (visiteds body)) (s : State) :
    match dens I sig early N body s with
    | none => dens I sig early N (instrument sig body endVis n).1 s = none
    | some (o, t, evs) => ∃ o' t' evs', dens I sig early N (instrument sig body endVis n).1 s = some (o', t', evs') ∧ t'.env = t.env ∧
      match o with
      | .normal => if visiteds body = [] then (o' = .normal ∨ o' = .ret (namedVals sig t.env)) ∧ evs' = evs ++ [.report n ((dedupe endVis []).map fun x => (.var x, t.env x))]
          else o' = .normal ∧ evs' = evs
      | .ret vs => o' = .ret vs ∧ Good sig n (visiteds body) (¬ covereds body) vs t.env evs evs'
      | o => o' = o ∧ evs' = evs := by
  have hrel := dens_rw I sig early N body hs n ha s s rfl
  by_cases hv : visiteds body = []
  · obtain ⟨c, hi, hc⟩ := instrument_none I sig early N body endVis n hv
    rw [hi]
    cases h1 : dens I sig early N body s with
    | none =>
        rw [h1] at hrel
        cases h2 : dens I sig early N (rws sig body n).1 s with
        | none => simp only; rw [dens_append_other I sig early N _ _ (by rw [h2]; simp), h2]
        | some x => rw [h2] at hrel; exact hrel.elim
    | some x =>
        obtain ⟨o, t, evs⟩ := x
        rw [h1] at hrel
        cases h2 : dens I sig early N (rws sig body n).1 s with
        | none => rw [h2] at hrel; exact hrel.elim
        | some x' =>
            obtain ⟨o', t', evs'⟩ := x'
            rw [h2] at hrel
            obtain ⟨rfl, he, hev⟩ := hrel
            cases o' with
            | normal =>
                simp only at hev
                subst hev
                obtain ⟨o, ho, hrun⟩ := hc hw t'
                rw [he] at ho hrun
                refine ⟨o, t', _, by rw [dens_append_normal I sig early N _ _ h2, hrun]; rfl, he, ?_⟩
                simp only [hv, if_true]
                exact ⟨ho, trivial⟩
            | ret vs => exact ⟨.ret vs, t', evs', by simp only; rw [dens_append_other I sig early N _ _ (by rw [h2]; simp), h2], he, rfl, hev⟩
            | panic => exact ⟨.panic, t', evs', by simp only; rw [dens_append_other I sig early N _ _ (by rw [h2]; simp), h2], he, rfl, hev⟩
            | brk l => exact ⟨.brk l, t', evs', by simp only; rw [dens_append_other I sig early N _ _ (by rw [h2]; simp), h2], he, rfl, hev⟩
            | cont l => exact ⟨.cont l, t', evs', by simp only; rw [dens_append_other I sig early N _ _ (by rw [h2]; simp), h2], he, rfl, hev⟩
  · rw [instrument_some sig body endVis n hv]
    cases h1 : dens I sig early N body s with
    | none =>
        rw [h1] at hrel
        cases h2 : dens I sig early N (rws sig body n).1 s with
        | none => rfl
        | some x => rw [h2] at hrel; exact hrel.elim
    | some x =>
        obtain ⟨o, t, evs⟩ := x
        rw [h1] at hrel
        cases h2 : dens I sig early N (rws sig body n).1 s with
        | none => rw [h2] at hrel; exact hrel.elim
        | some x' =>
            obtain ⟨o', t', evs'⟩ := x'
            rw [h2] at hrel
            obtain ⟨rfl, he, hev⟩ := hrel
            refine ⟨o', t', evs', rfl, he, ?_⟩
            cases o' with
            | normal => simp only [hv, if_false]; exact ⟨trivial, hev⟩
            | ret vs => exact ⟨rfl, hev⟩
            | panic => exact ⟨rfl, hev⟩
            | brk l => exact ⟨rfl, hev⟩
            | cont l => exact ⟨rfl, hev⟩

/-! ### When variables are read -/

theorem evalFirst_pure (er : Nat → Bool) : ∀ (es : List Expr) (i : Nat) (s : State), (∀ (j : Nat) (id : Nat) (rc : Bool), es[j]? ≠ some (Expr.other id rc)) →
    ∃ l, evalFirst I er i es s = (some l, s, []) := by
  intro es
  induction es with
  | nil => intro i s _; exact ⟨[], rfl⟩
  | cons e es ih =>
      intro i s h
      obtain ⟨l, hl⟩ := ih (i + 1) s fun j id rc hj => h (j + 1) id rc (by simpa using hj)
      cases e with
      | ident x b => exact ⟨_, by simp only [evalFirst, hl]; rfl⟩
      | nil b => exact ⟨_, by simp only [evalFirst, hl]; rfl⟩
      | lit v b => exact ⟨_, by simp only [evalFirst, hl]; rfl⟩
      | other id rc => exact absurd rfl (h 0 id rc)

theorem evalFirst_late (er : Nat → Bool) : ∀ (es : List Expr) (i : Nat) (s : State),
    (∀ (j : Nat) (x : Var) (b : Bool), es[j]? = some (Expr.ident x b) → er (i + j) = b) →
    (∀ (k j : Nat) (x : Var) (id : Nat) (rc : Bool), es[k]? = some (Expr.ident x true) → es[j]? = some (Expr.other id rc) → j < k) →
    (evalFirst I (fun _ => false) i es s).2 = (evalFirst I er i es s).2 ∧
    (evalFirst I (fun _ => false) i es s).1.map (readLate (evalFirst I er i es s).2.1.env) = (evalFirst I er i es s).1.map (readLate (evalFirst I er i es s).2.1.env) := by
  intro es
  induction es with
  | nil => intro i s _ _; exact ⟨rfl, rfl⟩
  | cons e es ih =>
      intro i s her hlt
      have her' : ∀ (j : Nat) (x : Var) (b : Bool), es[j]? = some (Expr.ident x b) → er (i + 1 + j) = b := fun j x b hj => by
        have := her (j + 1) x b (by simpa using hj)
        rw [show i + 1 + j = i + (j + 1) by omega]; exact this
      have hlt' : ∀ (k j : Nat) (x : Var) (id : Nat) (rc : Bool), es[k]? = some (Expr.ident x true) → es[j]? = some (Expr.other id rc) → j < k := by
        intro k j x id rc hk hj
        have := hlt (k + 1) (j + 1) x id rc (by simpa using hk) (by simpa using hj)
        omega
      cases e with
      | ident x b =>
          have hb := her 0 x b rfl
          simp only [Nat.add_zero] at hb
          obtain ⟨h1, h2⟩ := ih (i + 1) s her' hlt'
          cases b with
          | false =>
              simp only [evalFirst, hb]
              refine ⟨by simpa using h1, ?_⟩
              simp only [Option.map_map]
              have := congrArg (Option.map fun l => (evalFirst I er (i + 1) es s).2.1.env x :: l) h2
              simpa [Option.map_map, Function.comp_def, readLate] using this
          | true =>
              have hno : ∀ (j : Nat) (id : Nat) (rc : Bool), es[j]? ≠ some (Expr.other id rc) := fun j id rc hj => by
                have := hlt 0 (j + 1) x id rc rfl (by simpa using hj)
                omega
              obtain ⟨l, hl⟩ := evalFirst_pure I er es (i + 1) s hno
              obtain ⟨l', hl'⟩ := evalFirst_pure I (fun _ => false) es (i + 1) s hno
              rw [hl, hl'] at h2
              simp only [evalFirst, hb, hl, hl']
              refine ⟨trivial, ?_⟩
              simp only [Option.map_some, Option.some.injEq] at h2 ⊢
              simpa [readLate] using h2
      | nil b =>
          obtain ⟨h1, h2⟩ := ih (i + 1) s her' hlt'
          simp only [evalFirst]
          refine ⟨by simpa using h1, ?_⟩
          have := congrArg (Option.map fun l => nilVal :: l) h2
          simpa [Option.map_map, Function.comp_def, readLate] using this
      | lit v b =>
          obtain ⟨h1, h2⟩ := ih (i + 1) s her' hlt'
          simp only [evalFirst]
          refine ⟨by simpa using h1, ?_⟩
          have := congrArg (Option.map fun l => v :: l) h2
          simpa [Option.map_map, Function.comp_def, readLate] using this
      | other id rc =>
          simp only [evalFirst]
          cases ho : opaque_ I id s with
          | mk r x =>
              obtain ⟨t, evs⟩ := x
              cases r with
              | none => exact ⟨rfl, rfl⟩
              | some vs =>
                  obtain ⟨h1, h2⟩ := ih (i + 1) t her' hlt'
                  simp only
                  refine ⟨congrArg (fun y : State × List Ev => (y.1, evs ++ y.2)) h1, ?_⟩
                  have := congrArg (Option.map fun l => vs.headD nilVal :: l) h2
                  simpa [Option.map_map, Function.comp_def, readLate] using this

theorem evalRet_late (r : Rets) (s : State)
    (h : ∀ es, r = .exprs es → ∀ (i j : Nat) (x : Var) (id : Nat) (rc : Bool), es[i]? = some (Expr.ident x true) → es[j]? = some (Expr.other id rc) → j < i) :
    evalRet I sig (fun _ => false) r s = evalRet I sig (inTurn r) r s := by
  cases r with
  | naked => rfl
  | multi id => rfl
  | exprs es =>
      obtain ⟨h1, h2⟩ := evalFirst_late I (inTurn (.exprs es)) es 0 s (fun j x b hj => by simp only [Nat.zero_add, inTurn, hj]) (h es rfl)
      simp only [evalRet]
      cases hx : evalFirst I (fun _ => false) 0 es s with
      | mk r x =>
          cases hx' : evalFirst I (inTurn (.exprs es)) 0 es s with
          | mk r' x' =>
              rw [hx, hx'] at h1 h2
              obtain ⟨t, e⟩ := x
              obtain ⟨t', e'⟩ := x'
              simp only [Prod.mk.injEq] at h1
              obtain ⟨rfl, rfl⟩ := h1
              cases r with
              | none =>
                  cases r' with
                  | none => rfl
                  | some l => cases h2
              | some l =>
                  cases r' with
                  | none => cases h2
                  | some l' =>
                      simp only [Option.map_some, Option.some.injEq] at h2
                      simp only [h2]

end Verif.Returns
