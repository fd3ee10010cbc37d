import Verif.Returns.Lemmas

/-! What `buildReturnInstrumentation` produces does what the `return` did. -/

namespace Verif.Returns

/-! ### Names -/

theorem dedupe_spec : ∀ (l seen : List Var), (dedupe l seen).Nodup ∧ (∀ x ∈ dedupe l seen, x ∈ l ∧ x ∉ seen) ∧ ∀ x ∈ l, x ∈ seen ∨ x ∈ dedupe l seen := by
  intro l
  induction l with
  | nil => intro seen; simp [dedupe]
  | cons y l ih =>
      intro seen
      simp only [dedupe]
      by_cases h : y ∈ seen
      · simp only [h, if_true]
        obtain ⟨h1, h2, h3⟩ := ih seen
        refine ⟨h1, fun x hx => ⟨List.mem_cons_of_mem _ (h2 x hx).1, (h2 x hx).2⟩, fun x hx => ?_⟩
        rcases List.mem_cons.mp hx with rfl | hx
        · exact Or.inl h
        · exact h3 x hx
      · simp only [h, if_false]
        obtain ⟨h1, h2, h3⟩ := ih (y :: seen)
        refine ⟨List.nodup_cons.mpr ⟨fun hy => (h2 y hy).2 (List.mem_cons_self ..), h1⟩, fun x hx => ?_, fun x hx => ?_⟩
        · rcases List.mem_cons.mp hx with rfl | hx
          · exact ⟨List.mem_cons_self .., h⟩
          · exact ⟨List.mem_cons_of_mem _ (h2 x hx).1, fun hs => (h2 x hx).2 (List.mem_cons_of_mem _ hs)⟩
        · rcases List.mem_cons.mp hx with rfl | hx
          · exact Or.inr (List.mem_cons_self ..)
          · rcases h3 x hx with hs | hd
            · rcases List.mem_cons.mp hs with rfl | hs
              · exact Or.inr (List.mem_cons_self ..)
              · exact Or.inl hs
            · exact Or.inr (List.mem_cons_of_mem _ hd)

/-- The index in the name of a temporary. -/
def TName.idx : TName → Nat
  | .ret i => i
  | .recur i => i
  | .temp i => i

/-- The expression returned for the `i`-th result. -/
def gOf (i : Nat) : Expr → GExpr
  | .ident x false => .var x
  | .nil false => .const nilVal
  | .other _ true => .tmp (.recur i)
  | _ => .tmp (.ret i)

theorem buildOne_g (i : Nat) (e : Expr) (seen : List Var) : (buildOne i e seen).2.1 = gOf i e := by
  rcases e with ⟨x, _ | _⟩ | ⟨_ | _⟩ | ⟨v, _ | _⟩ | ⟨id, _ | _⟩ <;> simp only [buildOne, gOf]
  split <;> rfl

theorem buildEach_g : ∀ (es : List Expr) (i : Nat) (seen : List Var) (j : Nat), (buildEach i es seen).2.1[j]? = (es[j]?).map (gOf (i + j)) := by
  intro es
  induction es with
  | nil => intro i seen j; simp [buildEach]
  | cons e es ih =>
      intro i seen j
      have h : (buildEach i (e :: es) seen).2.1 = (buildOne i e seen).2.1 :: (buildEach (i + 1) es (buildOne i e seen).2.2.2).2.1 := rfl
      rw [h, buildOne_g]
      cases j with
      | zero => rfl
      | succ j =>
          have hi := ih (i + 1) (buildOne i e seen).2.2.2 j
          have harith : i + 1 + j = i + (j + 1) := by omega
          rw [harith] at hi
          simpa using hi

/-- Names of reported fields: a variable not seen yet, or a temporary of this result or a later one. -/
def FNew (i : Nat) (seen : List Var) : FName → Prop
  | .var x => x ∉ seen
  | .ret j => i ≤ j
  | .recur j => i ≤ j

theorem buildOne_seen (i : Nat) (e : Expr) (seen : List Var) :
    (∀ x ∈ seen, x ∈ (buildOne i e seen).2.2.2) ∧
    (∀ x, x ∈ (buildOne i e seen).2.2.2 → x ∈ seen ∨ (.var x, .var x) ∈ (buildOne i e seen).2.2.1) ∧
    (∀ x, (FName.var x) ∈ (buildOne i e seen).2.2.1.map Prod.fst → x ∈ (buildOne i e seen).2.2.2) := by
  rcases e with ⟨x, _ | _⟩ | ⟨_ | _⟩ | ⟨v, _ | _⟩ | ⟨id, _ | _⟩ <;> simp only [buildOne]
  case ident.false =>
    by_cases h : x ∈ seen
    · simp [h]
    · simp only [h, if_false]
      refine ⟨fun y hy => List.mem_cons_of_mem _ hy, fun y hy => ?_, fun y hy => ?_⟩
      · rcases List.mem_cons.mp hy with rfl | hy
        · exact Or.inr (List.mem_cons_self ..)
        · exact Or.inl hy
      · simp only [List.map_cons, List.map_nil, List.mem_singleton, FName.var.injEq] at hy
        subst hy
        exact List.mem_cons_self ..
  all_goals simp

/-- One result: its field has a new name and shows what is returned. -/
theorem buildOne_fields (i : Nat) (e : Expr) (seen : List Var) :
    ((buildOne i e seen).2.2.1.map Prod.fst).Nodup ∧
    (∀ f ∈ (buildOne i e seen).2.2.1, FNew i seen f.1 ∧ ((∃ x, f = (.var x, .var x) ∧ e = .ident x false) ∨ (f = (.ret i, .tmp (.ret i)) ∧ gOf i e = .tmp (.ret i)) ∨ (f = (.recur i, .tmp (.recur i)) ∧ gOf i e = .tmp (.recur i)))) ∧
    (match e with
      | .ident x false => x ∈ seen ∨ (.var x, .var x) ∈ (buildOne i e seen).2.2.1
      | .nil false => True
      | .other _ true => (.recur i, .tmp (.recur i)) ∈ (buildOne i e seen).2.2.1
      | _ => (.ret i, .tmp (.ret i)) ∈ (buildOne i e seen).2.2.1) := by
  rcases e with ⟨x, _ | _⟩ | ⟨_ | _⟩ | ⟨v, _ | _⟩ | ⟨id, _ | _⟩ <;> simp only [buildOne, gOf]
  case ident.false =>
    by_cases h : x ∈ seen
    · simp [h]
    · simp [h, FNew]
  all_goals simp [FNew]

theorem buildEach_fields : ∀ (es : List Expr) (i : Nat) (seen : List Var),
    ((buildEach i es seen).2.2.map Prod.fst).Nodup ∧
    (∀ f ∈ (buildEach i es seen).2.2, FNew i seen f.1 ∧ ((∃ x, f = (.var x, .var x) ∧ Expr.ident x false ∈ es) ∨ ∃ (j : Nat) (e : Expr), es[j]? = some e ∧
      ((f = (.ret (i + j), .tmp (.ret (i + j))) ∧ gOf (i + j) e = .tmp (.ret (i + j))) ∨ (f = (.recur (i + j), .tmp (.recur (i + j))) ∧ gOf (i + j) e = .tmp (.recur (i + j)))))) ∧
    (∀ (j : Nat) (e : Expr), es[j]? = some e →
      match e with
      | .ident x false => x ∈ seen ∨ (.var x, .var x) ∈ (buildEach i es seen).2.2
      | .nil false => True
      | .other _ true => (.recur (i + j), .tmp (.recur (i + j))) ∈ (buildEach i es seen).2.2
      | _ => (.ret (i + j), .tmp (.ret (i + j))) ∈ (buildEach i es seen).2.2) := by
  intro es
  induction es with
  | nil => intro i seen; simp [buildEach]
  | cons e es ih =>
      intro i seen
      have hfs : (buildEach i (e :: es) seen).2.2 = (buildOne i e seen).2.2.1 ++ (buildEach (i + 1) es (buildOne i e seen).2.2.2).2.2 := rfl
      obtain ⟨o1, o2, o3⟩ := buildOne_fields i e seen
      obtain ⟨s1, s2, s3⟩ := buildOne_seen i e seen
      obtain ⟨e1, e2, e3⟩ := ih (i + 1) (buildOne i e seen).2.2.2
      rw [hfs]
      generalize hF : (buildOne i e seen).2.2.1 = F at *
      generalize hS : (buildOne i e seen).2.2.2 = S at *
      generalize hG : (buildEach (i + 1) es S).2.2 = G at *
      have har : ∀ j, i + 1 + j = i + (j + 1) := fun j => by omega
      refine ⟨?_, ?_, ?_⟩
      · rw [List.map_append, List.nodup_append]
        refine ⟨o1, e1, ?_⟩
        intro a ha b hb hab
        subst hab
        obtain ⟨f, hf, rfl⟩ := List.mem_map.mp ha
        obtain ⟨g, hg, hgf⟩ := List.mem_map.mp hb
        have hn := (e2 g hg).1
        rw [hgf] at hn
        rcases (o2 f hf).2 with ⟨x, rfl, _⟩ | ⟨rfl, _⟩ | ⟨rfl, _⟩
        · exact hn (s3 x ha)
        · simp only [FNew] at hn; omega
        · simp only [FNew] at hn; omega
      · intro f hf
        rcases List.mem_append.mp hf with hf | hf
        · refine ⟨(o2 f hf).1, ?_⟩
          rcases (o2 f hf).2 with ⟨x, h, he⟩ | h | h
          · exact Or.inl ⟨x, h, by rw [he]; exact List.mem_cons_self ..⟩
          · exact Or.inr ⟨0, e, rfl, Or.inl h⟩
          · exact Or.inr ⟨0, e, rfl, Or.inr h⟩
        · refine ⟨?_, ?_⟩
          · have hn := (e2 f hf).1
            cases hfn : f.1 with
            | var x => rw [hfn] at hn; exact fun hx => hn (s1 x hx)
            | ret j => rw [hfn] at hn; simp only [FNew] at hn ⊢; omega
            | recur j => rw [hfn] at hn; simp only [FNew] at hn ⊢; omega
          · rcases (e2 f hf).2 with ⟨x, h, he⟩ | ⟨j, e', hj, h⟩
            · exact Or.inl ⟨x, h, List.mem_cons_of_mem _ he⟩
            · rw [har] at h
              exact Or.inr ⟨j + 1, e', hj, h⟩
      · intro j e' hj
        cases j with
        | zero =>
            simp only [List.getElem?_cons_zero, Option.some.injEq] at hj
            subst hj
            rcases e with ⟨x, _ | _⟩ | ⟨_ | _⟩ | ⟨v, _ | _⟩ | ⟨id, _ | _⟩ <;> simp only at o3 ⊢ <;> first | exact List.mem_append_left _ o3 | skip
            exact o3.imp id (List.mem_append_left _)
        | succ j =>
            have h := e3 j e' (by simpa using hj)
            rw [har] at h
            rcases e' with ⟨x, _ | _⟩ | ⟨_ | _⟩ | ⟨v, _ | _⟩ | ⟨id, _ | _⟩ <;> simp only at h ⊢ <;> first | exact List.mem_append_right _ h | skip
            rcases h with h | h
            · rcases s2 x h with h | h
              · exact Or.inl h
              · exact Or.inr (List.mem_append_left _ h)
            · exact Or.inr (List.mem_append_right _ h)

/-! ### Executing the statements -/

variable (I : Interp) (sig : Sig) (early : Rets → Nat → Bool) (N : Nat)

theorem after_nil (r : Res) : after [] r = r := by
  cases r with
  | none => rfl
  | some x => rfl

theorem after_after (a b : List Ev) (r : Res) : after a (after b r) = after (a ++ b) r := by
  cases r with
  | none => rfl
  | some x => simp [after]

theorem dens_cons_normal {st : Stmt} {b : Stmts} {s t : State} {evs : List Ev} (h : den I sig early N none st s = some (.normal, t, evs)) :
    dens I sig early N (.cons st b) s = after evs (dens I sig early N b t) := by
  simp only [dens, h]

theorem dens_append_normal : ∀ (b c : Stmts) {s t : State} {evs : List Ev}, dens I sig early N b s = some (.normal, t, evs) →
    dens I sig early N (b.append c) s = after evs (dens I sig early N c t)
  | .nil, c, s, t, evs, h => by
      simp only [dens, Option.some.injEq, Prod.mk.injEq] at h
      obtain ⟨-, rfl, rfl⟩ := h
      rw [after_nil]; rfl
  | .cons st b, c, s, t, evs, h => by
      simp only [dens, Stmts.append] at h ⊢
      cases hd : den I sig early N none st s with
      | none => rw [hd] at h; cases h
      | some x =>
          obtain ⟨o, u, e⟩ := x
          rw [hd] at h
          cases o with
          | normal =>
              simp only at h ⊢
              cases hb : dens I sig early N b u with
              | none => rw [hb] at h; cases h
              | some y =>
                  obtain ⟨o', u', e'⟩ := y
                  rw [hb] at h
                  simp only [after, Option.map_some, Option.some.injEq, Prod.mk.injEq] at h
                  obtain ⟨rfl, rfl, rfl⟩ := h
                  rw [dens_append_normal b c hb, after_after]
          | _ => simp only [Option.some.injEq, Prod.mk.injEq] at h; exact absurd h.1 (by simp)

theorem dens_append_other : ∀ (b c : Stmts) {s : State}, (∀ t evs, dens I sig early N b s ≠ some (.normal, t, evs)) →
    dens I sig early N (b.append c) s = dens I sig early N b s
  | .nil, c, s, h => absurd rfl (h s [])
  | .cons st b, c, s, h => by
      simp only [dens, Stmts.append] at h ⊢
      cases hd : den I sig early N none st s with
      | none => rfl
      | some x =>
          obtain ⟨o, u, e⟩ := x
          rw [hd] at h
          cases o with
          | normal =>
              simp only at h ⊢
              rw [dens_append_other b c]
              intro t evs hb
              rw [hb] at h
              exact h t _ rfl
          | _ => rfl

theorem ofList_append (l m : List Stmt) : Stmts.ofList (l ++ m) = (Stmts.ofList l).append (Stmts.ofList m) := by
  induction l with
  | nil => rfl
  | cons a l ih => simp [Stmts.ofList, Stmts.append, ih]

theorem set_same (t : Tmps) (n : TName) (v : Val) : t.set n v n = v := by simp [Tmps.set]

theorem set_other (t : Tmps) {n m : TName} (v : Val) (h : m ≠ n) : t.set n v m = t m := by simp [Tmps.set, h]

/-- The statements in front of the report evaluate the results in their order; temporaries of earlier results are kept. -/
theorem buildEach_run (er : Nat → Bool) : ∀ (es : List Expr) (i : Nat) (seen : List Var) (s s' : State), s'.env = s.env →
    (∀ (j : Nat) (x : Var) (b : Bool), es[j]? = some (Expr.ident x b) → er (i + j) = b) →
    match evalFirst I er i es s with
    | (none, t, evs) => ∃ t', t'.env = t.env ∧ dens I sig early N (Stmts.ofList (buildEach i es seen).1) s' = some (.panic, t', evs)
    | (some l, t, evs) => ∃ t', t'.env = t.env ∧ dens I sig early N (Stmts.ofList (buildEach i es seen).1) s' = some (.normal, t', evs) ∧
        (∀ n : TName, n.idx < i → t'.tmps n = s'.tmps n) ∧ (buildEach i es seen).2.1.map (gval t') = readLate t.env l := by
  intro es
  induction es with
  | nil =>
      intro i seen s s' h _
      exact ⟨s', h, rfl, fun _ _ => rfl, rfl⟩
  | cons e es ih =>
      intro i seen s s' h her
      have hpre : (buildEach i (e :: es) seen).1 = (buildOne i e seen).1 ++ (buildEach (i + 1) es (buildOne i e seen).2.2.2).1 := rfl
      have hgs : (buildEach i (e :: es) seen).2.1 = gOf i e :: (buildEach (i + 1) es (buildOne i e seen).2.2.2).2.1 := by
        rw [← buildOne_g i e seen]; rfl
      rw [hpre, hgs, ofList_append]
      generalize (buildOne i e seen).2.2.2 = S
      have her' : ∀ (j : Nat) (x : Var) (b : Bool), es[j]? = some (Expr.ident x b) → er (i + 1 + j) = b := fun j x b hj => by
        have := her (j + 1) x b (by simpa using hj)
        rw [show i + 1 + j = i + (j + 1) by omega]; exact this
      -- the general step: this result leaves `u'` and stands for `v`
      have step : ∀ (u u' : State) (ev0 : List Ev) (v : Val ⊕ Var), u'.env = u.env →
          dens I sig early N (Stmts.ofList (buildOne i e seen).1) s' = some (.normal, u', ev0) →
          (∀ n : TName, n.idx < i → u'.tmps n = s'.tmps n) →
          (∀ t t' : State, t'.env = t.env → (∀ n : TName, n.idx < i + 1 → t'.tmps n = u'.tmps n) → [gval t' (gOf i e)] = readLate t.env [v]) →
          match (match evalFirst I er (i + 1) es u with | (r, t, evs) => (r.map (v :: ·), t, ev0 ++ evs)) with
          | (none, t, evs) => ∃ t', t'.env = t.env ∧ dens I sig early N ((Stmts.ofList (buildOne i e seen).1).append (Stmts.ofList (buildEach (i + 1) es S).1)) s' = some (.panic, t', evs)
          | (some l, t, evs) => ∃ t', t'.env = t.env ∧ dens I sig early N ((Stmts.ofList (buildOne i e seen).1).append (Stmts.ofList (buildEach (i + 1) es S).1)) s' = some (.normal, t', evs) ∧
              (∀ n : TName, n.idx < i → t'.tmps n = s'.tmps n) ∧ (gOf i e :: (buildEach (i + 1) es S).2.1).map (gval t') = readLate t.env l := by
        intro u u' ev0 v hu hrun hkeep hval
        have hi := ih (i + 1) S u u' hu her'
        cases hx : evalFirst I er (i + 1) es u with
        | mk r x =>
            obtain ⟨t, evs⟩ := x
            rw [hx] at hi
            cases r with
            | none =>
                obtain ⟨t', ht, hd⟩ := hi
                exact ⟨t', ht, by rw [dens_append_normal I sig early N _ _ hrun, hd]; rfl⟩
            | some l =>
                obtain ⟨t', ht, hd, hk, hg⟩ := hi
                refine ⟨t', ht, by rw [dens_append_normal I sig early N _ _ hrun, hd]; rfl, fun n hn => ?_, ?_⟩
                · rw [hk n (by omega), hkeep n hn]
                · have hv := hval t t' ht hk
                  simp only [List.map_cons, hg]
                  simp only [readLate, List.map_cons, List.map_nil, List.cons.injEq, and_true] at hv ⊢
                  exact hv
      have lt2 : ∀ (a : Val) (b : Val) (n m : TName), m.idx = i → ∀ (k : TName), k.idx < i → n.idx = i → ((s'.tmps.set n a).set m b) k = s'.tmps k := by
        intro a b n m hm k hk hn
        rw [set_other _ _ (fun hh => by rw [hh] at hk; omega), set_other _ _ (fun hh => by rw [hh] at hk; omega)]
      have lt1 : ∀ (a : Val) (n : TName), n.idx = i → ∀ (k : TName), k.idx < i → (s'.tmps.set n a) k = s'.tmps k := by
        intro a n hn k hk
        rw [set_other _ _ (fun hh => by rw [hh] at hk; omega)]
      rcases e with ⟨x, _ | _⟩ | ⟨_ | _⟩ | ⟨v, _ | _⟩ | ⟨id, rc⟩
      · -- plain variable
        have hb := her 0 x false rfl
        have := step s s' [] (.inr x) h (by simp only [buildOne]; split <;> rfl) (fun _ _ => rfl)
          (fun t t' ht _ => by simp [gOf, gval, readLate, ht])
        simp only [evalFirst, Nat.add_zero] at hb ⊢
        rw [hb]
        simpa using this
      · have hb := her 0 x true rfl
        have := step s ⟨s'.env, (s'.tmps.set (.temp i) (s.env x)).set (.ret i) (s.env x)⟩ [] (.inl (s.env x)) h
          (by simp [buildOne, Stmts.ofList, dens, den, gval, after, set_same, h]) (fun n hn => lt2 _ _ _ _ rfl n hn rfl)
          (fun t t' ht hk => by simp only [gOf, gval, readLate, List.map_cons, List.map_nil]; rw [hk _ (by simp [TName.idx])]; simp [Tmps.set])
        simp only [evalFirst, Nat.add_zero] at hb ⊢
        rw [hb]
        simpa using this
      · have := step s s' [] (.inl nilVal) h (by simp only [buildOne]; rfl) (fun _ _ => rfl)
          (fun t t' ht _ => by simp [gOf, gval, readLate])
        simp only [evalFirst]
        simpa using this
      · have := step s ⟨s'.env, s'.tmps.set (.ret i) nilVal⟩ [] (.inl nilVal) h
          (by simp [buildOne, Stmts.ofList, dens, den, gval, after]) (fun n hn => lt1 _ _ rfl n hn)
          (fun t t' ht hk => by simp only [gOf, gval, readLate, List.map_cons, List.map_nil]; rw [hk _ (by simp [TName.idx])]; simp [Tmps.set])
        simp only [evalFirst]
        simpa using this
      · have := step s ⟨s'.env, s'.tmps.set (.ret i) v⟩ [] (.inl v) h
          (by simp [buildOne, Stmts.ofList, dens, den, gval, after]) (fun n hn => lt1 _ _ rfl n hn)
          (fun t t' ht hk => by simp only [gOf, gval, readLate, List.map_cons, List.map_nil]; rw [hk _ (by simp [TName.idx])]; simp [Tmps.set])
        simp only [evalFirst]
        simpa using this
      · have := step s ⟨s'.env, (s'.tmps.set (.temp i) v).set (.ret i) v⟩ [] (.inl v) h
          (by simp [buildOne, Stmts.ofList, dens, den, gval, after, set_same]) (fun n hn => lt2 _ _ _ _ rfl n hn rfl)
          (fun t t' ht hk => by simp only [gOf, gval, readLate, List.map_cons, List.map_nil]; rw [hk _ (by simp [TName.idx])]; simp [Tmps.set])
        simp only [evalFirst]
        simpa using this
      · simp only [evalFirst, opaque_]
        cases hv : (I id s.env).vals with
        | none =>
            refine ⟨⟨(I id s.env).env, s'.tmps⟩, rfl, ?_⟩
            cases rc <;> simp [buildOne, Stmts.ofList, Stmts.append, dens, den, opaque_, h, hv]
        | some vs =>
            cases rc with
            | false =>
                have := step ⟨(I id s.env).env, s.tmps⟩ ⟨(I id s.env).env, (s'.tmps.set (.temp i) (vs.headD nilVal)).set (.ret i) (vs.headD nilVal)⟩ ((I id s.env).evs.map .user) (.inl (vs.headD nilVal)) rfl
                  (by simp [buildOne, Stmts.ofList, dens, den, gval, after, set_same, opaque_, h, hv]) (fun n hn => lt2 _ _ _ _ rfl n hn rfl)
                  (fun t t' ht hk => by simp only [gOf, gval, readLate, List.map_cons, List.map_nil]; rw [hk _ (by simp [TName.idx])]; simp [Tmps.set])
                simpa using this
            | true =>
                have := step ⟨(I id s.env).env, s.tmps⟩ ⟨(I id s.env).env, (s'.tmps.set (.temp i) (vs.headD nilVal)).set (.recur i) (vs.headD nilVal)⟩ ((I id s.env).evs.map .user) (.inl (vs.headD nilVal)) rfl
                  (by simp [buildOne, Stmts.ofList, dens, den, gval, after, set_same, opaque_, h, hv]) (fun n hn => lt2 _ _ _ _ rfl n hn rfl)
                  (fun t t' ht hk => by simp only [gOf, gval, readLate, List.map_cons, List.map_nil]; rw [hk _ (by simp [TName.idx])]; simp [Tmps.set])
                simpa using this

end Verif.Returns
