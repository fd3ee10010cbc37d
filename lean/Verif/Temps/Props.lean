import Verif.Temps.Lemmas

/-!
C110: the block that replaces a return compiles whenever the return did.
C111: it returns the same values, and reports them.
C112: the fields of a report have different names.
-/

namespace Verif.Temps

/-! ### A small part of Go's types for the examples -/

inductive GT where
  | int | float64 | uint64 | word | duration | string | errorT | any | ptr
deriving DecidableEq

/-- Constants: `5`, `1 << 63`, `1e3` and `"s"`. -/
inductive GC where
  | five | big | flt | str
deriving DecidableEq

/-- Payloads: numbers, texts and `nil`. -/
def goSys : Sys where
  T := GT
  C := GC
  P := Nat
  top := .any
  iface := fun t => t == .any || t == .errorT
  dflt := fun | .five => .int | .big => .int | .flt => .float64 | .str => .string
  assign := fun s t => s == t || t == .any || (s == .ptr && t == .errorT)
  fits := fun c t => match c, t with
    | .five, .string | .five, .errorT | .five, .ptr => false
    | .five, _ => true
    | .big, .uint64 | .big, .word | .big, .float64 => true
    | .big, _ => false
    | .flt, .string | .flt, .errorT | .flt, .ptr => false
    | .flt, _ => true
    | .str, .string | .str, .any => true
    | .str, _ => false
  nilable := fun t => t == .any || t == .errorT || t == .ptr
  const := fun c _ => match c with | .five => 5 | .big => 2 ^ 63 | .flt => 1000 | .str => 7
  zero := 0

instance (n : Nat) : OfNat goSys.P n := ⟨n⟩
abbrev Out := List (List Char × Option (GT × Nat)) × List (Option (GT × Nat))
instance : DecidableEq Out := instDecidableEqProd
instance : DecidableEq (Option (List (Name × Dyn goSys) × List (Dyn goSys))) := inferInstanceAs (DecidableEq (Option Out))

theorem goLaws : Laws goSys where
  refl := by intro t; cases t <;> rfl
  top := by intro t; cases t <;> rfl
  topIface := rfl
  ifaceFits := by intro c t; cases c <;> cases t <;> simp [goSys]
  topFits := by intro c; cases c <;> simp [goSys]
  dfltOnly := by intro c t; cases c <;> cases t <;> simp [goSys]
  dfltIface := by intro c; cases c <;> rfl

def var (x : Name) (t : GT) (p : Nat) : Expr goSys := ⟨.ident x false, [x], .typed t (some (t, p))⟩
def ty (x : Name) (t : GT) : TExpr goSys := ⟨[x], t⟩

/-! ### C111 -/

/-- If the block compiles, it returns what the return returned: the same values with the same dynamic types. -/
theorem C111_same {S : Sys} (hL : Laws S) (hidden : Name → Bool) (vis : List (Expr S)) (types : List (TExpr S)) (names : List (Expr S)) (r : Rets S)
    (hw : Wf types names r) (rs : List (Dyn S)) (hr : returned types names r = some rs) (fs : List (Name × Dyn S)) (rs' : List (Dyn S))
    (h : outcome hidden types names (build vis types names r) = some (fs, rs')) : rs' = rs := by
  have h := outcome_some h
  obtain ⟨c, hc, h⟩ := Option.bind_eq_some_iff.mp h
  obtain ⟨fs0, -, h⟩ := Option.bind_eq_some_iff.mp h
  obtain ⟨rs1, h, heq⟩ := Option.map_eq_some_iff.mp h
  cases heq
  cases r with
  | naked =>
    simp only [build, returned] at h hr
    split at h
    · exact Option.some.inj (h.symm.trans hr)
    · rw [final_ne (by simpa using hw.naked rfl), sems_orig] at h
      exact Option.some.inj (h.symm.trans hr)
  | call vs =>
    obtain ⟨hne, hv⟩ := hw.call vs rfl
    simp only [build, returned, execAll, exec, bind_pure_id] at hc h hr
    have hlen := intoAll_length hr
    obtain ⟨c', h1, -, h2⟩ := call_ok vs 0 ([] : Ctx S) (fun _ _ _ _ => rfl) hv
    rw [callTemps_eq, hlen, h1] at hc
    cases hc
    rw [final_ne (callTemps_ne hne), callTemps_eq, hlen, List.map_map,
      show ((RExpr.tmp : Name → RExpr S) ∘ fun i => pRet ++ itoa i) = fun i => RExpr.tmp (pRet ++ itoa i) from rfl, h2] at h
    exact Option.some.inj (h.symm.trans hr)
  | exprs es =>
    simp only [build, returned] at hc h hr
    rw [(steps_pre es types _ 0).1, List.nil_append] at hc
    rw [(steps_pre es types _ 0).2, List.nil_append] at h
    obtain ⟨-, ss, h1, h2⟩ := all_run hL es types 0 [] c rs hc hr
    by_cases hem : es = []
    · subst hem
      obtain ⟨rfl, rfl⟩ := hw.noNames [] rfl rfl
      exact Option.some.inj (h.symm.trans hr)
    · rw [final_ne (allRets_ne hr hem), h1] at h
      exact h2 _ h

/-- Every result is reported with its value, under `ret`/`rec` and its number, or, as a typed identifier, under its name. Names of the program do not begin
with "lenSynthetic" and an identifier means one thing. -/
theorem C111_reported {S : Sys} (hL : Laws S) (hidden : Name → Bool) (vis : List (Expr S)) (types : List (TExpr S)) (names : List (Expr S)) (es : List (Expr S))
    (hw : Wf types names (.exprs es)) (rs : List (Dyn S)) (hr : returned types names (.exprs es) = some rs) (fs : List (Name × Dyn S)) (rs' : List (Dyn S))
    (h : outcome hidden types names (build vis types names (.exprs es)) = some (fs, rs'))
    (hu : ∀ e ∈ es, ∀ x nt, e.shape = .ident x nt → ¬ pSyn <+: x)
    (hone : ∀ e ∈ vis ++ es, ∀ e' ∈ vis ++ es, ∀ x nt nt', e.shape = .ident x nt → e'.shape = .ident x nt' → e.sem = e'.sem)
    (k : Nat) (e : Expr S) (hk : es[k]? = some e) (r : Dyn S) (hrk : rs[k]? = some r) :
    (∃ v, (['r', 'e', 't'] ++ itoa k, v) ∈ fs ∧ payload v = payload r) ∨ (∃ v, (['r', 'e', 'c'] ++ itoa k, v) ∈ fs ∧ payload v = payload r) ∨
    (∃ x, e.shape = .ident x false ∧ (x = nameNil ∨ (∃ c, e.sem = .untyped c) ∨ e.sem = .nil ∨ ∃ v, (x, v) ∈ fs ∧ payload v = payload r)) := by
  have hsame := C111_same hL hidden vis types names _ hw rs hr fs rs' h
  subst hsame
  have h := outcome_some h
  obtain ⟨c, hc, h⟩ := Option.bind_eq_some_iff.mp h
  obtain ⟨fs0, hfs, h⟩ := Option.bind_eq_some_iff.mp h
  obtain ⟨rs1, h, heq⟩ := Option.map_eq_some_iff.mp h
  cases heq
  simp only [build, returned] at hc hfs h hr
  rw [(steps_pre es types _ 0).2, List.nil_append] at h
  have hlen : es.length = types.length := by simpa using (intoAll_length hr).symm
  have hem : es ≠ [] := by rintro rfl; cases hk
  rw [final_ne (allRets_ne hr hem)] at h
  obtain ⟨ss, hss, h⟩ := Option.bind_eq_some_iff.mp h
  obtain ⟨s, hs, hsk⟩ := sems_get hss k _ (allRets_get (i := 0) hlen hk)
  obtain ⟨t, r0, htk, hr0, hinto⟩ := intoAll_get h k s hsk
  obtain rfl : r = r0 := Option.some.inj (hrk.symm.trans hr0)
  have htr : Tracked (vis ++ es) (visibleSnaps vis []).1 (visibleSnaps vis []).2 := by
    have := tracked_visible (all := vis ++ es) (l := vis) (seen := []) (snaps := ([] : List (Name × RExpr S))) (fun e he => by simp [he]) (fun x hx => by cases hx)
    simpa using this
  have hrep := steps_reports es types ⟨[], (visibleSnaps vis []).1, [], (visibleSnaps vis []).2⟩ 0 hlen (fun e he => by simp [he]) htr hu k e hk
  rw [Nat.zero_add] at hrep hs
  rcases hrep with ⟨h1, h2⟩ | ⟨h1, x, h2, h3⟩
  · obtain ⟨s', v, hs', hv, hm⟩ := mem_fields hfs _ h2
    obtain rfl : s = s' := Option.some.inj (hs.symm.trans hs')
    rw [h1] at hs
    simp only [semOf] at hs
    obtain ⟨⟨ty, v0⟩, -, rfl⟩ := Option.map_eq_some_iff.mp hs
    have hp : payload v = payload r := into_payload hv hinto
    dsimp only at hm
    unfold prefixOf at hm
    split at hm
    · rw [display_rec] at hm
      exact Or.inr (Or.inl ⟨v, hm, hp⟩)
    · rw [display_ret] at hm
      exact Or.inl ⟨v, hm, hp⟩
  · refine Or.inr (Or.inr ⟨x, h2, ?_⟩)
    have heall : e ∈ es := List.mem_of_getElem? hk
    rcases h3 with h3 | ⟨e', he', ⟨nt, hsh'⟩, hm⟩
    · exact Or.inl h3
    · right
      obtain ⟨s', v, hs', hv, hm⟩ := mem_fields hfs _ hm
      rw [h1] at hs
      simp only [semOf] at hs hs'
      have hsem := hone e (by simp [heall]) e' he' x false nt h2 hsh'
      cases hs; cases hs'
      cases hcase : e.sem with
      | untyped c => exact Or.inl ⟨c, rfl⟩
      | nil => exact Or.inr (Or.inl rfl)
      | typed ty v0 =>
        rw [← hsem] at hv
        rw [hcase] at hv hinto
        dsimp only at hm
        rw [display_user (hu e heall x false h2)] at hm
        exact Or.inr (Or.inr ⟨v, hm, into_payload hv hinto⟩)

/-- `func f(n int) (int, error) { return n, nil }` and `return n + 1, &e` with what is reported and returned. -/
example : outcome (S := goSys) (fun _ => false) [ty ['i','n','t'] .int, ty ['e','r','r','o','r'] .errorT] []
      (build [var ['n'] .int 4] [ty ['i','n','t'] .int, ty ['e','r','r','o','r'] .errorT] []
        (.exprs [⟨.other false, [['n']], .typed .int (some (.int, 5))⟩, ⟨.other false, [['e']], .typed .ptr (some (.ptr, 9))⟩])) =
    some ([(['n'], some (.int, 4)), (['r', 'e', 't', '0'], some (.int, 5)), (['r', 'e', 't', '1'], some (.ptr, 9))], [some (.int, 5), some (.ptr, 9)]) ∧
    outcome (S := goSys) (fun _ => false) [ty ['i','n','t'] .int, ty ['e','r','r','o','r'] .errorT] []
      (build [var ['n'] .int 4] [ty ['i','n','t'] .int, ty ['e','r','r','o','r'] .errorT] []
        (.exprs [var ['n'] .int 4, ⟨.ident ['n','i','l'] true, [['n','i','l']], .nil⟩])) =
    some ([(['n'], some (.int, 4)), (['r', 'e', 't', '1'], none)], [some (.int, 4), none]) := by
  constructor <;> decide +kernel

/-! ### C110 -/

/-- The block compiles if the return did, provided: if a name in a result type is hidden by a local one, the result is an identifier returned as it is, or
shares a name with the type and is neither a literal nor `nil`; no untyped expression shares a name with its result type (unless the type is its default
type); and constants that are reported by name fit their default types. -/
theorem C110_compiles_partial {S : Sys} (hL : Laws S) (hidden : Name → Bool) (vis : List (Expr S)) (types : List (TExpr S)) (names : List (Expr S)) (r : Rets S)
    (hw : Wf types names r) (rs : List (Dyn S)) (hr : returned types names r = some rs)
    (htypes : ∀ es, r = .exprs es → ∀ q ∈ es.zip types, (∃ x ∈ q.2.ids, hidden x = true) → q.1.asIs ∨ (¬ q.1.bare ∧ ∃ x ∈ q.1.ids, x ∈ q.2.ids))
    (hshare : ∀ es, r = .exprs es → ∀ q ∈ es.zip types, (∃ x ∈ q.1.ids, x ∈ q.2.ids) → definable q.2.den q.1.sem = true)
    (hblank : ∀ e ∈ vis, e.blank = false) (hvis : ∀ e ∈ vis, (into S.top e.sem).isSome = true)
    (hplain : ∀ es, r = .exprs es → ∀ e ∈ es, plain e → (into S.top e.sem).isSome = true) :
    ∃ fs, outcome hidden types names (build vis types names r) = some (fs, rs) := by
  have typedTop : ∀ (t : S.T) (v : Dyn S), (into S.top (.typed t v)).isSome = true := by
    intro t v
    simp only [into, hL.top, if_true]
    rfl
  suffices H : ∃ q, outcome hidden types names (build vis types names r) = some q by
    obtain ⟨⟨fs, rs'⟩, hq⟩ := H
    exact ⟨fs, by rw [hq, C111_same hL hidden vis types names r hw rs hr fs rs' hq]⟩
  unfold outcome
  rw [build_blank vis types names r hblank hw.value]
  simp only [Bool.false_eq_true, if_false]
  cases r with
  | naked =>
    simp only [build, returned] at hr ⊢
    have hf : (fields ([] : Ctx S) ((visibleSnaps vis []).1 ++ namedSnaps names (visibleSnaps vis []).2)).isSome = true := by
      refine fields_isSome ?_
      intro q hq
      rcases List.mem_append.mp hq with hq | hq
      · obtain ⟨e, he, h2⟩ := mem_visibleSnaps hq
        rw [h2]
        exact ⟨e.sem, rfl, hvis e he⟩
      · obtain ⟨e, he, h2, -⟩ := mem_namedSnaps hq
        rw [h2]
        obtain ⟨x, nt, t, v, -, hs⟩ := hw.named e he
        exact ⟨e.sem, rfl, by rw [hs]; exact typedTop t v⟩
    obtain ⟨fs, hfs⟩ := Option.isSome_iff_exists.mp hf
    refine ⟨(fs, rs), ?_⟩
    simp only [execAll, Option.bind_some, hfs]
    split
    · simp only [final, hr]; rfl
    · rw [final_ne (by simpa using hw.naked rfl), sems_orig]
      simp only [Option.bind_some, hr]
      rfl
  | call vs =>
    obtain ⟨hne, hv⟩ := hw.call vs rfl
    simp only [returned] at hr
    have hlen := intoAll_length hr
    obtain ⟨c', h1, -, h2⟩ := call_ok vs 0 ([] : Ctx S) (fun _ _ _ _ => rfl) hv
    have hget : ∀ i ∈ List.range' 0 vs.length, ∃ s ∈ vs, semOf c' (.tmp (pRet ++ itoa i)) = some s := by
      have : ∀ (l : List Nat) (ss : List (Sem S)), sems c' (l.map fun i => .tmp (pRet ++ itoa i)) = some ss → ∀ i ∈ l, ∃ s ∈ ss, semOf c' (.tmp (pRet ++ itoa i)) = some s := by
        intro l
        induction l with
        | nil => intro ss _ i hi; cases hi
        | cons a l ih =>
          intro ss hss i hi
          simp only [List.map_cons, sems] at hss
          obtain ⟨s, hs, hss⟩ := Option.bind_eq_some_iff.mp hss
          obtain ⟨ss', hss', rfl⟩ := Option.map_eq_some_iff.mp hss
          rcases List.mem_cons.mp hi with rfl | hi
          · exact ⟨s, by simp, hs⟩
          · obtain ⟨s', h, h'⟩ := ih ss' hss' i hi
            exact ⟨s', by simp [h], h'⟩
      exact this _ vs h2
    have hf : (fields c' ((visibleSnaps vis []).1 ++ (callTemps types.length).map fun n => (display n, .tmp n))).isSome = true := by
      refine fields_isSome ?_
      intro q hq
      rcases List.mem_append.mp hq with hq | hq
      · obtain ⟨e, he, h2⟩ := mem_visibleSnaps hq
        rw [h2]
        exact ⟨e.sem, rfl, hvis e he⟩
      · rw [callTemps_eq, hlen] at hq
        obtain ⟨n, hn, rfl⟩ := List.mem_map.mp hq
        obtain ⟨i, hi, rfl⟩ := List.mem_map.mp hn
        obtain ⟨s, hs, h'⟩ := hget i hi
        obtain ⟨t, v, rfl⟩ := hv s hs
        exact ⟨_, h', typedTop t v⟩
    obtain ⟨fs, hfs⟩ := Option.isSome_iff_exists.mp hf
    refine ⟨(fs, rs), ?_⟩
    simp only [build, execAll, exec, bind_pure_id]
    rw [show declareAll ([] : Ctx S) (callTemps types.length) vs = some c' by rw [callTemps_eq, hlen]; exact h1]
    simp only [Option.bind_some, hfs]
    rw [final_ne (callTemps_ne hne), callTemps_eq, hlen, List.map_map,
      show ((RExpr.tmp : Name → RExpr S) ∘ fun i => pRet ++ itoa i) = fun i => RExpr.tmp (pRet ++ itoa i) from rfl, h2]
    simp only [Option.bind_some, hr]
    rfl
  | exprs es =>
    simp only [returned] at hr
    obtain ⟨c, ss, h1, h2, h3, h4⟩ := all_ok (hd := hidden) hL es types 0 [] rs (fun _ _ _ _ => rfl) hr (by
      intro q hq
      refine ⟨fun hx => ?_, fun hs => hshare es rfl q hq ?_⟩
      · rcases htypes es rfl q hq hx with h' | ⟨h', x, hx1, hx2⟩
        · exact Or.inl h'
        · exact Or.inr ⟨h', List.any_eq_true.mpr ⟨x, hx1, by simpa using hx2⟩⟩
      unfold typeShadow at hs
      obtain ⟨x, hx, hc⟩ := List.any_eq_true.mp hs
      exact ⟨x, hx, by simpa using hc⟩)
    have hf : (fields c (steps ⟨[], (visibleSnaps vis []).1, [], (visibleSnaps vis []).2⟩ 0 es types).snaps).isSome = true := by
      refine fields_isSome ?_
      intro q hq
      rcases mem_steps_snaps hq with hq | ⟨k, e, he, hq, hp⟩
      · obtain ⟨e, he, h2⟩ := mem_visibleSnaps hq
        rw [h2]
        exact ⟨e.sem, rfl, hvis e he⟩
      · obtain ⟨s, hs, hcase⟩ := h4 k e he
        rw [hq]
        refine ⟨s, hs, ?_⟩
        rcases hcase with ⟨t, v, rfl⟩ | ⟨ho, rfl⟩
        · exact typedTop t v
        · exact hplain es rfl e (List.mem_of_getElem? he) (hp ho)
    obtain ⟨fs, hfs⟩ := Option.isSome_iff_exists.mp hf
    obtain ⟨rs', hrs'⟩ := Option.isSome_iff_exists.mp h3
    simp only [build]
    rw [(steps_pre es types _ 0).1, List.nil_append, h1]
    simp only [Option.bind_some, hfs]
    rw [(steps_pre es types _ 0).2, List.nil_append]
    by_cases hem : es = []
    · subst hem
      obtain ⟨rfl, rfl⟩ := hw.noNames [] rfl rfl
      exact ⟨_, rfl⟩
    · rw [final_ne (allRets_ne hr hem), h2]
      simp only [Option.bind_some, hrs']
      exact ⟨_, rfl⟩

/-- The hypotheses hold for `func f(n int) error { return big }` where `big` is a pointer. -/
example : ∃ fs, outcome (S := goSys) (fun x => x == ['n']) [ty ['e','r','r','o','r'] .errorT] []
    (build [var ['n'] .int 4] [ty ['e','r','r','o','r'] .errorT] [] (.exprs [⟨.ident ['b','i','g'] true, [['b','i','g']], .typed .ptr (some (.ptr, 9))⟩])) =
    some (fs, [some (.ptr, 9)]) := by
  refine C110_compiles_partial goLaws _ _ _ _ _ (Wf.mk (by simp) ?_ ?_ ?_ ?_) _ rfl ?_ ?_ ?_ ?_ ?_
  · intro h; cases h
  · intro es h; cases h; simp
  · intro es h; cases h; simp [Expr.blank]
  · intro vs h; cases h
  · rintro es h q hq ⟨x, hx, hh⟩
    cases h
    simp [ty] at hq
    subst hq
    simp at hx
    subst hx
    exact absurd hh (by decide)
  · rintro es h q hq
    cases h
    simp [ty] at hq
    subst hq
    simp
  · intro e he
    simp at he
    subst he; rfl
  · intro e he
    simp at he
    subst he; rfl
  · intro es h e he hp
    cases h
    simp at he
    subst he
    obtain ⟨x, hx, -⟩ := hp
    cases hx

/-- The hypotheses hold for `func f(buf *buf) *buf { return buf.next }`, where the parameter hides the type. -/
example : ∃ fs, outcome (S := goSys) (fun x => x == ['b','u','f']) [ty ['b','u','f'] .ptr] []
    (build [var ['b','u','f'] .ptr 4] [ty ['b','u','f'] .ptr] [] (.exprs [⟨.other false, [['b','u','f'], ['n']], .typed .ptr (some (.ptr, 9))⟩])) =
    some (fs, [some (.ptr, 9)]) := by
  refine C110_compiles_partial goLaws _ _ _ _ _ (Wf.mk (by simp) ?_ ?_ ?_ ?_) _ rfl ?_ ?_ ?_ ?_ ?_
  · intro h; cases h
  · intro es h; cases h; simp
  · intro es h; cases h; simp [Expr.blank]
  · intro vs h; cases h
  · rintro es h q hq -
    cases h
    simp [ty] at hq
    subst hq
    exact Or.inr ⟨by simp [Expr.bare], by simp⟩
  · rintro es h q hq -
    cases h
    simp [ty] at hq
    subst hq
    rfl
  · intro e he
    simp at he
    subst he; rfl
  · intro e he
    simp at he
    subst he; rfl
  · intro es h e he hp
    cases h
    simp at he
    subst he
    obtain ⟨x, hx, -⟩ := hp
    cases hx

/-- A parameter hides the package of the result type: `func f(time int) time.Duration { return 0 }` becomes
`var lenSyntheticRet0 time.Duration = 0`. -/
theorem C110_hidden_violated : ∃ (hidden : Name → Bool) (vis : List (Expr goSys)) (types : List (TExpr goSys)) (es : List (Expr goSys)),
    Wf types [] (.exprs es) ∧ (returned types [] (.exprs es)).isSome = true ∧ outcome hidden types [] (build vis types [] (.exprs es)) = none := by
  refine ⟨fun x => x == ['t','i','m','e'], [var ['t','i','m','e'] .int 3], [⟨[['t','i','m','e'], ['D']], .duration⟩], [⟨.lit false, [], .untyped .five⟩],
    ⟨by simp, by simp, ?_, ?_, by simp⟩, rfl, by decide +kernel⟩
  · intro es h; cases h; simp
  · intro es h; cases h; simp [Expr.blank]

/-- An untyped constant of the package of the result type: `func f() big.Word { return big.MaxBase }` becomes
`lenSyntheticTmp0 := big.MaxBase`, which is not a `big.Word`. -/
theorem C110_share_violated : ∃ (types : List (TExpr goSys)) (es : List (Expr goSys)), Wf types [] (.exprs es) ∧
    (returned types [] (.exprs es)).isSome = true ∧ outcome (fun _ => false) types [] (build [] types [] (.exprs es)) = none := by
  refine ⟨[⟨[['b','i','g'], ['W','o','r','d']], .word⟩], [⟨.other false, [['b','i','g'], ['M']], .untyped .five⟩], ⟨by simp, by simp, ?_, ?_, by simp⟩, rfl, by decide +kernel⟩
  · intro es h; cases h; simp
  · intro es h; cases h; simp [Expr.blank]

/-- A constant that does not fit into `int` is reported by name: `const offset = 14695981039346656037; func f() uint64 { return offset }`. -/
theorem C110_const_violated : ∃ (types : List (TExpr goSys)) (es : List (Expr goSys)), Wf types [] (.exprs es) ∧
    (returned types [] (.exprs es)).isSome = true ∧ outcome (fun _ => false) types [] (build [] types [] (.exprs es)) = none := by
  refine ⟨[ty ['u'] .uint64], [⟨.ident ['o'] false, [['o']], .untyped .big⟩], ⟨by simp, by simp, ?_, ?_, by simp⟩, rfl, by decide +kernel⟩
  · intro es h; cases h; simp
  · intro es h; cases h; simp [Expr.blank]

/-! ### C112 -/

/-- The fields of a report have different names if no name of the program begins with "lenSynthetic" or is "ret" or "rec" with a number. -/
theorem C112_names_partial {S : Sys} (vis : List (Expr S)) (types : List (TExpr S)) (names : List (Expr S)) (r : Rets S) (hvis : Users vis)
    (hnames : Users names) (hes : ∀ es, r = .exprs es → Users es) : ((build vis types names r).snaps.map (·.1)).Nodup := by
  have h0 : Named (visibleSnaps vis []).1 (visibleSnaps vis []).2 0 := by
    have := named_visible (snaps := ([] : List (Name × RExpr S))) (seen := []) hvis ⟨rfl, List.nodup_nil, fun x hx => by cases hx⟩
    simpa using this
  cases r with
  | naked =>
    obtain ⟨seen', h⟩ := named_named hnames h0
    exact h.distinct
  | call vs =>
    obtain ⟨seen', j, h⟩ := named_call types.length 0 h0
    have := h.distinct
    simp only [build, callTemps_eq, List.map_map]
    exact this
  | exprs es =>
    obtain ⟨j, h⟩ := named_steps (ts := types) (a := ⟨[], (visibleSnaps vis []).1, [], (visibleSnaps vis []).2⟩) (hes es rfl) h0
    exact h.distinct

/-- What the generated names are reported as. The names of receivers begin with the prefix of named results, but come out right. -/
theorem C112_texts (x : Name) : display ("lenSyntheticRet".toList ++ x) = "ret".toList ++ x ∧ display ("lenSyntheticRec".toList ++ x) = "rec".toList ++ x ∧
    display ("lenSyntheticArg".toList ++ x) = "arg".toList ++ x ∧ display ("lenSyntheticRecv".toList ++ x) = "recv".toList ++ x ∧
    display ("lenSyntheticTmp".toList ++ x) = "lenSyntheticTmp".toList ++ x := by
  refine ⟨?_, ?_, ?_, ?_, ?_⟩ <;> simp [display, pRet, pRec, pArg, pRecv, pSyn]

/-- A variable called `ret0` and the first result have one name. -/
theorem C112_names_violated : ∃ (vis : List (Expr goSys)) (types : List (TExpr goSys)) (es : List (Expr goSys)),
    (build vis types [] (.exprs es)).snaps.map (·.1) = [['r', 'e', 't', '0'], ['r', 'e', 't', '0']] :=
  ⟨[var ['r', 'e', 't', '0'] .int 4], [ty ['i'] .int], [⟨.other false, [['g']], .typed .int (some (.int, 5))⟩], by decide +kernel⟩

example : Users [var ['n'] .int 4, var ['r', 'e', 't'] .int 4] := by
  have hne : ∀ i, itoa i ≠ [] := by
    intro i h
    exact digits10_ne_nil i (List.map_eq_nil_iff.mp h)
  intro e he x nt hx
  simp [var] at he
  rcases he with rfl | rfl <;> (cases hx; refine ⟨by decide, ?_, ?_⟩ <;> intro i h <;> have := hne i <;> simp_all)

end Verif.Temps
