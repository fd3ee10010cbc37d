import Verif.Zero.Spec

/-! C113: the results of the return added at the end of a function compile and are the zero values. -/

namespace Verif.Zero

/-- The expression for a type compiles and is its zero value, if the predeclared types have their usual meaning and no name of the type, `nil`, `false` or
`new` is hidden. -/
theorem C113_zero_partial (file : String → Option Kind) (sel : List String → Option Kind) (scope : String → Bool) (hp : Predeclared file) (t : TSyn) (k : Kind)
    (hk : kindOf file sel t = some k) (hids : ∀ x ∈ t.ids, scope x = false) (hnil : scope "nil" = false) (hfalse : scope "false" = false)
    (hnew : scope "new" = false) : eval scope k (zeroFor t) = some (zeroOf k) := by
  obtain ⟨h1, h2, h3, h4, h5⟩ := hp
  cases t with
  | ident n =>
    simp only [kindOf] at hk
    simp only [zeroFor]
    split
    · rename_i hn
      rw [h1 n ((by decide : ∀ n ∈ numeric, n ∈ goNumeric) n hn)] at hk
      cases hk; rfl
    · split
      · rename_i hn
        subst hn
        rw [h2] at hk
        cases hk
        simp [eval, hfalse, zeroOf]
      · split
        · rename_i hn
          subst hn
          rw [h3] at hk
          cases hk; rfl
        · split
          · rename_i hn
            subst hn
            rw [h4] at hk
            cases hk
            simp [eval, hnil, zeroOf]
          · split
            · rename_i hn
              subst hn
              rw [h5] at hk
              cases hk
            · simp only [eval]
              have := hids n (by simp [TSyn.ids])
              rw [if_pos (by simp [hnew, this])]
  | star => cases hk; simp [zeroFor, eval, hnil, zeroOf]
  | map => cases hk; simp [zeroFor, eval, hnil, zeroOf]
  | chan => cases hk; simp [zeroFor, eval, hnil, zeroOf]
  | func => cases hk; simp [zeroFor, eval, hnil, zeroOf]
  | iface => cases hk; simp [zeroFor, eval, hnil, zeroOf]
  | slice => cases hk; simp [zeroFor, eval, hnil, zeroOf]
  | array ids =>
    cases hk
    simp only [zeroFor, eval]
    rw [if_pos ⟨by simp, by simpa [TSyn.ids] using hids⟩]
    rfl
  | struct ids =>
    cases hk
    simp only [zeroFor, eval]
    rw [if_pos ⟨by simp, by simpa [TSyn.ids] using hids⟩]
    rfl
  | other ids =>
    simp only [zeroFor, eval]
    rw [if_pos ⟨hnew, by simpa [TSyn.ids] using hids⟩]

theorem evalR_zero (file : String → Option Kind) (sel : List String → Option Kind) (scope : String → Bool) (hu : Usual file scope)
    (named : List (String × Kind)) (hsc : ∀ q ∈ named, q.1 ≠ "" → q.1 ≠ "_" → scope q.1 = true) (t : TSyn) (k : Kind)
    (hk : kindOf file sel t = some k) (hids : ∀ x ∈ t.ids, scope x = false) : evalR scope named k (zeroFor t) = some (.inr (zeroOf k)) := by
  have hz := C113_zero_partial file sel scope hu.pre t k hk hids hu.nil_ hu.fls hu.new_
  cases he : zeroFor t with
  | ident n =>
    rw [he] at hz
    have hn : n = "nil" ∨ n = "false" := by
      simp only [eval] at hz
      split at hz <;> simp_all
    have hnot : (n, k) ∉ named := by
      intro hm
      rcases hn with rfl | rfl
      · have := hsc _ hm (by simp) (by simp)
        rw [hu.nil_] at this; cases this
      · have := hsc _ hm (by simp) (by simp)
        rw [hu.fls] at this; cases this
    simp only [evalR, if_neg hnot, hz, Option.map_some]
  | _ => rw [he] at hz; simp only [evalR, hz, Option.map_some]

/-- The added return compiles and returns named results with their content and zero values for the others, if names have their usual meaning. In Go either
all results have names (some of which may be blank) or none. -/
theorem C113_results_partial (file : String → Option Kind) (sel : List String → Option Kind) (scope : String → Bool) (hu : Usual file scope)
    (types : List TSyn) (named : List (String × Kind)) (hkinds : types.map (kindOf file sel) = named.map (fun q => some q.2))
    (hgo : (∀ q ∈ named, q.1 = "") ∨ ∀ q ∈ named, q.1 ≠ "") (hids : ∀ t ∈ types, ∀ x ∈ t.ids, scope x = false)
    (hsc : ∀ q ∈ named, q.1 ≠ "" → q.1 ≠ "_" → scope q.1 = true) :
    results scope named (added types (named.map Prod.fst)) = some (wanted named) := by
  unfold added
  split
  · rename_i h
    obtain ⟨_, h2, h3⟩ := h
    have ha : named.all (fun q => decide (q.1 ≠ "")) = true := by
      rw [List.all_eq_true]
      intro q hq
      have : q.1 ≠ "" := fun he => h2 (he ▸ List.mem_map_of_mem hq)
      simpa using this
    simp only [results, ha, if_true, wanted]
    congr 1
    apply List.map_congr_left
    intro q hq
    have h1 : q.1 ≠ "" := fun he => h2 (he ▸ List.mem_map_of_mem hq)
    simp [h1]
  · simp only [results, wanted]
    suffices H : ∀ (l : List (String × Kind)) (ts : List TSyn), (∀ q ∈ l, q ∈ named) → (∀ t ∈ ts, ∀ x ∈ t.ids, scope x = false) →
        ts.map (kindOf file sel) = l.map (fun q => some q.2) →
        evalAll scope named (l.map Prod.snd) ((ts.zip (l.map Prod.fst)).map fun q =>
          if "" ∉ named.map Prod.fst ∧ q.2 ≠ "_" then ZExpr.ident q.2 else zeroFor q.1) =
        some (l.map fun q => if q.1 = "" ∨ q.1 = "_" then .inr (zeroOf q.2) else .inl q.1) from H named types (fun _ h => h) hids hkinds
    intro l
    induction l with
    | nil =>
      intro ts _ _ hk
      cases ts with
      | nil => rfl
      | cons t ts => simp at hk
    | cons q l ih =>
      intro ts hl hi hk
      cases ts with
      | nil => simp at hk
      | cons t ts =>
        simp only [List.map_cons, List.cons.injEq] at hk
        have hr : evalR scope named q.2 (if "" ∉ named.map Prod.fst ∧ q.1 ≠ "_" then ZExpr.ident q.1 else zeroFor t) =
            some (if q.1 = "" ∨ q.1 = "_" then .inr (zeroOf q.2) else .inl q.1) := by
          have hz := evalR_zero file sel scope hu named hsc t q.2 hk.1 (hi t (by simp))
          rcases hgo with hgo | hgo
          · have h0 := hgo q (hl q (by simp))
            have hin : "" ∈ named.map Prod.fst := h0 ▸ List.mem_map_of_mem (hl q (by simp))
            rw [if_neg (fun h => h.1 hin), hz, if_pos (Or.inl h0)]
          · have hin : "" ∉ named.map Prod.fst := by
              intro h
              obtain ⟨q', hq', he⟩ := List.mem_map.mp h
              exact hgo q' hq' he
            have h0 := hgo q (hl q (by simp))
            by_cases hb : q.1 = "_"
            · rw [if_neg (fun h => h.2 hb), hz, if_pos (Or.inr hb)]
            · rw [if_pos ⟨hin, hb⟩, if_neg (by simp [h0, hb])]
              have hm : (q.1, q.2) ∈ named := hl q (by simp)
              simp only [evalR, if_pos hm]
        have hrest := ih ts (fun x hx => hl x (by simp [hx])) (fun t' ht => hi t' (by simp [ht])) hk.2
        simp only [List.map_cons, List.zip_cons_cons, evalAll]
        rw [hr, hrest]

/-- The usual meanings, with a type `Result`. -/
def file (n : String) : Option Kind :=
  if n ∈ goNumeric then some .num
  else if n = "bool" then some .bool
  else if n = "string" then some .str
  else if n = "error" then some .iface
  else if n = "Result" then some .struct
  else none

theorem file_predeclared : Predeclared file := by
  refine ⟨?_, by decide, by decide, by decide, by decide⟩
  intro n hn
  exact if_pos hn

/-- `func f() (n int, _ error) { for {} }`: `return n, nil`. -/
example : let scope := fun x => decide (x = "n")
    Usual file scope ∧ [TSyn.ident "int", .ident "error"].map (kindOf file fun _ => none) = [("n", Kind.num), ("_", .iface)].map (fun q => some q.2) ∧
    (∀ t ∈ [TSyn.ident "int", .ident "error"], ∀ x ∈ t.ids, scope x = false) ∧
    added [.ident "int", .ident "error"] ["n", "_"] = some [.ident "n", .ident "nil"] ∧
    wanted [("n", .num), ("_", .iface)] = [.inl "n", .inr .nil] :=
  ⟨⟨file_predeclared, by decide, by decide, by decide⟩, by decide, by decide, by decide, by decide⟩

/-- `func f() (Result, error) { panic("todo") }`: `return *new(Result), nil`. -/
example : Usual file (fun _ => false) ∧ kindOf file (fun _ => none) (.ident "Result") = some .struct ∧
    added [.ident "Result", .ident "error"] ["", ""] = some [.new ["Result"], .ident "nil"] :=
  ⟨⟨file_predeclared, by decide, by decide, by decide⟩, by decide, by decide⟩

/-- `func replace(old, new string) Result { panic("todo") }`: the parameter hides `new`. -/
theorem C113_new_violated : ∃ (file : String → Option Kind) (scope : String → Bool) (k : Kind), Predeclared file ∧ (∀ x, scope x = true ↔ x = "old" ∨ x = "new") ∧
    kindOf file (fun _ => none) (.ident "Result") = some k ∧ eval scope k (zeroFor (.ident "Result")) = none :=
  ⟨file, fun x => decide (x = "old" ∨ x = "new"), .struct, file_predeclared, by simp, by decide, by decide⟩

/-- With `type error struct{}` in the package the zero value is written `nil`. -/
theorem C113_redeclared_violated : ∃ (file : String → Option Kind) (k : Kind), kindOf file (fun _ => none) (.ident "error") = some k ∧
    eval (fun _ => false) k (zeroFor (.ident "error")) = none :=
  ⟨fun n => if n = "error" then some .struct else file n, .struct, by decide, by decide⟩

/-- Where the expression has a type in it (`T{}`, `*new(T)`), it is the result type. -/
theorem C113_same_type (t : TSyn) (ids : List String) (h : zeroFor t = .comp ids ∨ zeroFor t = .new ids) : ids = t.ids := by
  cases t <;> simp only [zeroFor, TSyn.ids] at h ⊢ <;> (try split_ifs at h) <;> simp_all

example : zeroFor (.struct ["T"]) = .comp ["T"] ∧ zeroFor (.other ["pkg", "T"]) = .new ["pkg", "T"] := by decide

end Verif.Zero
