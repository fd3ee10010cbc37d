import Verif.Scope.Lemmas

/-!
C108: at every return the names reported can be passed on, so the rewritten function compiles.
C109: every parameter, result and local name in scope is reported, once, in the order of the declarations.
-/

namespace Verif.Scope

/-! ### An example

```go
func f(a int) (err error) {       // a 7, err 15, { 26
	if x := a; x > 0 {             // x 30, { 43
		y := x                     // y 45
		return nil                 // 55
	}                              // ends at 67
	type T int                     // 70
	for i := range a {             // i 85, { 98
		z := i                     // z 100
		return err                 // 110
	}                              // ends at 122
	w := 1                         // 125
	return nil                     // 135
}                                  // 147
```
-/

def exBody : Stmts :=
  .cons (.box 42 67 [⟨"x", 30, .var⟩] .nil (.cons (.box 43 67 [] .nil
    (.cons (.simple 51 [⟨"y", 45, .var⟩] .nil) (.cons (.ret 55 65 .nil) .nil))) .nil))
  (.cons (.simple 80 [⟨"T", 75, .type⟩] .nil)
  (.cons (.box 98 122 [⟨"i", 85, .var⟩] .nil (.cons (.simple 106 [⟨"z", 100, .var⟩] .nil) (.cons (.ret 110 120 .nil) .nil)))
  (.cons (.simple 131 [⟨"w", 125, .var⟩] .nil)
  (.cons (.ret 135 145 .nil) .nil))))

def exFn (recv : List Decl) : Fn := ⟨recv, [⟨"a", 7, .var⟩], [⟨"err", 15, .var⟩], exBody, 26, 147⟩

/-- The first return has been replaced. -/
def exGen (p : Nat) : Option (Nat × List Decl) := if p = 55 then some (10, [⟨"lensSyntheticRet0", 0, .var⟩]) else none

/-! ### C108 -/

/-- At a return every reported name is in scope there and means a variable or constant, if no name in scope there is declared both as a type and
otherwise, whatever returns before it have been replaced. -/
theorem C108_in_scope_partial (f : Fn) (hf : f.Laid) (g : Nat → Option (Nat × List Decl)) (r : Nat) (hg : Earlier g r) (sc : Scp)
    (hsc : f.body.scope f.outer r = some sc) (hr : r ≤ f.rbrace) (hn : NoClash sc) :
    ∀ x ∈ reported { f with body := f.body.replace g } r, ∃ k, meaning sc x = some k ∧ k ≠ .type := by
  intro x hx
  obtain ⟨⟨added, hi⟩, -, -⟩ := Stmts.inside hg f.body hf.body hsc
  rw [meaning_value hn]
  have hx := (List.mem_filter.mp hx).1
  obtain ⟨-, d, hd, hdn, hle⟩ := (mem_visible (f := { f with body := f.body.replace g }) hr x).mp hx
  rcases hd with hd | hd
  · refine ⟨d, ?_, hdn, by rw [(hf.params d hd).2]; simp⟩
    rw [hi.out]
    unfold Fn.outer
    simp only [List.mem_append] at hd ⊢
    tauto
  · obtain ⟨h1, h2⟩ := mem_values.mp ((hi.scan d).mp ⟨hd, hle⟩)
    exact ⟨d, by rw [hi.out]; exact List.mem_append_right _ h1, hdn, h2⟩

/-- … and can be passed on, if every constant in scope there fits into its default type. -/
theorem C108_compiles_partial (f : Fn) (hf : f.Laid) (g : Nat → Option (Nat × List Decl)) (r : Nat) (hg : Earlier g r) (sc : Scp)
    (hsc : f.body.scope f.outer r = some sc) (hr : r ≤ f.rbrace) (hn : NoClash sc) (hc : ∀ d ∈ sc, d.kind ≠ .const false) :
    ∀ x ∈ reported { f with body := f.body.replace g } r, passable sc x := by
  intro x hx
  obtain ⟨k, hk, hne⟩ := C108_in_scope_partial f hf g r hg sc hsc hr hn x hx
  obtain ⟨d, hd, hdk⟩ := Option.map_eq_some_iff.mp hk
  have := hc d (List.mem_reverse.mp (List.mem_of_find?_eq_some hd))
  unfold passable
  cases k with
  | var => exact Or.inl hk
  | type => exact absurd rfl hne
  | const b => cases b with
    | true => exact Or.inr hk
    | false => exact absurd hdk this

/-- At the end of a function without returns, if the last statement ends before the last brace. -/
theorem C108_end_partial (f : Fn) (hf : f.Laid) (hend : f.body.fin (f.opn + 1) < f.rbrace) (hn : NoClash (f.body.atEnd f.outer))
    (hc : ∀ d ∈ f.body.atEnd f.outer, d.kind ≠ .const false) :
    ∀ x ∈ reported { f with body := f.body.replace fun _ => none } f.rbrace, passable (f.body.atEnd f.outer) x := by
  intro x hx
  obtain ⟨added, h1, h2, h3⟩ := Stmts.at_end (g := fun _ => none) (r := f.rbrace) (by intro _ _ _ h; cases h) f.body hf.body _ hend f.outer
  have hx := (List.mem_filter.mp hx).1
  obtain ⟨-, d, hd, hdn, hle⟩ := (mem_visible (f := { f with body := f.body.replace fun _ => none }) (Nat.le_refl _) x).mp hx
  have : ∃ d ∈ f.body.atEnd f.outer, d.name = x ∧ d.kind ≠ .type := by
    rw [h1]
    rcases hd with hd | hd
    · refine ⟨d, ?_, hdn, by rw [(hf.params d hd).2]; simp⟩
      unfold Fn.outer
      simp only [List.mem_append] at hd ⊢
      tauto
    · dsimp only at hd
      rw [h3] at hd
      exact ⟨d, List.mem_append_right _ (mem_values.mp hd).1, hdn, (mem_values.mp hd).2⟩
  obtain ⟨k, hk, hne⟩ := (meaning_value hn x).mpr this
  obtain ⟨d, hd, hdk⟩ := Option.map_eq_some_iff.mp hk
  have := hc d (List.mem_reverse.mp (List.mem_of_find?_eq_some hd))
  unfold passable
  cases k with
  | var => exact Or.inl hk
  | type => exact absurd rfl hne
  | const b => cases b with
    | true => exact Or.inr hk
    | false => exact absurd hdk this

example : (exFn []).Laid ∧ Earlier exGen 110 ∧ exBody.scope (exFn []).outer 110 = some
      [⟨"a", 7, .var⟩, ⟨"err", 15, .var⟩, ⟨"T", 75, .type⟩, ⟨"i", 85, .var⟩, ⟨"z", 100, .var⟩] ∧
    reported { exFn [] with body := exBody.replace exGen } 110 = ["a", "err", "i", "z"] := by
  refine ⟨⟨by simp [exFn], ?_, by simp [exFn, exBody, Stmts.fin, Stmt.fin]⟩, ?_, by decide, by decide⟩
  · simp [exFn, exBody, Stmts.laid, Stmt.laid, Stmts.fin, Stmt.fin, Lits.laid]
  · intro p gf ds h
    unfold exGen at h
    split at h
    · cases h; omega
    · cases h

/-- A local type that hides a parameter is passed as a value: `func f(T int) int { if T > 0 { type T string; return 1 }; return T }`. -/
theorem C108_type_violated : ∃ (f : Fn) (r : Nat) (sc : Scp), f.Laid ∧ f.body.scope f.outer r = some sc ∧ r ≤ f.rbrace ∧
    (∀ d ∈ sc, d.kind ≠ .const false) ∧ "T" ∈ reported f r ∧ meaning sc "T" = some .type := by
  refine ⟨⟨[], [⟨"T", 7, .var⟩], [], .cons (.box 28 60 [] .nil (.cons (.simple 43 [⟨"T", 35, .type⟩] .nil) (.cons (.ret 45 53 .nil) .nil)))
    (.cons (.ret 62 70 .nil) .nil), 18, 72⟩, 45, [⟨"T", 7, .var⟩, ⟨"T", 35, .type⟩], ⟨by simp, ?_, by decide⟩, by decide, by decide, by decide, by decide, by decide⟩
  simp [Stmts.laid, Stmt.laid, Stmts.fin, Stmt.fin, Lits.laid]

/-- A constant that does not fit into `int` is passed: `func f() int { const big = 1 << 70; return 0 }`. -/
theorem C108_const_violated : ∃ (f : Fn) (r : Nat) (sc : Scp), f.Laid ∧ f.body.scope f.outer r = some sc ∧ r ≤ f.rbrace ∧ NoClash sc ∧
    "big" ∈ reported f r ∧ ¬ passable sc "big" := by
  refine ⟨⟨[], [], [], .cons (.simple 33 [⟨"big", 22, .const false⟩] .nil) (.cons (.ret 35 43 .nil) .nil), 14, 46⟩, 35, [⟨"big", 22, .const false⟩],
    ⟨by simp, ?_, by decide⟩, by decide, by decide, ?_, by decide, ?_⟩
  · simp [Stmts.laid, Stmt.laid, Stmts.fin, Stmt.fin, Lits.laid]
  · intro d hd e he _ hk
    simp at hd he
    subst hd; cases hk
  · unfold passable; decide

/-- Where the last brace follows the brace of a block at once, the names of the block are passed: `func f() {for i := range 3 {g(i)}}`. -/
theorem C108_brace_violated : ∃ f : Fn, f.Laid ∧ NoClash (f.body.atEnd f.outer) ∧ (∀ d ∈ f.body.atEnd f.outer, d.kind ≠ .const false) ∧
    "i" ∈ reported f f.rbrace ∧ meaning (f.body.atEnd f.outer) "i" = none := by
  refine ⟨⟨[], [], [], .cons (.box 28 35 [⟨"i", 15, .var⟩] .nil (.cons (.simple 33 [] .nil) .nil)) .nil, 10, 35⟩, ⟨by simp, ?_, by decide⟩, ?_, by decide,
    by decide, by decide⟩
  · simp [Stmts.laid, Stmt.laid, Stmts.fin, Stmt.fin, Lits.laid]
  · intro d hd; simp [Stmts.atEnd, Fn.outer, Stmt.declares] at hd

/-! ### C109 -/

/-- Every name that means a variable or constant at a return is reported there, if it is not the receiver's. -/
theorem C109_all_partial (f : Fn) (hf : f.Laid) (g : Nat → Option (Nat × List Decl)) (r : Nat) (hg : Earlier g r) (sc : Scp)
    (hsc : f.body.scope f.outer r = some sc) (hr : r ≤ f.rbrace) (hn : NoClash sc) (x : String) (k : Kind) (hx : meaning sc x = some k) (hk : k ≠ .type)
    (h1 : x ≠ "_") (h2 : x ≠ "nil") (hrecv : ∀ d ∈ f.recv, d.name ≠ x) : x ∈ reported { f with body := f.body.replace g } r := by
  obtain ⟨⟨added, hi⟩, -, -⟩ := Stmts.inside hg f.body hf.body hsc
  obtain ⟨d, hd, hdn, hdk⟩ := (meaning_value hn x).mp ⟨k, hx, hk⟩
  refine List.mem_filter.mpr ⟨?_, by simpa using h2⟩
  rw [mem_visible (f := { f with body := f.body.replace g }) hr]
  refine ⟨h1, d, ?_, hdn, ?_⟩
  · rw [hi.out] at hd
    unfold Fn.outer at hd
    simp only [List.mem_append] at hd
    rcases hd with ((hd | hd) | hd) | hd
    · exact absurd hdn (hrecv d hd)
    · exact Or.inl (List.mem_append_left _ hd)
    · exact Or.inl (List.mem_append_right _ hd)
    · exact Or.inr ((hi.scan d).mpr (mem_values.mpr ⟨hd, hdk⟩)).1
  · have hlo := hi.lo
    rw [hi.out] at hd
    unfold Fn.outer at hd
    simp only [List.mem_append] at hd
    rcases hd with ((hd | hd) | hd) | hd
    · exact absurd hdn (hrecv d hd)
    · have := (hf.params d (List.mem_append_left _ hd)).1; omega
    · have := (hf.params d (List.mem_append_right _ hd)).1; omega
    · exact hi.before d hd

/-- No name is reported twice. -/
theorem C109_once (f : Fn) (r : Nat) : (reported f r).Nodup :=
  List.Nodup.sublist List.filter_sublist (((sortPos_perm _).map _).nodup_iff.mpr (latest_fold r _).nodup)

/-- The names come in the order of declarations in scope at the return. -/
theorem C109_order (f : Fn) (hf : f.Laid) (g : Nat → Option (Nat × List Decl)) (r : Nat) (hg : Earlier g r) (sc : Scp)
    (hsc : f.body.scope f.outer r = some sc) (hr : r ≤ f.rbrace) :
    ∃ ds : List Decl, ds.Pairwise (fun a b => a.pos ≤ b.pos) ∧ ds.map (·.name) = reported { f with body := f.body.replace g } r ∧
      ∀ d ∈ ds, d ∈ sc ∧ ∀ e ∈ sc, e ∉ f.recv → e.kind ≠ .type → e.name = d.name → e.pos ≤ d.pos := by
  obtain ⟨⟨added, hi⟩, -, -⟩ := Stmts.inside hg f.body hf.body hsc
  have hlo := hi.lo
  have hle : ∀ d ∈ f.params ++ f.results, d.pos ≤ r := fun d hd => by have := (hf.params d hd).1; omega
  have hscan : (Stmt.box f.opn (f.rbrace + 1) [] .nil (f.body.replace g)).scan r = (f.body.replace g).scan r := by
    simp only [Stmt.scan]
    rw [if_neg (by omega)]
    simp [values, Lits.scan]
  have hl := latest_fold r (f.params ++ f.results ++ (Stmt.box f.opn (f.rbrace + 1) [] .nil (f.body.replace g)).scan r)
  rw [hscan] at hl
  refine ⟨(visible { f with body := f.body.replace g } r).filter fun d => d.name ≠ "nil", List.Pairwise.sublist List.filter_sublist (sortPos_sorted _), ?_, ?_⟩
  · unfold reported
    rw [List.filter_map]
    rfl
  · intro d hd
    have hm := (sortPos_perm _).mem_iff.mp (List.mem_filter.mp hd).1
    dsimp only at hm
    rw [hscan] at hm
    obtain ⟨h1, h2⟩ := hl.last d hm
    have hpos : d.pos ≤ r := latest_pos r _ d hm
    constructor
    · rw [hi.out]
      rcases List.mem_append.mp h1 with h | h
      · unfold Fn.outer
        simp only [List.mem_append] at h ⊢
        tauto
      · exact List.mem_append_right _ (mem_values.mp ((hi.scan d).mp ⟨h, hpos⟩)).1
    · intro e he hrecv hk hn
      rw [hi.out] at he
      unfold Fn.outer at he
      simp only [List.mem_append] at he
      rcases he with ((he | he) | he) | he
      · exact absurd he hrecv
      · exact h2 e (by simp [he]) hn (hle e (by simp [he]))
      · exact h2 e (by simp [he]) hn (hle e (by simp [he]))
      · have := (hi.scan e).mpr (mem_values.mpr ⟨he, hk⟩)
        exact h2 e (List.mem_append_right _ this.1) hn this.2

/-- A method's receiver is not reported. -/
theorem C109_receiver_violated : ∃ (f : Fn) (r : Nat) (sc : Scp), f.Laid ∧ f.body.scope f.outer r = some sc ∧ NoClash sc ∧ r ≤ f.rbrace ∧
    meaning sc "s" = some .var ∧ "s" ∉ reported f r := by
  refine ⟨⟨[⟨"s", 7, .var⟩], [], [], .cons (.ret 30 40 .nil) .nil, 25, 42⟩, 30, [⟨"s", 7, .var⟩], ⟨by simp, ?_, by decide⟩, by decide, ?_, by decide,
    by decide, by decide⟩
  · simp [Stmts.laid, Stmt.laid, Lits.laid]
  · intro d hd e he _ hk
    simp at hd he
    subst hd; cases hk

example : (exFn [⟨"s", 2, .var⟩]).Laid ∧ meaning ((exBody.scope (exFn [⟨"s", 2, .var⟩]).outer 135).getD []) "w" = some .var ∧
    reported (exFn [⟨"s", 2, .var⟩]) 135 = ["a", "err", "w"] ∧ reported (exFn []) 55 = ["a", "err", "x", "y"] := by
  refine ⟨⟨by simp [exFn], ?_, by simp [exFn, exBody, Stmts.fin, Stmt.fin]⟩, by decide, by decide, by decide⟩
  simp [exFn, exBody, Stmts.laid, Stmt.laid, Stmts.fin, Stmt.fin, Lits.laid]

end Verif.Scope
