import Verif.Jumps.Lemmas

/-! # C157: jumps and ends of functions stay valid -/

namespace Verif.Jumps

/-- C157 (returns): replacing returns neither makes nor breaks a jump, and the function ends in a terminating statement just if it did before. -/
theorem C157_returns (c : Code) : (Valid (returns c) ↔ Valid c) ∧ (Terminating (returns c) ↔ Terminating c) :=
  ⟨jumps_returns c [] [], by unfold Terminating; rw [ends_returns]⟩

/-- C157 (calls): the function ends in a terminating statement just if it did before, and its jumps are valid if, and only if, no `goto` leads forward over a reported call for which
variables are made. Missing: such jumps, see `C157_goto_violated`. -/
theorem C157_calls_partial (c : Code) (h : Represented c) : (Valid (calls c) ↔ Clear c) ∧ (Terminating (calls c) ↔ Terminating c) :=
  ⟨jumps_calls h, by unfold Terminating; rw [ends_calls]⟩

/-- C157 (no `goto`): of a function without forward jumps over reported calls nothing is lost by both changes together. -/
theorem C157_both_partial (c : Code) (h : Represented c) (hc : Clear c) (ht : Terminating c) : Valid (returns (calls c)) ∧ Terminating (returns (calls c)) :=
  ⟨(C157_returns _).1.mpr ((C157_calls_partial c h).1.mpr hc), (C157_returns _).2.mpr ((C157_calls_partial c h).2.mpr ht)⟩

/-! ### Examples -/

instance : ∀ (s : Kind → Option Nat → Bool) (t k : List Label) (c : Code), Decidable (Jumps s t k c)
  | _, _, _, .done => .isTrue trivial
  | s, t, k, .simple _ _ rest => instDecidableJumps s t k rest
  | s, t, k, .jump l rest => by have := instDecidableJumps s t k rest; unfold Jumps; infer_instance
  | s, t, k, .leave _ rest => instDecidableJumps s t k rest
  | s, t, k, .through rest => instDecidableJumps s t k rest
  | s, t, k, .ret _ _ rest => instDecidableJumps s t k rest
  | s, t, k, .label l inner rest => by have := instDecidableJumps s (l :: t) (ahead s k rest) inner; have := instDecidableJumps s (l :: (labels inner ++ t)) k rest; unfold Jumps; infer_instance
  | s, t, k, .nest _ _ cl rest => by have := instDecidableJumps s t (ahead s k rest) cl; have := instDecidableJumps s t k rest; unfold Jumps; infer_instance
  | s, t, k, .clause _ b rest => by have := instDecidableJumps s t k b; have := instDecidableJumps s t k rest; unfold Jumps; infer_instance

/-- `if done { goto e }; f(); for { x := f(g()); if x { break }; switch f(g(), g()) { case …: fallthrough; default: return h(x) } }; e: return`: a jump over a call reported without variables
and over a loop in which there are a declaration, calls reported with variables and a replaced return. -/
def sample : Code :=
  .nest .branch none (.clause false (.jump ['e'] .done) .done) <|
  .simple .other (some 0) <|
  .nest (.loop false) none (.clause true
    (.simple .decl (some 1) <| .nest .branch none (.clause false (.leave none .done) .done) <|
      .nest .switch (some 2) (.clause false (.through .done) (.clause true (.ret none (some 1) .done) .done)) .done) .done) <|
  .label ['e'] (.ret none none .done) .done

example : Represented sample ∧ Clear sample ∧ Terminating sample := by
  unfold Clear Terminating
  exact ⟨by simp [sample, Represented, Unmarked], by decide +kernel, by decide +kernel⟩

/-- `if done { goto end }; f(g()); end: return`: the variable for the argument is declared between the jump and its label. -/
theorem C157_goto_violated : ∃ c, Represented c ∧ Valid c ∧ Terminating c ∧ ¬ Valid (calls c) := by
  refine ⟨.nest .branch none (.clause false (.jump ['e'] .done) .done) (.simple .other (some 1) (.label ['e'] (.ret none none .done) .done)), by simp [Represented, Unmarked], ?_, ?_, ?_⟩ <;>
    simp only [Valid, Terminating] <;> decide +kernel

end Verif.Jumps
