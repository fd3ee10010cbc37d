import Verif.Ends.Lemmas

/-! Property C94. -/

namespace Verif.Ends

/-- A function the compiler accepts (with results, its body ends in a terminating statement) that is marked as ending in a panic never returns, whatever
its conditions and calls do. Missing: functions that recover in a deferred call, see below. -/
theorem C94_never_partial (body : Code) (hc : term body = true) (hm : endsInPanic true body = true) (hr : noRecover body = true) : ¬ Returns body := by
  rintro ⟨ds, o, h1, h2, h3⟩
  simp only [endsInPanic, Bool.and_eq_true, beq_iff_eq] at hm
  rcases h2 with rfl | rfl | rfl
  · exact (exec_next h1).1 hc rfl
  · exact exec_ret h1 hm.1.2 rfl
  · rw [show (Out.panic == Out.panic) = true from rfl, unwind_true (by simpa using exec_recover h1 hr)] at h3
    simp at h3

/-- Every function that has results and no return statement can only panic or run for ever; of these, those without any call of `panic` are not marked. -/
theorem C94_unmarked (body : Code) (hc : term body = true) (hr : returnCount body = 0) (hm : endsInPanic true body = false) (hn : noRecover body = true) :
    panicCount body = 0 ∧ ¬ Returns body := by
  refine ⟨?_, ?_⟩
  · simp only [endsInPanic, hr] at hm
    simpa using hm
  · rintro ⟨ds, o, h1, h2, h3⟩
    rcases h2 with rfl | rfl | rfl
    · exact (exec_next h1).1 hc rfl
    · exact exec_ret h1 hr rfl
    · rw [show (Out.panic == Out.panic) = true from rfl, unwind_true (by simpa using exec_recover h1 hn)] at h3
      simp at h3

/-- `func f() (err error) { defer func() { recover(); err = … }(); panic(v) }` is marked, though it always returns: it is not watched. -/
theorem C94_recover_violated : ∃ body, term body = true ∧ endsInPanic true body = true ∧ Returns body ∧
    ∀ ds o, Exec false body ds o → o = .panic ∧ unwind ds.reverse true = false := by
  refine ⟨.seq .deferRecover (.seq (.panic true) .nil), by decide, by decide, ?_, ?_⟩
  · exact ⟨[.recover] ++ [], .panic, .seq .deferRecover (.stop .panic (by decide)), by simp, by decide⟩
  · intro ds o h
    cases h with
    | seq h1 h2 =>
      cases h1
      cases h2 with
      | seq h3 h4 => cases h3
      | stop h3 _ => cases h3; exact ⟨rfl, by decide⟩
    | stop h1 h2 => cases h1; exact absurd rfl h2

/-- A function that goes round a loop until a switch in it panics, or falls through to a panic; it is marked. -/
def sample : Code :=
  .seq .effect (.seq (.loop (some 1) false (.seq (.ite .nil false .nil) (.seq (.switch none (.clause false (.seq (.cont (some 1)) .nil)
    (.clause false (.seq .effect (.seq .fall .nil)) (.clause true (.seq (.panic true) .nil) .cnil)))) .nil))) .nil)

example : term sample = true ∧ endsInPanic true sample = true ∧ noRecover sample = true := by decide

/-- It has an execution: once round the loop, then through to the panic. -/
example : Exec false sample [] .panic := by
  refine .seq (ds := []) (ds' := []) .effect (.stop (.again (ds := []) (ds' := []) (o := .cont (some 1)) ?_ (by decide) ?_) (by decide))
  · refine .seq (ds := []) (ds' := []) (.thn .nil) (.stop ?_ (by decide))
    exact .switch (o := .cont (some 1)) (.take (.stop .cont (by decide)) (by decide))
  · refine .out (o := .panic) (.seq (ds := []) (ds' := []) (.thn .nil) (.stop ?_ (by decide))) (by decide)
    refine .switch (o := .panic) (.other (.through (ds := []) (ds' := []) ?_ (.take (.stop .panic (by decide)) (by decide))))
    exact .seq (ds := []) (ds' := []) .effect (.stop .fall (by decide))

/-- With a `break` out of the loop the compiler does not accept it, and it may end normally. -/
example : term (.seq (.loop (some 1) false (.seq (.switch none (.clause true (.seq (.brk (some 1)) .nil) .cnil)) .nil)) .nil) = false := by decide

/-- A `break` in a switch in a loop leaves the switch only. -/
example : term (.seq (.loop (some 1) false (.seq (.switch none (.clause true (.seq (.brk none) .nil) .cnil)) (.seq (.panic true) .nil))) .nil) = true := by decide

/-- A function of the program's named `panic` counts; the function then has to go on to a return or a loop. -/
example : endsInPanic true (.seq (.panic false) (.seq (.loop none false .nil) .nil)) = true ∧ term (.seq (.panic false) .nil) = false := by decide

/-- Without results it is not marked. -/
example : endsInPanic false (.seq (.panic true) .nil) = false := by decide

/-- Marked are exactly the functions with results that have no return statement at any depth and at least one call of something named `panic`, deferred or not. -/
theorem C94_marked (hasResults : Bool) (body : Code) : endsInPanic hasResults body = true ↔
    hasResults = true ∧ ¬ Inside .ret body ∧ ((∃ b, Inside (.panic b) body) ∨ Inside .deferPanic body) := by
  rw [← returnCount_pos, ← panicCount_pos]
  simp [endsInPanic, and_assoc]

/-- A deferred `panic` in a loop counts; a return in a clause of a switch takes the mark away. -/
example : endsInPanic true (.loop none false (.seq .deferPanic .nil)) = true ∧
    endsInPanic true (.seq (.panic true) (.seq (.switch none (.clause true (.seq .ret .nil) .cnil)) .nil)) = false := by decide

end Verif.Ends
