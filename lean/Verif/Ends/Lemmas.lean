import Verif.Ends.Spec

/-! Lemmas about executions. -/

namespace Verif.Ends

theorem catchBrk_none {l : Option Nat} {o : Out} : catchBrk l o ≠ .brk none := by
  cases o with
  | brk b =>
    cases b with
    | none => simp [catchBrk]
    | some m => simp only [catchBrk]; split <;> simp
  | _ => simp [catchBrk]

theorem catchBrk_some {l : Option Nat} {o : Out} {m : Nat} (h : catchBrk l o = .brk (some m)) : o = .brk (some m) := by
  cases o with
  | brk b =>
    cases b with
    | none => simp [catchBrk] at h
    | some k =>
      simp only [catchBrk] at h
      split at h
      · simp at h
      · exact h
  | _ => simp [catchBrk] at h

theorem catchBrk_next {l : Option Nat} {o : Out} (h : catchBrk l o = .next) : o = .next ∨ o = .brk none ∨ ∃ m, l = some m ∧ o = .brk (some m) := by
  cases o with
  | next => exact Or.inl rfl
  | brk b =>
    cases b with
    | none => exact Or.inr (Or.inl rfl)
    | some k =>
      simp only [catchBrk] at h
      split at h
      · rename_i hl; exact Or.inr (Or.inr ⟨k, hl, rfl⟩)
      · simp at h
  | _ => simp [catchBrk] at h

theorem catchBrk_ret {l : Option Nat} {o : Out} (h : catchBrk l o = .ret) : o = .ret := by
  cases o with
  | brk b =>
    cases b with
    | none => simp [catchBrk] at h
    | some k => simp only [catchBrk] at h; split at h <;> simp at h
  | _ => simp_all [catchBrk]

/-- Where a `break` comes from. -/
theorem exec_brk {h : Bool} {c : Code} {ds : List Dfr} {o : Out} (he : Exec h c ds o) (label : Option Nat) :
    (o = .brk none → breaks label false c = true) ∧ (∀ m, o = .brk (some m) → label = some m → ∀ i, breaks label i c = true) := by
  induction he with
  | seq h1 h2 i1 i2 =>
    exact ⟨fun e => by simp [breaks, i2.1 e], fun m e el i => by simp [breaks, i2.2 m e el i]⟩
  | stop h1 h2 i1 =>
    exact ⟨fun e => by simp [breaks, i1.1 e], fun m e el i => by simp [breaks, i1.2 m e el i]⟩
  | block h1 i1 => exact ⟨fun e => by simp [breaks, i1.1 e], fun m e el i => by simp [breaks, i1.2 m e el i]⟩
  | thn h1 i1 => exact ⟨fun e => by simp [breaks, i1.1 e], fun m e el i => by simp [breaks, i1.2 m e el i]⟩
  | els h1 i1 => exact ⟨fun e => by simp [breaks, i1.1 e], fun m e el i => by simp [breaks, i1.2 m e el i]⟩
  | again h1 h2 h3 i1 i3 => exact i3
  | out h1 h2 i1 => exact ⟨fun e => absurd e catchBrk_none, fun m e el i => by simp [breaks, i1.2 m (catchBrk_some e) el true]⟩
  | switch h1 i1 => exact ⟨fun e => absurd e catchBrk_none, fun m e el i => by simp [breaks, i1.2 m (catchBrk_some e) el true]⟩
  | select h1 i1 => exact ⟨fun e => absurd e catchBrk_none, fun m e el i => by simp [breaks, i1.2 m (catchBrk_some e) el true]⟩
  | take h1 h2 i1 => exact ⟨fun e => by simp [breaks, i1.1 e], fun m e el i => by simp [breaks, i1.2 m e el i]⟩
  | through h1 h2 i1 i2 => exact ⟨fun e => by simp [breaks, i2.1 e], fun m e el i => by simp [breaks, i2.2 m e el i]⟩
  | other h1 i1 => exact ⟨fun e => by simp [breaks, i1.1 e], fun m e el i => by simp [breaks, i1.2 m e el i]⟩
  | @brk _ l =>
    refine ⟨fun e => ?_, fun m e el i => ?_⟩
    · simp only [Out.brk.injEq] at e; subst e; simp [breaks]
    · simp only [Out.brk.injEq] at e; subst e; simp [breaks, el]
  | _ => exact ⟨fun e => by simp at e, fun m e => by simp at e⟩

/-- A terminating statement does not end normally. -/
theorem exec_next {h : Bool} {c : Code} {ds : List Dfr} {o : Out} (he : Exec h c ds o) :
    (term c = true → o ≠ .next) ∧ (termClauses c = true → o ≠ .next) ∧ (endsFall c = true → o ≠ .next) := by
  induction he with
  | @seq h s r ds ds' o h1 h2 i1 i2 =>
    by_cases hr : r = .nil
    · subst hr
      refine ⟨fun e => absurd rfl (i1.1 (by simpa [term] using e)), fun e => by simp [termClauses] at e, fun e => ?_⟩
      simp only [endsFall, beq_iff_eq] at e
      subst e
      cases h1
    · refine ⟨fun e => i2.1 ?_, fun e => by simp [termClauses] at e, fun e => i2.2.2 ?_⟩
      · cases r <;> simp_all [term]
      · cases r <;> simp_all [endsFall]
  | stop h1 h2 i1 => exact ⟨fun _ => h2, fun _ => h2, fun _ => h2⟩
  | block h1 i1 => exact ⟨fun e => i1.1 (by simpa [term] using e), fun e => by simp [termClauses] at e, fun e => by simp [endsFall] at e⟩
  | thn h1 i1 => exact ⟨fun e => i1.1 (by simp [term] at e; exact e.1.2), fun e => by simp [termClauses] at e, fun e => by simp [endsFall] at e⟩
  | els h1 i1 => exact ⟨fun e => i1.1 (by simp [term] at e; exact e.2), fun e => by simp [termClauses] at e, fun e => by simp [endsFall] at e⟩
  | leave => exact ⟨fun e => by simp [term] at e, fun e => by simp [termClauses] at e, fun e => by simp [endsFall] at e⟩
  | again h1 h2 h3 i1 i3 => exact i3
  | @out h l c b ds o h1 h2 i1 =>
    refine ⟨fun e hc => ?_, fun e => by simp [termClauses] at e, fun e => by simp [endsFall] at e⟩
    simp only [term, Bool.and_eq_true, Bool.not_eq_true'] at e
    rcases catchBrk_next hc with rfl | rfl | ⟨m, rfl, rfl⟩
    · simp [goesOn] at h2
    · rw [(exec_brk h1 l).1 rfl] at e; simp at e
    · rw [(exec_brk h1 (some m)).2 m rfl rfl] at e; simp at e
  | @switch h l c ds o h1 i1 =>
    refine ⟨fun e hc => ?_, fun e => by simp [termClauses] at e, fun e => by simp [endsFall] at e⟩
    simp only [term, Bool.and_eq_true, Bool.not_eq_true'] at e
    rcases catchBrk_next hc with rfl | rfl | ⟨m, rfl, rfl⟩
    · exact i1.2.1 e.2 rfl
    · rw [(exec_brk h1 l).1 rfl] at e; simp at e
    · rw [(exec_brk h1 (some m)).2 m rfl rfl] at e; simp at e
  | none hd => exact ⟨fun e => by simp [term, hd] at e, fun e => by simp [termClauses] at e, fun e => by simp [endsFall] at e⟩
  | @select h l c ds o h1 i1 =>
    refine ⟨fun e hc => ?_, fun e => by simp [termClauses] at e, fun e => by simp [endsFall] at e⟩
    simp only [term, Bool.and_eq_true, Bool.not_eq_true'] at e
    rcases catchBrk_next hc with rfl | rfl | ⟨m, rfl, rfl⟩
    · exact i1.2.1 e.2 rfl
    · rw [(exec_brk h1 l).1 rfl] at e; simp at e
    · rw [(exec_brk h1 (some m)).2 m rfl rfl] at e; simp at e
  | take h1 h2 i1 =>
    refine ⟨fun e => by simp [term] at e, fun e => ?_, fun e => by simp [endsFall] at e⟩
    simp only [termClauses, Bool.and_eq_true, Bool.or_eq_true] at e
    exact e.1.elim i1.1 i1.2.2
  | through h1 h2 i1 i2 =>
    refine ⟨fun e => by simp [term] at e, fun e => ?_, fun e => by simp [endsFall] at e⟩
    simp only [termClauses, Bool.and_eq_true] at e
    exact i2.2.1 e.2
  | other h1 i1 =>
    refine ⟨fun e => by simp [term] at e, fun e => ?_, fun e => by simp [endsFall] at e⟩
    simp only [termClauses, Bool.and_eq_true] at e
    exact i1.2.1 e.2
  | _ => exact ⟨fun e => by simp_all [term], fun e => by simp_all [termClauses], fun e => by simp_all [endsFall]⟩

/-- Without a return statement there is no return. -/
theorem exec_ret {h : Bool} {c : Code} {ds : List Dfr} {o : Out} (he : Exec h c ds o) (hr : returnCount c = 0) : o ≠ .ret := by
  induction he with
  | seq h1 h2 i1 i2 => simp only [returnCount] at hr; exact i2 (by omega)
  | stop h1 h2 i1 => simp only [returnCount] at hr; exact i1 (by omega)
  | block h1 i1 => exact i1 (by simpa [returnCount] using hr)
  | thn h1 i1 => simp only [returnCount] at hr; exact i1 (by omega)
  | els h1 i1 => simp only [returnCount] at hr; exact i1 (by omega)
  | again h1 h2 h3 i1 i3 => exact i3 hr
  | out h1 h2 i1 => exact fun hc => i1 (by simpa [returnCount] using hr) (catchBrk_ret hc)
  | switch h1 i1 => exact fun hc => i1 (by simpa [returnCount] using hr) (catchBrk_ret hc)
  | select h1 i1 => exact fun hc => i1 (by simpa [returnCount] using hr) (catchBrk_ret hc)
  | take h1 h2 i1 => simp only [returnCount] at hr; exact i1 (by omega)
  | through h1 h2 i1 i2 => simp only [returnCount] at hr; exact i2 (by omega)
  | other h1 i1 => simp only [returnCount] at hr; exact i1 (by omega)
  | ret => simp [returnCount] at hr
  | _ => simp

/-- Without a deferred recovery none runs. -/
theorem exec_recover {h : Bool} {c : Code} {ds : List Dfr} {o : Out} (he : Exec h c ds o) (hr : noRecover c = true) : .recover ∉ ds := by
  induction he with
  | seq h1 h2 i1 i2 => simp only [noRecover, Bool.and_eq_true] at hr; simp [i1 hr.1, i2 hr.2]
  | stop h1 h2 i1 => simp only [noRecover, Bool.and_eq_true] at hr; exact i1 hr.1
  | block h1 i1 => exact i1 (by simpa [noRecover] using hr)
  | thn h1 i1 => simp only [noRecover, Bool.and_eq_true] at hr; exact i1 hr.1
  | els h1 i1 => simp only [noRecover, Bool.and_eq_true] at hr; exact i1 hr.2
  | again h1 h2 h3 i1 i3 => simp [i1 (by simpa [noRecover] using hr), i3 hr]
  | out h1 h2 i1 => exact i1 (by simpa [noRecover] using hr)
  | switch h1 i1 => exact i1 (by simpa [noRecover] using hr)
  | select h1 i1 => exact i1 (by simpa [noRecover] using hr)
  | take h1 h2 i1 => simp only [noRecover, Bool.and_eq_true] at hr; exact i1 hr.1
  | through h1 h2 i1 i2 => simp only [noRecover, Bool.and_eq_true] at hr; simp [i1 hr.1, i2 hr.2]
  | other h1 i1 => simp only [noRecover, Bool.and_eq_true] at hr; exact i1 hr.2
  | deferRecover => simp [noRecover] at hr
  | _ => simp

theorem unwind_true {ds : List Dfr} (h : .recover ∉ ds) : unwind ds true = true := by
  induction ds with
  | nil => rfl
  | cons d ds ih =>
    simp only [List.mem_cons, not_or] at h
    cases d with
    | panic => exact ih h.2
    | recover => exact absurd rfl h.1

theorem returnCount_pos (c : Code) : 0 < returnCount c ↔ Inside .ret c := by
  constructor
  · intro h
    induction c with
    | ret => exact .here
    | seq s r h1 h2 =>
      simp only [returnCount] at h
      by_cases hs : 0 < returnCount s
      · exact .first (h1 hs)
      · exact .later (h2 (by omega))
    | block b h1 => exact .block (h1 h)
    | ite a e b h1 h2 =>
      simp only [returnCount] at h
      by_cases hs : 0 < returnCount a
      · exact .thn (h1 hs)
      · exact .els (h2 (by omega))
    | loop l c b h1 => exact .loop (h1 h)
    | switch l c h1 => exact .switch (h1 h)
    | select l c h1 => exact .select (h1 h)
    | clause d b r h1 h2 =>
      simp only [returnCount] at h
      by_cases hs : 0 < returnCount b
      · exact .clause (h1 hs)
      · exact .clauses (h2 (by omega))
    | _ => simp [returnCount] at h
  · intro h
    induction h <;> simp only [returnCount] <;> omega

theorem panicCount_pos (c : Code) : 0 < panicCount c ↔ (∃ b, Inside (.panic b) c) ∨ Inside .deferPanic c := by
  constructor
  · intro h
    induction c with
    | panic b => exact .inl ⟨b, .here⟩
    | deferPanic => exact .inr .here
    | seq s r h1 h2 =>
      simp only [panicCount] at h
      by_cases hs : 0 < panicCount s
      · exact (h1 hs).imp (fun ⟨b, i⟩ => ⟨b, .first i⟩) .first
      · exact (h2 (by omega)).imp (fun ⟨b, i⟩ => ⟨b, .later i⟩) .later
    | block b h1 => exact (h1 h).imp (fun ⟨b, i⟩ => ⟨b, .block i⟩) .block
    | ite a e b h1 h2 =>
      simp only [panicCount] at h
      by_cases hs : 0 < panicCount a
      · exact (h1 hs).imp (fun ⟨b, i⟩ => ⟨b, .thn i⟩) .thn
      · exact (h2 (by omega)).imp (fun ⟨b, i⟩ => ⟨b, .els i⟩) .els
    | loop l c b h1 => exact (h1 h).imp (fun ⟨b, i⟩ => ⟨b, .loop i⟩) .loop
    | switch l c h1 => exact (h1 h).imp (fun ⟨b, i⟩ => ⟨b, .switch i⟩) .switch
    | select l c h1 => exact (h1 h).imp (fun ⟨b, i⟩ => ⟨b, .select i⟩) .select
    | clause d b r h1 h2 =>
      simp only [panicCount] at h
      by_cases hs : 0 < panicCount b
      · exact (h1 hs).imp (fun ⟨b, i⟩ => ⟨b, .clause i⟩) .clause
      · exact (h2 (by omega)).imp (fun ⟨b, i⟩ => ⟨b, .clauses i⟩) .clauses
    | _ => simp [panicCount] at h
  · rintro (⟨b, h⟩ | h) <;> induction h <;> simp only [panicCount] <;> omega

end Verif.Ends
