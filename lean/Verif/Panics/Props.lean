import Verif.Panics.CountLemmas

/-!
C91: watching functions does not change what the program does. C92: panic reports are exactly the panics that leave the function.
C93: entry and finish reports are exactly the executions of the function.
-/

namespace Verif.Panics

/-! ### C91 -/

/-- C91, for programs with a language version from Go 1.21 on, and for all that never panic with `nil`: with any points in any functions the goroutine
ends in the same way, every function of the program is entered and left at the same times in the same way, and everything else
happens as before. Missing: `panic(nil)` in older programs. -/
theorem C91_same_partial (w : World) (pts : Nat → List Inj) (name : Option Nat) (f : Prog) (hs : src f) (hn : w.nilVal ≠ none ∨ noNil f) :
    (run w name (injectAll (pointsOf pts name) (instr pts f))).1 = (run w name f).1 ∧
    seen (run w name (injectAll (pointsOf pts name) (instr pts f))).2 = (run w name f).2 := by
  rw [run_sim name f hs hn]
  refine ⟨rfl, ?_⟩
  rw [seen_withSends]
  exact List.filter_eq_self.mpr fun e he => by simp [run_quiet name f hs e he]

/-- Go 1.21 and later; effect 9 tells how many functions have been left. -/
def wNew : World := ⟨fun n evs => if n = 9 then evs.countP fun e => match e with | .left _ _ => true | _ => false else n, some 77⟩
def wOld : World := { wNew with nilVal := none }

/-- `func main() { defer func() { if recover() != nil { eff9() } }(); defer cleanup(); work() }`, where `work` panics after a nested
function has stopped another panic, and `cleanup` panics anew. Functions: 0 main, 1 work, 2 cleanup, 3 inner. -/
def wProg : Prog :=
  .defer none (.recover fun r => match r with
    | none => .done
    | some v => .eff v fun _ => .eff 9 fun _ => .done)
  (.defer (some 2) (.eff 5 fun _ => .panic (some 8))
  (.call (some 3) (.defer none (.recover fun _ => .done) (.panic none))
  (.call (some 1) (.eff 4 fun v => .panic (some v)) .done)))

def wPts : Nat → List Inj
  | 0 => [.finish 10, .panic 11]
  | 1 => [.entry 12, .panic 13]
  | 2 => [.panic 14]
  | 3 => [.entry 16, .panic 15]
  | _ => []

example : src wProg := by
  simp only [src, wProg, and_true, forall_const]
  rintro (_ | v) <;> simp [src]

example : run wNew (some 0) wProg = (.normal, [.entered 0, .entered 3, .left 3 .normal, .entered 1, .eff 4 4, .left 1 ⟨false, some (some 4)⟩,
    .entered 2, .eff 5 5, .left 2 ⟨false, some (some 8)⟩, .eff 8 8, .eff 9 3, .left 0 .normal]) := by decide +kernel

example : run wNew (some 0) (injectAll (wPts 0) (instr wPts wProg)) = (.normal, [.entered 0, .entered 3, .send 16 none, .left 3 .normal,
    .entered 1, .send 12 none, .eff 4 4, .send 13 (some 4), .left 1 ⟨false, some (some 4)⟩,
    .entered 2, .eff 5 5, .send 14 (some 8), .left 2 ⟨false, some (some 8)⟩, .eff 8 8, .eff 9 3, .send 10 none, .left 0 .normal]) := by decide +kernel

/-- A panic with `nil` in a program with an older language version is swallowed: the caller goes on. -/
theorem C91_nil_violated : let f : Prog := .call (some 1) (.panic none) (.eff 3 fun _ => .done)
    src f ∧ run wOld (some 0) f = (⟨false, some none⟩, [.entered 0, .entered 1, .left 1 ⟨false, some none⟩, .left 0 ⟨false, some none⟩]) ∧
    run wOld (some 0) (instr wPts f) = (.normal, [.entered 0, .entered 1, .send 12 none, .left 1 .normal, .eff 3 3, .left 0 .normal]) := by
  refine ⟨by simp [src], by decide +kernel, by decide +kernel⟩

/-! ### C92 -/

/-- C92: where the messages are. The program with points does exactly what the program without does; each function sends its entry messages
immediately after it is entered, and immediately before it is left — after all functions it has deferred — its other messages: one for
each panic point if a panic leaves the function, with the value of that panic, and one for each finish point. -/
theorem C92_places (w : World) (pts : Nat → List Inj) (name : Option Nat) (f : Prog) (hs : src f) (hn : w.nilVal ≠ none ∨ noNil f) :
    (run w name (injectAll (pointsOf pts name) (instr pts f))).2 = withSends pts (run w name f).2 := by
  rw [run_sim name f hs hn]

/-- C92: the messages of a panic point are the values of the panics that leave its function, in this order: none for panics stopped in the
function, for functions that return and for `Goexit`, and none is lost. -/
theorem C92_panics (w : World) (pts : Nat → List Inj) (main : Option Nat) (f : Prog) (hs : src f) (hn : w.nilVal ≠ none ∨ noNil f)
    (name pid : Nat) (ho : Own pts name (.panic pid)) :
    sendsOf pid (run w main (injectAll (pointsOf pts main) (instr pts f))).2 = panicsOf name (run w main f).2 := by
  rw [run_sim main f hs hn]
  obtain ⟨⟨l, r, hl, hlr⟩, hother⟩ := ho
  refine sendsOf_withSends (panicsOf name) id rfl ?_ _ (run_quiet main f hs)
  intro e evs he
  cases e with
  | send p v => cases he
  | eff n v => simp [with1, sendsOf, panicsOf]
  | entered n =>
    have : sendsOf pid (atEntry (pts n)) = [] := by
      refine sendsOf_atEntry_none fun j hj => ?_
      by_cases hnn : n = name
      · subst hnn
        rw [hl] at hj
        rcases List.mem_append.mp hj with h | h
        · exact pid_ne (hlr j (List.mem_append_left _ h)) _ rfl
        · rcases List.mem_cons.mp h with rfl | h
          · simp
          · exact pid_ne (hlr j (List.mem_append_right _ h)) _ rfl
      · exact pid_ne (hother n hnn j hj) _ rfl
    simp only [with1]
    rw [← List.singleton_append, sendsOf_append, this]
    simp [sendsOf, panicsOf]
  | left n o =>
    have hend : sendsOf pid (atEnd o (pts n)) = panicsOf name [.left n o] := by
      by_cases hnn : n = name
      · subst hnn
        have hl' : sendsOf pid (atEnd o l) = [] := sendsOf_atEnd_none fun j hj =>
          ⟨pid_ne (hlr j (List.mem_append_left _ hj)) _ rfl, pid_ne (hlr j (List.mem_append_left _ hj)) _ rfl⟩
        have hr' : sendsOf pid (atEnd o r) = [] := sendsOf_atEnd_none fun j hj =>
          ⟨pid_ne (hlr j (List.mem_append_right _ hj)) _ rfl, pid_ne (hlr j (List.mem_append_right _ hj)) _ rfl⟩
        rw [hl, atEnd_append, sendsOf_append, hl', List.nil_append, atEnd, sendsOf_append, hr', List.append_nil]
        obtain ⟨g, _ | _ | v⟩ := o <;> simp [sendsOf, panicsOf]
      · rw [sendsOf_atEnd_none fun j hj => ⟨pid_ne (hother n hnn j hj) _ rfl, pid_ne (hother n hnn j hj) _ rfl⟩]
        obtain ⟨g, _ | _ | v⟩ := o <;> simp [panicsOf, hnn]
    simp only [with1]
    rw [sendsOf_append, hend]
    have : panicsOf name (.left n o :: evs) = panicsOf name [.left n o] ++ panicsOf name evs := by simp [panicsOf, List.filterMap_cons]; split <;> rfl
    rw [id, id, this]
    simp [sendsOf]

example : Own wPts 2 (.panic 14) ∧ panicsOf 2 (run wNew (some 0) wProg).2 = [some 8] := by
  refine ⟨⟨⟨[], [], rfl, by simp⟩, ?_⟩, by decide +kernel⟩
  intro n hn j hj
  rcases n with _ | _ | _ | _ | n <;> simp [wPts] at hj hn ⊢ <;> (try rcases hj with rfl | rfl) <;> simp [Inj.pid]

/-- Without the hypothesis a panic that leaves the function is not reported. -/
theorem C92_nil_violated : let f : Prog := .call (some 1) (.panic none) .done
    src f ∧ (run wOld (some 0) f).2.contains (.left 1 ⟨false, some none⟩) = true ∧ sendsOf 13 (run wOld (some 0) (instr wPts f)).2 = [] := by
  refine ⟨by simp [src], by decide +kernel, by decide +kernel⟩

/-! ### C93 -/

/-- C93: in the program with points — whatever the panics in it — there are as many messages of an entry point as executions of its function. -/
theorem C93_entry_count (w : World) (pts : Nat → List Inj) (main : Option Nat) (f : Prog) (hs : src f) (name pid : Nat) (ho : Own pts name (.entry pid)) :
    (sendsOf pid (run w main (injectAll (pointsOf pts main) (instr pts f))).2).length =
      entries name (run w main (injectAll (pointsOf pts main) (instr pts f))).2 := by
  have h := run_neutral (w := w) (fair_entry ho) main f hs
  rw [total_countEntry] at h
  omega

/-- C93: and as many messages of a finish point as times its function is left, in whatever way. -/
theorem C93_finish_count (w : World) (pts : Nat → List Inj) (main : Option Nat) (f : Prog) (hs : src f) (name pid : Nat) (ho : Own pts name (.finish pid)) :
    (sendsOf pid (run w main (injectAll (pointsOf pts main) (instr pts f))).2).length =
      exits name (run w main (injectAll (pointsOf pts main) (instr pts f))).2 := by
  have h := run_neutral (w := w) (fair_finish ho) main f hs
  rw [total_countExit] at h
  omega

example : Own wPts 1 (.entry 12) ∧ entries 1 (run wOld (some 0) (injectAll (wPts 0) (instr wPts (.call (some 1) (.panic none) (.call (some 1) .goexit .done))))).2 = 2 := by
  refine ⟨⟨⟨[], [.panic 13], rfl, by simp [Inj.pid]⟩, ?_⟩, by decide +kernel⟩
  intro n hn j hj
  rcases n with _ | _ | _ | _ | n <;> simp [wPts] at hj hn ⊢ <;> (try rcases hj with rfl | rfl) <;> simp_all [Inj.pid]

/-- C93: compared with the program without points, if it behaves the same (C91): one message for each execution there. -/
theorem C93_entry (w : World) (pts : Nat → List Inj) (main : Option Nat) (f : Prog) (hs : src f) (hn : w.nilVal ≠ none ∨ noNil f)
    (name pid : Nat) (ho : Own pts name (.entry pid)) :
    sendsOf pid (run w main (injectAll (pointsOf pts main) (instr pts f))).2 = List.replicate (entries name (run w main f).2) none := by
  rw [run_sim main f hs hn]
  obtain ⟨⟨l, r, hl, hlr⟩, hother⟩ := ho
  refine sendsOf_withSends (entries name) (fun n => List.replicate n none) rfl ?_ _ (run_quiet main f hs)
  intro e evs he
  cases e with
  | send p v => cases he
  | eff n v => simp [with1, sendsOf, entries]
  | entered n =>
    simp only [with1]
    rw [← List.singleton_append, sendsOf_append]
    by_cases hnn : n = name
    · subst hnn
      have hl' : sendsOf pid (atEntry l) = [] := sendsOf_atEntry_none fun j hj => pid_ne (hlr j (List.mem_append_left _ hj)) _ rfl
      have hr' : sendsOf pid (atEntry r) = [] := sendsOf_atEntry_none fun j hj => pid_ne (hlr j (List.mem_append_right _ hj)) _ rfl
      rw [hl, atEntry_append, sendsOf_append, hl', atEntry, sendsOf_append, hr']
      simp [sendsOf, entries, List.replicate_succ]
    · rw [sendsOf_atEntry_none fun j hj => pid_ne (hother n hnn j hj) _ rfl]
      simp [sendsOf, entries, hnn]
  | left n o =>
    have : sendsOf pid (atEnd o (pts n)) = [] := by
      refine sendsOf_atEnd_none fun j hj => ?_
      by_cases hnn : n = name
      · subst hnn
        rw [hl] at hj
        rcases List.mem_append.mp hj with h | h
        · exact ⟨pid_ne (hlr j (List.mem_append_left _ h)) _ rfl, pid_ne (hlr j (List.mem_append_left _ h)) _ rfl⟩
        · rcases List.mem_cons.mp h with rfl | h
          · simp
          · exact ⟨pid_ne (hlr j (List.mem_append_right _ h)) _ rfl, pid_ne (hlr j (List.mem_append_right _ h)) _ rfl⟩
      · exact ⟨pid_ne (hother n hnn j hj) _ rfl, pid_ne (hother n hnn j hj) _ rfl⟩
    simp only [with1]
    rw [sendsOf_append, this]
    simp [sendsOf, entries]

/-- C93: the same for finish points. -/
theorem C93_finish (w : World) (pts : Nat → List Inj) (main : Option Nat) (f : Prog) (hs : src f) (hn : w.nilVal ≠ none ∨ noNil f)
    (name pid : Nat) (ho : Own pts name (.finish pid)) :
    sendsOf pid (run w main (injectAll (pointsOf pts main) (instr pts f))).2 = List.replicate (exits name (run w main f).2) none := by
  rw [run_sim main f hs hn]
  obtain ⟨⟨l, r, hl, hlr⟩, hother⟩ := ho
  refine sendsOf_withSends (exits name) (fun n => List.replicate n none) rfl ?_ _ (run_quiet main f hs)
  intro e evs he
  cases e with
  | send p v => cases he
  | eff n v => simp [with1, sendsOf, exits]
  | entered n =>
    have : sendsOf pid (atEntry (pts n)) = [] := by
      refine sendsOf_atEntry_none fun j hj => ?_
      by_cases hnn : n = name
      · subst hnn
        rw [hl] at hj
        rcases List.mem_append.mp hj with h | h
        · exact pid_ne (hlr j (List.mem_append_left _ h)) _ rfl
        · rcases List.mem_cons.mp h with rfl | h
          · simp
          · exact pid_ne (hlr j (List.mem_append_right _ h)) _ rfl
      · exact pid_ne (hother n hnn j hj) _ rfl
    simp only [with1]
    rw [← List.singleton_append, sendsOf_append, this]
    simp [sendsOf, exits]
  | left n o =>
    simp only [with1]
    rw [sendsOf_append]
    by_cases hnn : n = name
    · subst hnn
      have hl' : sendsOf pid (atEnd o l) = [] := sendsOf_atEnd_none fun j hj =>
        ⟨pid_ne (hlr j (List.mem_append_left _ hj)) _ rfl, pid_ne (hlr j (List.mem_append_left _ hj)) _ rfl⟩
      have hr' : sendsOf pid (atEnd o r) = [] := sendsOf_atEnd_none fun j hj =>
        ⟨pid_ne (hlr j (List.mem_append_right _ hj)) _ rfl, pid_ne (hlr j (List.mem_append_right _ hj)) _ rfl⟩
      have : atEnd o (Inj.finish pid :: r) = [.send pid none] ++ atEnd o r := rfl
      rw [hl, atEnd_append, sendsOf_append, hl', this, sendsOf_append, hr']
      simp [sendsOf, exits, List.replicate_succ]
    · rw [sendsOf_atEnd_none fun j hj => ⟨pid_ne (hother n hnn j hj) _ rfl, pid_ne (hother n hnn j hj) _ rfl⟩]
      simp [sendsOf, exits, hnn]

example : entries 3 (run wNew (some 0) wProg).2 = 1 ∧ exits 0 (run wNew (some 0) wProg).2 = 1 ∧
    sendsOf 10 (run wNew (some 0) (injectAll (wPts 0) (instr wPts wProg))).2 = [none] := by decide +kernel

end Verif.Panics
