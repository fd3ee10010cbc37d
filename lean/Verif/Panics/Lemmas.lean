import Mathlib.Data.List.Forall2
import Verif.Panics.Spec

namespace Verif.Panics

variable {w : World} {pts : Nat → List Inj}

/-- Deferred functions are put before those that are already there, which play no role. -/
theorem den_frame (p : Prog) : ∀ amb st ds evs, den w p amb st ds evs =
    ⟨(den w p amb st [] evs).out, (den w p amb st [] evs).stopped, (den w p amb st [] evs).defers ++ ds, (den w p amb st [] evs).evs⟩ := by
  induction p with
  | done => intro amb st ds evs; simp [den]
  | eff n k ih => intro amb st ds evs; simp only [den]; rw [ih]
  | recover k ih =>
    intro amb st ds evs
    rcases amb with _ | v <;> rcases st with _ | _ <;> simp only [den] <;> rw [ih]
  | panic v => intro amb st ds evs; simp [den]
  | goexit => intro amb st ds evs; simp [den]
  | call name f k _ ihk =>
    intro amb st ds evs
    simp only [den]
    split
    · rw [ihk]
    · simp
  | defer name f k _ ihk =>
    intro amb st ds evs
    simp only [den]
    rw [ihk _ _ (_ :: ds)]
    conv_rhs => rw [ihk _ _ [_]]
    simp
  | send pid v k ih => intro amb st ds evs; simp only [den]; rw [ih]

theorem fin_append (a b : List Fn) (o : Out) (evs : List Ev) : fin (a ++ b) o evs = fin b (fin a o evs).1 (fin a o evs).2 := by
  induction a generalizing o evs with
  | nil => rfl
  | cons f a ih => simp only [List.cons_append, fin]; rw [ih]

/-- No panic with `nil`. -/
def Ok (o : Out) : Prop := o.pan ≠ some none

/-- The second function does what the first does, and sends the messages. -/
def Sim (pts : Nat → List Inj) (f f' : Fn) : Prop := ∀ amb evs, amb ≠ some none →
  f' amb (withSends pts evs) = ((f amb evs).1, (f amb evs).2.1, withSends pts (f amb evs).2.2) ∧ Ok (f amb evs).1

theorem fin_sim {ds ds' : List Fn} (h : List.Forall₂ (Sim pts) ds ds') : ∀ o evs, Ok o →
    fin ds' o (withSends pts evs) = ((fin ds o evs).1, withSends pts (fin ds o evs).2) ∧ Ok (fin ds o evs).1 := by
  induction h with
  | nil => intro o evs ho; exact ⟨rfl, ho⟩
  | cons hf _ ih =>
    intro o evs ho
    obtain ⟨h1, h2⟩ := hf o.pan evs ho
    simp only [fin]
    rw [h1]
    refine ih _ _ ?_
    unfold Ok at *
    dsimp only
    split
    · exact h2
    · split
      · simp
      · exact ho

/-- The functions deferred by the points. -/
def dl (w : World) : List Inj → List Fn
  | [] => []
  | .entry _ :: l => dl w l
  | .panic pid :: l => (fun a e => close (den w (watcher pid) a false [] e)) :: dl w l
  | .finish pid :: l => (fun a e => close (den w (.send pid none .done) a false [] e)) :: dl w l

theorem den_injectAll (l : List Inj) : ∀ (q : Prog) amb st ds evs,
    den w (injectAll l q) amb st ds evs = den w q amb st (dl w l ++ ds) (evs ++ atEntry l) := by
  induction l with
  | nil => intro q amb st ds evs; simp [injectAll, dl, atEntry]
  | cons i l ih =>
    intro q amb st ds evs
    have : injectAll (i :: l) q = injectAll l (inject q i) := rfl
    rw [this, ih]
    cases i <;> simp [inject, den, dl, atEntry, named]

theorem fin_dl (l : List Inj) : ∀ (o : Out) (evs : List Ev), Ok o → fin (dl w l) o evs = (o, evs ++ atEnd o l) := by
  induction l with
  | nil => intro o evs _; simp [dl, fin, atEnd]
  | cons i l ih =>
    intro o evs ho
    cases i with
    | entry pid => simp only [dl, atEnd]; exact ih o evs ho
    | finish pid =>
      simp only [dl, fin, den, close, atEnd]
      simp only [Out.normal, Option.isSome_none, Bool.or_false, Bool.false_eq_true, if_false]
      rw [ih _ _ ho]
      simp
    | panic pid =>
      obtain ⟨g, pan⟩ := o
      rcases pan with _ | _ | v
      · simp only [dl, fin, den, close, atEnd, watcher]
        simp only [Out.normal, Option.isSome_none, Bool.or_false, Bool.false_eq_true, if_false]
        rw [ih _ _ ho]
        simp
      · exact absurd rfl ho
      · simp only [dl, fin, den, close, atEnd, watcher]
        simp only [Option.isSome_some, Bool.or_false, if_true]
        rw [ih _ _ ho]
        simp

theorem withSends_append (a b : List Ev) : withSends pts (a ++ b) = withSends pts a ++ withSends pts b := by
  simp [withSends]

theorem seen_append (a b : List Ev) : seen (a ++ b) = seen a ++ seen b := by simp [seen]

theorem seen_atEntry (l : List Inj) : seen (atEntry l) = [] := by
  induction l with
  | nil => rfl
  | cons i l ih => cases i <;> simp [atEntry, seen_append, ih] <;> rfl

theorem seen_atEnd (o : Out) (l : List Inj) : seen (atEnd o l) = [] := by
  induction l with
  | nil => rfl
  | cons i l ih =>
    cases i with
    | entry p => exact ih
    | finish p => simpa [atEnd, seen, Ev.isSend] using ih
    | panic p =>
      simp only [atEnd, seen_append, ih, List.append_nil]
      split <;> rfl

theorem seen_withSends (evs : List Ev) : seen (withSends pts evs) = seen evs := by
  induction evs with
  | nil => rfl
  | cons e evs ih =>
    have h : withSends pts (e :: evs) = with1 pts e ++ withSends pts evs := by simp [withSends]
    have h2 : seen (e :: evs) = seen [e] ++ seen evs := seen_append [e] evs
    rw [h, h2, seen_append, ih]
    congr 1
    cases e with
    | eff n v => rfl
    | entered n => rw [with1, ← List.singleton_append, seen_append, seen_atEntry]; simp
    | left n o => rw [with1, seen_append, seen_atEnd]; rfl
    | send p v => rfl

/-- A function with its points does the same. -/
theorem fn_sim {f : Prog} (name : Option Nat)
    (ih : ∀ amb st ds ds' evs, amb ≠ some none → List.Forall₂ (Sim pts) ds ds' →
      ∃ dsx, den w (instr pts f) amb st ds' (withSends pts evs) =
        ⟨(den w f amb st ds evs).out, (den w f amb st ds evs).stopped, dsx, withSends pts (den w f amb st ds evs).evs⟩ ∧
        List.Forall₂ (Sim pts) (den w f amb st ds evs).defers dsx ∧ Ok (den w f amb st ds evs).out) :
    Sim pts (call w name f) (call w name (injectAll (pointsOf pts name) (instr pts f))) := by
  intro amb evs ha
  -- the body with its points
  have key : ∀ (l : List Inj) (E : List Ev) (e0 : List Ev), withSends pts e0 = E ++ atEntry l →
      close (den w (injectAll l (instr pts f)) amb false [] E) =
        ((close (den w f amb false [] e0)).1, (close (den w f amb false [] e0)).2.1,
          withSends pts (close (den w f amb false [] e0)).2.2 ++ atEnd (close (den w f amb false [] e0)).1 l) ∧
        Ok (close (den w f amb false [] e0)).1 := by
    intro l E e0 hE
    obtain ⟨dsx, h1, h2, h3⟩ := ih amb false [] [] e0 ha .nil
    obtain ⟨f1, f2⟩ := fin_sim h2 _ (den w f amb false [] e0).evs h3
    rw [den_injectAll, List.append_nil, den_frame, ← hE, h1]
    simp only [close, fin_append, f1]
    rw [fin_dl _ _ _ f2]
    exact ⟨rfl, f2⟩
  cases name with
  | none =>
    obtain ⟨h1, h2⟩ := key [] (withSends pts evs) evs (by simp [atEntry])
    simp only [call, named, pointsOf]
    exact ⟨by rw [h1]; simp [atEnd], h2⟩
  | some n =>
    obtain ⟨h1, h2⟩ := key (pts n) (withSends pts evs ++ [.entered n]) (evs ++ [.entered n]) (by simp [withSends, with1])
    simp only [call, named, pointsOf]
    refine ⟨?_, h2⟩
    rw [h1]
    simp [withSends, with1]

theorem den_sim (f : Prog) (hs : src f) (hn : w.nilVal ≠ none ∨ noNil f) : ∀ amb st ds ds' evs, amb ≠ some none → List.Forall₂ (Sim pts) ds ds' →
    ∃ dsx, den w (instr pts f) amb st ds' (withSends pts evs) =
      ⟨(den w f amb st ds evs).out, (den w f amb st ds evs).stopped, dsx, withSends pts (den w f amb st ds evs).evs⟩ ∧
      List.Forall₂ (Sim pts) (den w f amb st ds evs).defers dsx ∧ Ok (den w f amb st ds evs).out := by
  induction f with
  | done =>
    intro amb st ds ds' evs _ hd
    exact ⟨ds', rfl, hd, by simp [Ok, den, Out.normal]⟩
  | eff n k ih =>
    intro amb st ds ds' evs ha hd
    simp only [den, instr]
    rw [seen_withSends]
    have := ih (w.res n (seen evs)) (hs _) (hn.imp_right fun h => h _) amb st ds ds' (evs ++ [.eff n (w.res n (seen evs))]) ha hd
    rw [withSends_append] at this
    exact this
  | recover k ih =>
    intro amb st ds ds' evs ha hd
    rcases amb with _ | v <;> rcases st with _ | _ <;> simp only [den, instr] <;>
      exact ih _ (hs _) (hn.imp_right fun h => h _) _ _ ds ds' evs ha hd
  | panic v =>
    intro amb st ds ds' evs _ hd
    refine ⟨ds', rfl, hd, ?_⟩
    simp only [Ok, den]
    rcases hn with h | h
    · cases v with
      | none => simpa using h
      | some v => simp
    · cases v with
      | none => exact absurd rfl h
      | some v => simp
  | goexit =>
    intro amb st ds ds' evs _ hd
    exact ⟨ds', rfl, hd, by simp [Ok, den]⟩
  | call name f k ihf ihk =>
    intro amb st ds ds' evs ha hd
    obtain ⟨h1, h2⟩ := fn_sim name (ihf hs.1 (hn.imp_right fun h => h.1)) none evs (by simp)
    simp only [den, instr]
    unfold call at h1 h2
    rw [h1]
    dsimp only
    split
    · exact ihk hs.2 (hn.imp_right fun h => h.2) amb st ds ds' _ ha hd
    · exact ⟨ds', rfl, hd, h2⟩
  | defer name f k ihf ihk =>
    intro amb st ds ds' evs ha hd
    have h := fn_sim name (ihf hs.1 (hn.imp_right fun h => h.1))
    simp only [den, instr]
    exact ihk hs.2 (hn.imp_right fun h => h.2) amb st _ _ _ ha (.cons h hd)
  | send pid v k _ => exact absurd hs (by simp [src])

/-- The program with points does what the program without does, and sends the messages. -/
theorem run_sim (name : Option Nat) (f : Prog) (hs : src f) (hn : w.nilVal ≠ none ∨ noNil f) :
    run w name (injectAll (pointsOf pts name) (instr pts f)) = ((run w name f).1, withSends pts (run w name f).2) := by
  obtain ⟨h1, _⟩ := fn_sim (w := w) (pts := pts) name (den_sim f hs hn) none [] (by simp)
  have : withSends pts [] = [] := rfl
  rw [this] at h1
  simp only [run]
  rw [h1]

/-! ### Messages -/

def NoSend (evs : List Ev) : Prop := ∀ e ∈ evs, e.isSend = false

def Quiet (f : Fn) : Prop := ∀ amb evs, NoSend evs → NoSend (f amb evs).2.2

theorem NoSend.snoc {evs : List Ev} {e : Ev} (h : NoSend evs) (he : e.isSend = false) : NoSend (evs ++ [e]) := by
  intro x hx
  rcases List.mem_append.mp hx with h' | h'
  · exact h x h'
  · rw [List.mem_singleton.mp h']; exact he

theorem fin_quiet (ds : List Fn) (h : ∀ f ∈ ds, Quiet f) : ∀ o evs, NoSend evs → NoSend (fin ds o evs).2 := by
  induction ds with
  | nil => intro o evs he; exact he
  | cons f ds ih =>
    intro o evs he
    simp only [fin]
    exact ih (fun g hg => h g (List.mem_cons_of_mem _ hg)) _ _ (h f List.mem_cons_self _ _ he)

theorem fn_quiet {f : Prog} (name : Option Nat)
    (ih : ∀ amb st ds evs, (∀ f ∈ ds, Quiet f) → NoSend evs → (∀ g ∈ (den w f amb st ds evs).defers, Quiet g) ∧ NoSend (den w f amb st ds evs).evs) :
    Quiet (call w name f) := by
  intro amb evs he
  have key : ∀ e0, NoSend e0 → NoSend (close (den w f amb false [] e0)).2.2 := by
    intro e0 h0
    obtain ⟨h1, h2⟩ := ih amb false [] e0 (by simp) h0
    exact fin_quiet _ h1 _ _ h2
  cases name with
  | none => exact key evs he
  | some n => exact (key _ (he.snoc rfl)).snoc rfl

theorem den_quiet (f : Prog) (hs : src f) : ∀ amb st ds evs, (∀ f ∈ ds, Quiet f) → NoSend evs →
    (∀ g ∈ (den w f amb st ds evs).defers, Quiet g) ∧ NoSend (den w f amb st ds evs).evs := by
  induction f with
  | done => intro amb st ds evs hd he; exact ⟨hd, he⟩
  | eff n k ih => intro amb st ds evs hd he; exact ih _ (hs _) amb st ds _ hd (he.snoc rfl)
  | recover k ih =>
    intro amb st ds evs hd he
    rcases amb with _ | v <;> rcases st with _ | _ <;> exact ih _ (hs _) _ _ ds evs hd he
  | panic v => intro amb st ds evs hd he; exact ⟨hd, he⟩
  | goexit => intro amb st ds evs hd he; exact ⟨hd, he⟩
  | call name f k ihf ihk =>
    intro amb st ds evs hd he
    have h := fn_quiet name (ihf hs.1) none evs he
    simp only [den]
    unfold call at h
    split
    · exact ihk hs.2 amb st ds _ hd h
    · exact ⟨hd, h⟩
  | defer name f k ihf ihk =>
    intro amb st ds evs hd he
    refine ihk hs.2 amb st _ evs ?_ he
    intro g hg
    rcases List.mem_cons.mp hg with rfl | hg
    · exact fn_quiet name (ihf hs.1)
    · exact hd g hg
  | send pid v k _ => exact absurd hs (by simp [src])

theorem run_quiet (name : Option Nat) (f : Prog) (hs : src f) : NoSend (run w name f).2 :=
  fn_quiet name (den_quiet f hs) none [] (by simp [NoSend])

theorem sendsOf_append (pid : Nat) (a b : List Ev) : sendsOf pid (a ++ b) = sendsOf pid a ++ sendsOf pid b := by simp [sendsOf]

theorem sendsOf_atEntry_none {pid : Nat} {l : List Inj} (h : ∀ j ∈ l, j ≠ .entry pid) : sendsOf pid (atEntry l) = [] := by
  induction l with
  | nil => rfl
  | cons i l ih =>
    have ih := ih fun j hj => h j (List.mem_cons_of_mem _ hj)
    have hi := h i List.mem_cons_self
    cases i with
    | entry p =>
      have hp : p ≠ pid := fun e => hi (by rw [e])
      simp only [atEntry, sendsOf_append, ih, List.nil_append]
      simp [sendsOf, hp]
    | panic p => exact ih
    | finish p => exact ih

theorem sendsOf_atEnd_none {pid : Nat} {o : Out} {l : List Inj} (h : ∀ j ∈ l, j ≠ .panic pid ∧ j ≠ .finish pid) : sendsOf pid (atEnd o l) = [] := by
  induction l with
  | nil => rfl
  | cons i l ih =>
    have ih := ih fun j hj => h j (List.mem_cons_of_mem _ hj)
    have hi := h i List.mem_cons_self
    cases i with
    | entry p => exact ih
    | panic p =>
      have hp : p ≠ pid := fun e => hi.1 (by rw [e])
      simp only [atEnd, sendsOf_append, ih, List.append_nil]
      split <;> simp [sendsOf, hp]
    | finish p =>
      have hp : p ≠ pid := fun e => hi.2 (by rw [e])
      have : atEnd o (.finish p :: l) = [.send p none] ++ atEnd o l := rfl
      rw [this, sendsOf_append, ih]
      simp [sendsOf, hp]

theorem atEntry_append (a b : List Inj) : atEntry (a ++ b) = atEntry b ++ atEntry a := by
  induction a with
  | nil => simp [atEntry]
  | cons i a ih => cases i <;> simp [atEntry, ih]

theorem atEnd_append (o : Out) (a b : List Inj) : atEnd o (a ++ b) = atEnd o a ++ atEnd o b := by
  induction a with
  | nil => simp [atEnd]
  | cons i a ih => cases i <;> simp [atEnd, ih]

theorem pid_ne {i j : Inj} (h : j.pid ≠ i.pid) (k : Inj) (hk : k.pid = i.pid) : j ≠ k := by rintro rfl; exact h hk

/-- The messages of a point, put together from what one event contributes. -/
theorem sendsOf_withSends {pid : Nat} {α : Type} (g : List Ev → α) (c : α → List (Option Val)) (hnil : c (g []) = [])
    (hstep : ∀ e evs, e.isSend = false → sendsOf pid (with1 pts e) ++ c (g evs) = c (g (e :: evs))) :
    ∀ evs, NoSend evs → sendsOf pid (withSends pts evs) = c (g evs) := by
  intro evs
  induction evs with
  | nil => intro _; rw [hnil]; rfl
  | cons e evs ih =>
    intro h
    have hw : withSends pts (e :: evs) = with1 pts e ++ withSends pts evs := by simp [withSends]
    rw [hw, sendsOf_append, ih fun x hx => h x (List.mem_cons_of_mem _ hx)]
    exact hstep e evs (h e List.mem_cons_self)

end Verif.Panics
