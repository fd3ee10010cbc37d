import Mathlib.Tactic.Ring
import Mathlib.Algebra.BigOperators.Group.List.Basic
import Verif.Panics.Lemmas

/-! Counting messages within the program with points, whatever the panics. -/

namespace Verif.Panics

variable {w : World} {pts : Nat → List Inj}

def total (μ : Ev → Int) (evs : List Ev) : Int := (evs.map μ).sum

theorem total_append (μ : Ev → Int) (a b : List Ev) : total μ (a ++ b) = total μ a + total μ b := by simp [total]

theorem total_one (μ : Ev → Int) (e : Ev) : total μ [e] = μ e := by simp [total]

/-- What the points of a function contribute to its end. -/
def endTotal (μ : Ev → Int) : List Inj → Int
  | [] => 0
  | .finish pid :: l => μ (.send pid none) + endTotal μ l
  | _ :: l => endTotal μ l

/-- Only entry and finish points count, and each execution of a function adds up to nothing. -/
structure Fair (μ : Ev → Int) (pts : Nat → List Inj) : Prop where
  eff : ∀ n v, μ (.eff n v) = 0
  panic : ∀ n pid, Inj.panic pid ∈ pts n → ∀ v, μ (.send pid v) = 0
  fn : ∀ n o, μ (.entered n) + total μ (atEntry (pts n)) + endTotal μ (pts n) + μ (.left n o) = 0

def Neutral (μ : Ev → Int) (f : Fn) : Prop := ∀ amb evs, total μ (f amb evs).2.2 = total μ evs

theorem fin_neutral {μ : Ev → Int} (ds : List Fn) (h : ∀ f ∈ ds, Neutral μ f) : ∀ o evs, total μ (fin ds o evs).2 = total μ evs := by
  induction ds with
  | nil => intro o evs; rfl
  | cons f ds ih =>
    intro o evs
    simp only [fin]
    rw [ih (fun g hg => h g (List.mem_cons_of_mem _ hg)), h f List.mem_cons_self]

theorem fin_dl_total {μ : Ev → Int} (l : List Inj) (h : ∀ pid, Inj.panic pid ∈ l → ∀ v, μ (.send pid v) = 0) : ∀ o evs,
    total μ (fin (dl w l) o evs).2 = total μ evs + endTotal μ l := by
  induction l with
  | nil => intro o evs; simp [dl, fin, endTotal]
  | cons i l ih =>
    intro o evs
    have ih := ih fun pid hp => h pid (List.mem_cons_of_mem _ hp)
    cases i with
    | entry pid => exact ih o evs
    | finish pid =>
      simp only [dl, fin, den, close, endTotal]
      rw [ih, total_append, total_one]
      ring
    | panic pid =>
      simp only [dl, fin, endTotal]
      rw [ih]
      congr 1
      rcases hp : o.pan with _ | _ | v
      · simp [den, close, watcher, fin]
      · simp [den, close, watcher, fin]
      · simp only [den, close, watcher, fin]
        rw [total_append, total_one, h pid List.mem_cons_self, add_zero]

theorem fn_neutral {μ : Ev → Int} (hf : Fair μ pts) {f : Prog} (name : Option Nat)
    (ih : ∀ amb st ds evs, (∀ f ∈ ds, Neutral μ f) → (∀ g ∈ (den w (instr pts f) amb st ds evs).defers, Neutral μ g) ∧ total μ (den w (instr pts f) amb st ds evs).evs = total μ evs) :
    Neutral μ (call w name (injectAll (pointsOf pts name) (instr pts f))) := by
  intro amb evs
  have key : ∀ (l : List Inj) (E : List Ev), (∀ pid, Inj.panic pid ∈ l → ∀ v, μ (.send pid v) = 0) →
      total μ (close (den w (injectAll l (instr pts f)) amb false [] E)).2.2 = total μ E + total μ (atEntry l) + endTotal μ l := by
    intro l E hl
    obtain ⟨h1, h2⟩ := ih amb false [] (E ++ atEntry l) (by simp)
    rw [den_injectAll, List.append_nil, den_frame]
    simp only [close, fin_append]
    rw [fin_dl_total l hl, fin_neutral _ h1, h2, total_append]
  cases name with
  | none =>
    simp only [call, named, pointsOf]
    rw [key [] evs (by simp)]
    simp [atEntry, total, endTotal]
  | some n =>
    simp only [call, named, pointsOf]
    rw [total_append, key (pts n) _ (hf.panic n), total_append, total_one, total_one]
    have := hf.fn n (close (den w (injectAll (pts n) (instr pts f)) amb false [] (evs ++ [.entered n]))).1
    omega

theorem den_neutral {μ : Ev → Int} (hf : Fair μ pts) (f : Prog) (hs : src f) : ∀ amb st ds evs, (∀ f ∈ ds, Neutral μ f) →
    (∀ g ∈ (den w (instr pts f) amb st ds evs).defers, Neutral μ g) ∧ total μ (den w (instr pts f) amb st ds evs).evs = total μ evs := by
  induction f with
  | done => intro amb st ds evs hd; exact ⟨hd, rfl⟩
  | eff n k ih =>
    intro amb st ds evs hd
    simp only [instr, den]
    obtain ⟨h1, h2⟩ := ih _ (hs _) amb st ds (evs ++ [.eff n (w.res n (seen evs))]) hd
    refine ⟨h1, h2.trans ?_⟩
    rw [total_append, total_one, hf.eff, add_zero]
  | recover k ih =>
    intro amb st ds evs hd
    rcases amb with _ | v <;> rcases st with _ | _ <;> exact ih _ (hs _) _ _ ds evs hd
  | panic v => intro amb st ds evs hd; exact ⟨hd, rfl⟩
  | goexit => intro amb st ds evs hd; exact ⟨hd, rfl⟩
  | call name f k ihf ihk =>
    intro amb st ds evs hd
    have h := fn_neutral hf name (ihf hs.1) none evs
    simp only [instr, den]
    unfold call at h
    split
    · obtain ⟨h1, h2⟩ := ihk hs.2 amb st ds _ hd
      exact ⟨h1, h2.trans h⟩
    · exact ⟨hd, h⟩
  | defer name f k ihf ihk =>
    intro amb st ds evs hd
    refine ihk hs.2 amb st _ evs ?_
    intro g hg
    rcases List.mem_cons.mp hg with rfl | hg
    · exact fn_neutral hf name (ihf hs.1)
    · exact hd g hg
  | send pid v k _ => exact absurd hs (by simp [src])

theorem run_neutral {μ : Ev → Int} (hf : Fair μ pts) (name : Option Nat) (f : Prog) (hs : src f) :
    total μ (run w name (injectAll (pointsOf pts name) (instr pts f))).2 = 0 :=
  fn_neutral hf name (den_neutral hf f hs) none []

/-! ### Two ways of counting -/

def countEntry (name pid : Nat) : Ev → Int
  | .send p _ => if p = pid then 1 else 0
  | .entered n => if n = name then -1 else 0
  | _ => 0

def countExit (name pid : Nat) : Ev → Int
  | .send p _ => if p = pid then 1 else 0
  | .left n _ => if n = name then -1 else 0
  | _ => 0

theorem total_countEntry (name pid : Nat) (evs : List Ev) : total (countEntry name pid) evs = (sendsOf pid evs).length - entries name evs := by
  induction evs with
  | nil => rfl
  | cons e evs ih =>
    have : total (countEntry name pid) (e :: evs) = countEntry name pid e + total (countEntry name pid) evs := by simp [total]
    rw [this, ih]
    cases e with
    | send p v => by_cases h : p = pid <;> simp [countEntry, sendsOf, entries, h] <;> omega
    | entered n => by_cases h : n = name <;> simp [countEntry, sendsOf, entries, h] <;> omega
    | eff n v => simp [countEntry, sendsOf, entries]
    | left n o => simp [countEntry, sendsOf, entries]

theorem total_countExit (name pid : Nat) (evs : List Ev) : total (countExit name pid) evs = (sendsOf pid evs).length - exits name evs := by
  induction evs with
  | nil => rfl
  | cons e evs ih =>
    have : total (countExit name pid) (e :: evs) = countExit name pid e + total (countExit name pid) evs := by simp [total]
    rw [this, ih]
    cases e with
    | send p v => by_cases h : p = pid <;> simp [countExit, sendsOf, exits, h] <;> omega
    | entered n => simp [countExit, sendsOf, exits]
    | eff n v => simp [countExit, sendsOf, exits]
    | left n o => by_cases h : n = name <;> simp [countExit, sendsOf, exits, h] <;> omega

theorem endTotal_append (μ : Ev → Int) (a b : List Inj) : endTotal μ (a ++ b) = endTotal μ a + endTotal μ b := by
  induction a with
  | nil => simp [endTotal]
  | cons i a ih => cases i <;> simp [endTotal, ih, add_assoc]

theorem endTotal_zero {μ : Ev → Int} {l : List Inj} (h : ∀ p, Inj.finish p ∈ l → μ (.send p none) = 0) : endTotal μ l = 0 := by
  induction l with
  | nil => rfl
  | cons i l ih =>
    have ih := ih fun p hp => h p (List.mem_cons_of_mem _ hp)
    cases i with
    | entry p => exact ih
    | panic p => exact ih
    | finish p => simp only [endTotal, ih, h p List.mem_cons_self, add_zero]

theorem total_atEntry_zero {μ : Ev → Int} {l : List Inj} (h : ∀ p, Inj.entry p ∈ l → μ (.send p none) = 0) : total μ (atEntry l) = 0 := by
  induction l with
  | nil => rfl
  | cons i l ih =>
    have ih := ih fun p hp => h p (List.mem_cons_of_mem _ hp)
    cases i with
    | entry p => simp only [atEntry, total_append, ih, total_one, h p List.mem_cons_self, add_zero]
    | panic p => exact ih
    | finish p => exact ih

theorem fair_entry {name pid : Nat} (ho : Own pts name (.entry pid)) : Fair (countEntry name pid) pts := by
  obtain ⟨⟨l, r, hl, hlr⟩, hother⟩ := ho
  have hmem : ∀ n j, j ∈ pts n → j = .entry pid ∨ j.pid ≠ pid := by
    intro n j hj
    by_cases hn : n = name
    · subst hn
      rw [hl] at hj
      rcases List.mem_append.mp hj with h | h
      · exact .inr (hlr j (List.mem_append_left _ h))
      · rcases List.mem_cons.mp h with h | h
        · exact .inl h
        · exact .inr (hlr j (List.mem_append_right _ h))
    · exact .inr (hother n hn j hj)
  refine ⟨fun _ _ => rfl, ?_, ?_⟩
  · intro n p hp v
    rcases hmem n _ hp with h | h
    · cases h
    · exact if_neg h
  · intro n o
    rw [endTotal_zero (l := pts n)]
    · by_cases hn : n = name
      · subst hn
        rw [hl, atEntry_append, total_append, total_atEntry_zero (l := l), atEntry, total_append, total_atEntry_zero (l := r), total_one]
        · simp [countEntry]
        · exact fun p hp => if_neg (hlr _ (List.mem_append_right _ hp))
        · exact fun p hp => if_neg (hlr _ (List.mem_append_left _ hp))
      · rw [total_atEntry_zero fun p hp => if_neg (hother n hn _ hp)]
        simp [countEntry, hn]
    · intro p hp
      rcases hmem n _ hp with h | h
      · cases h
      · exact if_neg h

theorem fair_finish {name pid : Nat} (ho : Own pts name (.finish pid)) : Fair (countExit name pid) pts := by
  obtain ⟨⟨l, r, hl, hlr⟩, hother⟩ := ho
  have hmem : ∀ n j, j ∈ pts n → j = .finish pid ∨ j.pid ≠ pid := by
    intro n j hj
    by_cases hn : n = name
    · subst hn
      rw [hl] at hj
      rcases List.mem_append.mp hj with h | h
      · exact .inr (hlr j (List.mem_append_left _ h))
      · rcases List.mem_cons.mp h with h | h
        · exact .inl h
        · exact .inr (hlr j (List.mem_append_right _ h))
    · exact .inr (hother n hn j hj)
  refine ⟨fun _ _ => rfl, ?_, ?_⟩
  · intro n p hp v
    rcases hmem n _ hp with h | h
    · cases h
    · exact if_neg h
  · intro n o
    rw [total_atEntry_zero (l := pts n)]
    · by_cases hn : n = name
      · subst hn
        rw [hl, endTotal_append, endTotal_zero (l := l), endTotal, endTotal_zero (l := r)]
        · simp [countExit]
        · exact fun p hp => if_neg (hlr _ (List.mem_append_right _ hp))
        · exact fun p hp => if_neg (hlr _ (List.mem_append_left _ hp))
      · rw [endTotal_zero fun p hp => if_neg (hother n hn _ hp)]
        simp [countExit, hn]
    · intro p hp
      rcases hmem n _ hp with h | h
      · cases h
      · exact if_neg h

end Verif.Panics
