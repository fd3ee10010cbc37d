import Verif.Jumps.Spec

namespace Verif.Jumps

/-- Declarations. -/
def stopD (kind : Kind) (_ : Option Nat) : Bool := kind == .decl

/-- Declarations and calls reported with variables. -/
def stopV (kind : Kind) (own : Option Nat) : Bool := kind == .decl || (match own with | some (_ + 1) => true | _ => false)

/-! ### Added statements -/

theorem labels_defs (n : Nat) (c : Code) : labels (defs n c) = labels c := by
  induction n with
  | zero => rfl
  | succ n ih => exact ih

theorem labels_pre (own : Option Nat) (c : Code) : labels (pre own c) = labels c := by
  cases own with
  | none => rfl
  | some n => exact labels_defs n _

theorem jumps_defs (s : Kind → Option Nat → Bool) (t k : List Label) (n : Nat) (c : Code) : Jumps s t k (defs n c) ↔ Jumps s t k c := by
  induction n with
  | zero => exact Iff.rfl
  | succ n ih => exact ih

theorem jumps_pre (s : Kind → Option Nat → Bool) (t k : List Label) (own : Option Nat) (c : Code) : Jumps s t k (pre own c) ↔ Jumps s t k c := by
  cases own with
  | none => exact Iff.rfl
  | some n => exact jumps_defs s t k n _

theorem ahead_pre (k : List Label) (own : Option Nat) (c : Code) : ahead stopD k (pre own c) = if stopV .other own then [] else ahead stopD k c := by
  match own with
  | none => rfl
  | some 0 => rfl
  | some (n + 1) => rfl

theorem falls_defs (n : Nat) (c : Code) : falls (defs n c) = falls c := by
  induction n with
  | zero => rfl
  | succ n ih => exact ih

theorem falls_pre (own : Option Nat) (c : Code) : falls (pre own c) = falls c := by
  cases own with
  | none => rfl
  | some n => exact falls_defs n _

theorem breaks_defs (lab : List Label) (i : Bool) (n : Nat) (c : Code) : breaks lab i (defs n c) = breaks lab i c := by
  induction n with
  | zero => rfl
  | succ n ih => exact ih

theorem breaks_pre (lab : List Label) (i : Bool) (own : Option Nat) (c : Code) : breaks lab i (pre own c) = breaks lab i c := by
  cases own with
  | none => rfl
  | some n => exact breaks_defs lab i n _

theorem isDone_defs (n : Nat) {c : Code} (h : isDone c = false) : isDone (defs n c) = false := by
  cases n with
  | zero => exact h
  | succ n => rfl

theorem isDone_pre (own : Option Nat) {c : Code} (h : isDone c = false) : isDone (pre own c) = false := by
  cases own with
  | none => exact h
  | some n => exact isDone_defs n rfl

theorem ends_defs (sw : Bool) (n : Nat) {c : Code} (h : isDone c = false) (hc : ends sw [] c = ends false [] c) : ends sw [] (defs n c) = ends sw [] c := by
  induction n generalizing sw with
  | zero => rfl
  | succ n ih =>
    rw [defs, ends, isDone_defs n h, if_neg (by simp), ih false rfl, hc]

theorem ends_pre (sw : Bool) (own : Option Nat) {c : Code} (h : isDone c = false) (hc : ends sw [] c = ends false [] c) : ends sw [] (pre own c) = ends sw [] c := by
  cases own with
  | none => rfl
  | some n =>
    rw [pre, ends_defs sw n rfl rfl, ends, h, if_neg (by simp), hc]

theorem hasDefault_defs (n : Nat) {c : Code} (h : hasDefault c = false) : hasDefault (defs n c) = false := by
  cases n with
  | zero => exact h
  | succ n => rfl

theorem hasDefault_pre (own : Option Nat) {c : Code} (h : hasDefault c = false) : hasDefault (pre own c) = false := by
  cases own with
  | none => exact h
  | some n => exact hasDefault_defs n rfl

/-! ### Calls -/

theorem isDone_calls (c : Code) : isDone (calls c) = isDone c := by
  cases c with
  | simple k own rest => exact isDone_pre own rfl
  | ret own repl rest => exact isDone_pre own rfl
  | nest h own cl rest => exact isDone_pre own rfl
  | _ => rfl

theorem labels_calls (c : Code) : labels (calls c) = labels c := by
  induction c with
  | done => rfl
  | simple k own rest ih => rw [calls, labels_pre]; exact ih
  | ret own repl rest ih => rw [calls, labels_pre]; exact ih
  | nest h own cl rest _ ih => rw [calls, labels_pre]; exact ih
  | label l inner rest _ ih => rw [calls, labels, ih]; rfl
  | jump l rest ih => exact ih
  | leave l rest ih => exact ih
  | through rest ih => exact ih
  | clause d b rest _ ih => exact ih

theorem falls_calls (c : Code) : falls (calls c) = falls c := by
  induction c with
  | done => rfl
  | simple k own rest ih => rw [calls, falls_pre]; exact ih
  | ret own repl rest ih => rw [calls, falls_pre]; exact ih
  | nest h own cl rest _ ih => rw [calls, falls_pre]; exact ih
  | label l inner rest _ ih => exact ih
  | jump l rest ih => exact ih
  | leave l rest ih => exact ih
  | through rest ih => rw [calls, falls, ih, isDone_calls]; rfl
  | clause d b rest _ ih => exact ih

theorem hasDefault_calls (c : Code) : hasDefault (calls c) = hasDefault c := by
  induction c with
  | simple k own rest ih => exact hasDefault_pre own rfl
  | ret own repl rest ih => exact hasDefault_pre own rfl
  | nest h own cl rest _ ih => exact hasDefault_pre own rfl
  | clause d b rest _ ih => rw [calls, hasDefault, ih]; rfl
  | _ => rfl

theorem breaks_calls (lab : List Label) (i : Bool) (c : Code) : breaks lab i (calls c) = breaks lab i c := by
  induction c generalizing i with
  | done => rfl
  | simple k own rest ih => rw [calls, breaks_pre]; exact ih i
  | ret own repl rest ih => rw [calls, breaks_pre]; exact ih i
  | nest h own cl rest ih1 ih => rw [calls, breaks_pre, breaks, ih1, ih]; rfl
  | label l inner rest _ ih => rw [calls, breaks, ih]; rfl
  | jump l rest ih => exact ih i
  | leave l rest ih => cases l <;> rw [calls, breaks, ih] <;> rfl
  | through rest ih => exact ih i
  | clause d b rest ih1 ih => rw [calls, breaks, ih, ih1]; rfl

theorem ends_calls (sw : Bool) (c : Code) : ends sw [] (calls c) = ends sw [] c := by
  induction c generalizing sw with
  | done => rfl
  | simple k own rest ih => rw [calls, ends_pre sw own rfl rfl, ends, isDone_calls, ih]; rfl
  | ret own repl rest ih => rw [calls, ends_pre sw own rfl rfl, ends, isDone_calls, ih]; rfl
  | nest h own cl rest ih1 ih =>
    rw [calls, ends_pre sw own rfl rfl]
    simp only [ends, isDone_calls, ih, ih1, hasDefault_calls, breaks_calls]
  | label l inner rest _ ih => simp only [calls, ends, isDone_calls, ih]
  | jump l rest ih => simp only [calls, ends, isDone_calls, ih]
  | leave l rest ih => simp only [calls, ends, isDone_calls, ih]
  | through rest ih => simp only [calls, ends, isDone_calls, ih]
  | clause d b rest ih1 ih => simp only [calls, ends, isDone_calls, ih, ih1, falls_calls]

theorem plain_ahead {c : Code} : ∀ {k : List Label}, Unmarked c → ahead stopV k c = ahead stopD k c := by
  induction c with
  | done => intros; rfl
  | simple kind own rest ih =>
    rintro k ⟨rfl, h⟩
    cases kind <;> simp [ahead, stopV, stopD, ih h]
  | ret own repl rest ih =>
    rintro k ⟨rfl, h⟩
    simp [ahead, stopV, stopD, ih h]
  | nest h own cl rest _ ih =>
    rintro k ⟨rfl, -, h⟩
    simp [ahead, stopV, stopD, ih h]
  | label l inner rest ih1 ih =>
    rintro k ⟨h1, h⟩
    rw [ahead, ahead, ih h, ih1 h1]
  | jump l rest ih => intro k h; exact ih h
  | leave l rest ih => intro k h; exact ih h
  | through rest ih => intro k h; exact ih h
  | clause d b rest _ ih => intro k h; exact ih h.2

theorem plain_jumps {c : Code} : ∀ {t k : List Label}, Unmarked c → (Jumps stopV t k c ↔ Jumps stopD t k c) := by
  induction c with
  | done => intros; exact Iff.rfl
  | simple kind own rest ih => rintro t k ⟨-, h⟩; exact ih h
  | ret own repl rest ih => rintro t k ⟨-, h⟩; exact ih h
  | nest h own cl rest ih1 ih =>
    rintro t k ⟨-, h1, h⟩
    rw [Jumps, Jumps, plain_ahead h, ih1 h1, ih h]
  | label l inner rest ih1 ih =>
    rintro t k ⟨h1, h⟩
    rw [Jumps, Jumps, plain_ahead h, ih1 h1, ih h]
  | jump l rest ih =>
    intro t k h
    have h' : Unmarked rest := h
    rw [Jumps, Jumps, plain_ahead h', ih h']
  | leave l rest ih => intro t k h; exact ih h
  | through rest ih => intro t k h; exact ih h
  | clause d b rest ih1 ih => intro t k h; exact and_congr (ih1 h.1) (ih h.2)

theorem ahead_calls {c : Code} : ∀ {k : List Label}, Represented c → ahead stopD k (calls c) = ahead stopV k c := by
  induction c with
  | done => intros; rfl
  | simple kind own rest ih =>
    intro k h
    rw [calls, ahead_pre, ahead, ahead, ih h]
    match kind, own with
    | .decl, none => rfl
    | .decl, some 0 => rfl
    | .decl, some (n + 1) => rfl
    | .other, none => rfl
    | .other, some 0 => rfl
    | .other, some (n + 1) => rfl
    | .panics, none => rfl
    | .panics, some 0 => rfl
    | .panics, some (n + 1) => rfl
  | ret own repl rest ih =>
    intro k h
    rw [calls, ahead_pre, ahead, ahead, ih h]
    rfl
  | nest hd own cl rest _ ih =>
    intro k h
    rw [calls, ahead_pre, ahead, ahead, ih h.2]
    rfl
  | label l inner rest _ ih =>
    intro k h
    rw [calls, ahead, ahead, ih h.2, plain_ahead h.1]
  | jump l rest ih => intro k h; exact ih h
  | leave l rest ih => intro k h; exact ih h
  | through rest ih => intro k h; exact ih h
  | clause d b rest _ ih => intro k h; exact ih h.2

theorem jumps_calls {c : Code} : ∀ {t k : List Label}, Represented c → (Jumps stopD t k (calls c) ↔ Jumps stopV t k c) := by
  induction c with
  | done => intros; exact Iff.rfl
  | simple kind own rest ih => intro t k h; rw [calls, jumps_pre]; exact ih h
  | ret own repl rest ih => intro t k h; rw [calls, jumps_pre]; exact ih h
  | nest hd own cl rest ih1 ih =>
    intro t k h
    rw [calls, jumps_pre, Jumps, Jumps, ahead_calls h.2, ih1 h.1, ih h.2]
  | label l inner rest _ ih =>
    intro t k h
    rw [calls, Jumps, Jumps, ahead_calls h.2, plain_jumps h.1, ih h.2]
  | jump l rest ih =>
    intro t k h
    have h' : Represented rest := h
    rw [calls, Jumps, Jumps, ahead_calls h', ih h']
  | leave l rest ih => intro t k h; exact ih h
  | through rest ih => intro t k h; exact ih h
  | clause d b rest ih1 ih => intro t k h; exact and_congr (ih1 h.1) (ih h.2)

/-! ### Returns -/

theorem isDone_returns (c : Code) : isDone (returns c) = isDone c := by
  cases c with
  | ret own repl rest => cases repl <;> rfl
  | _ => rfl

theorem ahead_returns (c : Code) : ∀ (k : List Label), ahead stopD k (returns c) = ahead stopD k c := by
  induction c with
  | done => intro k; rfl
  | simple kind own rest ih => intro k; rw [returns, ahead, ahead, ih]
  | ret own repl rest ih => intro k; cases repl <;> exact ih k
  | nest hd own cl rest _ ih => intro k; rw [returns, ahead, ahead, ih]
  | label l inner rest _ ih => intro k; rw [returns, ahead, ahead, ih]
  | jump l rest ih => exact ih
  | leave l rest ih => exact ih
  | through rest ih => exact ih
  | clause d b rest _ ih => exact ih

theorem jumps_returns (c : Code) : ∀ (t k : List Label), Jumps stopD t k (returns c) ↔ Jumps stopD t k c := by
  induction c with
  | done => intro t k; exact Iff.rfl
  | simple kind own rest ih => exact ih
  | ret own repl rest ih =>
    intro t k
    cases repl with
    | none => exact ih t k
    | some n =>
      simp [returns, Jumps, jumps_defs, ih]
  | nest hd own cl rest ih1 ih => intro t k; rw [returns, Jumps, Jumps, ahead_returns, ih1, ih]
  | label l inner rest _ ih => intro t k; rw [returns, Jumps, Jumps, ahead_returns, ih]
  | jump l rest ih => intro t k; rw [returns, Jumps, Jumps, ahead_returns, ih]
  | leave l rest ih => exact ih
  | through rest ih => exact ih
  | clause d b rest ih1 ih => intro t k; exact and_congr (ih1 t k) (ih t k)

theorem falls_returns (c : Code) : falls (returns c) = falls c := by
  induction c with
  | done => rfl
  | simple k own rest ih => exact ih
  | ret own repl rest ih => cases repl <;> exact ih
  | nest h own cl rest _ ih => exact ih
  | label l inner rest _ ih => exact ih
  | jump l rest ih => exact ih
  | leave l rest ih => exact ih
  | through rest ih => rw [returns, falls, ih, isDone_returns]; rfl
  | clause d b rest _ ih => exact ih

theorem hasDefault_returns (c : Code) : hasDefault (returns c) = hasDefault c := by
  induction c with
  | ret own repl rest ih => cases repl <;> rfl
  | clause d b rest _ ih => rw [returns, hasDefault, ih]; rfl
  | _ => rfl

theorem breaks_returns (lab : List Label) (i : Bool) (c : Code) : breaks lab i (returns c) = breaks lab i c := by
  induction c generalizing i with
  | done => rfl
  | simple k own rest ih => exact ih i
  | ret own repl rest ih =>
    cases repl with
    | none => exact ih i
    | some n => simp [returns, breaks, breaks_defs, ih]
  | nest h own cl rest ih1 ih => rw [returns, breaks, ih1, ih]; rfl
  | label l inner rest _ ih => rw [returns, breaks, ih]; rfl
  | jump l rest ih => exact ih i
  | leave l rest ih => cases l <;> rw [returns, breaks, ih] <;> rfl
  | through rest ih => exact ih i
  | clause d b rest ih1 ih => rw [returns, breaks, ih, ih1]; rfl

theorem ends_returns (sw : Bool) (c : Code) : ends sw [] (returns c) = ends sw [] c := by
  induction c generalizing sw with
  | done => rfl
  | simple k own rest ih => simp only [returns, ends, isDone_returns, ih]
  | ret own repl rest ih =>
    cases repl with
    | none => simp only [returns, ends, isDone_returns, ih]
    | some n =>
      rw [returns, ends, ends, ends, ends_defs false n rfl rfl, isDone_returns, ih]
      simp [ends, isDone]
  | nest h own cl rest ih1 ih =>
    cases h <;> simp only [returns, ends, isDone_returns, ih, ih1, hasDefault_returns, breaks_returns]
  | label l inner rest _ ih => simp only [returns, ends, isDone_returns, ih]
  | jump l rest ih => simp only [returns, ends, isDone_returns, ih]
  | leave l rest ih => simp only [returns, ends, isDone_returns, ih]
  | through rest ih => simp only [returns, ends, isDone_returns, ih]
  | clause d b rest ih1 ih => simp only [returns, ends, isDone_returns, ih, ih1, falls_returns]

end Verif.Jumps
