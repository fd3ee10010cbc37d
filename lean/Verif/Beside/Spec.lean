import Verif.Beside.Model

/-! What goroutines may do beside each other. -/

namespace Verif.Beside

/-- States of a program that some order of steps leads to. -/
def Reach (code : Code) (store : Nat → Nat) (s : St) : Prop := ∃ order, run code order (start store) = some s

def IReach (code : Code) (watch : Watch) (store : Nat → Nat) (i : Inst) : Prop := ∃ order, irun code watch order (istart store) = some i

/-- Some order of steps ends the program with an error of the runtime. -/
def Crashes (code : Code) (store : Nat → Nat) : Prop := ∃ s t, Reach code store s ∧ step code t s = some .crash

def ICrashes (code : Code) (watch : Watch) (store : Nat → Nat) : Prop := ∃ i t, IReach code watch store i ∧ istep code watch t i = some .crash

/-- Whether a goroutine has mutex `m` after an operation, if it had it before or not. -/
def after (m : Nat) (b : Bool) : Option Op → Bool
  | some (.lock m') => if m' = m then true else b
  | some (.unlock m') => if m' = m then false else b
  | _ => b

/-- Goroutine `t` has mutex `m` after the results `h`: its last operation on it was to lock it. -/
def holds (code : Code) (t m : Nat) (h : List Nat) : Bool := (List.range h.length).foldl (fun b i => after m b (code t (h.take i))) false

/-- Mutex `m` is used as usual: goroutines unlock it only if they have it. -/
def Owned (code : Code) (m : Nat) : Prop := ∀ u h, code u h = some (.unlock m) → holds code u m h = true

/-- All writes to map `o` are made with mutex `m` locked. -/
def Guarded (code : Code) (o m : Nat) : Prop := Owned code m ∧ ∀ u h v, code u h = some (.write o v) → holds code u m h = true

/-- No other goroutine writes to map `o`. -/
def Private (code : Code) (t o : Nat) : Prop := ∀ u h v, u ≠ t → code u h ≠ some (.write o v)

/-- Reports are made only of maps that no other goroutine writes to, or for which the goroutine has the mutex just then. -/
def Safe (code : Code) (watch : Watch) : Prop :=
  ∀ t h o, o ∈ watch t h → Private code t o ∨ ∃ m, Guarded code o m ∧ holds code t m h = true

/-- All accesses to maps are made with a mutex locked: a program free of races. -/
def Synchronised (code : Code) : Prop :=
  (∀ m, Owned code m) ∧ ∃ lockOf : Nat → Nat, ∀ u h o, (code u h = some (.read o) ∨ ∃ v, code u h = some (.write o v)) → holds code u (lockOf o) h = true

/-- At some time a goroutine gets to a report of a map that another is writing to, before it goes on itself. -/
def Meets (code : Code) (watch : Watch) (store : Nat → Nat) : Prop :=
  ∃ s t u o, Reach code store s ∧ o ∈ watch t (s.done t) ∧ s.writer o = some u ∧ u ≠ t ∧ ∀ o', s.writer o' ≠ some t

end Verif.Beside
