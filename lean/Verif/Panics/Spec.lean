import Verif.Panics.Model

/-! What C91–C93 talk about. -/

namespace Verif.Panics

/-- A program before anything was put into it. -/
def src : Prog → Prop
  | .done => True
  | .eff _ k => ∀ v, src (k v)
  | .recover k => ∀ v, src (k v)
  | .panic _ => True
  | .goexit => True
  | .call _ f k => src f ∧ src k
  | .defer _ f k => src f ∧ src k
  | .send _ _ _ => False

/-- Nothing in the program panics with `nil`. -/
def noNil : Prog → Prop
  | .done => True
  | .eff _ k => ∀ v, noNil (k v)
  | .recover k => ∀ v, noNil (k v)
  | .panic v => v ≠ none
  | .goexit => True
  | .call _ f k => noNil f ∧ noNil k
  | .defer _ f k => noNil f ∧ noNil k
  | .send _ _ k => noNil k

/-- The messages that belong behind the beginning of a function: the statements put in last come first. -/
def atEntry : List Inj → List Ev
  | [] => []
  | .entry pid :: l => atEntry l ++ [.send pid none]
  | _ :: l => atEntry l

/-- The messages that belong before the end of a function that is left this way: a panic is reported with its value. -/
def atEnd (o : Out) : List Inj → List Ev
  | [] => []
  | .panic pid :: l =>
    (match o.pan with
    | some (some v) => [.send pid (some v)]
    | _ => []) ++ atEnd o l
  | .finish pid :: l => .send pid none :: atEnd o l
  | .entry _ :: l => atEnd o l

/-- What happens in the program with points, for one thing that happens in the program without. -/
def with1 (pts : Nat → List Inj) : Ev → List Ev
  | .entered n => .entered n :: atEntry (pts n)
  | .left n o => atEnd o (pts n) ++ [.left n o]
  | e => [e]

def withSends (pts : Nat → List Inj) (evs : List Ev) : List Ev := evs.flatMap (with1 pts)

/-- The messages with this number. -/
def sendsOf (pid : Nat) (evs : List Ev) : List (Option Val) := evs.filterMap fun e =>
  match e with
  | .send p v => if p = pid then some v else none
  | _ => none

/-- The values of the panics that left this function, in the order in which it was left. -/
def panicsOf (name : Nat) (evs : List Ev) : List (Option Val) := evs.filterMap fun e =>
  match e with
  | .left n ⟨_, some (some v)⟩ => if n = name then some (some v) else none
  | _ => none

/-- How often a function was entered. -/
def entries (name : Nat) (evs : List Ev) : Nat := evs.countP fun e => e == .entered name

/-- How often a function was left, in whatever way. -/
def exits (name : Nat) (evs : List Ev) : Nat := evs.countP fun e =>
  match e with
  | .left n _ => n == name
  | _ => false

def Inj.pid : Inj → Nat
  | .entry p => p
  | .panic p => p
  | .finish p => p

/-- A point belongs to one function only, and is there once. -/
def Own (pts : Nat → List Inj) (name : Nat) (i : Inj) : Prop :=
  (∃ l r, pts name = l ++ i :: r ∧ ∀ j ∈ l ++ r, j.pid ≠ i.pid) ∧ ∀ n, n ≠ name → ∀ j ∈ pts n, j.pid ≠ i.pid

end Verif.Panics
