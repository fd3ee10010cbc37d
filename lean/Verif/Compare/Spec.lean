import Verif.Compare.Model
import Verif.Monitor.Spec
import Mathlib.Algebra.Order.Group.Multiset
import Mathlib.Data.Multiset.AddSub

/-!
What C28–C33 and C72 talk about.
-/

namespace Verif.Compare

open Verif.Result (Bytes FMap StackFrame CallFrame TestResult flatten leafAt)
open Verif.Monitor (Matched occBefore)

/-- The leaves of a field tree. -/
def leafCount : FMap → Nat
  | .cons _ _ kids rest => (if kids.isEmpty then 1 else leafCount kids) + leafCount rest
  | _ => 0

/-- All values of a frame occur unchanged in another one. -/
def Agree (f g : CallFrame) : Prop := ∀ x v, (flatten f.fields).get x = some v → (flatten g.fields).get x = some v

/-- All panics of a run: which function, which message. -/
def panicSet (m : List (Bytes × List Bytes)) : Multiset (Bytes × Bytes) :=
  ↑(m.flatMap fun kv => kv.2.map fun msg => (kv.1, msg))

/-- Size of the symmetric difference. -/
def symDiff (p q : Multiset (Bytes × Bytes)) : Nat := (p - q).card + (q - p).card

/-- The panics of both kinds. -/
def panicChanges (pre post : TestResult) : Nat :=
  symDiff (panicSet pre.projectPanics) (panicSet post.projectPanics) + symDiff (panicSet pre.modulePanics) (panicSet post.modulePanics)

/-- The frames recorded for a caller. -/
def framesOf (r : TestResult) (k : Bytes) : List CallFrame := (AMap.get (K := Bytes) (V := List CallFrame) r.callers k).getD []

/-- Two frames of a caller are the same call before and after, and `x` changed from `v` to `w`. -/
def Changed (key : CallFrame → Bytes) (fs gs : List CallFrame) (x v w : Bytes) : Prop :=
  ∃ (i j : Nat) (f g : CallFrame), Matched key fs gs i j ∧ fs[i]? = some f ∧ gs[j]? = some g ∧
    (flatten f.fields).get x = some v ∧ (flatten g.fields).get x = some w ∧ v ≠ w

/-- The intervals between consecutive calls, from the times of matched calls before and after; calls without time or going
back in time give no interval. -/
def intervals : Nat → Nat → List (Nat × Nat) → List (Nat × Nat)
  | _, _, [] => []
  | lp, lq, (p, q) :: ts =>
    if p > 0 ∧ q > 0 ∧ p ≥ lp ∧ q ≥ lq then (p - lp, q - lq) :: intervals p q ts else intervals p q ts

/-- Times of the matched calls, in the order of the baseline. -/
def MatchedTimes (key : CallFrame → Bytes) (fs gs : List CallFrame) (ts : List (Nat × Nat)) : Prop :=
  ∃ ps : List (Nat × Nat), ps.Pairwise (fun a b => a.1 < b.1) ∧ (∀ i j, (i, j) ∈ ps ↔ Matched key fs gs i j) ∧
    List.Forall₂ (fun ij t => ∃ f g, fs[ij.1]? = some f ∧ gs[ij.2]? = some g ∧ t = (f.time, g.time)) ps ts

/-- More than `mult` times as long. -/
def Slower (mult : Nat) (iv : Nat × Nat) : Prop := mult * max 1 iv.1 < iv.2

/-- More than `mult` times as fast. -/
def Faster (mult : Nat) (iv : Nat × Nat) : Prop := mult * max 1 iv.2 < iv.1

/-- The products fit into 32 bits. -/
def FitsTimes (mult : Nat) (iv : Nat × Nat) : Prop := mult * max 1 iv.1 < 2 ^ 32 ∧ mult * max 1 iv.2 < 2 ^ 32

end Verif.Compare
