import Verif.Verdict.Spec
import Verif.Compare.Spec

/-! What the report should say about the times of calls, in terms of the runs. -/

namespace Verif.Timing

open Verif.Result (Bytes)
open Verif.Total (Ctx Test)
open Verif.Pipeline (Call Run callsAlong pathOf)
open Verif.Compare (intervals Slower Faster FitsTimes)

/-- Nanoseconds as milliseconds, rounded. -/
def ms (ns : Nat) : Nat := (ns + 500000) / 1000000

/-- The calls of a function, in order. -/
def callsTo (r : Run) (f : Bytes) : List Call := r.calls.filter fun m => m.ext = false ∧ m.ident = f

/-- The times of one call before and after the update: the call is number `n` along its path in the first run, and there is a call number `n` along this path in all
other runs. -/
def times (x : Ctx) (t : Test) (f : Bytes) (m : Call) (n : Nat) : Option (Nat × Nat) :=
  match (callsAlong t.r2 f (pathOf m.stack))[n]?, (callsAlong t.r3 f (pathOf m.stack))[n]?, x.force, (callsAlong t.r4 f (pathOf m.stack))[n]? with
  | some _, some m', false, _ => some (ms m.ns, ms m'.ns)
  | some _, some m', true, some _ => some (ms m.ns, ms m'.ns)
  | _, _, _, _ => none

/-- The times of the calls of a function before and after the update, in the order of the first run. -/
def timeline (x : Ctx) (t : Test) (f : Bytes) : List (Nat × Nat) :=
  (callsTo t.r1 f).zipIdx.filterMap fun (m, i) =>
    times x t f m (((callsTo t.r1 f).take i).filter fun m' => pathOf m'.stack = pathOf m.stack).length

/-- The times between the calls of a function, before and after the update. -/
def gaps (x : Ctx) (t : Test) (f : Bytes) : List (Nat × Nat) := intervals 0 0 (timeline x t f)

/-- The times of a test fit into 32 bits, also multiplied. -/
structure Fits (x : Ctx) (t : Test) : Prop where
  after : ∀ m ∈ t.r3.calls, m.ns + 500000 < 2 ^ 32 * 1000000
  gap : ∀ f, ∀ iv ∈ gaps x t f, FitsTimes x.mult iv

/-- What is said about the time of a function called by a test is so: it is a time between two calls that changed by more than the factor. The largest
slowdown after all speedups is not left out, nor the largest speedup after all slowdowns. -/
structure Timed (x : Ctx) (t : Test) (f : Bytes) (diff : Int) (pre post : Nat) : Prop where
  gap : (pre, post) ∈ gaps x t f
  amount : diff = (post : Int) - pre
  change : Slower x.mult (pre, post) ∨ Faster x.mult (pre, post)
  slowest : ∀ a b, gaps x t f = a ++ b → (∀ iv ∈ b, ¬ Faster x.mult iv) → ∀ iv ∈ b, Slower x.mult iv → Slower x.mult (pre, post) ∧ (iv.2 : Int) - iv.1 ≤ diff
  fastest : ∀ a b, gaps x t f = a ++ b → (∀ iv ∈ b, ¬ Slower x.mult iv) → ∀ iv ∈ b, Faster x.mult iv → Faster x.mult (pre, post) ∧ diff ≤ (iv.2 : Int) - iv.1

/-- The list of time changes: what it says is so, it says it once, and every function with a change of time is listed. -/
structure Perfs (x : Ctx) (ts : List Test) (l : List Report.Perf) : Prop where
  sound : ∀ p ∈ l, ∃ t ∈ ts, p.ident = t.ident ∧ p.name = t.name ∧ Timed x t p.caller p.diff p.pre p.post
  complete : ∀ t ∈ ts, ∀ f, (∃ iv ∈ gaps x t f, Slower x.mult iv ∨ Faster x.mult iv) → ∃ p ∈ l, p.ident = t.ident ∧ p.caller = f
  once : l.Pairwise fun p q => (p.ident, p.caller) ≠ (q.ident, q.caller)

/-- The strings of the list survive in JSON. -/
def Survives (js : Bytes → Bytes) (l : List Report.Perf) : Prop := ∀ p ∈ l, js p.ident = p.ident ∧ js p.name = p.name ∧ js p.caller = p.caller

end Verif.Timing
