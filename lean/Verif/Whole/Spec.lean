import Verif.Whole.Model
import Verif.Reach.Spec
import Verif.Verdict.Spec

/-! What C145 and C146 talk about: which tests should be in the report, and which changed functions count as reached. -/

namespace Verif.Whole

open Verif.Result (Bytes)
open Verif.Static (Graph Reportable IsProjectTest endsWay)
open Verif.Reach (Way)
open Verif.Total (Ctx Test Kept)
open Verif.Verdict (Regressed)

section
variable {N M : Type}

/-- Calls lead from a test to a changed function, through a function of the project that is not in a test file and not changed itself, and on without further
test files; no other test and no entry point is in between (see C134). -/
structure Leads (p : Project N M) (of : M → Option N) (t : M) : Prop where
  test : IsProjectTest (p.gt.fn t) ∧ (p.gt.fn t).supported = true
  way : ∃ (above : List M) (x : M) (below : List M) (s : M) (x' : N), Way p.gt (t :: above ++ x :: below ++ [s]) ∧ (p.gt.fn s).ident ∈ p.changes ∧
    x ∈ p.gt.nodes ∧ of x = some x' ∧ Reportable (p.g.fn x') ∧ (p.g.fn x').ident ∉ p.changes ∧
    (∀ z ∈ below ++ [s], (of z).isSome ∧ (p.gt.fn z).mainOrInit = false) ∧ ∀ z ∈ above ++ [x], endsWay (p.gt.fn z) = false

/-- Calls lead from a function of the project to a changed function. -/
def CanReach (p : Project N M) (ch : Bytes) : Prop := ch ∈ p.changes ∧ ∃ s ∈ p.g.nodes, (p.g.fn s).ident = ch ∧
  ∃ x l, x ≠ s ∧ Reportable (p.g.fn x) ∧ Way p.g (x :: l) ∧ l.getLast? = some s ∧ ∀ z ∈ l, (p.g.fn z).mainOrInit = false

/-- The module of the changed function is too old for entry points. -/
def TooOld (p : Project N M) (ch : Bytes) : Prop := ∃ v, p.goOf ch = some v ∧ Module.belowMin v = true

end

/-- A test is not affected by the update. -/
def Unaffected (x : Ctx) (t : Test) : Prop := Kept x t ∧ ¬ Regressed x t

/-- The first run of some test has sent the id of the entry point of the changed function: the number `n + 1` for the point taken after `n` others. -/
def Entered (ts : List Test) (taken : Taken) (ch : Bytes) : Prop := ∃ t ∈ ts, ∃ n, taken[n]? = some (some ch) ∧ n + 1 ∈ t.r1.reached

end Verif.Whole
