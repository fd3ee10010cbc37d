import Verif.Again.Model

/-! What C169 claims. -/

namespace Verif.Again
open Verif

/-- The storage of a run can be used: its database is open and the directory of the database is there. -/
def Usable (s : State) (r : Nat) : Prop :=
  ∃ e i p, s.runs.get r = some (e, i) ∧ s.world.dbs[i]? = some ⟨p, true⟩ ∧ (s.world.dirs.get p).isSome

/-- The numbers of engines and runs and the names that are started in a list of steps. -/
def engines : List Op → List Nat
  | [] => []
  | .start _ e _ :: l => e :: engines l
  | .finish _ :: l => engines l

def started : List Op → List Nat
  | [] => []
  | .start r _ _ :: l => r :: started l
  | .finish _ :: l => started l

def names : List Op → List Path
  | [] => []
  | .start _ _ p :: l => p :: names l
  | .finish _ :: l => names l

/-- A run that has been started and has not ended. -/
def Active (ops : List Op) (r : Nat) : Prop := ∃ a b e p, ops = a ++ .start r e p :: b ∧ .finish r ∉ b

/-- At the beginning: every engine has a provider of its own that was given no path, as `NewAnalysisEngine` makes it, and there is no database. -/
structure Fresh (s : State) (ops : List Op) : Prop where
  runs : s.runs = []
  dbs : s.world.dbs = []
  providers : ∀ e ∈ engines ops, s.world.providers.get e = some ⟨none, none⟩
  unused : ∀ p ∈ names ops, s.world.dirs.get p = none

/-- Every engine is run once, and no name comes up twice. -/
structure Once (ops : List Op) : Prop where
  engines : (engines ops).Nodup
  started : (started ops).Nodup
  names : (names ops).Nodup

end Verif.Again
