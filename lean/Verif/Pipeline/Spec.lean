import Verif.Pipeline.Model
import Verif.Fields.Spec
import Mathlib.Data.Multiset.AddSub
import Mathlib.Data.List.Forall2
import Mathlib.Data.Multiset.UnionInter

/-! What a run of a test shows, and which of it should be reported. -/

namespace Verif.Pipeline

open Verif.Wire (Field)
open Verif.Result (Bytes FMap StackFrame CallFrame)
open Verif.Fields (Lib At Last)

/-- "./" -/
def here : Bytes := [46, 47]
/-- "./vendor/" -/
def vendored : Bytes := [46, 47, 118, 101, 110, 100, 111, 114, 47]

/-- The part of a call stack inside the project: files and functions, without line numbers. -/
def pathOf (stack : List StackFrame) : List (Bytes × Bytes) :=
  (stack.filter fun f => here <+: f.file ∧ ¬ vendored <+: f.file).map fun f => (f.file, f.func)

/-- The calls of a function along a path, in order. -/
def callsAlong (r : Run) (ident : Bytes) (path : List (Bytes × Bytes)) : List Call :=
  r.calls.filter fun m => m.ext = false ∧ m.ident = ident ∧ pathOf m.stack = path

/-- The call number `n` of a function along a path shows the text `v` in the field at `p`. -/
def Shown (c : Lib) (r : Run) (ident : Bytes) (path : List (Bytes × Bytes)) (n : Nat) (p : List Bytes) (v : Bytes) : Prop :=
  ∃ m, (callsAlong r ident path)[n]? = some m ∧ At c Last [] m.fields p v

/-- What the runs after the update show. -/
def After (c : Lib) (force : Bool) (r3 r4 : Run) (ident : Bytes) (path : List (Bytes × Bytes)) (n : Nat) (p : List Bytes) (v : Bytes) : Prop :=
  Shown c r3 ident path n p v ∧ (force = true → Shown c r4 ident path n p v)

/-- The panics of one kind after the update: of one run, or those common to two. -/
def afterPanics (force : Bool) (p3 p4 : List (Bytes × Bytes)) : Multiset (Bytes × Bytes) := if force then (p3 : Multiset _) ∩ p4 else p3

/-- Two calls show the same: function, path and values; times, line numbers and frames outside the project may differ. -/
structure SameCall (c : Lib) (a b : Call) : Prop where
  path : pathOf a.stack = pathOf b.stack
  values : ∀ p v, At c Last [] a.fields p v ↔ At c Last [] b.fields p v

/-- A run shows what another one showed: for each function the same calls in the same order (functions may be interleaved differently), the same panics in any
order, and the same outcome. -/
structure Repeats (c : Lib) (r s : Run) : Prop where
  calls : ∀ ident, List.Forall₂ (SameCall c) (r.calls.filter fun m => m.ext = false ∧ m.ident = ident) (s.calls.filter fun m => m.ext = false ∧ m.ident = ident)
  project : r.projectPanics.Perm s.projectPanics
  modul : r.modulePanics.Perm s.modulePanics
  failed : r.failed = s.failed

/-- The calls of each function arrive in the order of their times, and no run takes 49 days. -/
def InOrder (r : Run) : Prop :=
  (∀ m ∈ r.calls, m.ns + 500000 < 2 ^ 32 * 1000000) ∧
  ∀ ident, (r.calls.filter fun m => m.ext = false ∧ m.ident = ident).Pairwise fun a b => a.ns ≤ b.ns

/-- Field names are not empty and have no dots. -/
def Named (c : Lib) (r : Run) : Prop :=
  ∀ m ∈ r.calls, ∀ p v, At c Last [] m.fields p v → ∀ k ∈ p, k ≠ [] ∧ (46 : UInt8) ∉ k

/-- The keys of call paths distinguish the paths of some runs. -/
def Keyed (H : Bytes → Bytes) (rs : List Run) : Prop :=
  ∀ r ∈ rs, ∀ m ∈ r.calls, ∀ r' ∈ rs, ∀ m' ∈ r'.calls, Monitor.stackKey H (Monitor.projectFrames m.stack) = Monitor.stackKey H (Monitor.projectFrames m'.stack) →
    pathOf m.stack = pathOf m'.stack

/-- What storing a result needs: no collisions among its hashes, and no two trees that write the same bytes (C18). -/
structure Storable (H : Bytes → Bytes) (sk : List StackFrame → Bytes) (r : Result.TestResult) : Prop where
  fits : ∀ f ∈ r.frames, Result.Fits f.fields
  hash : Result.HashOK H r.maps r.nodes
  keys : Result.StackKeysOK sk r.stacks
  clash : Result.NoClash r.maps

end Verif.Pipeline
