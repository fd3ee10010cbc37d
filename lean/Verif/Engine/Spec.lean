import Verif.Engine.Model
import Verif.Util.Spec
import Mathlib.Data.List.Forall2

/-! What is wanted of configuration and orchestration. -/

namespace Verif.Engine
open Verif Verif.Util

/-- `module@version` with a name that looks like a path or domain; the first `@` separates. -/
def IsTarget (s : Bytes) (t : Target) : Prop :=
  s = t.name ++ 64 :: t.version ∧ 64 ∉ t.name ∧ t.name ≠ [] ∧ t.version ≠ [] ∧ (47 ∈ t.name ∨ 46 ∈ t.name)

/-- White space: tab, line feed, vertical tab, form feed, carriage return, space. -/
def Space (x : UInt8) : Prop := x.toNat = 9 ∨ x.toNat = 10 ∨ x.toNat = 11 ∨ x.toNat = 12 ∨ x.toNat = 13 ∨ x.toNat = 32

/-- `t` is `s` without white space at both ends. -/
def Trimmed (s t : Bytes) : Prop :=
  (∃ a b, s = a ++ t ++ b ∧ (∀ x ∈ a, Space x) ∧ ∀ x ∈ b, Space x) ∧ (∀ x, t.head? = some x → ¬ Space x) ∧ ∀ x, t.getLast? = some x → ¬ Space x

/-- The entries of a list, put together with commas, give the argument; no entry contains one. -/
def Entries (s : Bytes) (es : List Bytes) : Prop := es ≠ [] ∧ (∀ e ∈ es, 44 ∉ e) ∧ s = List.intercalate [44] es

/-- The argument is a list of targets. -/
def IsTargets (s : Bytes) (ts : List Target) : Prop := ∃ es, Entries s es ∧ List.Forall₂ (fun e t => ∃ e', Trimmed e e' ∧ IsTarget e' t) es ts

/-- The targets wanted by both arguments. -/
def Wanted (c : Config) (ts : List Target) : Prop :=
  ∃ a b, ts = a ++ b ∧ (c.moduleFlag = [] ∧ a = [] ∨ c.moduleFlag ≠ [] ∧ ∃ t, a = [t] ∧ IsTarget c.moduleFlag t) ∧
    (c.modulesFlag = [] ∧ b = [] ∨ c.modulesFlag ≠ [] ∧ IsTargets c.modulesFlag b)

/-- The documented values of the options. -/
structure InRange (c : Config) : Prop where
  port : 1024 ≤ c.port ∧ c.port ≤ 65535
  recurse : 1 ≤ c.recurse ∧ c.recurse ≤ 100
  fieldLen : 1 ≤ c.fieldLen ∧ c.fieldLen ≤ 1048576
  cache : 1 ≤ c.cacheMB ∧ c.cacheMB ≤ 10240
  times : 1 ≤ c.times ∧ c.times ≤ 100
  scope : c.scope ∈ ["function", "line", "area", "none"].map fun s => s.toUTF8.toList
  mode : c.mode ∈ ["full", "fast"].map fun s => s.toUTF8.toList
  tests : c.tests ∈ ["full", "targeted"].map fun s => s.toUTF8.toList

/-- There is a project and exactly what says which update is meant. -/
def Complete (c : Config) : Prop :=
  c.projectDir ≠ [] ∧ (c.moduleFlag ≠ [] ∨ c.modulesFlag ≠ [] ∨ c.gomod ≠ [] ∨ c.gowork ≠ []) ∧ ¬ (c.gomod ≠ [] ∧ c.gowork ≠ [])

/-- Input files can be read. -/
def Readable (w : World) (c : Config) : Prop := (c.gomod ≠ [] → w.fileOk c.gomod = true) ∧ (c.gowork ≠ [] → w.fileOk c.gowork = true)

/-- What was set up is cleaned up, the last first, and nothing else. The list is what is set up at the moment. -/
def balanced : List Res → List Ev → Bool
  | s, [] => s.isEmpty
  | s, .acq r :: es => !s.contains r && balanced (r :: s) es
  | s, .rel r :: es => s.head? == some r && balanced s.tail es
  | s, _ :: es => balanced s es

/-- The reports written. -/
def reports (es : List Ev) : List (Rep × Bool) := es.filterMap fun e => match e with | .report r ok => some (r, ok) | _ => none

/-- The providers called. -/
def calls (es : List Ev) : List Res := es.filterMap fun e => match e with | .call r => some r | _ => none

/-- What has to be set up before a provider is called. -/
def needs : Res → List Res
  | .temp => []
  | .modules => []
  | .callers => [.modules]
  | .tests => [.modules, .callers]
  | .storage => []
  | .update => [.modules, .callers, .tests, .storage]
  | .mutation => [.modules, .callers, .tests, .storage, .update]

/-- Every provider is called while what it needs is set up; the list is what is set up at the moment. -/
def ready : List Res → List Ev → Bool
  | _, [] => true
  | s, .acq r :: es => ready (r :: s) es
  | s, .rel r :: es => ready (s.erase r) es
  | s, .call r :: es => (needs r).all (fun x => s.contains x) && ready s es
  | s, .report _ _ :: es => ready s es

/-- A path in the copy names the copy of a path. -/
def CopyOf (copies : List (Path × Path)) (p p' : Path) : Prop := ∃ src dst rest, (src, dst) ∈ copies ∧ p = src ++ rest ∧ p' = dst ++ rest

end Verif.Engine
