import Verif.AMap

/-! What a storage is: a map from keys to blobs, and what it means for an implementation to behave as one. -/

namespace Verif.Storage

abbrev Key := List UInt8
abbrev Blob := List UInt8

/-- The operations of the `Storage` interface, storage.go:22–32.  `list []` is also `ListKeys`
(storage.go:81, 143, 409: each implementation's `ListKeys` is `ListKeysPrefix("")`). -/
inductive Op where
  | save (k : Key) (b : Blob)
  | load (k : Key)
  | delete (k : Key)
  | list (p : List UInt8)
  | clear
deriving DecidableEq, Repr

/-- What a call returns: nothing, a blob or not-found, keys, or an error. -/
inductive Resp where
  | ok
  | blob (b : Option Blob)
  | keys (ks : List Key)
  | error
deriving DecidableEq, Repr

/-- The abstract store. -/
abbrev AbsStore := Key → Option Blob

def AbsStore.empty : AbsStore := fun _ => none

/-- The effect of an operation on the abstract store. -/
def absStep (s : AbsStore) : Op → AbsStore
  | .save k b => fun x => if x = k then some b else s x
  | .delete k => fun x => if x = k then none else s x
  | .clear => fun _ => none
  | .load _ => s
  | .list _ => s

/-- The responses allowed in a given abstract state. Listing may return the keys in any order, but each once. -/
def RespOK (s : AbsStore) : Op → Resp → Prop
  | .load k, r => r = .blob (s k)
  | .list p, r => ∃ ks, r = .keys ks ∧ ks.Nodup ∧ ∀ k, k ∈ ks ↔ (p <+: k ∧ (s k).isSome)
  | .save _ _, r => r = .ok
  | .delete _, r => r = .ok
  | .clear, r => r = .ok

/-- A history of calls with their responses is one the abstract store could have produced from state `s`. -/
def Conforms (s : AbsStore) : List (Op × Resp) → Prop
  | [] => True
  | (o, r) :: t => RespOK s o r ∧ Conforms (absStep s o) t

/-- A text of the form the disk storage reserves for itself: "badger_split:" and three decimal numbers separated by ':',
with nothing before or after. -/
def LooksMarker (v : Blob) : Prop :=
  ∃ a b c : List UInt8, a ≠ [] ∧ b ≠ [] ∧ c ≠ [] ∧ (∀ x ∈ a ++ b ++ c, 48 ≤ x.toNat ∧ x.toNat ≤ 57) ∧
    v = [98, 97, 100, 103, 101, 114, 95, 115, 112, 108, 105, 116, 58] ++ (a ++ 58 :: (b ++ 58 :: c))

/-- An implementation of the interface as a state machine. -/
structure Impl where
  σ : Type
  init : σ
  step : σ → Op → σ × Resp

/-- The history produced by a sequence of calls. -/
def Impl.run (I : Impl) (st : I.σ) : List Op → List (Op × Resp)
  | [] => []
  | o :: os => (o, (I.step st o).2) :: I.run (I.step st o).1 os

/-- The state after a sequence of calls. -/
def Impl.final (I : Impl) (st : I.σ) : List Op → I.σ
  | [] => st
  | o :: os => I.final (I.step st o).1 os

/-- The abstract state after a sequence of calls: for each key the last save not followed by a delete or clear. -/
def absFinal (s : AbsStore) : List Op → AbsStore
  | [] => s
  | o :: os => absFinal (absStep s o) os

/-- A simulation between an implementation and the abstract store, for operations satisfying `good`. -/
structure Sim (I : Impl) (good : Op → Prop) where
  R : I.σ → AbsStore → Prop
  init : R I.init AbsStore.empty
  resp : ∀ st s o, R st s → good o → RespOK s o (I.step st o).2
  step : ∀ st s o, R st s → good o → R (I.step st o).1 (absStep s o)

theorem Sim.conforms {I : Impl} {good : Op → Prop} (S : Sim I good) (ops : List Op) (h : ∀ o ∈ ops, good o) :
    ∀ st s, S.R st s → Conforms s (I.run st ops) := by
  induction ops with
  | nil => intros; trivial
  | cons o os ih =>
    intro st s hR
    exact ⟨S.resp st s o hR (h o (by simp)), ih (fun x hx => h x (by simp [hx])) _ _ (S.step st s o hR (h o (by simp)))⟩

theorem Sim.final {I : Impl} {good : Op → Prop} (S : Sim I good) (ops : List Op) (h : ∀ o ∈ ops, good o) :
    ∀ st s, S.R st s → S.R (I.final st ops) (absFinal s ops) := by
  induction ops with
  | nil => intro st s hR; exact hR
  | cons o os ih =>
    intro st s hR
    exact ih (fun x hx => h x (by simp [hx])) _ _ (S.step st s o hR (h o (by simp)))

end Verif.Storage
