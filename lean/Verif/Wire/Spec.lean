import Verif.Wire.Server

/-! Specification vocabulary for the wire protocol: what the property theorems are stated with. -/

namespace Verif.Wire

/-- LEB128 as a definition on unbounded numbers: value, number of bytes used, bytes left.
Written independently of the encoder and the decoder. -/
def leb : Bytes → Option (Nat × Nat × Bytes)
  | [] => none
  | b :: bs =>
    if b.toNat < 128 then some (b.toNat, 1, bs)
    else (leb bs).map fun (v, k, r) => (b.toNat - 128 + 128 * v, k + 1, r)

/-- Stacks within the limits of the protocol. -/
def stackOK (fs : List Frame) : Prop :=
  fs.length ≤ maxStackFrames ∧ ∀ f ∈ fs, f.file.length ≤ maxUint32 ∧ f.func.length ≤ maxUint32

/-- Leaf values within the limits of the protocol. -/
def Val.OK (L : Nat) : Val → Prop
  | .str s => s.length ≤ maxUint32
  | .boolSlice l => l.length ≤ L ∧ l.length ≤ maxUint32
  | .bytes l => l.length ≤ L ∧ l.length ≤ maxUint32
  | .int32Slice l => l.length ≤ L ∧ l.length ≤ maxUint32
  | .int64Slice l => l.length ≤ L ∧ l.length ≤ maxUint32
  | .uint32Slice l => l.length ≤ L ∧ l.length ≤ maxUint32
  | .uint64Slice l => l.length ≤ L ∧ l.length ≤ maxUint32
  | .float32Slice l => l.length ≤ L ∧ l.length ≤ maxUint32
  | .float64Slice l => l.length ≤ L ∧ l.length ≤ maxUint32
  | .strSlice l => l.length ≤ L ∧ l.length ≤ maxUint32 ∧ ∀ s ∈ l, s.length ≤ maxUint32
  | _ => True

/-- Field trees within the limits of the protocol: strings up to 4 GiB; maps and slices up to `L` entries;
structs up to 2^32 fields. -/
inductive WField.OK (L : Nat) : WField → Prop
  | leaf {n t v} : n.length ≤ maxUint32 → t.length ≤ maxUint32 → v.OK L → WField.OK L (.leaf n t v)
  | node {n t k cs} : n.length ≤ maxUint32 → t.length ≤ maxUint32 → (k ≠ .struct → cs.length ≤ L) →
      cs.length ≤ maxUint32 → (∀ c ∈ cs, WField.OK L c) → WField.OK L (.node n t k cs)

/-- A state message within the limits of the protocol. -/
def MsgState.OK (L : Nat) (m : MsgState WField) : Prop :=
  stackOK m.stack ∧ m.fields.length ≤ maxUint32 ∧ ∀ f ∈ m.fields, f.OK L

/-- The message the server is expected to see: same data, container kinds forgotten. -/
def MsgState.erase (m : MsgState WField) : MsgState Field :=
  ⟨m.id, m.time, m.stack, m.fields.map WField.erase⟩

/-- The limits promised for reservations; struct field lists have none. -/
def Alloc.bounded (L : Nat) : Alloc → Prop
  | .frames n => n ≤ maxStackFrames
  | .table n => n ≤ 2 * maxStackFrames
  | .str n => n ≤ maxUint32
  | .fields n => n ≤ maxUint32
  | .slice n => n ≤ L
  | .container n => n ≤ L
  | .struct _ => True

/-- The size of a reservation. -/
def Alloc.size : Alloc → Nat
  | .frames n | .table n | .str n | .fields n | .slice n | .container n | .struct n => n

/-- `p` is `bs` cut short. -/
def CutShort (p bs : Bytes) : Prop := ∃ q, q ≠ [] ∧ bs = p ++ q

end Verif.Wire
