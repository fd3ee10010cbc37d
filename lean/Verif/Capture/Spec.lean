import Verif.Capture.Model
import Verif.Wire.Spec

/-! Specification of the state capture, C09, C13, C14 and C16. -/

namespace Verif.Capture
open Verif Verif.Wire

/-! ### Reaching the parts of a value -/

/-- The first `L` elements with the names "[0]", "[1]", … -/
def numbered (L : Nat) (es : List V) : List (Bytes × V) :=
  (List.range (min L es.length)).filterMap fun i => es[i]?.map fun e => ([91] ++ itoaBytes i ++ [93], e)

/-- The named parts of an unwrapped value that are captured as fields of their own, within the length limit. -/
def items (c : Cfg) (h : Heap) : V → List (Bytes × V)
  | .array _ es => numbered c.len es
  | .slice _ _ obj => numbered c.len (h.elems obj)
  | .map _ _ obj => if c.len < (h.entries obj).length then (h.sorted obj).take c.len else h.entries obj
  | .struct _ fs => fs
  | _ => []

/-- Following pointers and interfaces from `v` ends at `w`. -/
def Unwraps (h : Heap) (v w : V) : Prop := ∃ n, unwrap h n v = some w

/-- `v` is the part of the snapshot `(name, v0)` with the given path. -/
inductive At (c : Cfg) (h : Heap) (name : Bytes) (v0 : V) : Bytes → V → Prop
  | root : At c h name v0 name v0
  | item {p v w n e} : At c h name v0 p v → Unwraps h v w → (n, e) ∈ items c h w →
      At c h name v0 (valuePath p n) e

/-- The addresses of a value that are compared: a pointer's before unwrapping. -/
def ptrOf : V → List Nat
  | .ptr _ a _ => [a]
  | _ => []

/-- A map's, slice's, function's or channel's after unwrapping. -/
def refOf : V → List Nat
  | .prims _ (some a) _ => [a]
  | .slice _ a _ => [a]
  | .map _ a _ => [a]
  | .func _ a => [a]
  | .chan _ a => [a]
  | _ => []

/-- The address of a value: that of the pointer, or of the map, slice, function or channel it leads to. -/
def HasAddr (h : Heap) (v : V) (a : Nat) : Prop :=
  a ∈ ptrOf v ∨ ∃ w, Unwraps h v w ∧ a ∈ refOf w

/-! ### Shape of a captured field -/

/-- Containers are nested at most `d` deep and slices and maps have at most `L` members. -/
inductive Shape (L : Nat) : Nat → WField → Prop
  | leaf {d n t v} : Shape L d (.leaf n t v)
  | node {d n t k cs} : (k ≠ .struct → cs.length ≤ L) → (∀ x ∈ cs, Shape L d x) → Shape L (d + 1) (.node n t k cs)

/-- `P` holds for all values of leaves. -/
inductive Leaves (P : Val → Prop) : WField → Prop
  | leaf {n t v} : P v → Leaves P (.leaf n t v)
  | node {n t k cs} : (∀ x ∈ cs, Leaves P x) → Leaves P (.node n t k cs)

/-- `P` holds for all names. -/
inductive Names (P : Bytes → Prop) : WField → Prop
  | leaf {n t v} : P n → Names P (.leaf n t v)
  | node {n t k cs} : P n → (∀ x ∈ cs, Names P x) → Names P (.node n t k cs)

/-- At most `L` bytes, or `L` bytes and the note "…(n more)". -/
def Limited (L : Nat) (s : Bytes) : Prop :=
  s.length ≤ L ∨ ∃ p n, p.length = L ∧
    s = p ++ [0xE2, 0x80, 0xA6, 0x28] ++ itoaBytes n ++ [0x20, 0x6D, 0x6F, 0x72, 0x65, 0x29]

/-- "<func>", "<chan>" and "<max-depth>". -/
def fixedTexts : List Bytes :=
  [[60, 102, 117, 110, 99, 62], [60, 99, 104, 97, 110, 62], [60, 109, 97, 120, 45, 100, 101, 112, 116, 104, 62]]

/-- "<cycle:" ++ p ++ ">" -/
def cycleText (p : Bytes) : Bytes := [60, 99, 121, 99, 108, 101, 58] ++ p ++ [62]

/-- The elements in a leaf are within the length limit; a text is within the limit or one of the markers. -/
def LeafLimited (L : Nat) : Val → Prop
  | .str s => Limited L s ∨ s ∈ fixedTexts ∨ ∃ p, s = cycleText p
  | .strSlice l => l.length ≤ L ∧ ∀ s ∈ l, Limited L s
  | .boolSlice l => l.length ≤ L
  | .bytes l => l.length ≤ L
  | .int32Slice l => l.length ≤ L
  | .int64Slice l => l.length ≤ L
  | .uint32Slice l => l.length ≤ L
  | .uint64Slice l => l.length ≤ L
  | .float32Slice l => l.length ≤ L
  | .float64Slice l => l.length ≤ L
  | _ => True

/-- The number of fields, inner ones included. -/
def fieldCount : WField → Nat
  | .leaf _ _ _ => 1
  | .node _ _ _ cs => 1 + sum cs
where
  sum : List WField → Nat
  | [] => 0
  | x :: xs => fieldCount x + sum xs

/-! ### Capture without looking at addresses -/

/-- The wire value with the same type and content. -/
def numberVal : Scalar → Val
  | .bool true => .bool true
  | .bool false => .bool false
  | .int32 v => .int32 v
  | .int64 v => .int64 v
  | .uint32 v => .uint32 v
  | .uint64 v => .uint64 v
  | .float32 v => .float32 v
  | .float64 v => .float64 v
  | .complex r i => .complex r i

/-- The first `L` elements; bytes are sent as text if they are text. -/
def elemsVal (L : Nat) (utf8 : Bytes → Bool) : Prims → Val
  | .bools l => .boolSlice (l.take L)
  | .int32s l => .int32Slice (l.take L)
  | .int64s l => .int64Slice (l.take L)
  | .bytes l => bif utf8 (l.take L) then .str (l.take L) else .bytes (l.take L)
  | .uint32s l => .uint32Slice (l.take L)
  | .uint64s l => .uint64Slice (l.take L)
  | .float32s l => .float32Slice (l.take L)
  | .float64s l => .float64Slice (l.take L)
  | .strs l => .strSlice ((l.map (limitString L)).take L)

/-- The field for an unwrapped value, and the addresses met: `own` and those of the parts.  `sub` captures the parts, and
is `none` at the depth limit. -/
def fullOf (c : Cfg) (h : Heap) (name : Bytes) (own : List Nat)
    (sub : Option (List (Bytes × V) → Option (List (WField × List Nat)))) (w : V) : Option (WField × List Nat) :=
  match w, sub with
  | .nilPtr t, _ => some (.leaf name t .nil, own)
  | .invalid, _ => some (.leaf name [105, 110, 118, 97, 108, 105, 100] .nil, own)
  | w, none => some (.leaf name w.typ (.str [60, 109, 97, 120, 45, 100, 101, 112, 116, 104, 62]), own)
  | w, some sub =>
    let own := own ++ refOf w
    let node (k : CKind) : Option (WField × List Nat) :=
      (sub (items c h w)).map fun l => (.node name w.typ k (l.map (·.1)), own ++ l.flatMap (·.2))
    match w with
    | .struct _ _ => node .struct
    | .map _ _ _ => node .map
    | .slice _ _ _ => node .slice
    | .array _ _ => node .slice
    | .scalar t s => some (.leaf name t (numberVal s), own)
    | .str t s => some (.leaf name t (.str (limitString c.len s)), own)
    | .prims t _ p => some (.leaf name t (elemsVal c.len c.utf8 p), own)
    | .func t _ => some (.leaf name t (.str [60, 102, 117, 110, 99, 62]), own)
    | .chan t _ => some (.leaf name t (.str [60, 99, 104, 97, 110, 62]), own)
    | .other t s => some (.leaf name t (.str (limitString c.len s)), own)
    | w => some (.leaf name w.typ .nil, own)

/-- The value unfolded to the depth limit, and the addresses met on the way. -/
def full (c : Cfg) (h : Heap) (fuel : Nat) : Nat → Bytes → V → Option (WField × List Nat)
  | 0, name, v => (unwrap h fuel v).bind (fullOf c h name (ptrOf v) none)
  | r + 1, name, v => (unwrap h fuel v).bind
      (fullOf c h name (ptrOf v) (some fun es => es.mapM fun e => full c h fuel r e.1 e.2))

/-! ### Cycles -/

/-- `v` refers to the object `o`, directly or through parts stored in `v` itself. -/
inductive Refs : V → Nat → Prop
  | ptr {t a o} : Refs (.ptr t a o) o
  | slice {t a o} : Refs (.slice t a o) o
  | map {t a o} : Refs (.map t a o) o
  | iface {v o} : Refs v o → Refs (.iface v) o
  | array {t es e o} : e ∈ es → Refs e o → Refs (.array t es) o
  | struct {t fs e o} : e ∈ fs → Refs e.2 o → Refs (.struct t fs) o

/-- No object of the heap leads back to itself. -/
def Acyclic (h : Heap) : Prop :=
  ∃ rank : Nat → Nat, ∀ o o', (Refs (h.deref o) o' ∨ (∃ e ∈ h.elems o, Refs e o') ∨ (∃ e ∈ h.entries o, Refs e.2 o')) →
    rank o' < rank o

/-- The text a value is captured as, if it is captured as text of its own. -/
def ownText (c : Cfg) : V → Option Bytes
  | .str _ s => some (limitString c.len s)
  | .other _ s => some (limitString c.len s)
  | .prims _ _ (.bytes l) => some (limitString c.len (l.take c.len))
  | _ => none

/-- No text of the program looks like a cycle marker. -/
def NoFakeMarker (c : Cfg) (h : Heap) (name : Bytes) (v0 : V) : Prop :=
  ∀ p v w s, At c h name v0 p v → Unwraps h v w → ownText c w = some s → ∀ x, s ≠ cycleText x

/-- Every cycle marker in the field names a part of the snapshot at the same address as the value it replaces. -/
inductive Explained (c : Cfg) (h : Heap) (name : Bytes) (v0 : V) : Bytes → WField → Prop
  | leaf {parent n t v} :
      (∀ x, v = .str (cycleText x) → ∃ u u' a, At c h name v0 (valuePath parent n) u ∧ At c h name v0 x u' ∧
        HasAddr h u a ∧ HasAddr h u' a) → Explained c h name v0 parent (.leaf n t v)
  | node {parent n t k cs} : (∀ x ∈ cs, Explained c h name v0 (valuePath parent n) x) →
      Explained c h name v0 parent (.node n t k cs)

/-- No value is expanded inside a value with the same address; `known` are the addresses of the enclosing values. -/
inductive NotUnrolled (c : Cfg) (h : Heap) : (Nat → Prop) → V → WField → Prop
  | leaf {known v n t x} : NotUnrolled c h known v (.leaf n t x)
  | node {known v w n t k cs} : Unwraps h v w → (∀ a, HasAddr h v a → ¬ known a) → cs.length = (items c h w).length →
      (∀ (i : Nat) (e : Bytes × V) (x : WField), (items c h w)[i]? = some e → cs[i]? = some x → NotUnrolled c h (fun a => known a ∨ HasAddr h v a) e.2 x) →
      NotUnrolled c h known v (.node n t k cs)

/-! ### Sizes -/

/-- Everything the program can make a snapshot of, short of texts of 4 GiB: type names, paths and struct field counts are
below the protocol maximum and texts are shorter than 2^64 bytes. -/
def Fits (c : Cfg) (h : Heap) (name : Bytes) (v0 : V) : Prop :=
  ∀ p v, At c h name v0 p v → p.length + 8 ≤ maxUint32 ∧ v.typ.length ≤ maxUint32 ∧
    ∀ w, Unwraps h v w → w.typ.length ≤ maxUint32 ∧
      match w with
      | .str _ s => s.length < 2 ^ 64
      | .other _ s => s.length < 2 ^ 64
      | .prims _ _ (.strs l) => ∀ s ∈ l, s.length < 2 ^ 64
      | .struct _ fs => fs.length ≤ maxUint32
      | _ => True

/-! ### Sorted keys -/

/-- The postcondition of `sort.Slice`: no later element is less than an earlier one. -/
def SortedBy {α : Type} (less : α → α → Bool) (l : List α) : Prop := l.Pairwise fun a b => less b a = false

/-- Types of keys.  `iface` holds a value of any of the types `types i`. -/
inductive KeyTy where
  | str | int | uint | float | bool | complex | ptr | chan | unit
  | pair (a b : KeyTy)
  | iface

/-- The key has the type; `types` gives the types of the type identities. -/
inductive HasTy (types : Nat → KeyTy) : Key → KeyTy → Prop
  | str {s} : HasTy types (.str s) .str
  | int {s} : HasTy types (.int s) .int
  | uint {s} : HasTy types (.uint s) .uint
  | float {s} : HasTy types (.float s) .float
  | bool {s} : HasTy types (.bool s) .bool
  | complex {r i} : HasTy types (.complex r i) .complex
  | ptr {s} : HasTy types (.ptr s) .ptr
  | chan {s} : HasTy types (.chan s) .chan
  | unit : HasTy types .unit .unit
  | pair {a b s t} : HasTy types a s → HasTy types b t → HasTy types (.pair a b) (.pair s t)
  | inil : HasTy types .inil .iface
  | iface {i k} : HasTy types k (types i) → HasTy types (.iface i k) .iface

/-- No NaN in the key. -/
inductive NoNaN : Key → Prop
  | str {s} : NoNaN (.str s)
  | int {s} : NoNaN (.int s)
  | uint {s} : NoNaN (.uint s)
  | float {x} : NoNaN (.float (some x))
  | bool {s} : NoNaN (.bool s)
  | complex {r i} : NoNaN (.complex (some r) (some i))
  | ptr {s} : NoNaN (.ptr s)
  | chan {s} : NoNaN (.chan s)
  | unit : NoNaN .unit
  | pair {a b} : NoNaN a → NoNaN b → NoNaN (.pair a b)
  | inil : NoNaN .inil
  | iface {i k} : NoNaN k → NoNaN (.iface i k)

/-- What Go's `sort.Slice` does with up to twelve elements: insertion sort moving each element to the left while it is
less than its neighbour. -/
def goInsertAt {α : Type} (less : α → α → Bool) (x : α) : List α → List α
  | [] => [x]
  | y :: ys => if less x y then y :: goInsertAt less x ys else x :: y :: ys

/-- The sorted prefix is kept in reverse while inserting. -/
def goInsertionSort {α : Type} (less : α → α → Bool) (l : List α) : List α :=
  (l.foldl (fun acc x => goInsertAt less x acc) []).reverse

end Verif.Capture
