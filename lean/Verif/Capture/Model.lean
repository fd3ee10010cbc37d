import Verif.Wire.Model
import Verif.Wire.Server
import Verif.AMap

/-!
Model of the state capture of the injected client, lens/astclient.go: `streamField`, `streamValueSlice`,
`lensEncodeMessagePointState` and the key comparison `lensCompareReflectValue`.

The client writes bytes while it walks the value.  The model produces the field tree (`Wire.WField`) whose encoding
(`Wire.encField`) is what is written.
-/

namespace Verif.Capture
open Verif Verif.Wire

/-- Values of the kinds that are written as one number, astclient.go:323–358, already converted to the wire type. -/
inductive Scalar where
  | bool (b : Bool)
  | int32 (v : BitVec 32)
  | int64 (v : BitVec 64)
  | uint32 (v : UInt32)
  | uint64 (v : UInt64)
  | float32 (bits : UInt32)
  | float64 (bits : UInt64)
  | complex (re im : UInt64)
deriving DecidableEq, Repr

/-- The wire value of a number, astclient.go:323–358. -/
def Scalar.val : Scalar → Val
  | .bool b => .bool b
  | .int32 v => .int32 v
  | .int64 v => .int64 v
  | .uint32 v => .uint32 v
  | .uint64 v => .uint64 v
  | .float32 v => .float32 v
  | .float64 v => .float64 v
  | .complex r i => .complex r i

/-- The elements of a slice or array whose element kind has a fast path, astclient.go:422–508. -/
inductive Prims where
  | bools (l : List Bool)
  | int32s (l : List (BitVec 32))
  | int64s (l : List (BitVec 64))
  | bytes (l : Bytes)
  | uint32s (l : List UInt32)
  | uint64s (l : List UInt64)
  | float32s (l : List UInt32)
  | float64s (l : List UInt64)
  | strs (l : List Bytes)
deriving DecidableEq, Repr

/-- A `reflect.Value`.  `typ` is `v.Type().String()`.  What a pointer, slice or map refers to is found in the heap under
`obj`; `addr` is what `v.Pointer()` returns.  The two are separate because different objects can have the same address
(a struct and its first field, sub-slices, values of size zero). -/
inductive V where
  /-- `!v.IsValid()`: the value of a nil interface passed as a snapshot. -/
  | invalid
  | scalar (typ : Bytes) (s : Scalar)
  | str (typ s : Bytes)
  /-- A nil pointer or a nil interface. -/
  | nilPtr (typ : Bytes)
  /-- A nil map, slice, function or channel. -/
  | nilRef (typ : Bytes)
  | ptr (typ : Bytes) (addr obj : Nat)
  /-- A non-nil interface holding `v`. -/
  | iface (v : V)
  /-- A slice (`some addr`) or array (`none`) of an element kind with a fast path. -/
  | prims (typ : Bytes) (addr : Option Nat) (p : Prims)
  | array (typ : Bytes) (es : List V)
  | slice (typ : Bytes) (addr obj : Nat)
  | map (typ : Bytes) (addr obj : Nat)
  | struct (typ : Bytes) (fs : List (Bytes × V))
  | func (typ : Bytes) (addr : Nat)
  | chan (typ : Bytes) (addr : Nat)
  /-- The default case (`unsafe.Pointer`); `text` is `fmt.Sprint(v.Interface())`. -/
  | other (typ text : Bytes)

/-- The memory of the program while the snapshot is taken.  Keys of maps are given by their `fmt.Sprint` text; `entries`
is the order of `v.MapKeys()` and `sorted` the order after `sort.Slice`. -/
structure Heap where
  deref : Nat → V
  elems : Nat → List V
  entries : Nat → List (Bytes × V)
  sorted : Nat → List (Bytes × V)

/-- `lensMonitorFieldMaxRecurse`, `lensMonitorFieldMaxLen` (astclient.go:22–27) and `utf8.Valid`. -/
structure Cfg where
  depth : Nat
  len : Nat
  utf8 : Bytes → Bool

/-- The variable `visited map[uintptr]string`, nil or a map. -/
abbrev Visited := Option (AMap Nat Bytes)

/-- "<cycle:" + name + ">", astclient.go:259, 311. -/
def marker (name : Bytes) : Val := .str ([60, 99, 121, 99, 108, 101, 58] ++ name ++ [62])
/-- "<max-depth>", astclient.go:281. -/
def maxDepth : Val := .str [60, 109, 97, 120, 45, 100, 101, 112, 116, 104, 62]
/-- "<func>", astclient.go:402. -/
def funcText : Val := .str [60, 102, 117, 110, 99, 62]
/-- "<chan>", astclient.go:406. -/
def chanText : Val := .str [60, 99, 104, 97, 110, 62]
/-- "invalid", astclient.go:275. -/
def invalidText : Bytes := [105, 110, 118, 97, 108, 105, 100]

/-- valuePath, astclient.go:239–244. -/
def valuePath (parent name : Bytes) : Bytes := if parent = [] then name else parent ++ [46] ++ name

/-- The element name "[" + strconv.Itoa(i) + "]", astclient.go:514. -/
def indexName (i : Nat) : Bytes := [91] ++ itoaBytes i ++ [93]

/-- The fast paths of `streamValueSlice`, astclient.go:415–508. -/
def Prims.val (c : Cfg) : Prims → Val
  | .bools l => .boolSlice (l.take c.len)
  | .int32s l => .int32Slice (l.take c.len)
  | .int64s l => .int64Slice (l.take c.len)
  | .bytes l => if c.utf8 (l.take c.len) then .str (limitString c.len (l.take c.len)) else .bytes (l.take c.len)
  | .uint32s l => .uint32Slice (l.take c.len)
  | .uint64s l => .uint64Slice (l.take c.len)
  | .float32s l => .float32Slice (l.take c.len)
  | .float64s l => .float64Slice (l.take c.len)
  | .strs l => .strSlice ((l.take c.len).map (limitString c.len))

/-- The named elements of a slice or array on the slow path, astclient.go:415–418, 510–515. -/
def indexed (c : Cfg) (es : List V) : List (Bytes × V) :=
  (es.take c.len).zipIdx.map fun e => (indexName e.2, e.1)

/-- The entries of a map that are sent, astclient.go:365–381. -/
def mapItems (c : Cfg) (h : Heap) (obj : Nat) : List (Bytes × V) :=
  if (h.entries obj).length ≤ c.len then h.entries obj else (h.sorted obj).take c.len

/-- The loop that unwraps interfaces and pointers, astclient.go:266–273, run for at most the given number of rounds
(`none`: still running).  A nil pointer or interface is returned as such. -/
def unwrap (h : Heap) : Nat → V → Option V
  | 0, _ => none
  | n + 1, .iface v => unwrap h n v
  | n + 1, .ptr _ _ obj => unwrap h n (h.deref obj)
  | _ + 1, v => some v

/-- `v.Type().String()`. -/
def V.typ : V → Bytes
  | .invalid => invalidText
  | .scalar t _ | .str t _ | .nilPtr t | .nilRef t | .ptr t _ _ | .prims t _ _ | .array t _ | .slice t _ _
  | .map t _ _ | .struct t _ | .func t _ | .chan t _ | .other t _ => t
  | .iface v => v.typ

/-- The address checked before unwrapping (non-nil pointers), astclient.go:251–254. -/
def V.ptrAddr : V → Option Nat
  | .ptr _ a _ => some a
  | _ => none

/-- The address checked after unwrapping (non-nil maps, slices, functions, channels), astclient.go:301–306. -/
def V.refAddr : V → Option Nat
  | .prims _ a _ => a
  | .slice _ a _ | .map _ a _ | .func _ a | .chan _ a => some a
  | _ => none

/-- Looking up and recording an address, astclient.go:251–262 and 301–315: the name under which the address is known, or
the map with the address recorded under `path`. -/
def visit (vis : Visited) (addr : Option Nat) (path : Bytes) : Bytes ⊕ Visited :=
  match addr with
  | none => .inr vis
  | some a =>
    match (vis.getD []).get a with
    | some name => .inl name
    | none => .inr (some ((vis.getD []).set a path))

/-- What the caller sees of the map: a map created by the callee is not visible to the caller. -/
def keep (before after : Visited) : Visited :=
  match before with
  | none => none
  | some _ => after

/-- The type of `streamField`: name, value, visited, parentPath; `none` if it does not return. -/
abbrev Stream := Bytes → V → Visited → Bytes → Option (WField × Visited)

/-- Writing the children one after the other with the same map, astclient.go:371–380, 394–399, 512–515. -/
def each (f : Stream) (path : Bytes) : List (Bytes × V) → Visited → Option (List WField × Visited)
  | [], vis => some ([], vis)
  | e :: es, vis =>
    match f e.1 e.2 vis path with
    | none => none
    | some (w, vis1) =>
      match each f path es vis1 with
      | none => none
      | some (ws, vis2) => some (w :: ws, vis2)

/-- A container with its children. -/
def nodeOf (name typ : Bytes) (k : CKind) : Option (List WField × Visited) → Option (WField × Visited)
  | none => none
  | some (ws, vis) => some (.node name typ k ws, vis)

/-- The switch of `streamField` on the kind of the unwrapped value, astclient.go:317–410, with `f` for the children. -/
def content (c : Cfg) (h : Heap) (f : Stream) (name path : Bytes) (vis : Visited) : V → Option (WField × Visited)
  | .scalar t s => some (.leaf name t s.val, vis)
  | .str t s => some (.leaf name t (.str (limitString c.len s)), vis)
  | .prims t _ p => some (.leaf name t (p.val c), vis)
  | .array t es => nodeOf name t .slice (each f path (indexed c es) vis)
  | .slice t _ obj => nodeOf name t .slice (each f path (indexed c (h.elems obj)) vis)
  | .map t _ obj => nodeOf name t .map (each f path (mapItems c h obj) vis)
  | .struct t fs => nodeOf name t .struct (each f path fs vis)
  | .func t _ => some (.leaf name t funcText, vis)
  | .chan t _ => some (.leaf name t chanText, vis)
  | .other t text => some (.leaf name t (.str (limitString c.len text)), vis)
  -- nil values, astclient.go:268–271, 290–295; the other values do not reach the switch
  | .nilRef t | .nilPtr t | .ptr t _ _ => some (.leaf name t .nil, vis)
  | .invalid | .iface _ => some (.leaf name invalidText .nil, vis)

/-- `streamField` after unwrapping, astclient.go:274–410; `f = none` when `depth >= lensMonitorFieldMaxRecurse`. -/
def unwrapped (c : Cfg) (h : Heap) (f : Option Stream) (name path : Bytes) (vis : Visited) (w : V) :
    Option (WField × Visited) :=
  match w with
  | .nilPtr t => some (.leaf name t .nil, vis)
  | .invalid => some (.leaf name invalidText .nil, vis)
  | w =>
    match f with
    | none => some (.leaf name w.typ maxDepth, vis)
    | some f =>
      match visit vis w.refAddr path with
      | .inl n => some (.leaf name w.typ (marker n), vis)
      | .inr vis => content c h f name path vis w

/-- One call of `streamField`, astclient.go:238–410. -/
def body (c : Cfg) (h : Heap) (fuel : Nat) (f : Option Stream) : Stream := fun name v vis parent =>
  match visit vis v.ptrAddr (valuePath parent name) with
  | .inl n => some (.leaf name v.typ (marker n), vis)
  | .inr vis1 =>
    match unwrap h fuel v with
    | none => none
    | some w =>
      match unwrapped c h f name (valuePath parent name) vis1 w with
      | none => none
      | some (field, vis2) => some (field, keep vis vis2)

/-- `streamField`, astclient.go:238–410, with `r = lensMonitorFieldMaxRecurse - depth` levels left and at most `fuel`
rounds of the unwrapping loop in each call. -/
def stream (c : Cfg) (h : Heap) (fuel : Nat) : Nat → Stream
  | 0 => body c h fuel none
  | r + 1 => body c h fuel (some (stream c h fuel r))

/-- One snapshot: `streamField(s.Name, reflect.ValueOf(s.Val), 0, nil, "")`, astclient.go:109. -/
def capture (c : Cfg) (h : Heap) (fuel : Nat) (name : Bytes) (v : V) : Option WField :=
  (stream c h fuel c.depth name v none []).map (·.1)

/-- "nil" -/
def nilName : Bytes := [110, 105, 108]

/-- All snapshots in order, `none` if one does not return. -/
def captureAll (c : Cfg) (h : Heap) (fuel : Nat) : List (Bytes × V) → Option (List WField)
  | [] => some []
  | s :: ss =>
    match capture c h fuel s.1 s.2, captureAll c h fuel ss with
    | some w, some ws => some (w :: ws)
    | _, _ => none

/-- `sendLensPointStateMessage` and `lensEncodeMessagePointState`, astclient.go:86–111: the message whose encoding is
sent.  Snapshots called "nil" are left out. -/
def snapshot (c : Cfg) (h : Heap) (fuel : Nat) (id : UInt32) (time : BitVec 64) (stack : List Frame)
    (snaps : List (Bytes × V)) : Option (MsgState WField) :=
  (captureAll c h fuel (snaps.filter fun s => s.1 ≠ nilName)).map fun ws => ⟨id, time, stack, ws⟩

/-! ### Comparison of map keys -/

/-- A map key as `lensCompareReflectValue` sees it.  A float is `none` for NaN and otherwise its value, scaled to an
integer (only the order matters).  The elements of an array and the fields of a struct are nested pairs ending in `unit`.
An interface holds a type identity and a value. -/
inductive Key where
  | str (s : Bytes)
  | int (i : Int)
  | uint (n : Nat)
  | float (f : Option Int)
  | bool (b : Bool)
  | complex (re im : Option Int)
  | ptr (addr : Nat)
  | chan (addr : Nat)
  | unit
  | pair (first rest : Key)
  | inil
  | iface (ty : Nat) (k : Key)
deriving DecidableEq, Repr

/-- `a < b → -1`, `a > b → 1`, otherwise 0. -/
def cmpLt {α : Type} (lt : α → α → Bool) (a b : α) : Int := if lt a b then -1 else if lt b a then 1 else 0

/-- `<` on floats: false when one side is NaN. -/
def floatLt : Option Int → Option Int → Bool
  | some a, some b => decide (a < b)
  | _, _ => false

/-- `lensCompareReflectValue`, astclient.go:522–642; `name` is `Type().String()` of a type identity.  Keys of one map
have one type, so the mixed cases do not occur below the same kind. -/
def cmpKey (name : Nat → Bytes) : Key → Key → Int
  | .str a, .str b => cmpLt (fun x y => decide (x < y)) a b
  | .int a, .int b => cmpLt (fun x y => decide (x < y)) a b
  | .uint a, .uint b => cmpLt (fun x y => decide (x < y)) a b
  | .float a, .float b => cmpLt floatLt a b
  | .bool a, .bool b => if a = b then 0 else if b then -1 else 1
  | .complex ar ai, .complex br bi =>
    if floatLt ar br then -1 else if floatLt br ar then 1 else cmpLt floatLt ai bi
  | .ptr a, .ptr b => cmpLt (fun x y => decide (x < y)) a b
  | .chan a, .chan b => cmpLt (fun x y => decide (x < y)) a b
  | .pair a r, .pair b s => if cmpKey name a b ≠ 0 then cmpKey name a b else cmpKey name r s
  | .inil, .inil => 0
  | .inil, .iface _ _ => -1
  | .iface _ _, .inil => 1
  | .iface s a, .iface t b =>
    if s ≠ t then cmpLt (fun x y => decide (x < y)) (name s) (name t) else cmpKey name a b
  | _, _ => 0

end Verif.Capture
