import Verif.AMap
import Mathlib.Data.List.Lex

/-!
Test results, their identity keys, flattening, and the de-duplicating encoder and decoder of `/repo/lens/types.go`.

A Go map is a listing of its entries; the order of a listing is one possible iteration order, and theorems quantify over
all listings.  `FMap` is the type `FieldValues` (types.go:541): a nil map, an empty map, or a first entry — name, the
`Value` and the `Children` of its `FieldValue` (types.go:544–549) — and the remaining entries.  Nil `*FieldValue`
pointers, on which the encoder panics, are not modelled.
-/

namespace Verif.Result

abbrev Bytes := List UInt8

/-- `FieldValues` with its `FieldValue` nodes, types.go:540–549. -/
inductive FMap where
  | goNil
  | empty
  | cons (name : Bytes) (value : Bytes) (kids : FMap) (rest : FMap)
deriving DecidableEq, Repr

/-- `len(fv) == 0`. -/
def FMap.isEmpty : FMap → Bool
  | .cons .. => false
  | _ => true

/-- The names of a map. -/
def FMap.names : FMap → List Bytes
  | .cons k _ _ rest => k :: rest.names
  | _ => []

/-- `StackFrame`, types.go:570–577. -/
structure StackFrame where
  file : Bytes
  line : Nat
  func : Bytes
deriving DecidableEq, Repr

/-- `CallFrame`, types.go:531–538. -/
structure CallFrame where
  fields : FMap
  stack : List StackFrame
  time : Nat
deriving DecidableEq, Repr

/-- `TestResult`, types.go:143–161. -/
structure TestResult where
  testIdent : Bytes
  testName : Bytes
  callers : List (Bytes × List CallFrame)
  projectPanics : List (Bytes × List Bytes)
  modulePanics : List (Bytes × List Bytes)
  changesHit : Nat
  failure : Bool
  extension : List (Bytes × List CallFrame)
deriving DecidableEq, Repr

/-! ### Identity keys -/

/-- `binary.LittleEndian.PutUint64`. -/
def le64 (n : Nat) : Bytes := (List.range 8).map fun i => UInt8.ofNat (n / 256 ^ i % 256)

/-- `writeFramed`, types.go:628–632. -/
def framed (b : Bytes) : Bytes := le64 b.length ++ b

/-- Order of Go strings: bytewise lexicographic. -/
def leBytes (a b : Bytes) : Bool := decide (a.map UInt8.toNat ≤ b.map UInt8.toNat)

/-- Insertion of an entry into a listing sorted by name. -/
def insertE (k v : Bytes) (kids : FMap) : FMap → FMap
  | .cons k2 v2 kids2 rest =>
    if leBytes k k2 then .cons k v kids (.cons k2 v2 kids2 rest) else .cons k2 v2 kids2 (insertE k v kids rest)
  | m => .cons k v kids m

/-- The listing in the order in which `walk` visits it: every level sorted by name (types.go:635–637). -/
def canon : FMap → FMap
  | .cons k v kids rest => insertE k v (canon kids) (canon rest)
  | m => m

/-- What `walk` (types.go:634–647) writes to the hash, for a listing in visiting order. -/
def raw : FMap → Bytes
  | .cons k v kids rest => framed k ++ ((if kids.isEmpty then 0 :: framed v else 1 :: raw kids) ++ raw rest)
  | _ => []

/-- All that `walk` writes to the hash. -/
def stream (m : FMap) : Bytes := raw (canon m)

/-- `bytesKey`, util.go:128–134; `H` is SHA-1. -/
def bytesKey (H : Bytes → Bytes) (b : Bytes) : Bytes := if b.length ≤ 20 then b else H b

/-- "empty" -/
def emptyId : Bytes := [101, 109, 112, 116, 121]

/-- `FieldValues.ID`, types.go:621–652. -/
def mapID (H : Bytes → Bytes) (m : FMap) : Bytes :=
  match m with
  | .goNil => []
  | .empty => emptyId
  | .cons .. => H (stream m)

/-- `FieldValue.ID`, types.go:555–567. -/
def nodeID (H : Bytes → Bytes) (v : Bytes) (kids : FMap) : Bytes :=
  bytesKey H (le64 v.length ++ v ++ mapID H kids)

/-! ### Flattening, types.go:597–618 -/

/-- The assignments `flat[key] = value` in the order they are made; `pfx` is `prefix`. -/
def flatWrites : Bytes → FMap → List (Bytes × Bytes)
  | pfx, .cons k v kids rest =>
    let key := if pfx = [] then k else pfx ++ 46 :: k
    (if kids.isEmpty then [(key, v)] else flatWrites key kids) ++ flatWrites pfx rest
  | _, _ => []

/-- `FlattenFieldValues`. -/
def flatten (m : FMap) : AMap Bytes Bytes := (flatWrites [] m).foldl (fun (a : AMap Bytes Bytes) w => a.set w.1 w.2) []

/-! ### The encoded form, types.go:167–196 -/

/-- `encFieldValues`; an entry carries the four fields of `encFieldValue`. -/
inductive EMap where
  | goNil
  | empty
  | cons (name : Bytes) (ni : Option Int) (v : Bytes) (ci : Option Int) (cvl : EMap) (rest : EMap)
deriving DecidableEq, Repr

/-- `encFieldValue`. -/
structure ENode where
  ni : Option Int
  v : Bytes
  ci : Option Int
  cvl : EMap
deriving DecidableEq, Repr

/-- `encCallFrame`. -/
structure EFrame where
  fvi : Option Int
  fv : EMap
  si : Option Int
  st : List StackFrame
  t : Nat
deriving DecidableEq, Repr

/-- The dictionaries.  A slot that is reserved but not filled yet is `none`. -/
structure Dicts where
  fv : List (Option EMap)
  fvn : List (Option ENode)
  st : List (List StackFrame)
deriving DecidableEq, Repr

/-- `encTestResult`. -/
structure ETest where
  testIdent : Bytes
  testName : Bytes
  callers : List (Bytes × List EFrame)
  projectPanics : List (Bytes × List Bytes)
  modulePanics : List (Bytes × List Bytes)
  changesHit : Nat
  failure : Bool
  extension : List (Bytes × List EFrame)
  dicts : Dicts
deriving DecidableEq, Repr

/-! ### The encoder -/

/-- Occurrences counted by `walkFV`/`walkNode`, types.go:226–244: keys of maps (`true`) and of nodes (`false`), one per
`++`.  `walkFV` on the map itself is counted by the caller. -/
def walkEntries (H : Bytes → Bytes) : FMap → List (Bool × Bytes)
  | .cons _ v kids rest =>
    (if kids.isEmpty && v.length ≤ 4 then []
     else (false, nodeID H v kids) :: (if kids.isEmpty then [] else (true, mapID H kids) :: walkEntries H kids)) ++
      walkEntries H rest
  | _ => []

def walkFV (H : Bytes → Bytes) (m : FMap) : List (Bool × Bytes) := (true, mapID H m) :: walkEntries H m

/-- State of the encoder: the index maps and the dictionaries. -/
structure EncState where
  fvIdx : AMap Bytes Nat
  fvnIdx : AMap Bytes Nat
  stIdx : AMap Bytes Nat
  d : Dicts

/-- What the encoder is parameterised by: the hash, which keys occur more than once, and the key of a stack
(`anyKey`, types.go:207–213). -/
structure Cfg where
  H : Bytes → Bytes
  dupFV : Bytes → Bool
  dupNode : Bytes → Bool
  dupStack : Bytes → Bool
  stackKey : List StackFrame → Bytes

/-- `encodeFV`, types.go:279–311; `ent` runs the loop over the entries. -/
def encFVWith (c : Cfg) (ent : EncState → EMap × EncState) (src : FMap) (s : EncState) :
    EMap × Option Int × EncState :=
  match src with
  | .goNil => (.goNil, none, s)
  | _ =>
    let key := mapID c.H src
    if c.dupFV key then
      match s.fvIdx.get key with
      | some pos => (.goNil, some pos, s)
      | none =>
        let pos := s.d.fv.length
        let s1 := { s with fvIdx := s.fvIdx.set key pos, d := { s.d with fv := s.d.fv ++ [none] } }
        let (e, s2) := ent s1
        (.goNil, some pos, { s2 with d := { s2.d with fv := s2.d.fv.set pos (some e) } })
    else
      let (e, s1) := ent s
      (e, none, s1)

/-- The part of `encodeNode` (types.go:326–336, 343–352) that builds the inline node. -/
def encInline (v : Bytes) (kidsEmpty : Bool) (encKids : EncState → EMap × Option Int × EncState) (s : EncState) :
    ENode × EncState :=
  if kidsEmpty then (⟨none, v, none, .goNil⟩, s)
  else
    match encKids s with
    | (_, some i, s1) => (⟨none, v, some i, .goNil⟩, s1)
    | (e, none, s1) => (⟨none, v, none, e⟩, s1)

/-- `encodeNode`, types.go:312–354. -/
def encNodeWith (c : Cfg) (v : Bytes) (kids : FMap) (encKids : EncState → EMap × Option Int × EncState)
    (s : EncState) : ENode × EncState :=
  let key := nodeID c.H v kids
  if c.dupNode key then
    match s.fvnIdx.get key with
    | some pos => (⟨some pos, [], none, .goNil⟩, s)
    | none =>
      let pos := s.d.fvn.length
      let s1 := { s with fvnIdx := s.fvnIdx.set key pos, d := { s.d with fvn := s.d.fvn ++ [none] } }
      let (n, s2) := encInline v kids.isEmpty encKids s1
      (⟨some pos, [], none, .goNil⟩, { s2 with d := { s2.d with fvn := s2.d.fvn.set pos (some n) } })
  else encInline v kids.isEmpty encKids s

/-- The loop over the entries of a map, types.go:297–300 and 306–309. -/
def encEntries (c : Cfg) : FMap → EncState → EMap × EncState
  | .cons k v kids rest, s =>
    let (n, s1) := encNodeWith c v kids (encFVWith c (encEntries c kids) kids) s
    let (r, s2) := encEntries c rest s1
    (.cons k n.ni n.v n.ci n.cvl r, s2)
  | _, s => (.empty, s)

def encodeFV (c : Cfg) (m : FMap) (s : EncState) : EMap × Option Int × EncState :=
  encFVWith c (encEntries c m) m s

/-- One frame, types.go:362–389. -/
def encFrame (c : Cfg) (f : CallFrame) (s : EncState) : EFrame × EncState :=
  let (e, i, s1) := encodeFV c f.fields s
  let key := c.stackKey f.stack
  if c.dupStack key then
    match s1.stIdx.get key with
    | some pos => (⟨i, e, some pos, [], f.time⟩, s1)
    | none =>
      (⟨i, e, some s1.d.st.length, [], f.time⟩,
        { s1 with stIdx := s1.stIdx.set key s1.d.st.length, d := { s1.d with st := s1.d.st ++ [f.stack] } })
  else (⟨i, e, none, f.stack, f.time⟩, s1)

def encFrames (c : Cfg) : List CallFrame → EncState → List EFrame × EncState
  | [], s => ([], s)
  | f :: fs, s =>
    let (e, s1) := encFrame c f s
    let (es, s2) := encFrames c fs s1
    (e :: es, s2)

/-- `encodeCallFrames`, types.go:357–394. -/
def encFrameMap (c : Cfg) : List (Bytes × List CallFrame) → EncState → List (Bytes × List EFrame) × EncState
  | [], s => ([], s)
  | (k, fs) :: m, s =>
    let (e, s1) := encFrames c fs s
    let (es, s2) := encFrameMap c m s1
    ((k, e) :: es, s2)

def encInit : EncState := ⟨[], [], [], ⟨[], [], []⟩⟩

/-- All frames of a result. -/
def TestResult.frames (tr : TestResult) : List CallFrame :=
  tr.callers.flatMap (·.2) ++ tr.extension.flatMap (·.2)

/-- The counts taken before encoding, types.go:245–256, as "occurs more than once". -/
def cfgOf (H : Bytes → Bytes) (stackKey : List StackFrame → Bytes) (tr : TestResult) : Cfg where
  H := H
  dupFV := fun k => (tr.frames.flatMap fun f => walkFV H f.fields).count (true, k) > 1
  dupNode := fun k => (tr.frames.flatMap fun f => walkFV H f.fields).count (false, k) > 1
  dupStack := fun k => (tr.frames.map fun f => stackKey f.stack).count k > 1
  stackKey := stackKey

/-- `marshalMsgpack`, types.go:221–418, up to the msgpack library: the structure handed to it.  The dictionaries are
read after both calls of `encodeCallFrames` (types.go:398–409; the language leaves this order open). -/
def encode (c : Cfg) (tr : TestResult) : ETest :=
  let (cr, s1) := encFrameMap c tr.callers encInit
  let (ef, s2) := encFrameMap c tr.extension s1
  ⟨tr.testIdent, tr.testName, cr, tr.projectPanics, tr.modulePanics, tr.changesHit, tr.failure, ef, s2.d⟩

/-! ### msgpack -/

/-- `omitempty`: an empty map comes back as a nil map. -/
def EMap.omitEmpty : EMap → EMap
  | .empty => .goNil
  | m => m

/-- What reading back what was written gives, for a map: the library keeps everything except that empty maps in
`omitempty` fields become nil. -/
def EMap.wire : EMap → EMap
  | .cons k ni v ci cvl rest => .cons k ni v ci cvl.wire.omitEmpty rest.wire
  | m => m

def ENode.wire (n : ENode) : ENode := { n with cvl := n.cvl.wire.omitEmpty }

def EFrame.wire (f : EFrame) : EFrame := { f with fv := f.fv.wire.omitEmpty }

def Dicts.wire (d : Dicts) : Dicts := { d with fv := d.fv.map (·.map EMap.wire), fvn := d.fvn.map (·.map ENode.wire) }

def ETest.wire (e : ETest) : ETest :=
  { e with callers := e.callers.map fun kv => (kv.1, kv.2.map EFrame.wire),
           extension := e.extension.map fun kv => (kv.1, kv.2.map EFrame.wire),
           dicts := e.dicts.wire }

/-! ### The decoder, types.go:420–531 -/

/-- `stuck` says that the recursion has not ended within the fuel. -/
inductive DErr where
  | stuck
  | badIndex
deriving DecidableEq, Repr

/-- Entry `i` of a dictionary, if `i` is in range. -/
def dictGet {α : Type} (l : List (Option α)) (i : Int) : Option (Option α) := if 0 ≤ i then l[i.toNat]? else none

/-- `decodeNode` and `decodeFV` on inline data; `jn`, `jm` decode a node or a map of the dictionaries. -/
def decEntries (jn : Int → Except DErr (Bytes × FMap)) (jm : Int → Except DErr FMap) : EMap → Except DErr FMap
  | .goNil => .ok .goNil
  | .empty => .ok .empty
  | .cons k ni v ci cvl rest => do
    let n ← match ni with
      | some i => jn i
      | none => do
        let kids ← match ci with
          | some i => jm i
          | none => decEntries jn jm cvl
        pure (v, kids)
    let r ← decEntries jn jm rest
    pure (.cons k n.1 n.2 r)

/-- A dictionary entry that was never filled is the zero value. -/
def slotMap (o : Option EMap) : EMap := o.getD .goNil
def slotNode (o : Option ENode) : ENode := o.getD ⟨none, [], none, .goNil⟩

/-- Decoding of dictionary entries, types.go:438–472, with fuel: nodes and maps. -/
def jumps (d : Dicts) : Nat → (Int → Except DErr (Bytes × FMap)) × (Int → Except DErr FMap)
  | 0 => (fun _ => .error .stuck, fun _ => .error .stuck)
  | f + 1 =>
    let j := jumps d f
    (fun i => match dictGet d.fvn i with
      | none => .error .badIndex
      | some o =>
        let n := slotNode o
        match n.ni with
        | some i' => j.1 i'
        | none => do
          let kids ← match n.ci with
            | some i' => j.2 i'
            | none => decEntries j.1 j.2 n.cvl
          pure (n.v, kids),
     fun i => match dictGet d.fv i with
      | none => .error .badIndex
      | some o => decEntries j.1 j.2 (slotMap o))

/-- `decodeFV(efv, idx)` for a frame. -/
def decFV (d : Dicts) (fuel : Nat) (e : EMap) (idx : Option Int) : Except DErr FMap :=
  match idx with
  | some i => (jumps d fuel).2 i
  | none => decEntries (jumps d fuel).1 (jumps d fuel).2 e

/-- The stack of a frame, types.go:493–501. -/
def decStack (d : Dicts) (f : EFrame) : Except DErr (List StackFrame) :=
  match f.si with
  | none => .ok f.st
  | some i =>
    if 0 ≤ i then
      match d.st[i.toNat]? with
      | some s => .ok s
      | none => .error .badIndex
    else .error .badIndex

/-- One frame, types.go:481–505. -/
def decFrame (d : Dicts) (fuel : Nat) (f : EFrame) : Except DErr CallFrame := do
  let fv ← decFV d fuel f.fv f.fvi
  let st ← decStack d f
  pure ⟨fv, st, f.t⟩

def decFrames (d : Dicts) (fuel : Nat) : List EFrame → Except DErr (List CallFrame)
  | [] => .ok []
  | f :: fs => do
    let a ← decFrame d fuel f
    let as ← decFrames d fuel fs
    pure (a :: as)

def decFrameMap (d : Dicts) (fuel : Nat) : List (Bytes × List EFrame) → Except DErr (List (Bytes × List CallFrame))
  | [] => .ok []
  | (k, fs) :: m => do
    let a ← decFrames d fuel fs
    let as ← decFrameMap d fuel m
    pure ((k, a) :: as)

/-- The extension frames, types.go:520–526. -/
def decExt (old : List (Bytes × List CallFrame)) (fuel : Nat) (e : ETest) : Except DErr (List (Bytes × List CallFrame)) :=
  if e.extension = [] then .ok old else decFrameMap e.dicts fuel e.extension

/-- `UnmarshalMsgpack` into a receiver whose extension frames are `old` (types.go:520–526 leaves them alone if the data
has none). -/
def decodeInto (old : List (Bytes × List CallFrame)) (fuel : Nat) (e : ETest) : Except DErr TestResult := do
  let cr ← decFrameMap e.dicts fuel e.callers
  let ef ← decExt old fuel e
  pure ⟨e.testIdent, e.testName, cr, e.projectPanics, e.modulePanics, e.changesHit, e.failure, ef⟩

/-- `UnmarshalMsgpack` into a fresh value. -/
def decode (fuel : Nat) (e : ETest) : Except DErr TestResult := decodeInto [] fuel e

end Verif.Result
