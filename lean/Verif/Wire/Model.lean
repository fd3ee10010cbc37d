/-
Model of the monitoring wire protocol: encoder (`/repo/lens/astclient.go`) and decoder
(`/repo/lens/astsrv.go`).

Simplifications, in one place:
* the encoder of the Go client walks the live value and writes bytes as it goes.  Here the walk
  (`Verif/Capture`) yields a tree `WField` and `encField` writes that tree; since the Go code only ever appends
  to its buffer the bytes are the same.
* Go strings are byte strings.  Floats are their IEEE bit patterns (`math.Float64bits` and back are inverse).
* errors carry no text: a failing read is `none`.
* `make([]T, n)` performed by the decoder before reading elements is recorded in a log (`Alloc`).
-/
namespace Verif.Wire

abbrev Bytes := List UInt8

/-! ### Encoder primitives -/

/-- `writeVarint`, astclient.go:656–665.  The Go code collects the bytes in a 10 byte buffer and writes them at once. -/
def writeVarint (v : UInt64) : Bytes :=
  if _h : v < 0x80 then [v.toUInt8]
  else (v.toUInt8 ||| 0x80) :: writeVarint (v >>> 7)
termination_by v.toNat
decreasing_by
  have h1 : ¬ v.toNat < 128 := by simpa [UInt64.lt_iff_toNat_lt] using _h
  have h2 : (v >>> 7).toNat = v.toNat / 128 := by
    simp [UInt64.toNat_shiftRight, Nat.shiftRight_eq_div_pow]
  omega

/-- The zig-zag map of `writeSignedVarint`, astclient.go:668–671: `uint64(v<<1) ^ uint64(v>>63)`. -/
def zigzagEnc (v : BitVec 64) : BitVec 64 := (v <<< 1) ^^^ (v.sshiftRight 63)

/-- `writeSignedVarint`, astclient.go:668–671.  An `int64` is its two's complement bit pattern. -/
def writeSignedVarint (v : BitVec 64) : Bytes := writeVarint ⟨zigzagEnc v⟩

/-- Little-endian bytes, `n` of them (encoding/binary.LittleEndian). -/
def leBytes : Nat → Nat → Bytes
  | 0, _ => []
  | n + 1, v => UInt8.ofNat v :: leBytes n (v / 256)

/-- `writeInt64`, astclient.go:649–653. -/
def writeInt64 (v : BitVec 64) : Bytes := leBytes 8 v.toNat
/-- `writeFloat32`, astclient.go:673–677 (bit pattern). -/
def writeFloat32 (v : UInt32) : Bytes := leBytes 4 v.toNat
/-- `writeFloat64`, astclient.go:679–683 (bit pattern). -/
def writeFloat64 (v : UInt64) : Bytes := leBytes 8 v.toNat

/-- `writeString`, astclient.go:685–688. -/
def writeString (s : Bytes) : Bytes := writeVarint (UInt64.ofNat s.length) ++ s

/-! ### Data carried by messages -/

/-- `lensMonitorStackFrame`, astapi.go:15–19. -/
structure Frame where
  file : Bytes
  func : Bytes
  line : UInt64
deriving DecidableEq, Repr

/-- Values that can be carried by a leaf field (astapi.go:23–45). Signed integers are bit patterns. -/
inductive Val where
  | nil
  | bool (b : Bool)
  | int32 (v : BitVec 32)
  | int64 (v : BitVec 64)
  | uint32 (v : UInt32)
  | uint64 (v : UInt64)
  | float32 (bits : UInt32)
  | float64 (bits : UInt64)
  | complex (re im : UInt64)
  | str (s : Bytes)
  | boolSlice (l : List Bool)
  | bytes (l : Bytes)
  | int32Slice (l : List (BitVec 32))
  | int64Slice (l : List (BitVec 64))
  | uint32Slice (l : List UInt32)
  | uint64Slice (l : List UInt64)
  | float32Slice (l : List UInt32)
  | float64Slice (l : List UInt64)
  | strSlice (l : List Bytes)
deriving DecidableEq, Repr

/-- The three container tags, astapi.go:48–50. -/
inductive CKind where
  | map | struct | slice
deriving DecidableEq, Repr

/-- A field as the client writes it: a leaf value, or a container with its kind. -/
inductive WField where
  | leaf (name typ : Bytes) (v : Val)
  | node (name typ : Bytes) (k : CKind) (cs : List WField)
deriving Repr

/-- `LensMonitorField`, astsrv.go:57–62, as the server sees it: the container kind is not kept. -/
inductive Field where
  | leaf (name typ : Bytes) (v : Val)
  | node (name typ : Bytes) (cs : List Field)
deriving Repr

/-- Forget the container kinds. -/
def WField.erase : WField → Field
  | .leaf n t v => .leaf n t v
  | .node n t _ cs => .node n t (cs.map WField.erase)

/-! ### Encoder -/

/-- Position of a string in the table (`stringIndex[...]`, astclient.go:212–222: first position wins). -/
def indexIn (table : List Bytes) (s : Bytes) : Nat := table.findIdx (· == s)

/-- `stringIndex`/`stringTable` update for one string, astclient.go:214–221. -/
def addString (table : List Bytes) (s : Bytes) : List Bytes :=
  if s ∈ table then table else table ++ [s]

/-- The string table built by the loop astclient.go:213–222. -/
def buildTable (table : List Bytes) : List Frame → List Bytes
  | [] => table
  | f :: fs => buildTable (addString (addString table f.file) f.func) fs

/-- One frame as table indices and line, astclient.go:231–235. -/
def encFrame (table : List Bytes) (f : Frame) : Bytes :=
  writeVarint (UInt64.ofNat (indexIn table f.file)) ++
  writeVarint (UInt64.ofNat (indexIn table f.func)) ++
  writeVarint f.line

/-- `writeStackFrames`, astclient.go:204–236. -/
def writeStackFrames (frames : List Frame) : Bytes :=
  writeVarint (UInt64.ofNat frames.length) ++
  (if frames.isEmpty then [] else
    let table := buildTable [] frames
    writeVarint (UInt64.ofNat table.length) ++
    (table.flatMap writeString) ++
    (frames.flatMap (encFrame table)))

/-- One packed byte of up to eight bools, astclient.go:431–437. -/
def packByte : List Bool → Nat → UInt8
  | [], _ => 0
  | b :: bs, j => (if b then (1 : UInt8) <<< UInt8.ofNat j else 0) ||| packByte bs (j + 1)

/-- The packed bools, astclient.go:430–438. -/
def packBools : List Bool → Bytes
  | [] => []
  | b :: bs => packByte ((b :: bs).take 8) 0 :: packBools ((b :: bs).drop 8)
termination_by l => l.length

/-- The tag and payload of a leaf value: streamField astclient.go:316–357 and streamValueSlice 422–509.
A narrow signed integer is written sign-extended to 64 bits (`v.Int()`). -/
def encVal : Val → Bytes
  | .nil => [0x00]
  | .bool b => [0x01, if b then 1 else 0]
  | .int32 v => 0x02 :: writeSignedVarint (v.signExtend 64)
  | .int64 v => 0x03 :: writeSignedVarint v
  | .uint32 v => 0x04 :: writeVarint v.toUInt64
  | .uint64 v => 0x05 :: writeVarint v
  | .float32 v => 0x06 :: writeFloat32 v
  | .float64 v => 0x07 :: writeFloat64 v
  | .complex re im => 0x08 :: (writeFloat64 re ++ writeFloat64 im)
  | .str s => 0x09 :: writeString s
  | .boolSlice l => 0x20 :: (writeVarint (UInt64.ofNat l.length) ++ packBools l)
  | .bytes l => 0x21 :: (writeVarint (UInt64.ofNat l.length) ++ l)
  | .int32Slice l => 0x22 :: (writeVarint (UInt64.ofNat l.length) ++ l.flatMap fun v => writeSignedVarint (v.signExtend 64))
  | .int64Slice l => 0x23 :: (writeVarint (UInt64.ofNat l.length) ++ l.flatMap writeSignedVarint)
  | .uint32Slice l => 0x24 :: (writeVarint (UInt64.ofNat l.length) ++ l.flatMap fun v => writeVarint v.toUInt64)
  | .uint64Slice l => 0x25 :: (writeVarint (UInt64.ofNat l.length) ++ l.flatMap writeVarint)
  | .float32Slice l => 0x26 :: (writeVarint (UInt64.ofNat l.length) ++ l.flatMap writeFloat32)
  | .float64Slice l => 0x27 :: (writeVarint (UInt64.ofNat l.length) ++ l.flatMap writeFloat64)
  | .strSlice l => 0x28 :: (writeVarint (UInt64.ofNat l.length) ++ l.flatMap writeString)

/-- Container tags, astapi.go:48–50. -/
def CKind.tag : CKind → UInt8
  | .map => 0x40
  | .struct => 0x41
  | .slice => 0x42

/-- A field: name, type string, tag, payload or children (streamField, astclient.go:238–411). -/
def encField : WField → Bytes
  | .leaf n t v => writeString n ++ writeString t ++ encVal v
  | .node n t k cs =>
      writeString n ++ writeString t ++ k.tag :: (writeVarint (UInt64.ofNat cs.length) ++ (cs.map encField).flatten)

/-- `LensMonitorMessagePoint`, astsrv.go:42–46. -/
structure MsgPoint where
  id : UInt32
  time : BitVec 64
  stack : List Frame

/-- `LensMonitorMessagePointState`, astsrv.go:49–54, parameterised by the type of fields. -/
structure MsgState (F : Type) where
  id : UInt32
  time : BitVec 64
  stack : List Frame
  fields : List F

/-- `LensMonitorMessagePointPanic`, astsrv.go:35–39. -/
structure MsgPanic where
  id : UInt32
  time : BitVec 64
  message : Bytes

/-- `LensMonitorMessageError`, astsrv.go:28–32. -/
structure MsgError where
  id : UInt32
  message : Bytes
  stack : List Frame

/-- `lensEncodeMessagePoint`, astclient.go:70–75. -/
def encPoint (m : MsgPoint) : Bytes :=
  writeVarint m.id.toUInt64 ++ writeInt64 m.time ++ writeStackFrames m.stack

/-- `lensEncodeMessagePointState`, astclient.go:102–111. -/
def encState (m : MsgState WField) : Bytes :=
  writeVarint m.id.toUInt64 ++ writeInt64 m.time ++ writeStackFrames m.stack ++
  writeVarint (UInt64.ofNat m.fields.length) ++ (m.fields.map encField).flatten

/-- `lensEncodeMessagePointPanic`, astclient.go:131–136. -/
def encPanic (m : MsgPanic) : Bytes :=
  writeVarint m.id.toUInt64 ++ writeInt64 m.time ++ writeString m.message

/-- `lensEncodeMessageError`, astclient.go:192–197. -/
def encError (m : MsgError) : Bytes :=
  writeVarint m.id.toUInt64 ++ writeString m.message ++ writeStackFrames m.stack

/-! ### Decoder -/

/-- What a `make([]T, n)` in the decoder reserves room for. -/
inductive Alloc where
  | frames (n : Nat)      -- astsrv.go:333
  | table (n : Nat)       -- astsrv.go:325
  | str (n : Nat)         -- astsrv.go:562
  | fields (n : Nat)      -- astsrv.go:365
  | slice (n : Nat)       -- astsrv.go:579, 595, 619, 639, 657, 677, 695, 713, 731
  | container (n : Nat)   -- astsrv.go:468
  | struct (n : Nat)      -- astsrv.go:480
deriving DecidableEq, Repr

/-- Result of a read: value and remaining input (or failure), and the reservations made so far. -/
structure Res (α : Type) where
  out : Option (α × Bytes)
  log : List Alloc

/-- A reader over a byte stream (`lensReader`, astsrv.go:236–240). -/
def Rd (α : Type) := Bytes → Res α

def Rd.pure {α} (a : α) : Rd α := fun bs => ⟨some (a, bs), []⟩
def Rd.fail {α} : Rd α := fun _ => ⟨none, []⟩
def Rd.bind {α β} (d : Rd α) (f : α → Rd β) : Rd β := fun bs =>
  match (d bs).out with
  | none => ⟨none, (d bs).log⟩
  | some (a, r) => ⟨(f a r).out, (d bs).log ++ (f a r).log⟩
/-- Record a reservation. -/
def Rd.alloc (a : Alloc) : Rd Unit := fun bs => ⟨some ((), bs), [a]⟩

instance : Monad Rd where
  pure := Rd.pure
  bind := Rd.bind

/-- `readByte`, astsrv.go:493–498. -/
def readByte : Rd UInt8 := fun
  | [] => ⟨none, []⟩
  | b :: bs => ⟨some (b, bs), []⟩

/-- `io.ReadFull` of `n` bytes. -/
def readFull (n : Nat) : Rd Bytes := fun bs =>
  if n ≤ bs.length then ⟨some (bs.take n, bs.drop n), []⟩ else ⟨none, []⟩

/-- Little-endian value of a byte list. -/
def leVal : Bytes → Nat
  | [] => 0
  | b :: bs => b.toNat + 256 * leVal bs

/-- `readInt64`, astsrv.go:500–506. -/
def readInt64 : Rd (BitVec 64) := do return BitVec.ofNat 64 (leVal (← readFull 8))
/-- `readFloat32`, astsrv.go:539–545. -/
def readFloat32 : Rd UInt32 := do return UInt32.ofNat (leVal (← readFull 4))
/-- `readFloat64`, astsrv.go:547–553. -/
def readFloat64 : Rd UInt64 := do return UInt64.ofNat (leVal (← readFull 8))

/-- The loop of `readVarint`, astsrv.go:512–525; `v`, `shift` are the loop variables. -/
def readVarintLoop : Bytes → UInt64 → Nat → Option (UInt64 × Bytes)
  | [], _, _ => none
  | b :: bs, v, shift =>
    let v' := v ||| ((b &&& 0x7F).toUInt64 <<< UInt64.ofNat shift)
    if b < 0x80 then some (v', bs)
    else if shift + 7 ≥ 64 then none
    else readVarintLoop bs v' (shift + 7)

/-- `readVarint`, astsrv.go:509–527. -/
def readVarint : Rd UInt64 := fun bs => ⟨readVarintLoop bs 0 0, []⟩

/-- Zig-zag decoding, astsrv.go:536: `int64(v>>1) ^ -int64(v&1)`. -/
def zigzagDec (v : BitVec 64) : BitVec 64 := (v >>> 1) ^^^ (-(v &&& 1))

/-- `readSignedVarint`, astsrv.go:530–537. -/
def readSignedVarint : Rd (BitVec 64) := do return zigzagDec (← readVarint).toBitVec

/-- `math.MaxUint32`. -/
def maxUint32 : Nat := 4294967295

/-- `readString`, astsrv.go:555–568. -/
def readString : Rd Bytes := do
  let length ← readVarint
  if length = 0 then return []
  else if length.toNat > maxUint32 then Rd.fail
  else do
    Rd.alloc (.str length.toNat)
    readFull length.toNat

/-- The element loops `for i := 0; i < count; i++ { … }`. -/
def readN {α} (d : Rd α) : Nat → Rd (List α)
  | 0 => return []
  | n + 1 => do return (← d) :: (← readN d n)

/-- A slice with a count limited by `maxFieldLen`, then its elements: readInt32Slice … readStringSlice,
astsrv.go:610–738.  (The Go functions differ in whether they test `count == 0` or the limit first, which makes no
difference.) -/
def readSlice {α} (maxLen : Nat) (d : Rd α) : Rd (List α) := do
  let count ← readVarint
  if count.toNat > maxLen then Rd.fail
  else if count = 0 then return []
  else do
    Rd.alloc (.slice count.toNat)
    readN d count.toNat

/-- `readBytes`, astsrv.go:570–584. -/
def readBytes (maxLen : Nat) : Rd Bytes := do
  let length ← readVarint
  if length = 0 then return []
  else if length.toNat > maxLen then Rd.fail
  else do
    Rd.alloc (.slice length.toNat)
    readFull length.toNat

/-- The bits of one byte, `(b & (1 << bitIdx)) != 0` for bitIdx = `j`, `j+1`, … (`n` of them), astsrv.go:603–605. -/
def unpackByte (b : UInt8) : Nat → Nat → List Bool
  | 0, _ => []
  | n + 1, j => ((b &&& ((1 : UInt8) <<< UInt8.ofNat j)) != 0) :: unpackByte b n (j + 1)

/-- The loop astsrv.go:598–606: `fuel` bytes are read, `count` bools remain. -/
def readBools : Nat → Nat → Rd (List Bool)
  | 0, _ => return []
  | nbytes + 1, count => do
    let b ← readByte
    let rest ← readBools nbytes (count - 8)
    return unpackByte b (min 8 count) 0 ++ rest

/-- `readBoolSlice`, astsrv.go:586–608. -/
def readBoolSlice (maxLen : Nat) : Rd (List Bool) := do
  let count ← readVarint
  if count.toNat > maxLen then Rd.fail
  else if count = 0 then return []
  else do
    Rd.alloc (.slice count.toNat)
    readBools ((count.toNat + 7) / 8) count.toNat

/-- `lensMonitorMaxStackFrames`, astapi.go:12. -/
def maxStackFrames : Nat := 2048

/-- One frame, astsrv.go:335–353. -/
def readFrame (table : List Bytes) : Rd Frame := do
  let fi ← readVarint
  match table[fi.toNat]? with
  | none => Rd.fail
  | some file => do
    let fu ← readVarint
    match table[fu.toNat]? with
    | none => Rd.fail
    | some func => do
      let line ← readVarint
      return ⟨file, func, line⟩

/-- `readStackFrames`, astsrv.go:308–356. -/
def readStackFrames : Rd (List Frame) := do
  let count ← readVarint
  if count.toNat > maxStackFrames then Rd.fail
  else if count = 0 then return []
  else do
    let tableSize ← readVarint
    if tableSize.toNat > count.toNat * 2 then Rd.fail
    else do
      Rd.alloc (.table tableSize.toNat)
      let table ← readN readString tableSize.toNat
      Rd.alloc (.frames count.toNat)
      readN (readFrame table) count.toNat

/-- What `readValue` yields: a leaf value or children. -/
inductive Payload where
  | val (v : Val)
  | children (cs : List Field)

/-- The non-container cases of `readValue`, astsrv.go:394–460. `none` = not a leaf tag. -/
def readLeaf (maxLen : Nat) (tag : UInt8) : Option (Rd Val) :=
  if tag = 0x00 then some (return .nil)
  else if tag = 0x01 then some do return .bool ((← readByte) != 0)
  else if tag = 0x02 then some do return .int32 ((← readSignedVarint).setWidth 32)
  else if tag = 0x03 then some do return .int64 (← readSignedVarint)
  else if tag = 0x04 then some do return .uint32 (← readVarint).toUInt32
  else if tag = 0x05 then some do return .uint64 (← readVarint)
  else if tag = 0x06 then some do return .float32 (← readFloat32)
  else if tag = 0x07 then some do return .float64 (← readFloat64)
  else if tag = 0x08 then some do return .complex (← readFloat64) (← readFloat64)
  else if tag = 0x09 then some do return .str (← readString)
  else if tag = 0x20 then some do return .boolSlice (← readBoolSlice maxLen)
  else if tag = 0x21 then some do return .bytes (← readBytes maxLen)
  else if tag = 0x22 then some do return .int32Slice (← readSlice maxLen do return (← readSignedVarint).setWidth 32)
  else if tag = 0x23 then some do return .int64Slice (← readSlice maxLen readSignedVarint)
  else if tag = 0x24 then some do return .uint32Slice (← readSlice maxLen do return (← readVarint).toUInt32)
  else if tag = 0x25 then some do return .uint64Slice (← readSlice maxLen readVarint)
  else if tag = 0x26 then some do return .float32Slice (← readSlice maxLen readFloat32)
  else if tag = 0x27 then some do return .float64Slice (← readSlice maxLen readFloat64)
  else if tag = 0x28 then some do return .strSlice (← readSlice maxLen readString)
  else none

/-- `readValue`, astsrv.go:388–490, given the reader for one child field. -/
def readValue (maxLen : Nat) (field : Rd Field) : Rd Payload := do
  let tag ← readByte
  match readLeaf maxLen tag with
  | some d => do return .val (← d)
  | none =>
    if tag = 0x42 ∨ tag = 0x40 then do
      let count ← readVarint
      if count.toNat > maxLen then Rd.fail
      else do
        Rd.alloc (.container count.toNat)
        return .children (← readN field count.toNat)
    else if tag = 0x41 then do
      let count ← readVarint
      Rd.alloc (.struct count.toNat)
      return .children (← readN field count.toNat)
    else Rd.fail

/-- `readField`, astsrv.go:374–384.  The Go recursion is not bounded by the code; here `fuel` bounds the nesting.
`readField_fuel` (Lemmas) shows that fuel larger than the input length never runs out. -/
def readField (maxLen : Nat) : Nat → Rd Field
  | 0 => Rd.fail
  | fuel + 1 => do
    let name ← readString
    let typ ← readString
    let p ← readValue maxLen (readField maxLen fuel)
    match p with
    | .val v => return .leaf name typ v
    | .children cs => return .node name typ cs

/-- `readFields`, astsrv.go:358–372. -/
def readFields (maxLen fuel : Nat) : Rd (List Field) := do
  let count ← readVarint
  if count.toNat > maxUint32 then Rd.fail
  else do
    Rd.alloc (.fields count.toNat)
    readN (readField maxLen fuel) count.toNat

/-- `decodeMessagePoint`, astsrv.go:246–259. -/
def decodePoint : Rd MsgPoint := do
  let point ← readVarint
  let time ← readInt64
  let stack ← readStackFrames
  return ⟨point.toUInt32, time, stack⟩

/-- `decodeMessagePointState`, astsrv.go:261–276.  The fuel is larger than the number of bytes received. -/
def decodeState (maxLen : Nat) : Rd (MsgState Field) := fun bs =>
  (do
    let point ← readVarint
    let time ← readInt64
    let stack ← readStackFrames
    let fields ← readFields maxLen (bs.length + 1)
    return (⟨point.toUInt32, time, stack, fields⟩ : MsgState Field) : Rd (MsgState Field)) bs

/-- `decodeMessagePointPanic`, astsrv.go:278–291. -/
def decodePanic : Rd MsgPanic := do
  let point ← readVarint
  let time ← readInt64
  let message ← readString
  return ⟨point.toUInt32, time, message⟩

/-- `decodeMessageError`, astsrv.go:293–306. -/
def decodeError : Rd MsgError := do
  let point ← readVarint
  let message ← readString
  let stack ← readStackFrames
  return ⟨point.toUInt32, message, stack⟩

end Verif.Wire
