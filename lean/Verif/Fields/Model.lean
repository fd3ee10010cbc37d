import Verif.Wire.Model
import Verif.Result.Model
import Verif.Compare.Model

/-!
From a decoded message to recorded field values: `collectFields` and `shouldCaptureField`, `/repo/lens/astexec.go:836–878`, and their use in
`HandleFuncPointState`, 748–753.
-/

namespace Verif.Fields

open Verif.Wire (Val Field)
open Verif.Result (Bytes FMap)

/-- What is left to libraries: the texts `fmt.Sprint` gives floating point numbers (by their bits) and the text of a hash,
`base91.StdEncoding.EncodeToString(sha1.Sum(s))`. -/
structure Lib where
  f32 : UInt32 → Bytes
  f64 : UInt64 → Bytes
  cplx : UInt64 → UInt64 → Bytes
  hash : Bytes → Bytes

/-- "<nil>" -/
def nilText : Bytes := [60, 110, 105, 108, 62]

/-- `fmt.Sprint` of a bool. -/
def boolText : Bool → Bytes
  | true => [116, 114, 117, 101]
  | false => [102, 97, 108, 115, 101]

/-- `fmt.Sprint` of an integer. -/
def intText : Int → Bytes
  | .ofNat n => itoaBytes n
  | .negSucc n => 45 :: itoaBytes (n + 1)

/-- Texts with spaces between them. -/
def spaced : List Bytes → Bytes
  | [] => []
  | [x] => x
  | x :: y :: rest => x ++ 32 :: spaced (y :: rest)

/-- `fmt.Sprint` of a slice: the elements in brackets. -/
def sliceText (l : List Bytes) : Bytes := 91 :: (spaced l ++ [93])

/-- `fmt.Sprint(val)`, astexec.go:865, for the values `readValue` yields (astsrv.go:389–490). -/
def sprint (c : Lib) : Val → Bytes
  | .nil => nilText
  | .bool b => boolText b
  | .int32 v => intText v.toInt
  | .int64 v => intText v.toInt
  | .uint32 v => itoaBytes v.toNat
  | .uint64 v => itoaBytes v.toNat
  | .float32 v => c.f32 v
  | .float64 v => c.f64 v
  | .complex r i => c.cplx r i
  | .str s => s
  | .boolSlice l => sliceText (l.map boolText)
  | .bytes l => sliceText (l.map fun b => itoaBytes b.toNat)
  | .int32Slice l => sliceText (l.map fun v => intText v.toInt)
  | .int64Slice l => sliceText (l.map fun v => intText v.toInt)
  | .uint32Slice l => sliceText (l.map fun v => itoaBytes v.toNat)
  | .uint64Slice l => sliceText (l.map fun v => itoaBytes v.toNat)
  | .float32Slice l => sliceText (l.map c.f32)
  | .float64Slice l => sliceText (l.map c.f64)
  | .strSlice l => sliceText l

/-- "string" -/
def stringText : Bytes := [115, 116, 114, 105, 110, 103]

/-- The value stored for a text, astexec.go:866–870: long texts are replaced by their hash unless the type's name ends in "string". -/
def stored (c : Lib) (typ text : Bytes) : Bytes :=
  if !(stringText.isSuffixOf typ) && decide (text.length > 128) then Compare.hashPrefix ++ c.hash text else text

/-- "reflect.Value" -/
def reflectValue : Bytes := [114, 101, 102, 108, 101, 99, 116, 46, 86, 97, 108, 117, 101]
/-- "reflect.rtype" -/
def reflectRtype : Bytes := [114, 101, 102, 108, 101, 99, 116, 46, 114, 116, 121, 112, 101]
/-- "reflect.flag" -/
def reflectFlag : Bytes := [114, 101, 102, 108, 101, 99, 116, 46, 102, 108, 97, 103]
/-- "typ_" -/
def nameTyp : Bytes := [116, 121, 112, 95]
/-- "flag" -/
def nameFlag : Bytes := [102, 108, 97, 103]
/-- "ptr" -/
def namePtr : Bytes := [112, 116, 114]

/-- `shouldCaptureField`, astexec.go:839–854. -/
def shouldCapture (name typ parent : Bytes) : Bool :=
  if parent = reflectValue ∧ (name = nameTyp ∨ name = nameFlag ∨ name = namePtr) then false
  else if typ = reflectRtype ∨ typ = reflectFlag then false
  else true

/-- `dst[key] = value`. -/
def put (k v : Bytes) (kids : FMap) : FMap → FMap
  | .cons k2 v2 kids2 rest => if k2 = k then .cons k v kids rest else .cons k2 v2 kids2 (put k v kids rest)
  | _ => .cons k v kids .empty

mutual
/-- `collectFields`, astexec.go:857–878. -/
def collect (c : Lib) (parent : Bytes) : Field → FMap → FMap
  | .leaf name typ v, dst => if shouldCapture name typ parent then put name (stored c typ (sprint c v)) .goNil dst else dst
  | .node name typ [], dst => if shouldCapture name typ parent then put name (stored c typ nilText) .goNil dst else dst
  | .node name typ (f :: fs), dst =>
    if shouldCapture name typ parent then put name [] (collectAll c typ (f :: fs) .empty) dst else dst

/-- The loops over fields, astexec.go:750–753 and 874–876. -/
def collectAll (c : Lib) (parent : Bytes) : List Field → FMap → FMap
  | [], dst => dst
  | f :: fs, dst => collectAll c parent fs (collect c parent f dst)
end

/-- The fields of a message as recorded, astexec.go:748–753. -/
def record (c : Lib) (fs : List Field) : FMap := collectAll c [] fs .empty

end Verif.Fields
