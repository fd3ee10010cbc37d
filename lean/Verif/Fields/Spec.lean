import Verif.Fields.Model
import Verif.Result.Spec

/-! What should be recorded of a message, path by path. -/

namespace Verif.Fields

open Verif.Wire (Val Field)
open Verif.Result (Bytes FMap leafAt)

def nameOf : Field → Bytes
  | .leaf n _ _ => n
  | .node n _ _ => n

def typeOf : Field → Bytes
  | .leaf _ t _ => t
  | .node _ t _ => t

/-- A field that belongs to the inside of a `reflect.Value`: one of its three parts, or a value of one of the two internal types. -/
def Internal (parent : Bytes) (f : Field) : Prop :=
  (parent = "reflect.Value".toUTF8.toList ∧ nameOf f ∈ ["typ_".toUTF8.toList, "flag".toUTF8.toList, "ptr".toUTF8.toList]) ∨
  typeOf f ∈ ["reflect.rtype".toUTF8.toList, "reflect.flag".toUTF8.toList]

/-- `f` is the last of the fields that are recorded under its name. -/
def Last (parent : Bytes) (fs : List Field) (f : Field) : Prop :=
  ¬ Internal parent f ∧ ∃ a b, fs = a ++ f :: b ∧ ∀ g ∈ b, nameOf g = nameOf f → Internal parent g

/-- What is kept of the text of a value: all of it, or its hash. -/
def Kept (c : Lib) (typ text s : Bytes) : Prop :=
  ("string".toUTF8.toList <:+ typ ∨ text.length ≤ 128) ∧ s = text ∨
  ¬ "string".toUTF8.toList <:+ typ ∧ 128 < text.length ∧ s = "vsha1-".toUTF8.toList ++ c.hash text

/-- The value at a path in a message, with `Sel` choosing among fields of the same name. -/
inductive At (c : Lib) (Sel : Bytes → List Field → Field → Prop) : Bytes → List Field → List Bytes → Bytes → Prop
  | leaf {parent fs n t v s} : Sel parent fs (.leaf n t v) → Kept c t (sprint c v) s → At c Sel parent fs [n] s
  /-- An empty container. -/
  | void {parent fs n t s} : Sel parent fs (.node n t []) → Kept c t "<nil>".toUTF8.toList s → At c Sel parent fs [n] s
  /-- A container of which all is internal. -/
  | hollow {parent fs n t cs} : Sel parent fs (.node n t cs) → cs ≠ [] → (∀ f ∈ cs, Internal t f) → At c Sel parent fs [n] []
  | inner {parent fs n t cs p s} : Sel parent fs (.node n t cs) → At c Sel t cs p s → At c Sel parent fs (n :: p) s

/-- Any field that is not internal. -/
def Any (parent : Bytes) (fs : List Field) (f : Field) : Prop := ¬ Internal parent f ∧ f ∈ fs

/-- Names are distinct at every level. -/
inductive Distinct : List Field → Prop
  | mk {fs} : (fs.map nameOf).Nodup → (∀ n t cs, .node n t cs ∈ fs → Distinct cs) → Distinct fs

/-- The same fields, in another order at any level (the order in which Go visits a map is random). -/
inductive Shuffled : List Field → List Field → Prop
  | nil : Shuffled [] []
  | leaf {n t v fs gs} : Shuffled fs gs → Shuffled (.leaf n t v :: fs) (.leaf n t v :: gs)
  | node {n t cs ds fs gs} : Shuffled cs ds → Shuffled fs gs → Shuffled (.node n t cs :: fs) (.node n t ds :: gs)
  | swap {f g fs} : Shuffled (f :: g :: fs) (g :: f :: fs)
  | trans {fs gs hs} : Shuffled fs gs → Shuffled gs hs → Shuffled fs hs

/-- Same content. -/
def Equal (a b : FMap) : Prop := ∀ p, leafAt p a = leafAt p b

/-- The leaf at a path has this type and value. -/
inductive Holds : Bytes → List Field → List Bytes → Bytes → Val → Prop
  | leaf {parent fs n t v} : Any parent fs (.leaf n t v) → Holds parent fs [n] t v
  | inner {parent fs n t cs p t' v} : Any parent fs (.node n t cs) → Holds t cs p t' v → Holds parent fs (n :: p) t' v

/-- The tag of a value on the wire. -/
def kind : Val → Nat
  | .nil => 0
  | .bool _ => 1
  | .int32 _ => 2
  | .int64 _ => 3
  | .uint32 _ => 4
  | .uint64 _ => 5
  | .float32 _ => 6
  | .float64 _ => 7
  | .complex _ _ => 8
  | .str _ => 9
  | .boolSlice _ => 10
  | .bytes _ => 11
  | .int32Slice _ => 12
  | .int64Slice _ => 13
  | .uint32Slice _ => 14
  | .uint64Slice _ => 15
  | .float32Slice _ => 16
  | .float64Slice _ => 17
  | .strSlice _ => 18

/-- Not a number: all bits of the exponent set, some bit of the fraction set. -/
def NaN32 (b : UInt32) : Prop := b.toNat / 2 ^ 23 % 2 ^ 8 = 255 ∧ b.toNat % 2 ^ 23 ≠ 0
def NaN64 (b : UInt64) : Prop := b.toNat / 2 ^ 52 % 2 ^ 11 = 2047 ∧ b.toNat % 2 ^ 52 ≠ 0

/-- A text without spaces that is not empty. -/
def Word (s : Bytes) : Prop := s ≠ [] ∧ 32 ∉ s

/-- Different floating point numbers have different texts, which are words. -/
structure LibOK (c : Lib) : Prop where
  inj32 : ∀ a b, ¬ NaN32 a → ¬ NaN32 b → c.f32 a = c.f32 b → a = b
  inj64 : ∀ a b, ¬ NaN64 a → ¬ NaN64 b → c.f64 a = c.f64 b → a = b
  injc : ∀ a b a' b', ¬ NaN64 a → ¬ NaN64 b → ¬ NaN64 a' → ¬ NaN64 b' → c.cplx a b = c.cplx a' b' → a = a' ∧ b = b'
  word32 : ∀ a, Word (c.f32 a)
  word64 : ∀ a, Word (c.f64 a)

/-- Slices of strings contain words only, and all numbers are numbers. -/
def Plain : Val → Prop
  | .float32 a => ¬ NaN32 a
  | .float64 a => ¬ NaN64 a
  | .complex a b => ¬ NaN64 a ∧ ¬ NaN64 b
  | .float32Slice l => ∀ a ∈ l, ¬ NaN32 a
  | .float64Slice l => ∀ a ∈ l, ¬ NaN64 a
  | .strSlice l => ∀ s ∈ l, Word s
  | _ => True

end Verif.Fields
