import Verif.Module.Model
import Mathlib.Data.List.Lex

/-!
What C34–C41 talk about.
-/

namespace Verif.Module

/-! ### Versions -/

/-- Value of a decimal number. -/
def numVal : Bytes → Nat
  | [] => 0
  | b :: v => (b.toNat - 48) * 10 ^ v.length + numVal v

/-- Only decimal digits. -/
def Digits (v : Bytes) : Prop := ∀ b ∈ v, 48 ≤ b.toNat ∧ b.toNat ≤ 57

instance (v : Bytes) : Decidable (Digits v) := by unfold Digits; infer_instance

/-- Precedence of a prerelease identifier: numbers by value, before words, which go by their characters. -/
def identKey (p : Bytes) : List Nat := if Digits p then [0, numVal p] else 1 :: p.map (·.toNat)

/-- Precedence of a version (semver.org, item 11), to be compared lexicographically: the three numbers, then the prerelease
identifiers, where having none comes last. -/
def verKey (w : Ver) : List (List Nat) :=
  [numVal w.major] :: [numVal w.minor] :: [numVal w.patch] :: (if w.pre = [] then [[2]] else w.pre.map identKey)

/-- Invalid versions come first. -/
def semKey (v : Bytes) : List (List Nat) :=
  match parse v with
  | none => []
  | some w => verKey w

/-- −1, 0 or 1. -/
def sgn {α : Type} [LinearOrder α] (a b : α) : Int := if a < b then -1 else if a = b then 0 else 1

/-- A number as versions contain it. -/
def GoodNum (v : Bytes) : Prop := v ≠ [] ∧ Digits v ∧ (v.head? = some 48 → v.length = 1)

/-- A prerelease identifier. -/
def GoodIdent (p : Bytes) : Prop :=
  p ≠ [] ∧ (∀ b ∈ p, isIdentChar b = true) ∧ (Digits p → p.head? = some 48 → p.length = 1)

/-- A well-formed version. -/
structure GoodVer (w : Ver) : Prop where
  major : GoodNum w.major
  minor : GoodNum w.minor
  patch : GoodNum w.patch
  pre : ∀ p ∈ w.pre, GoodIdent p

/-- Parts joined by dots. -/
def joinDots : List Bytes → Bytes
  | [] => []
  | [p] => p
  | p :: ps => p ++ 46 :: joinDots ps

/-- Text of a version, with build metadata if there are parts. -/
def verText (w : Ver) (build : List Bytes) : Bytes :=
  118 :: w.major ++ 46 :: w.minor ++ 46 :: w.patch ++ (if w.pre = [] then [] else 45 :: joinDots w.pre) ++
    (if build = [] then [] else 43 :: joinDots build)

/-- Text of a Go version such as 1.21 or 1.21.3. -/
def goText (a b : Nat) (c : Option Nat) : Bytes :=
  itoaBytes a ++ 46 :: itoaBytes b ++ (match c with | none => [] | some c => 46 :: itoaBytes c)

/-! ### Requirements -/

/-- The version a file requires: the last requirement of the path. -/
def Requires (rs : List Req) (p v : Bytes) : Prop :=
  ∃ a r b, rs = a ++ r :: b ∧ r.path = p ∧ r.version = v ∧ ∀ r' ∈ b, r'.path ≠ p

/-! ### Analysis -/

/-- A dependency to follow up: the new version of the module requires it in a version other than the old one did (if it
did), and the project has it in yet another version. -/
def FollowUp (project oldDeps newDeps : AMap Bytes Bytes) (d : Change) : Prop :=
  (d.name, d.new) ∈ newDeps ∧ oldDeps.get d.name ≠ some d.new ∧ project.get d.name = some d.prior ∧ d.prior ≠ d.new ∧ d.indirect = true

/-- Changes reachable from the requests through dependencies. -/
inductive Reachable {F : Type} (env : Env F) (trans : Bool) (reqs : List Change) : Change → Prop
  | request {c} : c ∈ reqs → Reachable env trans reqs c
  | follow {c d fs oldDeps newDeps} : Reachable env trans reqs c → env.load c = some (fs, oldDeps, newDeps) → trans = true →
      FollowUp env.project oldDeps newDeps d → Reachable env trans reqs d

/-! ### Opcodes -/

/-- What the sequence matcher promises: the opcodes cover both texts in order, equal blocks have equal lines, insertions take
nothing from the old text, deletions nothing from the new one. -/
inductive Covers (old new : List Bytes) : Nat → Nat → List Op → Prop
  | done : Covers old new old.length new.length []
  | op {i j : Nat} (c : Op) {cs : List Op} : c.i1 = i → c.j1 = j → c.i1 ≤ c.i2 → c.j1 ≤ c.j2 →
      (c.tag = .equal → c.i2 - c.i1 = c.j2 - c.j1 ∧ ∀ k < c.i2 - c.i1, old[c.i1 + k]? = new[c.j1 + k]?) →
      (c.tag = .insert → c.i1 = c.i2) → (c.tag = .delete → c.j1 = c.j2) →
      Covers old new c.i2 c.j2 cs → Covers old new i j (c :: cs)

/-- Line `i` of the old text is kept as line `j` of the new one. -/
def Kept (ops : List Op) (i j : Nat) : Prop := ∃ c ∈ ops, c.tag = .equal ∧ c.i1 ≤ i ∧ i < c.i2 ∧ c.j1 ≤ j ∧ i - c.i1 = j - c.j1

/-- Line `i` is marked. -/
def Marked (bm : List Bool) (i : Nat) : Prop := bm[i]? = some true

/-! ### Files -/

/-- A capital letter. -/
def Capital (b : UInt8) : Prop := 'A'.toNat ≤ b.toNat ∧ b.toNat ≤ 'Z'.toNat

/-- The same byte, or one is the capital letter of the other. -/
def SameLetter (a b : UInt8) : Prop := a = b ∨ Capital a ∧ b.toNat = a.toNat + 32 ∨ Capital b ∧ a.toNat = b.toNat + 32

/-- Equal on a case-insensitive file system. -/
def SameFolded (a b : Bytes) : Prop := List.Forall₂ SameLetter a b

instance : DecidablePred Capital := fun b => by unfold Capital; infer_instance
instance (a b : UInt8) : Decidable (SameLetter a b) := by unfold SameLetter; infer_instance

/-- Paths as modules have them: letters, digits, `-`, `.`, `_`, `~` and `/`. -/
def PathByte (b : UInt8) : Prop :=
  Capital b ∨ ('a'.toNat ≤ b.toNat ∧ b.toNat ≤ 'z'.toNat) ∨ ('0'.toNat ≤ b.toNat ∧ b.toNat ≤ '9'.toNat) ∨ b ∈ "-._~/".toUTF8.toList

instance : DecidablePred PathByte := fun b => by unfold PathByte; infer_instance

end Verif.Module
