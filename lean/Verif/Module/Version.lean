import Verif.Base

/-!
Versions: `golang.org/x/mod/semver` as used by `/repo/lens/module.go`, and the Go version helpers.

The library source is not part of /repo; `parse` and `compareSem` follow its documented behaviour (version v0.2x):
`vMAJOR[.MINOR[.PATCH[-PRERELEASE][+BUILD]]]`, no leading zeros, invalid versions sort before valid ones.  The library walks
over the prerelease text; here it is cut at the dots beforehand.
-/

namespace Verif.Module

abbrev Bytes := List UInt8

/-! ### Semantic versions -/

def isDigit (b : UInt8) : Bool := 48 ≤ b && b ≤ 57

/-- `[0-9A-Za-z-]` -/
def isIdentChar (b : UInt8) : Bool := isDigit b || (65 ≤ b && b ≤ 90) || (97 ≤ b && b ≤ 122) || b == 45

/-- `parseInt`: a number without leading zero. -/
def parseInt (v : Bytes) : Option (Bytes × Bytes) :=
  let d := v.takeWhile isDigit
  if d = [] then none
  else if d.head? = some 48 ∧ d.length ≠ 1 then none
  else some (d, v.dropWhile isDigit)

/-- The parts between dots. -/
def cutDots : Bytes → List Bytes
  | [] => [[]]
  | b :: v =>
    if b = 46 then [] :: cutDots v
    else match cutDots v with
      | [] => [[b]]
      | p :: ps => (b :: p) :: ps

/-- `isNum`: digits only. -/
def isNum (v : Bytes) : Bool := v.all isDigit

/-- `isBadNum`: a number with leading zero. -/
def isBadNum (v : Bytes) : Bool := isNum v && decide (v.length > 1) && v.head? == some 48

/-- `parsePrerelease` behind the '-': the identifiers and the rest, which is empty or begins with '+'. -/
def parsePre (v : Bytes) : Option (List Bytes × Bytes) :=
  let body := v.takeWhile (· != 43)
  if body.all (fun b => isIdentChar b || b == 46) && (cutDots body).all (fun p => !p.isEmpty && !isBadNum p) then
    some (cutDots body, v.dropWhile (· != 43))
  else none

/-- `parseBuild` behind the '+': takes everything. -/
def buildOk (v : Bytes) : Bool := v.all (fun b => isIdentChar b || b == 46) && (cutDots v).all fun p => !p.isEmpty

/-- A parsed version without build metadata. -/
structure Ver where
  major : Bytes
  minor : Bytes
  patch : Bytes
  pre : List Bytes
deriving DecidableEq, Repr

def zero : Bytes := [48]

/-- End of `parse`: optional build metadata, nothing else. -/
def finish (w : Ver) : Bytes → Option Ver
  | [] => some w
  | 43 :: v => if buildOk v then some w else none
  | _ => none

/-- `parse` behind the patch number. -/
def parseTail (major minor patch : Bytes) : Bytes → Option Ver
  | 45 :: v =>
    match parsePre v with
    | some (p, rest) => finish ⟨major, minor, patch, p⟩ rest
    | none => none
  | v => finish ⟨major, minor, patch, []⟩ v

/-- `parse`: a version begins with "v"; minor and patch number may be missing. -/
def parse : Bytes → Option Ver
  | 118 :: v =>
    match parseInt v with
    | none => none
    | some (major, []) => some ⟨major, zero, zero, []⟩
    | some (major, 46 :: v) =>
      match parseInt v with
      | none => none
      | some (minor, []) => some ⟨major, minor, zero, []⟩
      | some (minor, 46 :: v) =>
        match parseInt v with
        | none => none
        | some (patch, v) => parseTail major minor patch v
      | some (_, _ :: _) => none
    | some (_, _ :: _) => none
  | _ => none

/-- `<` on strings. -/
def strLt : Bytes → Bytes → Bool
  | _, [] => false
  | [], _ :: _ => true
  | a :: x, b :: y => if a < b then true else if b < a then false else strLt x y

/-- `compareInt`: shorter numbers are smaller. -/
def compareInt (x y : Bytes) : Int :=
  if x = y then 0
  else if x.length < y.length then -1
  else if x.length > y.length then 1
  else if strLt x y then -1 else 1

/-- Comparison of two different identifiers: numbers before words, numbers by length, otherwise by text. -/
def compareIdent (dx dy : Bytes) : Int :=
  if isNum dx ≠ isNum dy then (if isNum dx then -1 else 1)
  else if isNum dx ∧ dx.length < dy.length then -1
  else if isNum dx ∧ dx.length > dy.length then 1
  else if strLt dx dy then -1 else 1

/-- The loop of `comparePrerelease`. -/
def compareIdents : List Bytes → List Bytes → Int
  | [], [] => 0
  | [], _ :: _ => -1
  | _ :: _, [] => 1
  | dx :: x, dy :: y => if dx = dy then compareIdents x y else compareIdent dx dy

/-- `comparePrerelease`: a release is newer than its prereleases. -/
def comparePre (x y : List Bytes) : Int :=
  if x = y then 0 else if x = [] then 1 else if y = [] then -1 else compareIdents x y

/-- `Compare` of two valid versions. -/
def compareVer (p q : Ver) : Int :=
  if compareInt p.major q.major ≠ 0 then compareInt p.major q.major
  else if compareInt p.minor q.minor ≠ 0 then compareInt p.minor q.minor
  else if compareInt p.patch q.patch ≠ 0 then compareInt p.patch q.patch
  else comparePre p.pre q.pre

/-- `semver.Compare`. -/
def compareSem (v w : Bytes) : Int :=
  match parse v, parse w with
  | none, none => 0
  | none, some _ => -1
  | some _, none => 1
  | some p, some q => compareVer p q

/-! ### Go versions -/

/-- `compareGoVersions`, module.go:488–490. -/
def compareGo (a b : Bytes) : Int := compareSem (118 :: a) (118 :: b)

/-- `olderGoVersion`, module.go:493–504. -/
def olderGo (a b : Bytes) : Bytes :=
  if a = [] then b else if b = [] then a else if compareGo a b < 0 then a else b

/-- "1.13", asttweak.go:43. -/
def minGo : Bytes := [49, 46, 49, 51]

/-- `IsGoVersionBelowMinimum`, asttweak.go:46–51. -/
def belowMin (v : Bytes) : Bool := if v = [] then false else compareGo v minGo < 0

/-- The folding in `parseProjectDeps`, module.go:426–460: over the directives of all go.mod files. -/
def oldestGo (vs : List Bytes) : Bytes := vs.foldl olderGo []

end Verif.Module
