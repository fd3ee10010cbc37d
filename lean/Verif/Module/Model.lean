import Verif.Module.Version
import Verif.AMap

/-!
Modules: `/repo/lens/module.go`, and the filter by Go version in `/repo/lens/astexec.go`.

Not modelled: reading and parsing go.mod / go.work text (library `modfile`), loading packages, printing and comparing function
definitions.  Files appear as their parsed contents, loading a module version as a function that may fail.
-/

namespace Verif.Module

/-! ### Comparing go.mod files -/

/-- A requirement of a parsed go.mod file. -/
structure Req where
  path : Bytes
  version : Bytes
  indirect : Bool
deriving DecidableEq, Repr

/-- `ModuleChange`, types.go: a module with its version before and after. -/
structure Change where
  name : Bytes
  prior : Bytes
  new : Bytes
  indirect : Bool
deriving DecidableEq, Repr

/-- `oldReq` / `deps`, module.go:64–67 and 315–318: the last requirement of a path counts. -/
def reqMap (rs : List Req) : AMap Bytes Bytes := rs.foldl (fun (m : AMap Bytes Bytes) r => m.set r.path r.version) []

/-- `DiffModulesFromGoModFiles` behind parsing, module.go:64–86. -/
def diffMods (old new : List Req) : List Change :=
  new.filterMap fun r =>
    match (reqMap old).get r.path with
    | some v => if v ≠ r.version then some ⟨r.path, v, r.version, r.indirect⟩ else none
    | none => none

/-- A go.mod file on disk. -/
inductive ModFile where
  | absent
  | broken
  | reqs (rs : List Req)

/-- The loop of `DiffModulesFromGoWorkFiles`, module.go:607–622; `dirs` are the directories of both workspace files in any
order (the code ranges over a map), `none` is an error. -/
def diffWork (old new : Bytes → ModFile) : List Bytes → Option (List Change)
  | [] => some []
  | d :: ds =>
    match old d, new d with
    | .absent, _ => diffWork old new ds
    | _, .absent => diffWork old new ds
    | .reqs a, .reqs b => (diffWork old new ds).map fun rest => diffMods a b ++ rest
    | _, _ => none

/-! ### Dependencies of a project -/

/-- Adding the requirements of one go.mod file to `versionsMap`, module.go:436–438 and 456–458. -/
def addDeps (vm : AMap Bytes (List Bytes)) (deps : AMap Bytes Bytes) : AMap Bytes (List Bytes) :=
  deps.foldl (fun (vm : AMap Bytes (List Bytes)) kv => vm.set kv.1 ((vm.get kv.1).getD [] ++ [kv.2])) vm

/-- Choice of one version, module.go:466–479. -/
def choose (newest : Bool) : List Bytes → Bytes
  | [] => []
  | v :: vs => vs.foldl (fun c v => if newest then (if compareSem v c > 0 then v else c) else if compareSem v c < 0 then v else c) v

/-- `parseProjectDeps`, module.go:420–484, from the parsed go.mod files (root first). -/
def projectDeps (newest : Bool) (files : List (AMap Bytes Bytes)) : AMap Bytes Bytes :=
  (files.foldl addDeps []).map fun kv => (kv.1, choose newest kv.2)

/-! ### Analysis of the changed modules -/

/-- What is outside: loading a change gives its changed functions and the dependencies of its old and new version (or
fails); the project's own dependencies. -/
structure Env (F : Type) where
  load : Change → Option (List F × AMap Bytes Bytes × AMap Bytes Bytes)
  project : AMap Bytes Bytes

/-- The recursive calls for one module, module.go:243–260: dependencies that are new or changed and that the project has in
another version. -/
def followUps (project oldDeps newDeps : AMap Bytes Bytes) : List Change :=
  newDeps.filterMap fun kv =>
    if oldDeps.get kv.1 ≠ some kv.2 then
      match project.get kv.1 with
      | some pv => if pv ≠ kv.2 then some ⟨kv.1, pv, kv.2, true⟩ else none
      | none => none
    else none

/-- `analyzeModuleChangesInternal`, module.go:156–263; `seen` are the modules analysed so far (`visited`), newest first.
Returns the functions, the recursive calls and the new `seen`; `none` is an error. -/
def analyzeOne {F : Type} (env : Env F) (trans : Bool) (seen : List Change) (mc : Change) : Option (List F × List Change × List Change) :=
  if mc.name ∈ seen.map (·.name) then some ([], [], seen)
  else
    match env.load mc with
    | none => none
    | some (fs, oldDeps, newDeps) => some (fs, if trans then followUps env.project oldDeps newDeps else [], mc :: seen)

/-- State of `AnalyzeModuleChanges`. -/
structure AState (F : Type) where
  seen : List Change
  data : AMap Bytes (List F)
  next : List Change

/-- The loop over the requested modules, module.go:111–124. -/
def requestLoop {F : Type} (env : Env F) (trans : Bool) : List Change → AState F → Option (AState F)
  | [], s => some s
  | mc :: mcs, s =>
    match analyzeOne env trans s.seen mc with
    | none => none
    | some (fs, calls, seen) => requestLoop env trans mcs ⟨seen, s.data.set mc.name fs, s.next ++ calls⟩

/-- One level of recursive calls, module.go:130–145. The functions of a change belong to its module. -/
def levelLoop {F : Type} (env : Env F) : List Change → AState F → Option (AState F)
  | [], s => some s
  | mc :: mcs, s =>
    match analyzeOne env true s.seen mc with
    | none => none
    | some (fs, calls, seen) =>
      levelLoop env mcs
        ⟨seen, fs.foldl (fun (d : AMap Bytes (List F)) f => d.set mc.name ((d.get mc.name).getD [] ++ [f])) s.data, s.next ++ calls⟩

/-- Outcome of a loop that is cut off after a number of rounds. -/
inductive Outcome (F : Type) where
  | cutOff
  | failed
  | done (s : AState F)

/-- The loop over the levels, module.go:127–148. -/
def levels {F : Type} (env : Env F) : Nat → AState F → Outcome F
  | 0, s => if s.next = [] then .done s else .cutOff
  | n + 1, s =>
    if s.next = [] then .done s
    else
      match levelLoop env s.next { s with next := [] } with
      | none => .failed
      | some s' => levels env n s'

/-- `AnalyzeModuleChanges`, module.go:103–150. -/
def analyze {F : Type} (env : Env F) (trans : Bool) (reqs : List Change) (rounds : Nat) : Outcome F :=
  match requestLoop env trans reqs ⟨[], [], []⟩ with
  | none => .failed
  | some s => levels env rounds s

/-! ### Changed lines -/

/-- Kind of an opcode of the sequence matcher. -/
inductive Tag where
  | equal | replace | delete | insert
deriving DecidableEq, Repr

/-- `difflib.OpCode`: lines `i1..i2` of the old text correspond to `j1..j2` of the new one. -/
structure Op where
  tag : Tag
  i1 : Nat
  i2 : Nat
  j1 : Nat
  j2 : Nat
deriving DecidableEq, Repr

/-- `markChanged`, module.go:702–706. -/
def mark (bm : List Bool) (idx : Int) : List Bool := if 0 ≤ idx ∧ idx < bm.length then bm.set idx.toNat true else bm

/-- `markWithRadius`, module.go:707–713. -/
def markRadius (bm : List Bool) (idx : Int) : Nat → List Bool
  | 0 => mark bm idx
  | r + 1 => mark (mark (markRadius bm idx r) (idx - (r + 1))) (idx + (r + 1))

/-- Marking `lo..hi`. -/
def markRange (bm : List Bool) (lo : Nat) : Nat → List Bool
  | 0 => bm
  | n + 1 => mark (markRange bm lo n) (lo + n)

/-- Marking around an insertion in the old text, module.go:739–742. -/
def markGap (bm : List Bool) (at_ : Nat) : Nat → List Bool
  | 0 => bm
  | r + 1 => mark (mark (markGap bm at_ r) ((at_ : Int) - 1 - r)) (at_ + r)

/-- Marking a range of the new text with a radius, module.go:721–727. -/
def markRangeRadius (bm : List Bool) (radius lo : Nat) : Nat → List Bool
  | 0 => bm
  | n + 1 => markRadius (markRangeRadius bm radius lo n) (lo + n) radius

/-- One opcode, module.go:715–745. -/
def markOp (newFunc : Bool) (radius : Nat) (bm : List Bool) (c : Op) : List Bool :=
  if c.tag = .equal then bm
  else if newFunc then
    if c.tag = .insert then markRangeRadius bm radius c.j1 (c.j2 - c.j1) else markRange bm c.j1 (c.j2 - c.j1)
  else if c.tag = .insert then markGap bm c.i1 radius
  else markRange bm c.i1 (c.i2 - c.i1)

/-- `computeChangeLineBitmap`, module.go:689–748, for given lines and opcodes. -/
def bitmap (oldLines newLines : List Bytes) (ops : List Op) (newFunc : Bool) (radius : Nat) : List Bool :=
  ops.foldl (markOp newFunc radius) (List.replicate (if newFunc then newLines.length else oldLines.length) false)

/-! ### Modules that are too old -/

/-- A changed function, with the Go version of its module if it has one. -/
structure ModFunc where
  ident : Bytes
  goVersion : Option Bytes
deriving DecidableEq, Repr

/-- `FilterModulesByGoVersion`, astexec.go:37–52. -/
def filterByGo : List ModFunc → List ModFunc × Nat
  | [] => ([], 0)
  | f :: fs =>
    let r := filterByGo fs
    match f.goVersion with
    | some v => if belowMin v then (r.1, r.2 + 1) else (f :: r.1, r.2)
    | none => (f :: r.1, r.2)

/-! ### The module cache -/

def isUpper (b : UInt8) : Bool := 65 ≤ b && b ≤ 90

def lower (b : UInt8) : UInt8 := if isUpper b then b + 32 else b

/-- Characters of module paths: letters, digits, `-._~` and `/`. -/
def isPathChar (b : UInt8) : Bool := isIdentChar b || b == 46 || b == 95 || b == 126 || b == 47

/-- `module.EscapePath`: capital letters become '!' and the small letter. The library also rejects paths for other reasons,
so it accepts fewer than this. -/
def escapePath (p : Bytes) : Option Bytes :=
  if p.all isPathChar then some (p.flatMap fun b => if isUpper b then [33, lower b] else [b]) else none

/-- The directory of `FindModulePathInCache`, module.go:286–303, without the file system check (`filepath.Join` of clean
parts). -/
def cacheDir (cache path version : Bytes) : Option Bytes :=
  (escapePath path).map fun e => cache ++ 47 :: (e ++ 64 :: version)

end Verif.Module
