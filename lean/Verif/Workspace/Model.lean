import Verif.Util.Model
import Verif.Module.Model
import Verif.Report.Model

/-!
Workspaces: `parseGoWork`, `resolveGoModPath`, `ProjectGoModFiles`, `ProjectPackagePatterns`, `FindModuleVersion` and `DiffModulesFromGoWorkFiles` in
`/repo/lens/module.go`, `parseInitialModules` in `/repo/lens/engine.go`, and the patterns of `LoadProjectCallGraph` in `/repo/lens/static.go`.

Paths are those of Unix. Not modelled: reading and parsing of go.mod and go.work (library `modfile`), symbolic links, directories that cannot be
read, and which paths match a glob (`filepath.Glob` is a parameter).
-/

namespace Verif.Workspace
open Verif Verif.Util

abbrev Bytes := List UInt8

/-! ### Paths: package path/filepath -/

/-- A cleaned path: absolute or not, and its components. -/
structure Pth where
  abs : Bool
  comps : List Bytes
deriving DecidableEq, Repr

def dotdot : Bytes := [46, 46]

/-- `filepath.Clean` on the components of a relative path: ".." removes the name before it and stays where there is none. -/
def cleanRelRev : List Bytes → List Bytes → List Bytes
  | acc, [] => acc
  | acc, c :: cs =>
    if c = [] ∨ c = [46] then cleanRelRev acc cs
    else if c = dotdot then
      match acc with
      | [] => cleanRelRev [dotdot] cs
      | a :: as => if a = dotdot then cleanRelRev (dotdot :: a :: as) cs else cleanRelRev as cs
    else cleanRelRev (c :: acc) cs

/-- `filepath.Clean`. -/
def mkP (abs : Bool) (cs : List Bytes) : Pth := ⟨abs, if abs then clean cs else (cleanRelRev [] cs).reverse⟩

/-- `filepath.IsAbs`. -/
def isAbs (s : Bytes) : Bool := s.head? == some 47

/-- `filepath.Clean` of a string. -/
def parseP (s : Bytes) : Pth := mkP (isAbs s) (splitPath s)

/-- `filepath.Join`; the second part may start with a slash, that makes no difference. -/
def Pth.join (p : Pth) (cs : List Bytes) : Pth := mkP p.abs (p.comps ++ cs)

/-- `filepath.Rel`, for two paths that are both absolute or both relative. -/
def relTo (base targ : Pth) : Pth := ⟨false, relComps base.comps targ.comps⟩

/-- The path as a string. -/
def render (p : Pth) : Bytes :=
  if p.abs then 47 :: (if p.comps = [] then [] else joinPath p.comps) else joinPath p.comps

/-! ### Workspaces -/

/-- What is on disk: the working directory of the process, all directories (from the root), the go.mod file of a directory, and `filepath.Glob`
(`none`: malformed pattern). -/
structure World where
  cwd : List Bytes
  dirs : List (List Bytes)
  mods : List Bytes → Module.ModFile
  glob : Pth → Option (List Pth)

/-- The place a path means. -/
def World.place (w : World) (p : Pth) : List Bytes := if p.abs then p.comps else clean (w.cwd ++ p.comps)

def World.isDir (w : World) (p : Pth) : Bool := w.dirs.contains (w.place p)

/-- `os.Stat(filepath.Join(path, "go.mod"))` succeeds, `FileExists(…)`. -/
def World.hasMod (w : World) (p : Pth) : Bool :=
  match w.mods (w.place p) with
  | .absent => false
  | _ => true

/-- `walkEllipsis`, module.go:345–355, `start` already joined: `filepath.WalkDir` gives the starting directory and all directories below, as paths
that begin with `start`; a missing starting directory is an error. -/
def walk (w : World) (start : Pth) : Option (List Pth) :=
  if w.isDir start then
    some (((w.dirs.filter fun d => (w.place start).isPrefixOf d).map fun d => start.join (d.drop (w.place start).length)).filter w.hasMod)
  else none

def hasEllipsis (raw : Bytes) : Bool := dots.isSuffixOf raw

def trimEllipsis (raw : Bytes) : Bytes := raw.take (raw.length - 3)

/-- `strings.ContainsAny(raw, "*?[]")`. -/
def hasMeta (raw : Bytes) : Bool := raw.any fun b => b == 42 || b == 63 || b == 91 || b == 93

/-- One `use` entry, module.go:357–403: the paths added. -/
def entry (w : World) (workDir : Pth) (raw : Bytes) : Option (List Pth) :=
  if isAbs raw then
    if hasEllipsis raw then walk w (workDir.join (splitPath (trimEllipsis raw)))
    else if hasMeta raw then (w.glob (parseP raw)).map fun ms => ms.filter w.isDir
    else some [parseP raw]
  else
    if hasEllipsis raw then walk w (workDir.join (splitPath (trimEllipsis raw)))
    else if hasMeta raw then
      (w.glob (workDir.join (splitPath raw))).map fun ms => (ms.filter w.isDir).map (relTo workDir)
    else some [relTo workDir (workDir.join (splitPath raw))]

/-- All entries; the first error ends the loop. -/
def entries (w : World) (workDir : Pth) : List Bytes → Option (List Pth)
  | [] => some []
  | raw :: rest =>
    match entry w workDir raw with
    | none => none
    | some a => (entries w workDir rest).map fun b => a ++ b

/-- The keys of a set, sorted as strings. -/
def sortedSet (f : Pth → Bytes) (ps : List Pth) : List Pth := Report.sortBy (fun a b => Report.le (f a) (f b)) ps.dedup

/-- A go.work file. -/
inductive WorkFile where
  | absent
  | broken
  | use (raws : List Bytes)

/-- `parseGoWork`, module.go:327–408; `workDir` is `filepath.Dir(workPath)`. `add` cleans the path (line 340). -/
def parseGoWork (w : World) (workDir : Pth) : WorkFile → Option (List Pth)
  | .use raws => (entries w workDir raws).map fun ps => sortedSet render (ps.map fun p => mkP p.abs p.comps)
  | _ => none

/-- `resolveGoModPath`, module.go:411–416, without the name go.mod. -/
def resolve (root dir : Pth) : Pth := if dir.abs then dir else root.join dir.comps

def goMod : Bytes := [103, 111, 46, 109, 111, 100]

/-- `ProjectGoModFiles`, module.go:507–539: the directories of the go.mod files, in the order of the names of these files. -/
def goModDirs (w : World) (proj : Pth) (work : WorkFile) : Option (List Pth) :=
  let root := if w.hasMod proj then [proj] else []
  match work with
  | .absent => if w.hasMod proj then some (sortedSet (fun d => render (d.join [goMod])) root) else none
  | _ =>
    match parseGoWork w proj work with
    | none => none
    | some ds => some (sortedSet (fun d => render (d.join [goMod])) (root ++ (ds.map (resolve proj)).filter w.hasMod))

/-- One pattern, module.go:549–563. `filepath.Rel` fails only if exactly one of the paths is absolute. -/
def pattern (proj dir : Pth) : Bytes :=
  if dir = proj then [46, 47] ++ dots
  else if dir.abs = proj.abs ∧ ¬ dotdot <+: joinPath (relComps proj.comps dir.comps) then
    [46, 47] ++ render (mkP false (relComps proj.comps dir.comps ++ [dots]))
  else render (dir.join [dots])

/-- `ProjectPackagePatterns`, module.go:543–565. -/
def patterns (w : World) (proj : Pth) (work : WorkFile) : Option (List Bytes) := (goModDirs w proj work).map fun ds => ds.map (pattern proj)

/-- One directory of a workspace as a pattern for `packages.Load`, static.go:318–324. -/
def graphPattern (d : Pth) : Bytes := if d.abs then render (d.join [dots]) else [46, 47] ++ render (d.join [dots])

/-- The patterns of `LoadProjectCallGraph`, static.go:307–328; `none` is an error. -/
def graphPatterns (w : World) (proj : Pth) (work : WorkFile) : Option (List Bytes) :=
  let root := if w.hasMod proj then [[46, 47] ++ dots] else []
  match work with
  | .absent => if root = [] then none else some root
  | _ =>
    match parseGoWork w proj work with
    | none => none
    | some ds => if root ++ ds.map graphPattern = [] then none else some (root ++ ds.map graphPattern)

/-- `FindModuleVersionInGoMod`, module.go:28–43: the first requirement of the module (`some none`: not required). -/
def versionIn (f : Module.ModFile) (name : Bytes) : Option (Option Module.Req) :=
  match f with
  | .reqs rs => some (rs.find? fun r => r.path = name)
  | _ => none

/-- `FindModuleVersion`, module.go:573–581: the first go.mod file with a version that is not empty. -/
def findVersion (w : World) (name : Bytes) : List Pth → Option (Option Module.Req)
  | [] => some none
  | d :: ds =>
    match versionIn (w.mods (w.place d)) name with
    | none => none
    | some none => findVersion w name ds
    | some (some r) => if r.version = [] then findVersion w name ds else some (some r)

/-- The loop of `DiffModulesFromGoWorkFiles`, module.go:608–622; the set of directories is visited in some order. -/
def compareDirs (w : World) (proj newRoot : Pth) : List Pth → Option (List Module.Change)
  | [] => some []
  | d :: ds =>
    match w.mods (w.place (resolve proj d)), w.mods (w.place (resolve newRoot d)) with
    | .absent, _ => compareDirs w proj newRoot ds
    | _, .absent => compareDirs w proj newRoot ds
    | .reqs a, .reqs b => (compareDirs w proj newRoot ds).map fun rest => Module.diffMods a b ++ rest
    | _, _ => none

/-- `DiffModulesFromGoWorkFiles`, module.go:585–622; `order` is the order in which the set is visited. -/
def compareWork (w : World) (proj newRoot : Pth) (old new : WorkFile) (order : List Pth → List Pth) : Option (List Module.Change) :=
  match parseGoWork w proj old, parseGoWork w newRoot new with
  | some a, some b => compareDirs w proj newRoot (order (a ++ b).dedup)
  | _, _ => none

/-! ### Where the analysis starts -/

/-- The loop over the target modules of `parseInitialModules`, engine.go:950–965. -/
def targets (w : World) (mods : List Pth) : List (Bytes × Bytes) → Option (List Module.Change)
  | [] => some []
  | (name, version) :: rest =>
    match findVersion w name mods with
    | none => none
    | some none => targets w mods rest
    | some (some r) => (targets w mods rest).map fun cs => ⟨name, r.version, version, r.indirect⟩ :: cs

/-- What the user asks for: modules, an updated go.mod or an updated go.work (with its directory). -/
structure Ask where
  modules : List (Bytes × Bytes)
  goMod : Option Module.ModFile
  goWork : Option (Pth × WorkFile)

/-- `parseInitialModules`, engine.go:938–991: the changes and whether their dependencies are followed. The radius is in `Verif/Mutation`. -/
def initial (w : World) (proj : Pth) (work : WorkFile) (ask : Ask) (order : List Pth → List Pth) : Option (List Module.Change × Bool) :=
  match goModDirs w proj work with
  | none => none
  | some mods =>
    if ask.modules ≠ [] then (targets w mods ask.modules).map fun cs => (cs, true)
    else
      match ask.goMod with
      | some f =>
        match mods with
        | [d] =>
          match w.mods (w.place d), f with
          | .reqs a, .reqs b => some (Module.diffMods a b, false)
          | _, _ => none
        | _ => none
      | none =>
        match ask.goWork with
        | some (newRoot, new) => (compareWork w proj newRoot work new order).map fun cs => (cs, false)
        | none => some ([], false)

end Verif.Workspace
