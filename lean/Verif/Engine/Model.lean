import Verif.Util.Model

/-!
Configuration, orchestration and the temporary copy: `/repo/lens/engine.go`.

The file system appears as answers: whether a file can be read, whether a directory can be written, whether a copy works. Providers are
interfaces in the code; here each is its outcome. A provider that panics is not modelled.
-/

namespace Verif.Engine
open Verif Verif.Util

/-! ### Module arguments -/

/-- `TargetModule`, engine.go:49–52. -/
structure Target where
  name : Bytes
  version : Bytes
deriving DecidableEq, Repr

/-- `strings.SplitN(s, "@", 2)`, engine.go:1151; `none` if there is only one part. -/
def cutAt : Bytes → Option (Bytes × Bytes)
  | [] => none
  | b :: s =>
    if b = 64 then some ([], s)
    else match cutAt s with
      | none => none
      | some (x, y) => some (b :: x, y)

/-- `parseTargetModule`, engine.go:1150–1169. -/
def parseTarget (s : Bytes) : Option Target :=
  match cutAt s with
  | none => none
  | some (n, v) =>
    if n = [] then none
    else if v = [] then none
    else if 47 ∉ n ∧ 46 ∉ n then none
    else some ⟨n, v⟩

/-- `strings.Split(s, ",")`, engine.go:1082. -/
def splitComma : Bytes → List Bytes
  | [] => [[]]
  | b :: s =>
    if b = 44 then [] :: splitComma s
    else match splitComma s with
      | [] => [[b]]
      | l :: ls => (b :: l) :: ls

/-- White space; beyond ASCII it is not modelled. -/
def isSpace (b : UInt8) : Bool := b == 32 || (9 ≤ b && b ≤ 13)

/-- `strings.TrimSpace`, engine.go:1084. -/
def trim (s : Bytes) : Bytes := ((s.dropWhile isSpace).reverse.dropWhile isSpace).reverse

inductive Err where
  | again
  | project
  | noTarget
  | bothFiles
  | abs
  | moduleArg
  | modulesEmpty
  | modulesArg
  | gomod
  | gowork
  | range
  | scope
  | mode
  | tests
  | json
  | charts
deriving DecidableEq, Repr

/-- The loop over the list, engine.go:1083–1093: what was appended, and the error that ended it. -/
def parseEach : List Bytes → List Target × Option Err
  | [] => ([], none)
  | m :: ms =>
    if trim m = [] then ([], some .modulesEmpty)
    else match parseTarget (trim m) with
      | none => ([], some .modulesArg)
      | some t => match parseEach ms with | (ts, e) => (t :: ts, e)

/-! ### Prepare -/

/-- `Config`, engine.go:30–46 (without the custom flags, GOPATH and the module cache, which `Prepare` does not touch). -/
structure Config where
  projectDir : Bytes
  moduleFlag : Bytes
  modulesFlag : Bytes
  gomod : Bytes
  gowork : Bytes
  port : Int
  recurse : Int
  fieldLen : Int
  cacheMB : Int
  json : Bytes
  charts : Bytes
  scope : Bytes
  mode : Bytes
  tests : Bytes
  times : Int
  absDir : Bytes
  targets : List Target
  prepared : Bool
deriving DecidableEq, Repr

/-- `filepath.Abs`, `validateFilePath` (engine.go:1172–1190) and `validateOutputPath` (engine.go:1193–1211). -/
structure World where
  abs : Bytes → Option Bytes
  fileOk : Bytes → Bool
  outOk : Bytes → Bool

/-- "function", "line", "area", "none", engine.go:1121. -/
def scopes : List Bytes := [[102, 117, 110, 99, 116, 105, 111, 110], [108, 105, 110, 101], [97, 114, 101, 97], [110, 111, 110, 101]]
/-- "full", "fast", engine.go:1125. -/
def modes : List Bytes := [[102, 117, 108, 108], [102, 97, 115, 116]]
/-- "full", "targeted", engine.go:1129. -/
def testModes : List Bytes := [[102, 117, 108, 108], [116, 97, 114, 103, 101, 116, 101, 100]]

/-- The checks after parsing, engine.go:1096–1143. -/
def checks (w : World) (c : Config) : Option Err :=
  if c.gomod ≠ [] ∧ w.fileOk c.gomod = false then some .gomod
  else if c.gomod = [] ∧ c.gowork ≠ [] ∧ w.fileOk c.gowork = false then some .gowork
  else if c.port < 1024 ∨ c.port > 65535 then some .range
  else if c.recurse < 1 ∨ c.recurse > 100 then some .range
  else if c.fieldLen < 1 ∨ c.fieldLen > 1048576 then some .range
  else if c.cacheMB < 1 ∨ c.cacheMB > 10240 then some .range
  else if c.times < 1 ∨ c.times > 100 then some .range
  else if c.scope ∉ scopes then some .scope
  else if c.mode ∉ modes then some .mode
  else if c.tests ∉ testModes then some .tests
  else if c.json ≠ [] ∧ w.outOk c.json = false then some .json
  else if c.json = [] ∧ c.charts ≠ [] ∧ w.outOk c.charts = false then some .charts
  else none

/-- What the two arguments append to the target modules, engine.go:1072–1094. -/
def parseArgs (c : Config) : List Target × Option Err :=
  match (if c.moduleFlag = [] then some [] else (parseTarget c.moduleFlag).map fun t => [t]) with
  | none => ([], some .moduleArg)
  | some ts =>
    if c.modulesFlag = [] then (ts, none)
    else match parseEach (splitComma c.modulesFlag) with | (us, e) => (ts ++ us, e)

/-- `Prepare`, engine.go:1051–1147: the configuration afterwards, and the error. -/
def prepare (w : World) (c : Config) : Config × Option Err :=
  if c.prepared then (c, some .again)
  else if c.projectDir = [] then (c, some .project)
  else if c.moduleFlag = [] ∧ c.modulesFlag = [] ∧ c.gomod = [] ∧ c.gowork = [] then (c, some .noTarget)
  else if c.gomod ≠ [] ∧ c.gowork ≠ [] then (c, some .bothFiles)
  else match w.abs c.projectDir with
    | none => (c, some .abs)
    | some a =>
      match parseArgs c with
      | (ts, some e) => ({ c with absDir := a, targets := c.targets ++ ts }, some e)
      | (ts, none) =>
        match checks w c with
        | some e => ({ c with absDir := a, targets := c.targets ++ ts }, some e)
        | none => ({ c with absDir := a, targets := c.targets ++ ts, prepared := true }, none)

/-- The chart file is written only for these suffixes (".png", ".jpg", ".jpeg", ".svg"), report.go:367–376. -/
def chartType (path : Bytes) : Bool :=
  [[46, 112, 110, 103], [46, 106, 112, 103], [46, 106, 112, 101, 103], [46, 115, 118, 103]].any fun s => s.isSuffixOf path

/-! ### Run -/

inductive Res where
  | temp
  | modules
  | callers
  | tests
  | storage
  | update
  | mutation
deriving DecidableEq, Repr

/-- The counts given to the report writer: changed functions, callers, tests, functions reached, fields same and different, mutations. -/
structure Rep where
  funcs : Nat
  callers : Nat
  tests : Nat
  reached : Nat
  same : Nat
  diff : Nat
  mutations : Nat
deriving DecidableEq, Repr

/-- A resource or analysis set up; its cleanup; a provider called; the report written. -/
inductive Ev where
  | acq (r : Res)
  | rel (r : Res)
  | call (r : Res)
  | report (r : Rep) (ok : Bool)
deriving DecidableEq, Repr

/-- What happens: `none` is an error. Counts are the lengths of what the providers return. -/
structure Out where
  prepare : Bool
  tmpCopy : Bool
  temp : Bool
  parse : Option Nat
  modules : Option Nat
  callers : Option Nat
  tests : Option Nat
  storage : Bool
  update : Option Nat
  mutate : Bool
  mutation : Option Nat
  compare : Option (Nat × Nat)
  report : Bool
deriving DecidableEq, Repr

/-- Returning: the deferred calls run, last registered first. -/
def fin (tr : List Ev) (defs : List Res) (ok : Bool) : List Ev × Bool := (tr ++ defs.map .rel, ok)

/-- The end of `Run`, engine.go:906–929. -/
def runEnd (o : Out) (tr : List Ev) (defs : List Res) (r : Rep) : List Ev × Bool :=
  match o.compare with
  | none => fin tr defs false
  | some (s, d) => fin (tr ++ [.report { r with same := s, diff := d } o.report]) defs o.report

/-- Tests and after, engine.go:851–904. -/
def runTests (o : Out) (tr : List Ev) (defs : List Res) (f c : Nat) : List Ev × Bool :=
  match o.tests with
  | none => fin (tr ++ [.call .tests]) defs false
  | some 0 => fin (tr ++ [.call .tests, .acq .tests, .report ⟨f, c, 0, 0, 0, 0, 0⟩ o.report]) (.tests :: defs) o.report
  | some (t + 1) =>
    let tr := tr ++ [.call .tests, .acq .tests]
    let defs := .tests :: defs
    if o.storage = false then fin tr defs false
    else
      let tr := tr ++ [.acq .storage, .call .update]
      let defs := .storage :: defs
      match o.update with
      | none => fin tr defs false
      | some reached =>
        let tr := tr ++ [.acq .update]
        let defs := .update :: defs
        if o.mutate then
          match o.mutation with
          | none => fin (tr ++ [.call .mutation]) defs false
          | some m => runEnd o (tr ++ [.call .mutation, .acq .mutation]) (.mutation :: defs) ⟨f, c, t + 1, reached, 0, 0, m⟩
        else runEnd o tr defs ⟨f, c, t + 1, reached, 0, 0, 0⟩

/-- Modules and callers, engine.go:771–849. -/
def runModules (o : Out) (tr : List Ev) (defs : List Res) : List Ev × Bool :=
  match o.parse with
  | none => fin tr defs false
  | some 0 => fin tr defs true
  | some (_ + 1) =>
    match o.modules with
    | none => fin (tr ++ [.call .modules]) defs false
    | some 0 => fin (tr ++ [.call .modules, .acq .modules, .report ⟨0, 0, 0, 0, 0, 0, 0⟩ o.report]) (.modules :: defs) o.report
    | some (f + 1) =>
      let tr := tr ++ [.call .modules, .acq .modules, .call .callers]
      let defs := .modules :: defs
      match o.callers with
      | none => fin tr defs false
      | some 0 => fin (tr ++ [.acq .callers, .report ⟨0, 0, 0, 0, 0, 0, 0⟩ o.report]) (.callers :: defs) o.report
      | some (c + 1) => runTests o (tr ++ [.acq .callers]) (.callers :: defs) (f + 1) (c + 1)

/-- `Run`, engine.go:756–930: what was done, and whether it returned without error. -/
def run (o : Out) : List Ev × Bool :=
  if o.prepare = false then ([], false)
  else if o.tmpCopy then
    if o.temp = false then ([.call .temp], false)
    else runModules o [.call .temp, .acq .temp] [.temp]
  else runModules o [] []

/-! ### The temporary copy -/

/-- A clean absolute path. -/
abbrev Path := List Bytes

/-- The paths of the configuration used in a run. -/
structure Paths where
  proj : Path
  gopath : Path
  modcache : Path
deriving DecidableEq, Repr

/-- What setting up gives: the paths, the copies made (source and destination), whether it worked, and whether the caller got the cleanup function. -/
structure Setup where
  paths : Paths
  copies : List (Path × Path)
  ok : Bool
  cleanup : Bool
deriving DecidableEq, Repr

/-- `fileWithinDir` for clean paths, file.go:38–48. -/
def withinDir (file dir : Path) : Bool :=
  let rel := joinPath (relComps dir file)
  if [46, 46].isPrefixOf rel || [46, 46, 47].isPrefixOf rel then false else true

/-- "project" -/
def nProject : Bytes := [112, 114, 111, 106, 101, 99, 116]
/-- "gopath" -/
def nGopath : Bytes := [103, 111, 112, 97, 116, 104]
/-- "gomodcache" -/
def nModcache : Bytes := [103, 111, 109, 111, 100, 99, 97, 99, 104, 101]
/-- "pkg" -/
def nPkg : Bytes := [112, 107, 103]
/-- "mod" -/
def nMod : Bytes := [109, 111, 100]

/-- `setupTempEnvironment`, engine.go:993–1048, once the directory `root` was created; `w1`–`w3` say whether the copies work. -/
def setup (root : Path) (p : Paths) (w1 w2 w3 : Bool) : Setup :=
  if w1 = false then ⟨p, [], false, false⟩
  else
    let p1 : Paths := { p with proj := root ++ [nProject] }
    let c1 := [(p.proj, root ++ [nProject])]
    if w2 = false then ⟨p1, c1, false, false⟩
    else
      let c2 := c1 ++ [(p.gopath, root ++ [nGopath])]
      if withinDir p.modcache p.gopath = false then
        if w3 = false then ⟨p1, c2, false, false⟩
        else ⟨⟨root ++ [nProject], root ++ [nGopath], root ++ [nModcache]⟩, c2 ++ [(p.modcache, root ++ [nModcache])], true, true⟩
      else ⟨⟨root ++ [nProject], root ++ [nGopath], root ++ [nGopath, nPkg, nMod]⟩, c2, true, true⟩

/-- Whether the temporary directory is left when the run is over: the cleanup (engine.go:998–1005) runs only if it was returned. -/
def left (s : Setup) (removed : Bool) : Bool := !(s.cleanup && removed)

end Verif.Engine
