/-!
The command line: `ParseFlags` and `setupEnvironment`, `/repo/lens/cmd/flags.go:15–144`.

The package `flag` of Go (`FlagSet.Var`, `FlagSet.Parse`, `parseOne`, with `ExitOnError`) is modelled from its documentation and source, which are not part of
`/repo`. Reading and writing of integers (`strconv.ParseInt` with base 0, `strconv.Itoa`) and `filepath.Join(gopath, "pkg", "mod")` are parameters. Left out:
usage texts.
-/

namespace Verif.Flags

abbrev Str := List Char

/-- `CustomFlag.DefaultValue` and the values of flags. -/
inductive Val where
  | text (s : Str)
  | int (i : Int)
  | bool (b : Bool)
  deriving DecidableEq, Repr

inductive Kind where
  | text | int | bool
  deriving DecidableEq, Repr

/-- A defined flag. -/
structure Decl where
  name : Str
  kind : Kind
  deriving DecidableEq, Repr

/-- Values of flags: the first entry for a name counts. -/
abbrev Vals := List (Str × Val)

/-- What is a parameter. -/
structure Lib where
  parseInt : Str → Option Int
  itoa : Int → Str
  /-- `filepath.Join(gopath, "pkg", "mod")` -/
  join : Str → Str

/-! ### The package `flag` -/

/-- `strconv.ParseBool`. -/
def parseBool (s : Str) : Option Bool :=
  if s = ['1'] ∨ s = ['t'] ∨ s = ['T'] ∨ s = ['T', 'R', 'U', 'E'] ∨ s = ['t', 'r', 'u', 'e'] ∨ s = ['T', 'r', 'u', 'e'] then some true
  else if s = ['0'] ∨ s = ['f'] ∨ s = ['F'] ∨ s = ['F', 'A', 'L', 'S', 'E'] ∨ s = ['f', 'a', 'l', 's', 'e'] ∨ s = ['F', 'a', 'l', 's', 'e'] then some false
  else none

/-- `Value.Set`. -/
def setVal (L : Lib) (k : Kind) (s : Str) : Option Val := match k with
  | .text => some (.text s)
  | .int => (L.parseInt s).map .int
  | .bool => (parseBool s).map .bool

/-- `FlagSet.Var`: panics (`none`) for a name that begins with "-", contains "=" or is defined already. -/
def define (ds : List Decl) (d : Decl) : Option (List Decl) :=
  if d.name.head? = some '-' ∨ '=' ∈ d.name ∨ d.name ∈ ds.map (·.name) then none else some (ds ++ [d])

/-- What an argument looks like. -/
inductive Shape where
  | stop
  | terminator
  | malformed
  | flag (name : Str) (value : Option Str)
  deriving DecidableEq, Repr

/-- The loop that looks for "=" after the first character. -/
def splitEq : Str → Str × Option Str
  | [] => ([], none)
  | c :: s => if c = '=' then ([], some s) else ((c :: (splitEq s).1), (splitEq s).2)

/-- The name after the dashes. -/
def nameShape : Str → Shape
  | [] => .malformed
  | c :: s => if c = '-' ∨ c = '=' then .malformed else .flag (c :: (splitEq s).1) (splitEq s).2

/-- The first part of `parseOne`. -/
def shape : Str → Shape
  | '-' :: '-' :: [] => .terminator
  | '-' :: '-' :: s => nameShape s
  | '-' :: c :: s => nameShape (c :: s)
  | _ => .stop

def kindOf (ds : List Decl) (name : Str) : Option Kind := (ds.find? fun d => d.name = name).map (·.kind)

/-- `FlagSet.Parse`: the values set, newest first, and the arguments left. `none`: the process ends with code 2. -/
def parse (L : Lib) (ds : List Decl) : List Str → Vals → Option (Vals × List Str)
  | [], vals => some (vals, [])
  | s :: args, vals => match shape s with
    | .stop => some (vals, s :: args)
    | .terminator => some (vals, args)
    | .malformed => none
    | .flag name value => match kindOf ds name with
      | none => none
      | some .bool => match setVal L .bool (value.getD ['t', 'r', 'u', 'e']) with
        | none => none
        | some v => parse L ds args ((name, v) :: vals)
      | some k => match value with
        | some x => match setVal L k x with
          | none => none
          | some v => parse L ds args ((name, v) :: vals)
        | none => match args with
          | [] => none
          | x :: args => match setVal L k x with
            | none => none
            | some v => parse L ds args ((name, v) :: vals)

/-! ### `ParseFlags` -/

def nProject : Str := ['p', 'r', 'o', 'j', 'e', 'c', 't']
def nModule : Str := ['m', 'o', 'd', 'u', 'l', 'e']
def nModules : Str := ['m', 'o', 'd', 'u', 'l', 'e', 's']
def nGomod : Str := ['g', 'o', 'm', 'o', 'd']
def nGowork : Str := ['g', 'o', 'w', 'o', 'r', 'k']
def nPort : Str := ['m', 'o', 'n', 'i', 't', 'o', 'r', 'p', 'o', 'r', 't']
def nJson : Str := ['j', 's', 'o', 'n']
def nCharts : Str := ['c', 'h', 'a', 'r', 't', 's']
def nRecurse : Str := ['f', 'i', 'e', 'l', 'd', 'r', 'e', 'c', 'u', 'r', 's', 'e']
def nLen : Str := ['f', 'i', 'e', 'l', 'd', 'l', 'e', 'n']
def nCache : Str := ['c', 'a', 'c', 'h', 'e', 'm', 'b']
def nScope : Str := ['m', 'u', 't', 'a', 't', 'i', 'o', 'n', 's', 'c', 'o', 'p', 'e']
def nSet : Str := ['m', 'u', 't', 'a', 't', 'i', 'o', 'n', 's', 'e', 't']
def nTests : Str := ['m', 'u', 't', 'a', 't', 'i', 'o', 'n', 't', 'e', 's', 't', 's']
def nTmpcopy : Str := ['t', 'm', 'p', 'c', 'o', 'p', 'y']
def nMultiplier : Str := ['t', 'i', 'm', 'e', 'm', 'u', 'l', 't', 'i', 'p', 'l', 'i', 'e', 'r']
def nH : Str := ['h']
def nHelp : Str := ['h', 'e', 'l', 'p']

/-- flags.go:28–43: the standard flags with their default values. -/
def standard : List (Decl × Val) := [
  (⟨nProject, .text⟩, .text []), (⟨nModule, .text⟩, .text []), (⟨nModules, .text⟩, .text []), (⟨nGomod, .text⟩, .text []), (⟨nGowork, .text⟩, .text []),
  (⟨nPort, .int⟩, .int 44440), (⟨nJson, .text⟩, .text ['m', 'o', 'd', 'r', 'e', 'p', 'o', 'r', 't', '.', 'j', 's', 'o', 'n']),
  (⟨nCharts, .text⟩, .text ['m', 'o', 'd', 'r', 'e', 'p', 'o', 'r', 't', '.', 'p', 'n', 'g']), (⟨nRecurse, .int⟩, .int 20), (⟨nLen, .int⟩, .int 1024),
  (⟨nCache, .int⟩, .int 200), (⟨nScope, .text⟩, .text ['l', 'i', 'n', 'e']), (⟨nSet, .text⟩, .text ['f', 'a', 's', 't']),
  (⟨nTests, .text⟩, .text ['t', 'a', 'r', 'g', 'e', 't', 'e', 'd']), (⟨nTmpcopy, .bool⟩, .bool true), (⟨nMultiplier, .int⟩, .int 2)]

/-- flags.go:59–60. -/
def help : List (Decl × Val) := [(⟨nH, .bool⟩, .bool false), (⟨nHelp, .bool⟩, .bool false)]

/-- `CustomFlag`, flags.go:16–21. -/
structure Custom where
  name : Str
  default : Val
  type : Str
  deriving DecidableEq, Repr

/-- The `switch` over the type, flags.go:48–55: no flag for other types. The outer `none` is the panic of a type assertion. -/
def customDecl (c : Custom) : Option (Option (Decl × Val)) :=
  if c.type = ['s', 't', 'r', 'i', 'n', 'g'] then match c.default with
    | .text s => some (some (⟨c.name, .text⟩, .text s))
    | _ => none
  else if c.type = ['i', 'n', 't'] then match c.default with
    | .int i => some (some (⟨c.name, .int⟩, .int i))
    | _ => none
  else if c.type = ['b', 'o', 'o', 'l'] then match c.default with
    | .bool b => some (some (⟨c.name, .bool⟩, .bool b))
    | _ => none
  else some none

/-- flags.go:46–56: the custom flags with their default values. -/
def customDecls : List Custom → Option (List (Decl × Val))
  | [] => some []
  | c :: cs => match customDecl c, customDecls cs with
    | some (some d), some ds => some (d :: ds)
    | some none, some ds => some ds
    | _, _ => none

/-- Define all of them. -/
def defineAll : List Decl → List (Decl × Val) → Option (List Decl)
  | ds, [] => some ds
  | ds, d :: rest => match define ds d.1 with
    | some ds => defineAll ds rest
    | none => none

/-- The value of a flag: what was set last, or the default. -/
def value (vals : Vals) (name : Str) : Option Val := (vals.find? fun p => p.1 = name).map (·.2)

def textOf (vals : Vals) (name : Str) : Str := match value vals name with
  | some (.text s) => s
  | _ => []

def intOf (vals : Vals) (name : Str) : Int := match value vals name with
  | some (.int i) => i
  | _ => 0

def boolOf (vals : Vals) (name : Str) : Bool := match value vals name with
  | some (.bool b) => b
  | _ => false

/-- The part of `lens.Config` set here, engine.go:29–41. -/
structure Config where
  projectDir : Str
  moduleVersion : Str
  modulesVersion : Str
  goModFile : Str
  goWorkFile : Str
  port : Int
  jsonFile : Str
  chartsFile : Str
  recurse : Int
  len : Int
  cacheMB : Int
  scope : Str
  mode : Str
  tests : Str
  tmpCopy : Bool
  multiplier : Int
  custom : List (Str × Str)
  gopath : Str
  gomodcache : Str
  deriving DecidableEq, Repr

/-- `build.Default.GOPATH` and the variable GOMODCACHE. -/
structure Env where
  gopath : Str
  gomodcache : Str
  deriving DecidableEq, Repr

/-- `setupEnvironment`, flags.go:132–144: GOPATH and GOMODCACHE of the configuration. -/
def setupEnvironment (L : Lib) (e : Env) : Option (Str × Str) :=
  if e.gomodcache = [] then if e.gopath = [] then none else some (e.gopath, L.join e.gopath)
  else some (e.gopath, e.gomodcache)

/-- flags.go:113–122. -/
def showVal (L : Lib) : Val → Str
  | .text s => s
  | .int i => L.itoa i
  | .bool true => ['t', 'r', 'u', 'e']
  | .bool false => ['f', 'a', 'l', 's', 'e']

inductive Outcome where
  | panic
  | exit (code : Nat)
  | error
  | ok (c : Config)
  deriving DecidableEq, Repr

/-- flags.go:88–92: whether the flags are refused. -/
def refused (vals : Vals) : Bool :=
  (decide (textOf vals nModule = []) && decide (textOf vals nModules = []) && decide (textOf vals nGomod = []) && decide (textOf vals nGowork = []) ||
    decide (textOf vals nProject = [])) ||
  (decide (textOf vals nGomod ≠ []) && decide (textOf vals nGowork ≠ []))

/-- flags.go:94–122. `custom` is the list of custom flags; a map of Go, so a name has one entry (the names differ, or `define` panics). -/
def config (L : Lib) (vals : Vals) (custom : List (Decl × Val)) (env : Str × Str) : Config where
  projectDir := textOf vals nProject
  moduleVersion := textOf vals nModule
  modulesVersion := textOf vals nModules
  goModFile := textOf vals nGomod
  goWorkFile := textOf vals nGowork
  port := intOf vals nPort
  jsonFile := textOf vals nJson
  chartsFile := textOf vals nCharts
  recurse := intOf vals nRecurse
  len := intOf vals nLen
  cacheMB := intOf vals nCache
  scope := textOf vals nScope
  mode := textOf vals nSet
  tests := textOf vals nTests
  tmpCopy := boolOf vals nTmpcopy
  multiplier := intOf vals nMultiplier
  custom := custom.map fun d => (d.1.name, match value vals d.1.name with | some v => showVal L v | none => [])
  gopath := env.1
  gomodcache := env.2

/-- `ParseFlags`, flags.go:24–130. -/
def parseFlags (L : Lib) (env : Env) (custom : List Custom) (args : List Str) : Outcome :=
  match customDecls custom with
  | none => .panic
  | some cs => match defineAll [] (standard ++ cs ++ help) with
    | none => .panic
    | some ds => match parse L ds args [] with
      | none => .exit 2
      | some (set, _) =>
        let vals := set ++ (standard ++ cs ++ help).map fun d => (d.1.name, d.2)
        if boolOf vals nH || boolOf vals nHelp then .exit 0
        else if refused vals then .error
        else match setupEnvironment L env with
          | none => .error
          | some e => .ok (config L vals cs e)

end Verif.Flags
