import Verif.Pkgs.Model
import Verif.Temps.Model

/-!
Putting the client into a directory while its files are instrumented: `injectMonitorPoints`, `/repo/lens/astexec.go:301–482`, starts a goroutine for `InjectASTClient` (`asttweak.go:208–247`) of a
directory and one for each file, and waits for all of them only at the end. They meet in the directory: `detectPackageName` (313–326) and `buildTypesInfo` (1167–1204) parse the files that others rewrite with
`os.WriteFile`, which first cuts a file to nothing.

Simplified: of the sources only the package clause and whether the package type-checks; a read of one file is a step; the two files of the client count as one, complete when both are written.
-/

namespace Verif.Inject

abbrev Bytes := List UInt8

/-- A directory: its entries before anything is written, and whether the package passes the type check (1199–1202) as it was. -/
structure Dir where
  files : List Pkgs.File
  typed : Bool

/-- A source on disk: as it was, cut by `os.WriteFile` (asttweak.go:151), or instrumented. -/
inductive Ver where
  | orig
  | torn
  | done
deriving DecidableEq

/-- The client on disk, asttweak.go:232, 239. -/
inductive Client where
  | absent
  | torn
  | there
deriving DecidableEq

/-- The goroutine of the client: the package clauses read so far, the name found, the outcome (`none`: an error). -/
inductive Phase where
  | reading (seen : List (Option Bytes))
  | found (p : Bytes)
  | writing (p : Bytes)
  | ended (r : Option Bytes)
deriving DecidableEq

/-- A file as the type check gets it. -/
inductive View where
  | plain
  | marked
  | broken
deriving DecidableEq

/-- The reads for one type check: whether the client was listed, the files so far, and the client once it is read. -/
structure Reads where
  listed : Bool
  views : List View
  client : Option Client

/-- The goroutine of a file: functions to be instrumented, the reads under way, for each function so far whether its types were known, and whether the file is being written. -/
structure Worker where
  todo : Nat
  reads : Option Reads
  infos : List Bool
  cut : Bool

structure St where
  ver : Nat → Ver
  client : Client
  cl : Phase
  wk : Nat → Worker

def put {α : Type} (f : Nat → α) (i : Nat) (a : α) : Nat → α := fun j => if j = i then a else f j

/-- What can happen next. `luck`: the part of a cut file that is there can be parsed. -/
inductive Act where
  | cRead (luck : Bool)
  | cDetect
  | cCut
  | cWrite
  | wList (i : Nat)
  | wRead (i : Nat) (luck : Bool)
  | wClient (i : Nat) (luck : Bool)
  | wDecide (i : Nat)
  | wCut (i : Nat)
  | wWrite (i : Nat)

/-- The entries with the package clauses that were read. -/
def reread (files : List Pkgs.File) (seen : List (Option Bytes)) : List Pkgs.File := List.zipWith (fun f p => { f with pkg := p }) files seen

/-- A file as it is read, asttweak.go:285–294: files that the filter drops are not read. -/
def viewOf (f : Pkgs.File) (v : Ver) (luck : Bool) : View :=
  if Pkgs.filter f then
    match v with
    | .orig => .plain
    | .done => .marked
    | .torn => if luck then .plain else .broken
  else .plain

/-- The client as it is read, if it was listed. -/
def clientView (r : Reads) (c : Client) (luck : Bool) : Client :=
  if r.listed then (if c = .torn && luck then .there else c) else .absent

/-- Whether the type check succeeds, asttweak.go:1175–1203: all files can be parsed, and instrumented ones (also the file itself, with the functions before: `edited`) find the client. -/
def known (d : Dir) (r : Reads) (edited : Bool) : Bool :=
  d.typed && !r.views.contains .broken && r.client != some .torn && (!(edited || r.views.contains .marked) || r.client == some .there)

/-- A step; `none` if it cannot happen. -/
def step (d : Dir) (s : St) : Act → Option St
  | .cRead luck => match s.cl with
    | .reading seen => match d.files[seen.length]? with
      | some f => some { s with cl := .reading (seen ++ [if s.ver seen.length = .torn && !luck then none else f.pkg]) }
      | none => none
    | _ => none
  | .cDetect => match s.cl with
    | .reading seen => if seen.length = d.files.length then
        match Pkgs.detect (reread d.files seen) with
        | some p => some { s with cl := .found p }
        | none => some { s with cl := .ended none }
      else none
    | _ => none
  | .cCut => match s.cl with
    | .found p => some { s with cl := .writing p, client := .torn }
    | _ => none
  | .cWrite => match s.cl with
    | .writing p => some { s with cl := .ended (some p), client := .there }
    | _ => none
  | .wList i => if i < d.files.length && decide (0 < (s.wk i).todo) && (s.wk i).reads.isNone then
      some { s with wk := put s.wk i { s.wk i with reads := some ⟨s.client != .absent, [], none⟩ } }
    else none
  | .wRead i luck => match (s.wk i).reads with
    | some r => match d.files[r.views.length]? with
      | some f => some { s with wk := put s.wk i { s.wk i with reads := some { r with views := r.views ++ [viewOf f (s.ver r.views.length) luck] } } }
      | none => none
    | none => none
  | .wClient i luck => match (s.wk i).reads with
    | some r => if r.views.length = d.files.length && r.client.isNone then
        some { s with wk := put s.wk i { s.wk i with reads := some { r with client := some (clientView r s.client luck) } } }
      else none
    | none => none
  | .wDecide i => match (s.wk i).reads with
    | some r => if r.client.isSome then
        some { s with wk := put s.wk i ⟨(s.wk i).todo - 1, none, (s.wk i).infos ++ [known d r (!(s.wk i).infos.isEmpty)], false⟩ }
      else none
    | none => none
  | .wCut i => if i < d.files.length && (s.wk i).todo = 0 && s.ver i = .orig then
      some { s with ver := put s.ver i .torn, wk := put s.wk i { s.wk i with cut := true } }
    else none
  | .wWrite i => if (s.wk i).cut then
      some { s with ver := put s.ver i .done, wk := put s.wk i { s.wk i with cut := false } }
    else none

/-- A schedule, each of whose steps is allowed by `ok`. -/
def runIf (ok : Dir → St → Act → Bool) (d : Dir) : List Act → St → Option St
  | [], s => some s
  | a :: as, s => if ok d s a then (step d s a).bind (runIf ok d as) else none

/-- The code: all schedules. -/
def run : Dir → List Act → St → Option St := runIf fun _ _ _ => true

/-- At the beginning; `fns i` functions of file `i` are to be instrumented. -/
def start (fns : Nat → Nat) : St := ⟨fun _ => .orig, .absent, .reading [], fun i => ⟨fns i, none, [], false⟩⟩

/-- What decides on a temporary for an identifier that is returned, asttweak.go:1399–1428: with types (untyped constant, alias or type parameter; result that is an interface), and without (result type as written:
`interface{…}`, a name in upper case declared elsewhere, a type parameter). -/
structure Facts where
  special : Bool
  iface : Bool
  ifaceLit : Bool
  upper : Bool
  param : Bool

def needTmp (known : Bool) (f : Facts) : Bool := if known then f.special || f.iface else f.ifaceLit || f.upper || f.param

end Verif.Inject
