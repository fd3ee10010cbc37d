import Verif.AMap

/-!
Which functions are instrumented and which have changed.

* `injectMonitorPoints`, `/repo/lens/astexec.go:301–518`, with `findFuncDecl`, `injectPoint` and the marker of `InjectFuncPointReturnStates`
  (`/repo/lens/asttweak.go:417–441`, `510–527`, `1853–1863`): workers, one for each batch of functions of a file, run concurrently.
* `extractFunctions`, `aggregateFunctions` and the comparison in `analyzeModuleChangesInternal`, `/repo/lens/module.go:190–224`, `628–684`.

Function identifiers, printed definitions and files are numbers: only equality matters (what identifiers look like is in `Verif/Static`). What a
point does to the body is in `Verif/Returns` and `Verif/Panics`; here a declaration has a list of points. The extension configurations
(astexec.go:484–514) are callbacks of the user and left out.
-/

namespace Verif.Funcs
open Verif

/-! ### Putting points into functions -/

/-- What a point reports. -/
inductive Kind where
  | state
  | panic
  | entry
deriving DecidableEq, Repr

/-- A function declaration in a file: its identifier, whether it has a body, the number of return statements `InjectFuncPointReturnStates`
rewrites, whether it carries that function's marker, and the points inserted so far. -/
structure Decl where
  ident : Nat
  hasBody : Bool
  returns : Nat
  marked : Bool
  points : List (Kind × Nat)
deriving DecidableEq, Repr

/-- `findFuncDecl`, asttweak.go:1853–1863: the inspection goes on after a match (returning false only leaves out the children of that node), so
the last declaration with the identifier is found; here its index. -/
def findDecl (i : Nat) : List Decl → Option Nat
  | [] => none
  | d :: ds =>
    match findDecl i ds with
    | some k => some (k + 1)
    | none => if d.ident = i then some 0 else none

/-- A function to be instrumented: `CallerFunction` or `ModuleFunction`, the identifier and `ReturnPanic`. -/
structure Fn where
  ident : Nat
  retPanic : Bool
deriving DecidableEq, Repr

/-- `fileFuncHandler` at work, astexec.go:311–365 and 400–444: its file, whether it is the one for modules, the functions left, whether the first
kind of point has been put into the function at the head and the panic point is next, and its own two maps from point to identifier. -/
structure Worker where
  file : Nat
  modul : Bool
  todo : List Fn
  again : Bool
  first : AMap Nat Nat
  panics : AMap Nat Nat
  done : Bool
deriving DecidableEq, Repr

/-- The files, the point ids handed out, the workers, the four maps of `injectMonitorPoints` (astexec.go:307–308, 396–397) and whether a worker has
returned an error. -/
structure St where
  files : List (List Decl)
  used : List Nat
  workers : List Worker
  states : AMap Nat Nat
  entries : AMap Nat Nat
  projPanics : AMap Nat Nat
  modPanics : AMap Nat Nat
  failed : Bool
deriving DecidableEq, Repr

/-- `maps.Insert(m, maps.All(x))`, astexec.go:362–363 and 441–442. -/
def insertAll (m x : AMap Nat Nat) : AMap Nat Nat := x.foldl (fun m e => m.set e.1 e.2) m

/-- Assigning the new points of a function to its identifier, astexec.go:335–336, 356, 414, 430. -/
def record (m : AMap Nat Nat) (ids : List Nat) (name : Nat) : AMap Nat Nat := ids.foldl (fun m i => m.set i name) m

/-- The number of points `InjectFuncPointReturnStates` inserts: one for each return statement, or one at the end, asttweak.go:628–632. -/
def statePoints (d : Decl) : Nat := if d.returns = 0 then 1 else d.returns

/-- The declarations with new points in number `k`. -/
def putPoints (k : Kind) (ids : List Nat) (mark : Bool) (n : Nat) (ds : List Decl) : List Decl :=
  ds.modify n fun d => { d with points := d.points ++ ids.map fun i => (k, i), marked := d.marked || mark }

/-- What an insertion comes to: points inserted, skipped (`ErrNoFunctionBody` or already inserted), or an error that ends the worker. -/
inductive Ins where
  | put (n : Nat) (count : Nat)
  | skip
  | fatal
deriving DecidableEq, Repr

/-- The lookup before points go in. For return states asttweak.go:518–527, for the others `injectPoint`, 425–430. The errors are told apart in
astexec.go:327–334, 350–355, 410–413, 424–428: a missing body and a marker skip the function. -/
def look (k : Kind) (ds : List Decl) (i : Nat) : Ins :=
  match findDecl i ds with
  | none => .fatal
  | some n =>
    match ds[n]? with
    | none => .fatal
    | some d =>
      if d.hasBody = false then .skip
      else
        match k with
        | .state => if d.marked then .skip else .put n (statePoints d)
        | _ => .put n 1

/-- Ids of new points are given by `nextPointId`, asttweak.go:399–415; with several workers any numbers never given before may come (C22). -/
def freshIds (used ids : List Nat) (count : Nat) : Bool := ids.length == count && decide ids.Nodup && ids.all (fun i => !used.contains i)

/-- The worker ends with an error: what it has collected is lost, astexec.go:333, 354, 359. -/
def abort (s : St) (w : Nat) : St := { s with workers := s.workers.modify w fun x => { x with done := true }, failed := true }

/-- One insertion of kind `k` by worker `w` and what becomes of the worker; `skipTo`: what it does if the function is skipped, `next`: if points went
in. `ids` is `none` if `nextPointId` fails. Not a step if `ids` are not numbers that could be given. -/
def insert (k : Kind) (i : Nat) (skipTo : Worker) (next : List Nat → Worker) (s : St) (w : Nat) (file : Nat) (ids : Option (List Nat)) : Option St :=
  match look k (s.files.getD file []) i with
  | .fatal => some (abort s w)
  | .skip => some { s with workers := s.workers.set w skipTo }
  | .put n count =>
    match ids with
    | none => some (abort s w)
    | some l =>
      if freshIds s.used l count then
        some { s with files := s.files.modify file (putPoints k l (k == .state) n), used := l ++ s.used, workers := s.workers.set w (next l) }
      else none

/-- One step of worker `w`: an insertion, astexec.go:320–356 and 408–434, or, at the end, writing the file and merging the maps, 358–364 and 437–443
(`ids` is `none` if writing fails). Insertions hold the lock of the file, merging that of the maps, so these are atomic. -/
def step (s : St) (w : Nat) (ids : Option (List Nat)) : Option St :=
  match s.workers[w]? with
  | none => none
  | some x =>
    if x.done then none
    else
      match x.todo with
      | [] =>
        match ids with
        | none => some (abort s w)
        | some _ =>
          if x.modul then
            some { s with workers := s.workers.set w { x with done := true },
                          entries := insertAll s.entries x.first, modPanics := insertAll s.modPanics x.panics }
          else
            some { s with workers := s.workers.set w { x with done := true },
                          states := insertAll s.states x.first, projPanics := insertAll s.projPanics x.panics }
      | f :: rest =>
        if x.again then
          insert .panic f.ident { x with todo := rest, again := false }
            (fun l => { x with todo := rest, again := false, panics := record x.panics l f.ident }) s w x.file ids
        else if x.modul then
          insert .entry f.ident { x with todo := rest }
            (fun l => if f.retPanic then { x with todo := rest, first := record x.first l f.ident }
                      else { x with again := true, first := record x.first l f.ident }) s w x.file ids
        else if f.retPanic then some { s with workers := s.workers.set w { x with todo := rest } }
        else
          insert .state f.ident { x with todo := rest }
            (fun l => { x with again := true, first := record x.first l f.ident }) s w x.file ids

/-- A schedule: which worker moves, and the ids it gets. -/
def runSched (s : St) : List (Nat × Option (List Nat)) → Option St
  | [] => some s
  | (w, ids) :: sch =>
    match step s w ids with
    | none => none
    | some s' => runSched s' sch

/-- A worker before it starts, astexec.go:317–318 and 406–407. -/
def worker (modul : Bool) (file : Nat) (fns : List Fn) : Worker := ⟨file, modul, fns, false, [], [], false⟩

/-- The start: no maps. -/
def start (files : List (List Decl)) (used : List Nat) (ws : List Worker) : St := ⟨files, used, ws, [], [], [], [], false⟩

/-! ### Which functions changed -/

/-- A function declaration of a module: where it stands, its identifier and its printed definition (`none`: printing failed). -/
structure Fun where
  pos : Nat
  ident : Nat
  text : Option Nat
deriving DecidableEq, Repr

/-- `extractFunctions`, module.go:643–684: the map from identifier to function, and the error. `err` is assigned for each function, so an
error is forgotten when the next one is printed. -/
def extract : List Fun → AMap Nat Fun × Bool → AMap Nat Fun × Bool
  | [], r => r
  | f :: fs, (m, _) =>
    match f.text with
    | none => extract fs (m, true)
    | some _ => extract fs (m.set f.ident f, false)

/-- `aggregateFunctions`, module.go:628–640; the functions of a later file overwrite. -/
def aggregate : List (List Fun) → AMap Nat Fun → Option (AMap Nat Fun)
  | [], m => some m
  | file :: files, m =>
    match extract file ([], false) with
    | (_, true) => none
    | (x, false) => aggregate files (x.foldl (fun m e => m.set e.1 e.2) m)

/-- A package: its path and the declarations of its files. -/
structure Pkg where
  path : Nat
  files : List (List Fun)
deriving DecidableEq, Repr

/-- `oldPkgMap`, module.go:191–194. -/
def pkgMap (ps : List Pkg) : AMap Nat Pkg := ps.foldl (fun m p => m.set p.path p) []

/-- The comparison of one package, module.go:212–221: the old functions whose definition is not the new one's. -/
def changedIn (old new : AMap Nat Fun) : List Fun :=
  new.filterMap fun e =>
    match old.get e.1 with
    | some o => if o.text ≠ e.2.text then some o else none
    | none => none

/-- The loop over the new packages, module.go:197–224. -/
def changed (olds : AMap Nat Pkg) : List Pkg → Option (List Fun)
  | [] => some []
  | p :: ps =>
    match aggregate p.files [] with
    | none => none
    | some new =>
      match olds.get p.path with
      | none => changed olds ps
      | some op =>
        match aggregate op.files [] with
        | none => none
        | some old =>
          match changed olds ps with
          | none => none
          | some rest => some (changedIn old new ++ rest)

end Verif.Funcs
