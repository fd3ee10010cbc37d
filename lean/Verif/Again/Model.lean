import Verif.AMap

/-!
Storages over several runs: `DefaultStorageProvider`, `/repo/lens/engine.go:626–646`, the deferred close in `Run`, `/repo/lens/engine.go:874–879`, and
`NewBadgerStorage` and `Close`, `/repo/lens/storage.go:161–237 and 417–421`.

A run that returns before line 875 does not touch its storage and is left out. Trusted: the database creates its directory, refuses one that another open database
uses, keeps other files in it, and can be closed again without effect; the calls of a closed one fail. What is stored is in `Verif/Storage`.
-/

namespace Verif.Again
open Verif

abbrev Path := Nat

/-- A provider: `Path` ("" is `none`) and `store`, by number. -/
structure Provider where
  path : Option Path
  store : Option Nat
deriving DecidableEq, Repr

/-- A database: its directory, and whether it is open. -/
structure Db where
  path : Path
  isOpen : Bool
deriving DecidableEq, Repr

/-- The disk (directories with the number of files in them that belong to somebody else), the databases opened so far, and the provider of each engine. -/
structure World where
  dirs : AMap Path Nat
  dbs : List Db
  providers : AMap Nat Provider
deriving DecidableEq, Repr

/-- `NewBadgerStorage`: the number of the database; `none` is an error. -/
def newBadger (w : World) (p : Path) : World × Option Nat :=
  if ⟨p, true⟩ ∈ w.dbs then (w, none)
  else ({ w with dirs := if (w.dirs.get p).isSome then w.dirs else w.dirs.set p 0, dbs := w.dbs ++ [⟨p, true⟩] }, some w.dbs.length)

/-- `NewStorage` of the provider of engine `e`, engine.go:633–646; `fresh` is the name made of process and time. The path is kept even if opening fails. -/
def newStorage (w : World) (e : Nat) (fresh : Path) : World × Option Nat :=
  match w.providers.get e with
  | none => (w, none)
  | some pr =>
    match pr.store with
    | some i => (w, some i)
    | none =>
      let p := pr.path.getD fresh
      match newBadger { w with providers := w.providers.set e ⟨some p, none⟩ } p with
      | (w', some i) => ({ w' with providers := w'.providers.set e ⟨some p, some i⟩ }, some i)
      | (w', none) => (w', none)

/-- `Close`, storage.go:417–421. -/
def close (w : World) (i : Nat) : World :=
  match w.dbs[i]? with
  | none => w
  | some db => { w with dirs := w.dirs.del db.path, dbs := w.dbs.set i ⟨db.path, false⟩ }

/-- A run of an engine reaches its storage, or ends (the deferred close of the storage it got). -/
inductive Op where
  | start (run engine : Nat) (fresh : Path)
  | finish (run : Nat)
deriving DecidableEq, Repr

/-- The runs under way with their engine and storage. -/
structure State where
  world : World
  runs : AMap Nat (Nat × Nat)
deriving DecidableEq, Repr

/-- One step; a run whose storage cannot be opened ends at once (engine.go:876–878). -/
def step (s : State) : Op → State
  | .start r e fresh =>
    match newStorage s.world e fresh with
    | (w, some i) => ⟨w, s.runs.set r (e, i)⟩
    | (w, none) => ⟨w, s.runs⟩
  | .finish r =>
    match s.runs.get r with
    | some (_, i) => ⟨close s.world i, s.runs.del r⟩
    | none => s

end Verif.Again
