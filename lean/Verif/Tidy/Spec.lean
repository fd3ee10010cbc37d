import Verif.Seen.Spec

/-! What the programs that tests run have to be like, said of the programs alone. -/

namespace Verif.Tidy

open Verif.Result (Bytes)
open Verif.Capture (Cfg Heap V Unwraps items)
open Verif.Seen (Program Case Shot Env Displays pathAt unnamed)

/-- The moments at which a watched function of the project is entered or left. -/
def Of (P : Program) (f : Bytes) (s : Shot) : Prop := P.env.extension.get s.id = none ∧ P.env.project.get s.id = some f

/-- No run takes 49 days, and the states of each function are sent in the order of their times. -/
structure Timely (P : Program) : Prop where
  short : ∀ s ∈ P.shots, s.ns.toNat + 500000 < 2 ^ 32 * 1000000
  order : P.shots.Pairwise fun s t => ∀ f, Of P f s → Of P f t → s.ns.toNat ≤ t.ns.toNat

/-- A name of a field: not empty and without dots. -/
def Word (k : Bytes) : Prop := k ≠ [] ∧ (46 : UInt8) ∉ k

/-- The parts of a value, down to a depth, have names without dots. -/
def Worded (c : Cfg) (h : Heap) : Nat → V → Prop
  | 0, _ => True
  | r + 1, v => ∀ w, Unwraps h v w → ∀ e ∈ items c h w, Word e.1 ∧ Worded c h r e.2

/-- All values sent have names without dots. -/
def Spoken (P : Program) : Prop := ∀ s ∈ P.shots, ∀ sn ∈ s.snaps, sn.1 ≠ unnamed → Word sn.1 ∧ Worded P.env.cfg s.heap P.env.cfg.depth sn.2

/-- The text of a path: files and functions. -/
def pathText (path : List (Bytes × Bytes)) : Bytes := List.intercalate [124] (path.map fun q => q.1 ++ [58] ++ q.2)

/-- Paths have no separators in the names of files and functions. -/
def Separable (P : Program) : Prop := ∀ s ∈ P.shots, ∀ q ∈ pathAt P.env s, (58 : UInt8) ∉ q.1 ∧ (124 : UInt8) ∉ q.2

/-- The short form of a text: itself, or its hash. -/
def short (H : Bytes → Bytes) (t : Bytes) : Bytes := if t.length ≤ 20 then t else H t

/-- Texts of paths do not collide. -/
def Hashed (H : Bytes → Bytes) (P : Fin 4 → Program) : Prop := ∀ j, ∀ s ∈ (P j).shots, ∀ j', ∀ s' ∈ (P j').shots,
  short H (pathText (pathAt (P j).env s)) = short H (pathText (pathAt (P j').env s')) → pathText (pathAt (P j).env s) = pathText (pathAt (P j').env s')

/-- The programs of a test can be told apart by what is recorded of them. -/
structure Tidy (x : Total.Ctx) (P : Fin 4 → Program) : Prop where
  first : Timely (P 0)
  second : Timely (P 1)
  after : x.force = true → Timely (P 2) ∧ Timely (P 3)
  spoken0 : Spoken (P 0)
  spoken2 : Spoken (P 2)
  separable : ∀ j, Separable (P j)
  hashed : Hashed x.H P

/-- The two results of a test can be stored: no collisions in the store (C18). -/
def Stored (x : Total.Ctx) (t : Total.Test) : Prop :=
  let before := Pipeline.monitored x.c x.H none false (t.ident, t.name) t.r1 t.r2
  Pipeline.Storable x.H x.sk before ∧ ∀ fuel base, Pipeline.saved x.H x.sk fuel before = some base →
    Pipeline.Storable x.H x.sk (Pipeline.monitored x.c x.H (some base.callers) x.force (t.ident, t.name) t.r3 t.r4)

/-- Another program does what a program did: at each moment of each function along each path it has the same texts, and it panics the same. Line numbers, times, addresses, frames outside
the project, the order of different functions and the ids of points may differ. -/
structure Alike (lib : Fields.Lib) (P Q : Program) : Prop where
  values : ∀ f path, List.Forall₂ (fun s t => ∀ p v, Displays lib P.env false s p v ↔ Displays lib Q.env false t p v) (P.along f path) (Q.along f path)
  project : P.panics.Perm Q.panics
  modul : P.modulePanics.Perm Q.modulePanics

end Verif.Tidy
