import Verif.Seen.Model
import Verif.Capture.Spec
import Verif.Pipeline.Spec
import Verif.Verdict.Spec

/-! What should be recorded of the values of a program. -/

namespace Verif.Seen

open Verif.Wire (limitString)
open Verif.Result (Bytes dotted)
open Verif.Capture (Cfg Heap V Unwraps HasAddr items numberVal elemsVal full cycleText)
open Verif.Fields (Lib Kept sprint)
open Verif.Pipeline (pathOf)

/-- A part of a `reflect.Value`, or a value of one of its internal types. -/
def Hidden (parent name typ : Bytes) : Prop :=
  (parent = "reflect.Value".toUTF8.toList ∧ name ∈ ["typ_".toUTF8.toList, "flag".toUTF8.toList, "ptr".toUTF8.toList]) ∨
  typ ∈ ["reflect.rtype".toUTF8.toList, "reflect.flag".toUTF8.toList]

/-- Nothing behind a pointer or interface. -/
def Absent : V → Prop
  | .nilPtr _ => True
  | .invalid => True
  | _ => False

/-- A value with parts of its own. -/
def Container : V → Prop
  | .array _ _ => True
  | .slice _ _ _ => True
  | .map _ _ _ => True
  | .struct _ _ => True
  | _ => False

/-- The text of a value without parts. -/
def textOf (lib : Lib) (c : Cfg) : V → Option Bytes
  | .scalar _ s => some (sprint lib (numberVal s))
  | .str _ s => some (limitString c.len s)
  | .prims _ _ p => some (sprint lib (elemsVal c.len c.utf8 p))
  | .func _ _ => some "<func>".toUTF8.toList
  | .chan _ _ => some "<chan>".toUTF8.toList
  | .other _ s => some (limitString c.len s)
  | .nilRef _ => some "<nil>".toUTF8.toList
  | _ => none

/-- The type of a value: of what is behind pointers and interfaces; in place of a value that is not shown it may be that of the pointer. -/
def TypeIs (mark : Bool) (h : Heap) (v : V) (t : Bytes) : Prop := (∃ w, Unwraps h v w ∧ t = w.typ) ∨ (mark = true ∧ t = v.typ)

/-- The value `v` named `n` shows the text `s` at the path, with `r` levels left: its own text, or that of one of its parts. If `mark` is true, a value with an address
may show a note in place of itself. -/
inductive Shows (lib : Lib) (c : Cfg) (h : Heap) (mark : Bool) : Nat → Bytes → Bytes → V → List Bytes → Bytes → Prop
  | absent {r parent n v w s} : Unwraps h v w → Absent w → ¬ Hidden parent n w.typ → Kept lib w.typ "<nil>".toUTF8.toList s → Shows lib c h mark r parent n v [n] s
  | deep {parent n v w s} : Unwraps h v w → ¬ Absent w → ¬ Hidden parent n w.typ → Kept lib w.typ "<max-depth>".toUTF8.toList s → Shows lib c h mark 0 parent n v [n] s
  | own {r parent n v w t s} : Unwraps h v w → textOf lib c w = some t → ¬ Hidden parent n w.typ → Kept lib w.typ t s → Shows lib c h mark (r + 1) parent n v [n] s
  | void {r parent n v w s} : Unwraps h v w → Container w → items c h w = [] → ¬ Hidden parent n w.typ → Kept lib w.typ "<nil>".toUTF8.toList s →
      Shows lib c h mark (r + 1) parent n v [n] s
  /-- All parts are hidden. -/
  | hollow {r parent n v w} : Unwraps h v w → Container w → items c h w ≠ [] → (∀ e ∈ items c h w, ∃ t, TypeIs mark h e.2 t ∧ Hidden w.typ e.1 t) → ¬ Hidden parent n w.typ →
      Shows lib c h mark (r + 1) parent n v [n] []
  | part {r parent n v w k e p s} : Unwraps h v w → ¬ Hidden parent n w.typ → (k, e) ∈ items c h w → Shows lib c h mark r w.typ k e p s →
      Shows lib c h mark (r + 1) parent n v (n :: p) s
  | note {r parent n v t x a s} : mark = true → HasAddr h v a → TypeIs true h v t → ¬ Hidden parent n t → Kept lib t (cycleText x) s → Shows lib c h mark r parent n v [n] s

/-- Names are distinct in each value. -/
def Apart (c : Cfg) (h : Heap) : Nat → V → Prop
  | 0, _ => True
  | r + 1, v => ∀ w, Unwraps h v w → ((items c h w).map (·.1)).Nodup ∧ ∀ e ∈ items c h w, Apart c h r e.2

/-- "nil" -/
def unnamed : Bytes := "nil".toUTF8.toList

/-- Of a moment of the program a text should be recorded at a path. -/
def Displays (lib : Lib) (e : Env) (mark : Bool) (s : Shot) (p : List Bytes) (text : Bytes) : Prop :=
  ∃ sn ∈ s.snaps, sn.1 ≠ unnamed ∧ Shows lib e.cfg s.heap mark e.cfg.depth [] sn.1 sn.2 p text

/-- The message is within the limits of the protocol, and its point is known. -/
structure Sendable (e : Env) (s : Shot) : Prop where
  len : e.cfg.len + 30 ≤ Wire.maxUint32
  stack : Wire.stackOK s.stack
  count : s.snaps.length ≤ Wire.maxUint32
  fits : ∀ sn ∈ s.snaps, Capture.Fits e.cfg s.heap sn.1 sn.2
  known : s.id ∈ e.extension.keys ∨ s.id ∈ e.project.keys

/-- Also, no address is met twice in a value, and names are distinct. -/
structure Clear (e : Env) (fuel : Nat) (s : Shot) : Prop extends Sendable e s where
  once : ∀ sn ∈ s.snaps, ∃ w addrs, full e.cfg s.heap fuel e.cfg.depth sn.1 sn.2 = some (w, addrs) ∧ addrs.Nodup
  names : ((s.snaps.filter fun sn => sn.1 ≠ unnamed).map (·.1)).Nodup
  apart : ∀ sn ∈ s.snaps, Apart e.cfg s.heap e.cfg.depth sn.2

/-- The call is that of the moment: its point, time and stack (file names trimmed, line numbers of 32 bits). -/
structure CallOf (e : Env) (s : Shot) (m : Pipeline.Call) : Prop where
  extension : m.ext = true → e.extension.get s.id = some m.ident
  project : m.ext = false → e.extension.get s.id = none ∧ e.project.get s.id = some m.ident
  time : m.ns = s.ns.toNat
  stack : m.stack.map (fun f => (f.file, f.func)) = s.stack.map fun f => (e.trim f.file, f.func)
  lines : m.stack.map (·.line) = s.stack.map fun f => f.line.toNat % 2 ^ 32

/-! ### Runs of programs -/

/-- A run of a test: what happens in it, in the order in which it is handled, and whether the test fails. -/
structure Program where
  env : Env
  fuel : Nat
  events : List Event
  failed : Bool

/-- The moments at which states are sent. -/
def Program.shots (P : Program) : List Shot := P.events.filterMap fun ev => match ev with
  | .state s => some s
  | _ => none

/-- The panics that leave watched functions of the project, with the function. -/
def Program.panics (P : Program) : List (Bytes × Bytes) := P.events.filterMap fun ev => match ev with
  | .panic id _ text => (P.env.projectPanic.get id).map fun f => (f, text)
  | _ => none

/-- The panics that leave watched functions of modules. -/
def Program.modulePanics (P : Program) : List (Bytes × Bytes) := P.events.filterMap fun ev => match ev with
  | .panic id _ text => if id ∈ P.env.projectPanic.keys then none else (P.env.modulePanic.get id).map fun f => (f, text)
  | _ => none

/-- The entry points passed. -/
def Program.entered (P : Program) : List Nat := P.events.filterMap fun ev => match ev with
  | .entry id _ _ => some id.toNat
  | _ => none

/-- The message can be sent, and its values recorded. -/
def Fine (e : Env) (fuel : Nat) : Event → Prop
  | .state s => Clear e fuel s
  | .panic _ _ text => text.length ≤ Wire.maxUint32
  | .entry _ _ stack => Wire.stackOK stack

/-- The frames of the stack inside the project. -/
def pathAt (e : Env) (s : Shot) : List (Bytes × Bytes) :=
  (s.stack.map fun f => (e.trim f.file, f.func)).filter fun q => Pipeline.here <+: q.1 ∧ ¬ Pipeline.vendored <+: q.1

/-- The calls of a function along a path. -/
def Program.along (P : Program) (f : Bytes) (path : List (Bytes × Bytes)) : List Shot :=
  P.shots.filter fun s => P.env.extension.get s.id = none ∧ P.env.project.get s.id = some f ∧ pathAt P.env s = path

/-- The call number `i` of a function along a path shows the text `v` at `p`. -/
def Program.Shows (lib : Lib) (P : Program) (f : Bytes) (path : List (Bytes × Bytes)) (i : Nat) (p : List Bytes) (v : Bytes) : Prop :=
  ∃ s, (P.along f path)[i]? = some s ∧ Displays lib P.env false s p v

/-- The run is that of a program. -/
structure Makes (P : Program) (r : Pipeline.Run) : Prop where
  fine : ∀ ev ∈ P.events, Fine P.env P.fuel ev
  run : r = runOf P.env P.fuel P.failed P.events

/-- What is behind the pointers at a path. -/
inductive Value (c : Cfg) (h : Heap) : Nat → Bytes → Bytes → V → List Bytes → V → Prop
  | own {r parent n v w} : Unwraps h v w → ¬ Hidden parent n w.typ → Value c h (r + 1) parent n v [n] w
  | part {r parent n v w k e p u} : Unwraps h v w → ¬ Hidden parent n w.typ → (k, e) ∈ items c h w → Value c h r w.typ k e p u → Value c h (r + 1) parent n v (n :: p) u

/-- The call number `i` of a function along a path has the value `w` at `p`. -/
def Program.Has (P : Program) (f : Bytes) (path : List (Bytes × Bytes)) (i : Nat) (p : List Bytes) (w : V) : Prop :=
  ∃ s, (P.along f path)[i]? = some s ∧ ∃ sn ∈ s.snaps, sn.1 ≠ unnamed ∧ Value P.env.cfg s.heap P.env.cfg.depth [] sn.1 sn.2 p w

/-- The programs behind the runs of a test: two before the update and two after it, of which the last is used only with extension points. -/
structure Behind (P : Fin 4 → Program) (t : Total.Test) : Prop where
  first : Makes (P 0) t.r1
  second : Makes (P 1) t.r2
  third : Makes (P 2) t.r3
  fourth : Makes (P 3) t.r4

/-- In the call number `i` of `f` along a path the program had the text `v` at `p` before the update, and has `w` after it. -/
def Turns (x : Total.Ctx) (P : Fin 4 → Program) (f : Bytes) (path : List (Bytes × Bytes)) (i : Nat) (p : List Bytes) (v w : Bytes) : Prop :=
  (P 0).Shows x.c f path i p v ∧ (P 1).Shows x.c f path i p v ∧ (P 2).Shows x.c f path i p w ∧ (x.force = true → (P 3).Shows x.c f path i p w)

/-- An entry of the report for a test lists the fields whose values in the program are changed. -/
structure Lists (x : Total.Ctx) (P : Fin 4 → Program) (d : Report.Detail) : Prop where
  listed : ∀ f n, (∃ text, Verdict.Listed d.fields f n text) ↔ ∃ path i p v w, dotted p = n ∧ Turns x P f path i p v w ∧ v ≠ w
  text : ∀ f n text, Verdict.Listed d.fields f n text → ∃ path i p v w, dotted p = n ∧ Turns x P f path i p v w ∧ v ≠ w ∧ text = Engine.trim (x.dv v w)

/-- After the update a test does in each call what it did in both runs before, and panics as it did in both. -/
structure Same (x : Total.Ctx) (P : Fin 4 → Program) : Prop where
  values : ∀ f path i p v, (P 0).Shows x.c f path i p v → (P 1).Shows x.c f path i p v → (P 2).Shows x.c f path i p v ∧ (x.force = true → (P 3).Shows x.c f path i p v)
  project : ((P 0).panics : Multiset (Bytes × Bytes)) ∩ (P 1).panics = if x.force then ((P 2).panics : Multiset (Bytes × Bytes)) ∩ (P 3).panics else (P 2).panics
  modul : ((P 0).modulePanics : Multiset (Bytes × Bytes)) ∩ (P 1).modulePanics =
    if x.force then ((P 2).modulePanics : Multiset (Bytes × Bytes)) ∩ (P 3).modulePanics else (P 2).modulePanics

/-- A test with the programs it runs. -/
structure Case where
  ident : Bytes
  name : Bytes
  prog : Fin 4 → Program

/-- The test with its runs. -/
def Case.test (k : Case) : Total.Test :=
  let r := fun j => runOf (k.prog j).env (k.prog j).fuel (k.prog j).failed (k.prog j).events
  ⟨k.ident, k.name, r 0, r 1, r 2, r 3⟩

/-- An entry of the report says what the test did. -/
structure Tells (x : Total.Ctx) (k : Case) (d : Report.Detail) : Prop where
  ident : d.ident = k.ident
  name : d.name = k.name
  baseline : d.baseline = true ↔ (k.prog 0).failed = true ∨ (k.prog 1).failed = true
  regression : d.regression = true ↔ (k.prog 0).failed = false ∧ (k.prog 1).failed = false ∧ ((k.prog 2).failed = true ∨ (x.force = true ∧ (k.prog 3).failed = true))
  diff : d.diff = 0 ↔ Same x k.prog
  hits : d.hits = (k.prog 0).entered.toFinset.card
  lists : Lists x k.prog d

end Verif.Seen
