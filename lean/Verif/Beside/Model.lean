/-!
Goroutines of an instrumented program. A report is made of values that other goroutines may be using: `streamField`, `/repo/lens/astclient.go:238–411`, goes through the maps it finds (364, 369,
376) without any lock; it is called between two operations of the goroutine (`/repo/lens/asttweak.go`, `InjectFuncPointReturnStates`, `InjectFuncPointBeforeCall`), on the goroutine itself.

A goroutine is given by its next operation, which depends on the results of its operations so far. Only the operations that matter here are modelled: mutexes and maps. A write to a map
is two steps, since another goroutine can run in between; the runtime ends the program if it finds a map in the midst of a write by another goroutine ("concurrent map iteration and map write"), or
an unlocked mutex is unlocked. Simplified: the runtime always notices; the contents of a map are one number.
-/

namespace Verif.Beside

/-- An operation of a goroutine; number of the mutex or map. -/
inductive Op where
  | lock (m : Nat)
  | unlock (m : Nat)
  | read (o : Nat)
  | write (o v : Nat)
deriving DecidableEq

/-- The next operation of each goroutine, by the results so far; `none` at the end. -/
abbrev Code := Nat → List Nat → Option Op

/-- The maps that the report before the next operation goes through, in order; a map is listed as often as it is accessed. Empty where there is no report. -/
abbrev Watch := Nat → List Nat → List Nat

/-- The state of a program. `done`: results of the operations of a goroutine; `writer`: the goroutine in the midst of a write. -/
structure St where
  done : Nat → List Nat
  held : Nat → Option Nat
  store : Nat → Nat
  writer : Nat → Option Nat

/-- What a step leads to. -/
inductive Out (α : Type) where
  | crash
  | next (s : α)

def put {α : Type} (f : Nat → α) (i : Nat) (a : α) : Nat → α := fun j => if j = i then a else f j

def St.result (s : St) (t v : Nat) : St := { s with done := put s.done t (s.done t ++ [v]) }

/-- A step of goroutine `t`; `none` if it waits or is at its end. -/
def step (code : Code) (t : Nat) (s : St) : Option (Out St) :=
  match code t (s.done t) with
  | none => none
  | some (.lock m) => if s.held m = none then some (.next { s.result t 0 with held := put s.held m (some t) }) else none
  | some (.unlock m) => if s.held m = none then some .crash else some (.next { s.result t 0 with held := put s.held m none })
  | some (.read o) =>
    match s.writer o with
    | none => some (.next (s.result t (s.store o)))
    | some _ => some .crash
  | some (.write o v) =>
    match s.writer o with
    | none => some (.next { s with writer := put s.writer o (some t) })
    | some u => if u = t then some (.next { s.result t 0 with store := put s.store o v, writer := put s.writer o none }) else some .crash

/-- The state of an instrumented program: what each goroutine still has to go through for the report before its next operation, `none` if it has not begun with it. -/
structure Inst where
  st : St
  todo : Nat → Option (List Nat)

/-- A step of goroutine `t` of the instrumented program: first the report, then the operation. The report accesses maps and changes nothing. -/
def istep (code : Code) (watch : Watch) (t : Nat) (i : Inst) : Option (Out Inst) :=
  match i.todo t with
  | none => some (.next { i with todo := put i.todo t (some (watch t (i.st.done t))) })
  | some (o :: rest) =>
    match i.st.writer o with
    | none => some (.next { i with todo := put i.todo t (some rest) })
    | some u => if u = t then some (.next { i with todo := put i.todo t (some rest) }) else some .crash
  | some [] =>
    match step code t i.st with
    | none => none
    | some .crash => some .crash
    | some (.next s) => some (.next ⟨s, if s.done t = i.st.done t then i.todo else put i.todo t none⟩)

/-- Nothing done yet. -/
def start (store : Nat → Nat) : St := ⟨fun _ => [], fun _ => none, store, fun _ => none⟩

def istart (store : Nat → Nat) : Inst := ⟨start store, fun _ => none⟩

/-- The steps of the goroutines in the order given; `none` if one cannot step or the program crashes. -/
def run (code : Code) : List Nat → St → Option St
  | [], s => some s
  | t :: ts, s =>
    match step code t s with
    | some (.next s') => run code ts s'
    | _ => none

def irun (code : Code) (watch : Watch) : List Nat → Inst → Option Inst
  | [], s => some s
  | t :: ts, s =>
    match istep code watch t s with
    | some (.next s') => irun code watch ts s'
    | _ => none

end Verif.Beside
