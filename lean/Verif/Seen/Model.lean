import Verif.Capture.Model
import Verif.Pipeline.Model

/-!
Messages from the program to the monitor. A state message: the client captures the values and encodes them (lens/astclient.go:86–111, 238–520), the server decodes the message
(lens/astsrv.go:176–197) and the monitor looks up the function and trims the stack (lens/astexec.go:720–748). Panics and entry points: lens/astclient.go:60–76, 120–136,
lens/astsrv.go:157–215, lens/astexec.go:690–698, 880–894.
-/

namespace Verif.Seen

open Verif.Wire (MsgState Field Frame serve encState encPanic encPoint Request Effect)
open Verif.Result (Bytes StackFrame)
open Verif.Capture (Cfg Heap V snapshot)
open Verif.Pipeline (Call Run)

/-- The settings of the client, and what the monitor knows: `trimStackFile` for its directories, and the identifiers of extension points and of callers, and of
panic points in the project and in modules. -/
structure Env where
  cfg : Cfg
  trim : Bytes → Bytes
  extension : AMap UInt32 Bytes
  project : AMap UInt32 Bytes
  projectPanic : AMap UInt32 Bytes
  modulePanic : AMap UInt32 Bytes

/-- A moment of the program at which the injected code sends a message: the id of the point, the memory, the time since the start of the client (not negative), the call
stack and the named values. -/
structure Shot where
  id : UInt32
  heap : Heap
  ns : BitVec 64
  stack : List Frame
  snaps : List (Bytes × V)

/-- astexec.go:741–748. -/
def trimmed (e : Env) (stack : List Frame) : List StackFrame := stack.map fun f => ⟨e.trim f.file, f.line.toUInt32.toNat, f.func⟩

/-- The point of a message, astexec.go:720–734: an extension point, or a point of a caller. `none` is an unknown id. -/
def pointOf (e : Env) (id : UInt32) : Option (Bool × Bytes) :=
  match e.extension.get id with
  | some ident => some (true, ident)
  | none => (e.project.get id).map fun ident => (false, ident)

/-- A decoded message as the monitor sees it, astexec.go:720–753. -/
def callOf (e : Env) (m : MsgState Field) : Option Call :=
  (pointOf e m.id).map fun p => ⟨p.1, p.2, trimmed e m.stack, m.time.toNat, m.fields⟩

/-- What the server makes of the body of a request, astsrv.go:176–197. -/
def received (e : Env) (body : Bytes) : Option Call :=
  match (serve e.cfg.len ⟨.state, true, body⟩).effects with
  | [.state m] => callOf e m
  | _ => none

/-- From the program to the monitor; `none` if capturing does not return, or the message is lost. -/
def sent (e : Env) (fuel : Nat) (s : Shot) : Option Call :=
  (snapshot e.cfg s.heap fuel s.id s.ns s.stack s.snaps).bind fun m => received e (encState m)

/-! ### All messages of a run -/

/-- What the injected code sends messages about: a state, a panic that leaves a function (with its text, `fmt.Sprintf("%v", r)`), the entry of a changed function. -/
inductive Event where
  | state (s : Shot)
  | panic (id : UInt32) (ns : BitVec 64) (text : Bytes)
  | entry (id : UInt32) (ns : BitVec 64) (stack : List Frame)

/-- The request the client makes, astclient.go:60–136; `none` if capturing does not return. -/
def requestOf (e : Env) (fuel : Nat) : Event → Option Request
  | .state s => (snapshot e.cfg s.heap fuel s.id s.ns s.stack s.snaps).map fun m => ⟨.state, true, encState m⟩
  | .panic id ns text => some ⟨.panic, true, encPanic ⟨id, ns, text⟩⟩
  | .entry id ns stack => some ⟨.point, true, encPoint ⟨id, ns, stack⟩⟩

/-- The handlers of the monitor, astexec.go:690–698, 700–753, 880–894, with the maps and lists kept as they arrive (`Pipeline.testResult` sorts them into maps).
Messages with unknown ids are logged. -/
def monitor (e : Env) (r : Run) : Effect → Run
  | .point m => { r with reached := r.reached ++ [m.id.toNat] }
  | .state m =>
    match callOf e m with
    | some c => { r with calls := r.calls ++ [c] }
    | none => r
  | .panic m =>
    match e.projectPanic.get m.id with
    | some ident => { r with projectPanics := r.projectPanics ++ [(ident, m.message)] }
    | none =>
      match e.modulePanic.get m.id with
      | some ident => { r with modulePanics := r.modulePanics ++ [(ident, m.message)] }
      | none => r
  | .logged _ => r

/-- One event, handled before the next one (the client waits for the answer, see C119; messages of different goroutines are taken in the order of handling). -/
def happens (e : Env) (fuel : Nat) (r : Run) (ev : Event) : Run :=
  match requestOf e fuel ev with
  | some q => (serve e.cfg.len q).effects.foldl (monitor e) r
  | none => r

/-- What the monitor has of a run of a test. -/
def runOf (e : Env) (fuel : Nat) (failed : Bool) (events : List Event) : Run := events.foldl (happens e fuel) ⟨[], [], [], [], failed⟩

end Verif.Seen
