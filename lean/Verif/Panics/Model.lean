import Verif.Base

/-!
Model of `InjectFuncPointPanic` (/repo/lens/asttweak.go 458–505), `InjectFuncPointEntry` (1830–1839) and `InjectFuncPointFinish` (1842–1851): statements put
at the beginning of functions, together with what Go does on `defer`, `panic`, `recover` and `runtime.Goexit`.

Simplifications. A program is a tree of everything it can do: after each step the rest of the program depends on the result of the step, and
the result may depend on everything done so far. So variables, arguments, results, branches and loops need not be modelled; programs that
run forever are not there. One goroutine. Sending a message always succeeds and is not noticed by the program.
-/

namespace Verif.Panics

abbrev Val := Nat

/-- A function body, or the rest of one. -/
inductive Prog where
  | done
  /-- Anything that neither calls a function of the program nor has to do with panics. -/
  | eff (n : Nat) (k : Nat → Prog)
  /-- `recover()`; the result is `none` for `nil`. -/
  | recover (k : Option Val → Prog)
  /-- `panic(v)`, where `none` is `nil`. -/
  | panic (v : Option Val)
  /-- `runtime.Goexit()` -/
  | goexit
  /-- Call of a function with a name, or of a function literal. -/
  | call (name : Option Nat) (f : Prog) (k : Prog)
  | defer (name : Option Nat) (f : Prog) (k : Prog)
  /-- `sendLensPointMessage(pid)` or `sendLensPointRecoveryMessage(pid, v)`, only in generated code. -/
  | send (pid : Nat) (v : Option Val) (k : Prog)

/-- How a function is left: by `Goexit`, and by a panic with a value. Neither: it returns. -/
structure Out where
  goexit : Bool
  pan : Option (Option Val)
deriving DecidableEq, Repr

def Out.normal : Out := ⟨false, none⟩

inductive Ev where
  | eff (n : Nat) (v : Nat)
  | entered (name : Nat)
  | left (name : Nat) (o : Out)
  | send (pid : Nat) (v : Option Val)
deriving DecidableEq, Repr

def Ev.isSend : Ev → Bool
  | .send _ _ => true
  | _ => false

/-- What the program can know about what has happened. -/
def seen (evs : List Ev) : List Ev := evs.filter fun e => !e.isSend

/-- A function that can be called: given the value `recover()` has in it (the outer `none` if there is no panic that it could stop), and
what has happened. Result: how it ends, whether it has stopped the panic, what has happened. -/
abbrev Fn := Option (Option Val) → List Ev → Out × Bool × List Ev

/-- Deferred functions are executed, the last one first; each changes how the function is left. A deferred function can stop only the panic
because of which it is executed. A panic in it replaces the earlier one, `Goexit` in it too. `Goexit` goes on after a panic has been stopped. -/
def fin : List Fn → Out → List Ev → Out × List Ev
  | [], o, evs => (o, evs)
  | f :: fs, o, evs =>
    let r := f o.pan evs
    let pan := if r.1.pan.isSome then r.1.pan else if r.1.goexit || r.2.1 then none else o.pan
    fin fs ⟨o.goexit || r.1.goexit, pan⟩ r.2.2

/-- State inside of a function: whether the panic has been stopped, the deferred functions, what has happened. -/
structure Act where
  out : Out
  stopped : Bool
  defers : List Fn
  evs : List Ev

/-- The end of a function. -/
def close (a : Act) : Out × Bool × List Ev :=
  let r := fin a.defers a.out a.evs
  (r.1, a.stopped, r.2)

/-- Functions with a name are noted when entered and left. -/
def named (name : Option Nat) (f : Fn) : Fn :=
  match name with
  | none => f
  | some n => fun amb evs =>
    let r := f amb (evs ++ [.entered n])
    (r.1, r.2.1, r.2.2 ++ [.left n r.1])

/-- What the parts that are not modelled do, and the value of a panic with `nil`: itself for programs with a language version before Go 1.21, a
`PanicNilError` after. -/
structure World where
  res : Nat → List Ev → Nat
  nilVal : Option Val

def den (w : World) : Prog → Option (Option Val) → Bool → List Fn → List Ev → Act
  | .done, _, st, ds, evs => ⟨.normal, st, ds, evs⟩
  | .eff n k, amb, st, ds, evs => den w (k (w.res n (seen evs))) amb st ds (evs ++ [.eff n (w.res n (seen evs))])
  | .recover k, amb, st, ds, evs =>
    match amb, st with
    | some v, false => den w (k v) amb true ds evs
    | _, _ => den w (k none) amb st ds evs
  | .panic v, _, st, ds, evs => ⟨⟨false, some (if v.isSome then v else w.nilVal)⟩, st, ds, evs⟩
  | .goexit, _, st, ds, evs => ⟨⟨true, none⟩, st, ds, evs⟩
  | .call name f k, amb, st, ds, evs =>
    let r := named name (fun a e => close (den w f a false [] e)) none evs
    if r.1 = .normal then den w k amb st ds r.2.2 else ⟨r.1, st, ds, r.2.2⟩
  | .defer name f k, amb, st, ds, evs => den w k amb st (named name (fun a e => close (den w f a false [] e)) :: ds) evs
  | .send pid v k, amb, st, ds, evs => den w k amb st ds (evs ++ [.send pid v])

/-- Call a function. -/
def call (w : World) (name : Option Nat) (f : Prog) : Fn := named name fun a e => close (den w f a false [] e)

/-- Run a goroutine. -/
def run (w : World) (name : Option Nat) (f : Prog) : Out × List Ev :=
  let r := call w name f none []
  (r.1, r.2.2)

/-! ### The changes -/

inductive Inj where
  | entry (pid : Nat)
  | panic (pid : Nat)
  | finish (pid : Nat)
deriving DecidableEq, Repr

/-- `if r := recover(); r != nil { sendLensPointRecoveryMessage(pid, r); panic(r) }` (asttweak.go 471–501). -/
def watcher (pid : Nat) : Prog := .recover fun r =>
  match r with
  | none => .done
  | some v => .send pid (some v) (.panic (some v))

/-- Each puts one statement in front of the body (asttweak.go 503, 1837, 1849). -/
def inject (body : Prog) : Inj → Prog
  | .entry pid => .send pid none body
  | .panic pid => .defer none (watcher pid) body
  | .finish pid => .defer none (.send pid none .done) body

/-- The points put into a function, one after the other. -/
def injectAll (l : List Inj) (body : Prog) : Prog := l.foldl inject body

/-- The points of a function by name; function literals get none. -/
def pointsOf (pts : Nat → List Inj) : Option Nat → List Inj
  | none => []
  | some n => pts n

/-- The program in which the functions have their points. -/
def instr (pts : Nat → List Inj) : Prog → Prog
  | .done => .done
  | .eff n k => .eff n fun v => instr pts (k v)
  | .recover k => .recover fun v => instr pts (k v)
  | .panic v => .panic v
  | .goexit => .goexit
  | .call name f k => .call name (injectAll (pointsOf pts name) (instr pts f)) (instr pts k)
  | .defer name f k => .defer name (injectAll (pointsOf pts name) (instr pts f)) (instr pts k)
  | .send pid v k => .send pid v (instr pts k)

end Verif.Panics
