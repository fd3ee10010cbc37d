import Verif.Wire.Model

/-!
The stack sent with a message: `captureLensMonitorStack`, `/repo/lens/astclient.go:138–155`, called with 3 at lines 63, 94 and 175. `runtime.Callers` and `runtime.CallersFrames` are modelled as
known: the first fills its slice from the innermost function on, without the given number of them; the second goes through that, and gives an empty frame if there is none.
-/

namespace Verif.Stack

open Verif.Wire (Frame)

/-- `runtime.Callers(skip, make([]uintptr, size))`, of the functions from the innermost on, which is `runtime.Callers` itself. -/
def callers (skip size : Nat) (all : List Frame) : List Frame := (all.drop skip).take size

/-- `frames.Next()`: the frame, whether there are more, and the rest. -/
def next : List Frame → Frame × Bool × List Frame
  | [] => (⟨[], [], 0⟩, false, [])
  | f :: rest => (f, !rest.isEmpty, rest)

/-- The loop, astclient.go:143–153; ends as `more` is false with one frame left. -/
def collect : Nat → List Frame → List Frame
  | 0, _ => []
  | fuel + 1, l => let n := next l
    if n.2.1 then n.1 :: collect fuel n.2.2 else [n.1]

/-- `captureLensMonitorStack(skip)`, astclient.go:138–155. -/
def capture (skip : Nat) (all : List Frame) : List Frame :=
  let pcs := callers skip Wire.maxStackFrames all
  collect (pcs.length + 1) pcs

end Verif.Stack
