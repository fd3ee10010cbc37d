import Verif.Stack.Model
import Verif.Seen.Spec

/-! The functions active when a message is sent: those of the client, and those of the program from the innermost on. -/

namespace Verif.Stack

open Verif.Wire (Frame)
open Verif.Result (Bytes)

/-- `runtime.Callers`, `captureLensMonitorStack` and the function that sends are on top of those of the program. -/
structure Sending (all program : List Frame) : Prop where
  client : ∃ a b c, all = a :: b :: c :: program
  some : program ≠ []

/-- The functions of the project among the active ones. -/
def projectPath (e : Seen.Env) (program : List Frame) : List (Bytes × Bytes) :=
  (program.map fun f => (e.trim f.file, f.func)).filter fun q => Pipeline.here <+: q.1 ∧ ¬ Pipeline.vendored <+: q.1

end Verif.Stack
