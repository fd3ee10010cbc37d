import Verif.Static.Model

/-!
`analyzeSSAFunctionReturnPoints`, /repo/lens/static.go:429–477: the return points of a function in SSA form, and whether it only panics.

Of an instruction, only what the function asks is kept: its kind, the line of its position (`none` for `token.NoPos`) and, for a return, which of its
operands are calls. An operand taken from a call with several results is an `ssa.Extract` of that call.
-/

namespace Verif.Blocks

open Verif.Static (Ret merge)

/-- Operands of a return. -/
inductive Operand where
  /-- a call with one result, `ssa.CallInstruction` -/
  | call
  /-- one of the results of call `id`, `*ssa.Extract` -/
  | part (id : Nat)
  | other
deriving DecidableEq, Repr

/-- Instructions. -/
inductive Instr where
  | ret (pos : Option Nat) (results : List Operand)
  | panic (pos : Option Nat)
  | call (pos : Option Nat)
  | other (pos : Option Nat)
deriving DecidableEq, Repr

def Instr.pos : Instr → Option Nat
  | .ret p _ => p
  | .panic p => p
  | .call p => p
  | .other p => p

/-- `ssa.BasicBlock`. -/
structure Block where
  instrs : List Instr
  succs : List Nat

/-- `ssa.Function`: `results` is the number of results, `recover` the block where a recovered panic goes on. -/
structure Fn where
  blocks : List Block
  recover : Option Nat
  results : Nat

/-- The operands that are calls, static.go:441–446. -/
def callCount (results : List Operand) : UInt32 := results.foldl (fun n o => if o = .call then n + 1 else n) 0

/-- A return instruction with a position, static.go:438–448. -/
def returnInfo : Instr → Option Ret
  | .ret (some line) results => some ⟨UInt32.ofNat line, callCount results⟩
  | _ => none

/-- The last instruction of an exit block, static.go:457–467. -/
def exitInfo (b : Block) : Option Ret :=
  if b.succs = [] then
    match b.instrs.getLast? with
    | some (.call (some line)) => some ⟨UInt32.ofNat line, 1⟩
    | some i => i.pos.map fun line => ⟨UInt32.ofNat line, 0⟩
    | none => none
  else none

/-- `infos` before it is merged, static.go:435–468. -/
def infos (f : Fn) : List Ret := f.blocks.flatMap fun b => b.instrs.filterMap returnInfo ++ (exitInfo b).toList

def isReturn : Instr → Bool
  | .ret (some _) _ => true
  | _ => false

def isPanic : Instr → Bool
  | .panic _ => true
  | _ => false

/-- `returnCount`, static.go:439. -/
def returnCount (f : Fn) : Nat := (f.blocks.map fun b => b.instrs.countP isReturn).sum

/-- `panicCount`, static.go:452–454. -/
def panicCount (f : Fn) : Nat := (f.blocks.map fun b => b.instrs.countP isPanic).sum

/-- `endsInPanic`, static.go:471–474. -/
def endsInPanic (f : Fn) : Bool := decide (f.results > 0) && returnCount f == 0 && decide (panicCount f > 0)

/-- The return points: `sorted` is what `sort.Slice` makes of `infos`. -/
def points (sorted : List Ret) : List Ret := merge sorted

end Verif.Blocks
