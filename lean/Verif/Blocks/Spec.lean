import Verif.Blocks.Model
import Mathlib.Data.List.Dedup
import Mathlib.Data.Finset.Card
import Mathlib.Data.Finset.Dedup

/-! Executions of a function in SSA form, and what its return points should be. -/

namespace Verif.Blocks

open Verif.Static (Ret)

/-- An instruction other than a return may panic. -/
def MayPanic : Instr → Prop
  | .ret _ _ => False
  | _ => True

/-- Blocks that an execution enters: the first one, successors, and after a panic that a deferred function recovers the recover block. -/
inductive Enters (f : Fn) : Nat → Prop where
  | entry : Enters f 0
  | step {b s : Nat} {blk : Block} : Enters f b → f.blocks[b]? = some blk → s ∈ blk.succs → Enters f s
  | recovered {b r : Nat} {blk : Block} {i : Instr} : Enters f b → f.blocks[b]? = some blk → i ∈ blk.instrs → MayPanic i → f.recover = some r → Enters f r

/-- An execution gets to the instruction. -/
def Gets (f : Fn) (i : Instr) : Prop := ∃ (b : Nat) (blk : Block), Enters f b ∧ f.blocks[b]? = some blk ∧ i ∈ blk.instrs

/-- The function can return. -/
def Returns (f : Fn) : Prop := ∃ p rs, Gets f (.ret p rs)

/-- What package ssa says of its functions: returns and panics end blocks without successors, and nothing else does; only the recover block and, in a function
without results, the end of the body return without a statement. Unreachable blocks are
removed. The recover block has no return statement and no panic. Line numbers have 32 bits. -/
structure SSA (f : Fn) : Prop where
  ends : ∀ blk ∈ f.blocks, ∀ i ∈ blk.instrs, (∃ p rs, i = .ret p rs) ∨ (∃ p, i = .panic p) → blk.succs = [] ∧ blk.instrs.getLast? = some i
  exits : ∀ blk ∈ f.blocks, blk.succs = [] → (∃ p rs, blk.instrs.getLast? = some (.ret p rs)) ∨ ∃ p, blk.instrs.getLast? = some (.panic p)
  stated : 0 < f.results → ∀ (b : Nat) (blk : Block), f.blocks[b]? = some blk → f.recover ≠ some b → ∀ rs, .ret none rs ∉ blk.instrs
  reached : ∀ b, b < f.blocks.length → Enters f b ∨ f.recover = some b
  bare : ∀ (b : Nat) (blk : Block), f.recover = some b → f.blocks[b]? = some blk → ∀ i ∈ blk.instrs, (∀ l rs, i ≠ .ret (some l) rs) ∧ ∀ p, i ≠ .panic p
  lines : ∀ blk ∈ f.blocks, ∀ i ∈ blk.instrs, ∀ l, i.pos = some l → l < 2 ^ 32

/-- The number of operands of a return that are calls. -/
def called (rs : List Operand) : Nat := rs.count .call

/-- The number of calls whose results are returned. -/
def callsReturned (rs : List Operand) : Nat := rs.count .call + ((rs.filterMap fun o => match o with | .part id => some id | _ => none).toFinset).card

/-- The return instructions of a line. -/
def returnsOn (f : Fn) (line : Nat) : List (List Operand) :=
  f.blocks.flatMap fun b => b.instrs.filterMap fun i => match i with
    | .ret (some l) rs => if l = line then some rs else none
    | _ => none

end Verif.Blocks
