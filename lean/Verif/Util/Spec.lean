import Verif.Util.Model

/-!
What C53–C59 talk about, independent of how the code computes it.
-/

namespace Verif.Util

/-- How many goroutines hold the limiter. -/
def holders (s : LState) : Nat := s.gs.countP isHolding

/-- Everything is over: no activity left, none running, `Join` has returned. -/
def LDone (limit : Nat) (s : LState) : Prop := (∀ g ∈ s.gs, g = .idle 0) ∧ s.joined = limit

/-- Goroutine `i` holds the lock for key `k`. -/
def HoldsKey {K : Type} (s : MState K) (i : Nat) (k : K) : Prop := ∃ j, s.gs[i]? = some (.holds k j)

/-- Number of newline bytes. -/
def newlines (s : Bytes) : Nat := s.count 10

/-- `r` is exactly the first `n` lines of `s`, which has more than `n` lines. -/
def FirstLines (n : Nat) (s r : Bytes) : Prop := ∃ rest, s = r ++ 10 :: rest ∧ newlines r + 1 = n

/-- `r` is exactly the last `n` lines of `s`, which has more than `n` lines. -/
def LastLines (n : Nat) (s r : Bytes) : Prop := ∃ before, s = before ++ 10 :: r ∧ newlines r + 1 = n

/-- The value a process sees for variable `k`: the last entry for it wins (`exec.Cmd` removes earlier duplicates). -/
def lookupEnv (env : List Bytes) (k : Bytes) : Option Bytes :=
  (env.reverse.find? (fun e => envKey e == k)).map envVal

/-- `file` is `dir` or lies below it, as lists of components. -/
def Within (file dir : List Bytes) : Prop := dir <+: file

/-- Names of directory entries: not empty, not "." or "..", without a slash. -/
def Name (c : Bytes) : Prop := c ≠ [] ∧ c ≠ [46] ∧ c ≠ [46, 46] ∧ (47 : UInt8) ∉ c

/-- The caller's writers, without the nil ones. -/
def given (ws : List (Option (Nat × Bool))) : List (Nat × Bool) := ws.filterMap id

/-- `TeeWriter` called with writers of the caller. -/
def teeOf (ws : List (Option (Nat × Bool))) : Option Writer := teeWriter (ws.map (Option.map fun w => .leaf w.1 w.2))

end Verif.Util
