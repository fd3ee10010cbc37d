import Verif.Monitor.Model

/-!
What C22–C27 talk about.
-/

namespace Verif.Monitor

open Verif.Result (Bytes FMap StackFrame CallFrame TestResult bytesKey leafAt)

/-- The frames recorded when messages are handled one after the other. -/
def seqFrames {M F : Type} (build : M → List F → F) (ms : List M) : List F := ms.foldl (fun fs m => fs ++ [build m fs]) []

/-- The messages stored under a key. -/
def forKey {K M F : Type} [DecidableEq K] (c : MonCfg K M F) (k : Bool × K) (ms : List M) : List M :=
  ms.filter fun m => c.target m = some k

/-- Steps a message still needs. -/
def JPhase.weight : JPhase → Nat
  | .arrived => 4 | .locked => 3 | .appended => 2 | .unlocked => 1 | .done => 0 | .dropped => 0

def work {K M F : Type} (s : MonState K M F) : Nat := (s.jobs.map fun j => j.phase.weight).sum

/-- Stable sorting by time: a rearrangement, in order of time, that keeps the order of frames with the same time. -/
structure StableSorted (l l' : List CallFrame) : Prop where
  perm : l'.Perm l
  sorted : l'.Pairwise fun a b => a.time ≤ b.time
  stable : ∀ t, (l'.filter fun f => f.time = t) = l.filter fun f => f.time = t

/-- How many frames before position `i` have the key. -/
def occBefore (key : CallFrame → Bytes) (l : List CallFrame) (i : Nat) (k : Bytes) : Nat :=
  (l.take i).countP fun f => key f = k

/-- Position `i` of one run and `j` of the other are the same call: same key and same occurrence. -/
def Matched (key : CallFrame → Bytes) (l1 l2 : List CallFrame) (i j : Nat) : Prop :=
  ∃ f g, l1[i]? = some f ∧ l2[j]? = some g ∧ key f = key g ∧ occBefore key l1 i (key f) = occBefore key l2 j (key f)

/-- The combination of two matched frames. -/
structure Combined (f g r : CallFrame) : Prop where
  stack : r.stack = f.stack
  time : r.time = f.time
  leaves : ∀ p v, leafAt p r.fields = some v ↔ leafAt p f.fields = some v ∧ leafAt p g.fields = some v

/-- What a call path consists of. -/
def callPath (fs : List StackFrame) : List (Bytes × Bytes) := fs.map fun f => (f.file, f.func)

/-- "vendor" -/
def vendorName : Bytes := [118, 101, 110, 100, 111, 114]

end Verif.Monitor
