import Verif.Base

/-!
Running the tests of a project concurrently, each against one of the monitor servers: `runMonitoredTestAnalysis` and `runMonitoredTest`,
`/repo/lens/astexec.go:216–299` and `520–566`, with the servers' handlers, `/repo/lens/astsrv.go:114–117` and `158–230`.

A message is a value of a type `B`; what a monitor does with it is left to `Verif/Monitor`. The process of a test may send messages at any time while it
runs. Loading the stored baseline, encoding and saving results, and setting a handler may fail.
-/

namespace Verif.Runs

/-- The test a process was started for, and whether it is the first or the second run. -/
structure Tag where
  test : Nat
  second : Bool
deriving DecidableEq, Repr

/-- What a test function is doing, astexec.go:222–288. Results of finished runs are the messages recorded. -/
inductive Phase (B : Type) where
  /-- `errGrp.Go` has not been called yet. -/
  | waiting
  /-- Before `srv := <-srvChan`. -/
  | started
  /-- With a server, before the first `SetPointHandler`. -/
  | holds (s : Nat)
  /-- `ExecGoTest`, for the second time if there is a first result. -/
  | running (s : Nat) (prev : Option (List B))
  /-- The process has ended. -/
  | exited (s : Nat) (prev : Option (List B))
  /-- `makeTestResult` has returned, for the first or second run. -/
  | ended (s : Nat) (one : List B) (two : Option (List B))
  /-- `SaveState` has returned. -/
  | saved (s : Nat) (one : List B) (two : Option (List B))
  /-- The totals have been updated. -/
  | counted (s : Nat) (one : List B) (two : Option (List B))
  /-- The server has been given back. -/
  | done (one : List B) (two : Option (List B))
  /-- Returned with an error, the server given back. -/
  | failed
deriving DecidableEq, Repr

/-- A message on its way: the server it was sent to, where it comes from, and the handler the server has chosen for it. -/
structure Flight (B : Type) where
  srv : Nat
  src : Tag
  body : B
  target : Option Tag
deriving DecidableEq, Repr

/-- The number of servers, whether a test is run twice (astexec.go:543: no baseline, or extension points), which messages count as field checks
(`fieldCheckCount`) and which module function an entry message stands for. -/
structure Cfg (B : Type) where
  servers : Nat
  twice : Nat → Bool
  isState : B → Bool
  reach : B → Option Nat

structure St (B : Type) where
  /-- The servers in `srvChan`. -/
  chan : List Nat
  /-- `pointHandler` of each server. -/
  handler : Nat → Option Tag
  /-- The test functions, by position. -/
  ph : List (Phase B)
  flight : List (Flight B)
  /-- The messages recorded by each handler, in order. -/
  recd : List (Tag × B)
  /-- The storage: test, first and second result. -/
  store : List (Nat × List B × Option (List B))
  /-- `totalFieldCheckCount` and `moduleIdentsReached`. -/
  total : Nat
  reached : List Nat
  /-- Whether an error will be returned. -/
  err : Bool
  /-- All messages sent (not in the code). -/
  sent : List (Tag × B)

variable {B : Type}

/-- The messages recorded for a run: `makeTestResult`. -/
def recorded (l : List (Tag × B)) (t : Tag) : List B := l.filterMap fun e => if e.1 = t then some e.2 else none

/-- `fieldCheckCount`, astexec.go:539 and 564: the smaller number of the runs. -/
def checks (c : Cfg B) (one : List B) : Option (List B) → Nat
  | none => one.countP c.isState
  | some two => min (one.countP c.isState) (two.countP c.isState)

/-- The server a test function has. -/
def Phase.srv : Phase B → Option Nat
  | .holds s | .running s _ | .exited s _ | .ended s _ _ | .saved s _ _ | .counted s _ _ => some s
  | _ => none

/-- Counts against the limit of the group: started, not returned. -/
def Phase.active : Phase B → Bool
  | .waiting | .done _ _ | .failed => false
  | _ => true

def Phase.isDone : Phase B → Bool
  | .done _ _ => true
  | _ => false

/-- `SetPointHandler` on server `s`. -/
def setHandler (h : Nat → Option Tag) (s : Nat) (t : Tag) : Nat → Option Tag := fun x => if x = s then some t else h x

/-- One atomic step. With `clean`, a process ends only after the answers to all its messages. -/
inductive Step (c : Cfg B) (clean : Bool) : St B → St B → Prop
  /-- The first test runs alone; the group runs at most as many as there are servers, started in order, astexec.go:289–296. -/
  | start (st : St B) (i : Nat) : st.ph[i]? = some .waiting → (∀ j < i, st.ph[j]? ≠ some .waiting) →
      (i ≠ 0 → (∃ p, st.ph[0]? = some p ∧ p.isDone = true) ∧ st.ph.countP Phase.active < c.servers) →
      Step c clean st { st with ph := st.ph.set i .started }
  /-- `srv := <-srvChan`, astexec.go:223. -/
  | take (st : St B) (i s : Nat) (rest : List Nat) : st.ph[i]? = some .started → st.chan = s :: rest →
      Step c clean st { st with ph := st.ph.set i (.holds s), chan := rest }
  /-- First handler, astexec.go:524–528. -/
  | first (st : St B) (i s : Nat) : st.ph[i]? = some (.holds s) →
      Step c clean st { st with ph := st.ph.set i (.running s none), handler := setHandler st.handler s ⟨i, false⟩ }
  /-- The process sends a message to the server whose port it was given. -/
  | post (st : St B) (i s : Nat) (prev : Option (List B)) (b : B) : st.ph[i]? = some (.running s prev) →
      Step c clean st { st with flight := st.flight ++ [⟨s, ⟨i, prev.isSome⟩, b, none⟩], sent := st.sent ++ [(⟨i, prev.isSome⟩, b)] }
  /-- `s.pointHandler.Load()`, astsrv.go:171, 191, 211. -/
  | load (st : St B) (f : Flight B) (l1 l2 : List (Flight B)) (t : Tag) : st.flight = l1 ++ f :: l2 → f.target = none → st.handler f.srv = some t →
      Step c clean st { st with flight := l1 ++ { f with target := some t } :: l2 }
  /-- The handler records the message, and the server answers. -/
  | record (st : St B) (f : Flight B) (l1 l2 : List (Flight B)) (t : Tag) : st.flight = l1 ++ f :: l2 → f.target = some t →
      Step c clean st { st with flight := l1 ++ l2, recd := st.recd ++ [(t, f.body)] }
  /-- The process ends: `cmd.Run()` returns. -/
  | exit (st : St B) (i s : Nat) (prev : Option (List B)) : st.ph[i]? = some (.running s prev) →
      (clean = true → ∀ f ∈ st.flight, f.src ≠ ⟨i, prev.isSome⟩) → Step c clean st { st with ph := st.ph.set i (.exited s prev) }
  /-- The result of the first run, astexec.go:536–538. -/
  | result1 (st : St B) (i s : Nat) : st.ph[i]? = some (.exited s none) →
      Step c clean st { st with ph := st.ph.set i (.ended s (recorded st.recd ⟨i, false⟩) none) }
  /-- Second handler, astexec.go:549–553. -/
  | second (st : St B) (i s : Nat) (one : List B) : st.ph[i]? = some (.ended s one none) → c.twice i = true →
      Step c clean st { st with ph := st.ph.set i (.running s (some one)), handler := setHandler st.handler s ⟨i, true⟩ }
  /-- The result of the second run, astexec.go:562. -/
  | result2 (st : St B) (i s : Nat) (one : List B) : st.ph[i]? = some (.exited s (some one)) →
      Step c clean st { st with ph := st.ph.set i (.ended s one (some (recorded st.recd ⟨i, true⟩))) }
  /-- `SaveState`, astexec.go:256–263. -/
  | save (st : St B) (i s : Nat) (one : List B) (two : Option (List B)) : st.ph[i]? = some (.ended s one two) → two.isSome = c.twice i →
      Step c clean st { st with ph := st.ph.set i (.saved s one two), store := st.store ++ [(i, one, two)] }
  /-- The totals, astexec.go:265–287: functions reached in the first run. -/
  | count (st : St B) (i s : Nat) (one : List B) (two : Option (List B)) : st.ph[i]? = some (.saved s one two) →
      Step c clean st { st with ph := st.ph.set i (.counted s one two), total := st.total + checks c one two, reached := st.reached ++ one.filterMap c.reach }
  /-- `srvChan <- srv`, astexec.go:224. -/
  | release (st : St B) (i s : Nat) (one : List B) (two : Option (List B)) : st.ph[i]? = some (.counted s one two) →
      Step c clean st { st with ph := st.ph.set i (.done one two), chan := st.chan ++ [s] }
  /-- An error before a run or before the result is saved; the server is given back. -/
  | fail (st : St B) (i s : Nat) (p : Phase B) : st.ph[i]? = some p → p.srv = some s →
      (p = .holds s ∨ ∃ one two, p = .ended s one two) →
      Step c clean st { st with ph := st.ph.set i .failed, chan := st.chan ++ [s], err := true }

/-- The number of servers started, astexec.go:76. -/
def serverCount (cpus tests : Nat) : Nat := min (min (max 1 (cpus / 2)) tests) 64

/-- At the start: all servers are free. -/
def init (c : Cfg B) (tests : Nat) : St B :=
  ⟨List.range c.servers, fun _ => none, List.replicate tests .waiting, [], [], [], 0, [], false, []⟩

inductive Reach (c : Cfg B) (clean : Bool) (tests : Nat) : St B → Prop
  | init : Reach c clean tests (init c tests)
  | step {st st'} : Reach c clean tests st → Step c clean st st' → Reach c clean tests st'

end Verif.Runs
