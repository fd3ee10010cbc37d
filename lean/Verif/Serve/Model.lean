/-!
Starting the servers that messages are sent to: `RunModuleUpdateAnalysis`, `/repo/lens/astexec.go:75–94`, and `astExecServerStart`, `/repo/lens/astsrv.go:81–104`. Each server is started by a
goroutine that listens on its port; the start waits for 100 ms and then looks for an error (102–104). Each run of a test looks for one again before it starts (`SetPointHandler`,
astsrv.go:114–117, astexec.go:526–528, 549–551).

A state machine: the goroutines and the analysis step in any order. Ports are numbered from that of the configuration.
-/

namespace Verif.Serve

/-- A server: not started yet, its goroutine is on the way to listen, it listens, it could not, it was stopped. -/
inductive Status where
  | unborn
  | starting
  | listening
  | failed
  | stopped
deriving DecidableEq

/-- Where the analysis is: waiting for 100 ms after starting a server, running tests, ended with an error, ended without. -/
inductive Main where
  | waits (i : Nat)
  | running
  | error
  | done
deriving DecidableEq

/-- `runs`: for each run of a test the server it was given and the status of that server then. -/
structure St where
  main : Main
  status : Nat → Status
  runs : List (Nat × Status)

def put {α : Type} (f : Nat → α) (i : Nat) (a : α) : Nat → α := fun j => if j = i then a else f j

/-- `s.Stop(ctx)` of the servers kept in `srvs`, those before `n`, astexec.go:79–85. A server that has not begun to listen will not. -/
def stopAll (n : Nat) (status : Nat → Status) : Nat → Status := fun i =>
  if i < n then
    match status i with
    | .starting => .stopped
    | .listening => .stopped
    | x => x
  else status i

/-- The steps: a goroutine listens on its port or fails to; the wait is over; a run of a test with a server; the end. -/
inductive Step where
  | bind (i : Nat)
  | wake
  | run (i : Nat)
  | finish

/-- `n` servers; `free`: which ports can be listened on. -/
def step (n : Nat) (free : Nat → Bool) (s : St) : Step → Option St
  | .bind i => if s.status i = .starting then some { s with status := put s.status i (if free i then .listening else .failed) } else none
  | .wake =>
    match s.main with
    | .waits i =>
      if s.status i = .failed then some { s with main := .error, status := stopAll i s.status }
      else if i + 1 < n then some { s with main := .waits (i + 1), status := put s.status (i + 1) .starting }
      else some { s with main := .running }
    | _ => none
  | .run i =>
    if s.main = .running ∧ i < n then
      if s.status i = .failed then some { s with main := .error, status := stopAll n s.status }
      else some { s with runs := s.runs ++ [(i, s.status i)] }
    else none
  | .finish => if s.main = .running then some { s with main := .done, status := stopAll n s.status } else none

/-- At the beginning; with no tests there are no servers, astexec.go:76. -/
def start (n : Nat) : St := if n = 0 then ⟨.running, fun _ => .unborn, []⟩ else ⟨.waits 0, put (fun _ => .unborn) 0 .starting, []⟩

def exec (n : Nat) (free : Nat → Bool) : List Step → St → Option St
  | [], s => some s
  | x :: xs, s => (step n free s x).bind (exec n free xs)

/-- `serverCount`, astexec.go:76. -/
def serverCount (cpus tests : Nat) : Nat := min (min (max 1 (cpus / 2)) tests) 64

end Verif.Serve
