import Verif.Serve.Lemmas

/-! # C162: runs have a server -/

namespace Verif.Serve

/-- C162 (errors): the analysis ends with an error of a server only if a port cannot be listened on, and no run of a test is made with a server that is known to have failed. -/
theorem C162_errors {n : Nat} {free : Nat → Bool} {s : St} (h : Reach n free s) : (s.main = .error → ∃ i, i < n ∧ free i = false) ∧ ∀ r ∈ s.runs, r.1 < n ∧ r.2 ≠ .failed :=
  ⟨h.sound.cause, fun r hr => ⟨(h.sound.runs r hr).2, (h.sound.runs r hr).1⟩⟩

/-- C162 (stopped): when the analysis has ended, with an error or without, no server listens or will listen. -/
theorem C162_stopped {n : Nat} {free : Nat → Bool} {s : St} (h : Reach n free s) (ho : s.main = .error ∨ s.main = .done) (i : Nat) : s.status i ≠ .starting ∧ s.status i ≠ .listening :=
  h.sound.over ho i

/-- C162 (served): if each goroutine has tried to listen when the 100 ms are over, all runs of tests are with a server that listens, and the tests are run only if all ports can be listened on.
Missing: a goroutine that is later, see `C162_late_violated`. -/
theorem C162_served_partial {n : Nat} {free : Nat → Bool} {xs : List Step} (ht : InTime n free xs (start n)) {s : St} (hx : exec n free xs (start n) = some s) :
    (∀ r ∈ s.runs, r.2 = .listening) ∧ (s.main = .running → ∀ i, i < n → s.status i = .listening ∧ free i = true) := by
  have t := exec_inTime (P := Timely n free) (fun _ _ _ ih hw k => ih.step hw k) xs _ _ (timely_start n free) ht hx
  exact ⟨t.all, fun hr i hi => ⟨t.running hr i hi, t.sound.listening i (t.running hr i hi)⟩⟩

/-- C162 (known): once a server has failed, no further run is made with it, whatever happens. -/
theorem C162_known {n : Nat} {free : Nat → Bool} {s s' : St} {i : Nat} (h : Reach n free s) (hf : s.status i = .failed) (xs : List Step) (k : exec n free xs s = some s') :
    ∃ more, s'.runs = s.runs ++ more ∧ ∀ r ∈ more, r.1 ≠ i :=
  failed_exec xs h.sound hf k

/-- C162 (count): there is a server whenever there is a test, at most one for each test and at most 64. -/
theorem C162_count (cpus tests : Nat) : (0 < tests → 0 < serverCount cpus tests) ∧ serverCount cpus tests ≤ tests ∧ serverCount cpus tests ≤ 64 := by
  unfold serverCount
  omega

/-- The steps of an analysis with two servers that listen in time and a run with each. -/
def quiet : List Step := [.bind 0, .wake, .bind 1, .wake, .run 0, .run 1, .finish]

/-- It is in time, both runs are with servers that listen, and none listens in the end. -/
example : InTime 2 (fun _ => true) quiet (start 2) ∧ (exec 2 (fun _ => true) quiet (start 2)).map (fun s => (s.main, s.runs, s.status 0, s.status 1)) =
    some (.done, [(0, .listening), (1, .listening)], .stopped, .stopped) := by
  refine ⟨?_, by decide⟩
  simp [quiet, InTime, start, step, put]

/-- A port that is in use: the first server is stopped and the analysis ends with an error. -/
example : (exec 2 (fun i => i == 0) [.bind 0, .wake, .bind 1, .wake] (start 2)).map (fun s => (s.main, s.status 0, s.status 1)) = some (.error, .stopped, .failed) := by decide

/-- The port of the server is in use, but the goroutine finds this only after 100 ms: a test is run with a server that does not listen, what it sends is lost, and if it is the last run of a test
the analysis ends without an error. -/
theorem C162_late_violated : ∃ (n : Nat) (free : Nat → Bool) (s : St), Reach n free s ∧ s.main = .done ∧ (∀ i, free i = false) ∧ ∃ r ∈ s.runs, r.2 ≠ .listening :=
  ⟨1, fun _ => false, ⟨.done, stopAll 1 (put (put (fun _ => .unborn) 0 .starting) 0 .failed), [(0, .starting)]⟩, ⟨[.wake, .run 0, .bind 0, .finish], rfl⟩, rfl, fun _ => rfl, (0, .starting), by simp, by decide⟩

end Verif.Serve
