import Verif.Serve.Model

namespace Verif.Serve

/-- States that some order of steps leads to. -/
def Reach (n : Nat) (free : Nat → Bool) (s : St) : Prop := ∃ xs, exec n free xs (start n) = some s

/-- Each wait is over only after the goroutine of that server has tried to listen. -/
def InTime (n : Nat) (free : Nat → Bool) : List Step → St → Prop
  | [], _ => True
  | x :: xs, s => (∀ i, x = .wake → s.main = .waits i → s.status i ≠ .starting) ∧ ∀ s', step n free s x = some s' → InTime n free xs s'

end Verif.Serve
