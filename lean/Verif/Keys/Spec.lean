import Verif.Keys.Model

/-! Which keys a report has, and what is noticed of it. -/

namespace Verif.Keys

/-- The report of a value at a depth has a key of a type. -/
inductive Has (c : Cfg) : Nat → Val → Nat → Nat → Prop
  | key {d type : Nat} {entries : List (Nat × Val)} {k : Nat} {v : Val} (hd : d < c.depth) (h : (k, v) ∈ entries.take c.len) : Has c d (.map type entries) type k
  | value {d type : Nat} {entries : List (Nat × Val)} {k : Nat} {v : Val} {t' k' : Nat} (hd : d < c.depth) (h : (k, v) ∈ entries.take c.len) (hv : Has c (d + 1) v t' k') :
      Has c d (.map type entries) t' k'
  | field {d : Nat} {fields : List Val} {v : Val} {t k : Nat} (hd : d < c.depth) (h : v ∈ fields) (hv : Has c (d + 1) v t k) : Has c d (.struct fields) t k

/-- The program notices `n` of a report: a method of a key does it, or a report made by such a method. -/
inductive Notices (c : Cfg) (ms : Methods) : Nat → Val → Nat → Prop
  | effect {d : Nat} {v : Val} {t k n : Nat} {m : Nat → List Act} (h : Has c d v t k) (hm : ms t = some m) (he : .effect n ∈ m k) : Notices c ms d v n
  | nested {d : Nat} {v w : Val} {t k n : Nat} {m : Nat → List Act} (h : Has c d v t k) (hm : ms t = some m) (he : .report w ∈ m k) (hn : Notices c ms 0 w n) : Notices c ms d v n

/-- Methods do not come back to themselves by the keys of what they report. -/
def Ranked (c : Cfg) (ms : Methods) : Prop := ∃ rank : Nat → Nat, ∀ t m k w, ms t = some m → .report w ∈ m k → ∀ t' k', Has c 0 w t' k' → ms t' ≠ none → rank t' < rank t

end Verif.Keys
