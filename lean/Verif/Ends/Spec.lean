import Verif.Ends.Model

/-!
Executions of statements, Go's rule that a function with results ends in a terminating statement, and what it means that a function returns.
-/

namespace Verif.Ends

/-- How a statement ends. -/
inductive Out where
  | next
  | ret
  | panic
  | brk (label : Option Nat)
  | cont (label : Option Nat)
  | fall
deriving DecidableEq, Repr

/-- What has been deferred. -/
inductive Dfr where
  | panic
  | recover
deriving DecidableEq, Repr

/-- A statement with a label takes `break`. -/
def catchBrk (label : Option Nat) : Out → Out
  | .brk none => .next
  | .brk (some l) => if label = some l then .next else .brk (some l)
  | o => o

/-- The loop goes on. -/
def goesOn (label : Option Nat) : Out → Bool
  | .next => true
  | .cont none => true
  | .cont (some l) => label = some l
  | _ => false

def hasDefault : Code → Bool
  | .clause d _ r => d || hasDefault r
  | _ => false

/-- Executions that end, with what they defer. The flag matters for clause lists only: whether the first clause must be taken. -/
inductive Exec : Bool → Code → List Dfr → Out → Prop where
  | nil {h} : Exec h .nil [] .next
  | seq {h s r ds ds' o} : Exec h s ds .next → Exec h r ds' o → Exec h (.seq s r) (ds ++ ds') o
  | stop {h s r ds o} : Exec h s ds o → o ≠ .next → Exec h (.seq s r) ds o
  | simple {h} : Exec h .simple [] .next
  | effect {h} : Exec h .effect [] .next
  | effectPanic {h} : Exec h .effect [] .panic
  | ret {h} : Exec h .ret [] .ret
  | panic {h b} : Exec h (.panic b) [] .panic
  | notPanic {h} : Exec h (.panic false) [] .next
  | deferPanic {h} : Exec h .deferPanic [.panic] .next
  | deferRecover {h} : Exec h .deferRecover [.recover] .next
  | block {h b ds o} : Exec h b ds o → Exec h (.block b) ds o
  | thn {h a e b ds o} : Exec h a ds o → Exec h (.ite a e b) ds o
  | els {h a e b ds o} : Exec h b ds o → Exec h (.ite a e b) ds o
  | leave {h l b} : Exec h (.loop l true b) [] .next
  | again {h l c b ds ds' o o'} : Exec h b ds o → goesOn l o = true → Exec h (.loop l c b) ds' o' → Exec h (.loop l c b) (ds ++ ds') o'
  | out {h l c b ds o} : Exec h b ds o → goesOn l o = false → Exec h (.loop l c b) ds (catchBrk l o)
  | switch {h l c ds o} : Exec false c ds o → Exec h (.switch l c) ds (catchBrk l o)
  | none {h l c} : hasDefault c = false → Exec h (.switch l c) [] .next
  | select {h l c ds o} : Exec false c ds o → Exec h (.select l c) ds (catchBrk l o)
  | take {h d b r ds o} : Exec false b ds o → o ≠ .fall → Exec h (.clause d b r) ds o
  | through {h d b r ds ds' o} : Exec false b ds .fall → Exec true r ds' o → Exec h (.clause d b r) (ds ++ ds') o
  | other {d b r ds o} : Exec false r ds o → Exec false (.clause d b r) ds o
  | brk {h l} : Exec h (.brk l) [] (.brk l)
  | cont {h l} : Exec h (.cont l) [] (.cont l)
  | fall {h} : Exec h .fall [] .fall

/-- Running what was deferred, the last first: whether the function is panicking at the end. -/
def unwind : List Dfr → Bool → Bool
  | [], p => p
  | .panic :: ds, _ => unwind ds true
  | .recover :: ds, _ => unwind ds false

/-- The function returns to its caller: by a return statement or at the end of its body or out of a panic that is recovered from. -/
def Returns (body : Code) : Prop :=
  ∃ ds o, Exec false body ds o ∧ (o = .next ∨ o = .ret ∨ o = .panic) ∧ unwind ds.reverse (o == .panic) = false

/-- A `break` that leaves the statement with this label; `inner`: inside of another one. -/
def breaks (label : Option Nat) : Bool → Code → Bool
  | inner, .brk none => !inner
  | _, .brk (some l) => label == some l
  | i, .seq s r => breaks label i s || breaks label i r
  | i, .block b => breaks label i b
  | i, .ite a _ b => breaks label i a || breaks label i b
  | _, .loop _ _ b => breaks label true b
  | _, .switch _ c => breaks label true c
  | _, .select _ c => breaks label true c
  | i, .clause _ b r => breaks label i b || breaks label i r
  | _, _ => false

mutual
/-- Terminating statements and lists, the Go specification; `goto` is left out. -/
def term : Code → Bool
  | .ret => true
  | .panic b => b
  | .seq s .nil => term s
  | .seq _ r => term r
  | .block b => term b
  | .ite a e b => e && term a && term b
  | .loop l c b => !c && !breaks l false b
  | .switch l c => !breaks l false c && hasDefault c && termClauses c
  | .select l c => !breaks l false c && termClauses c
  | _ => false

/-- Every clause ends in a terminating statement or `fallthrough`. -/
def termClauses : Code → Bool
  | .cnil => true
  | .clause _ b r => (term b || endsFall b) && termClauses r
  | _ => false

/-- The list ends in `fallthrough`. -/
def endsFall : Code → Bool
  | .seq s .nil => s == .fall
  | .seq _ r => endsFall r
  | _ => false
end

/-- No deferred function recovers. -/
def noRecover : Code → Bool
  | .deferRecover => false
  | .seq s r => noRecover s && noRecover r
  | .block b => noRecover b
  | .ite a _ b => noRecover a && noRecover b
  | .loop _ _ b => noRecover b
  | .switch _ c => noRecover c
  | .select _ c => noRecover c
  | .clause _ b r => noRecover b && noRecover r
  | _ => true

/-- A statement is somewhere in a piece of code, at any depth. -/
inductive Inside (x : Code) : Code → Prop where
  | here : Inside x x
  | first {s rest} : Inside x s → Inside x (.seq s rest)
  | later {s rest} : Inside x rest → Inside x (.seq s rest)
  | block {b} : Inside x b → Inside x (.block b)
  | thn {a e b} : Inside x a → Inside x (.ite a e b)
  | els {a e b} : Inside x b → Inside x (.ite a e b)
  | loop {l c b} : Inside x b → Inside x (.loop l c b)
  | switch {l c} : Inside x c → Inside x (.switch l c)
  | select {l c} : Inside x c → Inside x (.select l c)
  | clause {d b r} : Inside x b → Inside x (.clause d b r)
  | clauses {d b r} : Inside x r → Inside x (.clause d b r)

end Verif.Ends
