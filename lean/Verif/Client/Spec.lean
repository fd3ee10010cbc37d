import Verif.Client.Model

/-! What C119–C121 claim, apart from how the client is written. -/

namespace Verif.Client

/-! ### Where a request goes -/

/-- A URL with a numeric port on this host: port and path. Any other URL has no server here. -/
def dial (url : Str) : Option (Nat × Str) :=
  if ['h', 't', 't', 'p', ':', '/', '/', '1', '2', '7', '.', '0', '.', '0', '.', '1', ':'] <+: url then
    let rest := url.drop 17
    let ds := rest.takeWhile (· ≠ '/')
    if ds ≠ [] ∧ ds.all (fun c => '0' ≤ c ∧ c ≤ '9') then
      some (ds.foldl (fun a c => a * 10 + (c.toNat - 48)) 0, rest.dropWhile (· ≠ '/'))
    else none
  else none

/-- The server at a port and which of its handlers gets the request (the paths are exact patterns of `http.ServeMux`). -/
def reaches (url : Str) : Option (Nat × Target) :=
  (dial url).bind fun q => (handlers.find? fun h => h.1 = q.2).map fun h => (q.1, h.2)

/-- A message that reaches a handler. -/
structure Arrival where
  port : Nat
  handler : Target
  kind : Kind
  n : Nat
  deriving DecidableEq, Repr

def arrival (r : Req) : Option Arrival := match r.body with
  | .msg k n => (reaches r.url).map fun q => ⟨q.1, q.2, k, n⟩
  | .fail _ => none

/-- Messages that reach a server, in order. -/
def arrivals (reqs : List Req) : List Arrival := reqs.filterMap arrival

/-! ### What the program sends -/

def sendOf : Ev → Option (Kind × Nat)
  | .act (.send k n) => some (k, n)
  | _ => none

def sends (evs : List Ev) : List (Kind × Nat) := evs.filterMap sendOf

def effectOf : Ev → Option Nat
  | .act (.effect n) => some n
  | _ => none

/-- Events of the user's code only. -/
def User (evs : List Ev) : Prop := ∀ e ∈ evs, ∃ a, e = .act a

/-- Order of file names (bytes; names are ASCII here). -/
def nameLt (a b : Str) : Prop := a.map Char.toNat < b.map Char.toNat

/-- A start of the package: its variables get their values in some order, among them those of the client; then the `init` functions are called file by
file in the order of the names (the order in which the go command gives files to the compiler); then the program runs. -/
structure Startup (evs : List Ev) where
  early : List Ev
  late : List Ev
  files : List File
  main : List Ev
  before : List File
  after : List File
  userEarly : User early
  userLate : User late
  userMain : User main
  userFiles : ∀ f ∈ files, User f.inits
  /-- the files of the package with that of the client -/
  perm : (before ++ clientFile :: after).Perm (clientFile :: files)
  sorted : (before ++ clientFile :: after).Pairwise fun a b => nameLt a.name b.name
  order : evs = early ++ .client :: late ++ (before ++ clientFile :: after).flatMap File.inits ++ main

/-! ### How messages are sent -/

/-- A request went well. -/
def Ok (r : Resp) : Prop := ∃ c, r = .status c ∧ c < 300

/-- Requests, lines printed and messages sent belong together: a message is one request; if that fails, one report follows directly, to the handler for
errors of the same server; if that fails too, one line is printed, and that is all. -/
inductive Exchange (net : Net) : List Req → Nat → List (Kind × Nat) → Prop
  | none : Exchange net [] 0 []
  | sent {h l ss u k n} : Exchange net h l ss → Ok (net (h ++ [⟨u, .msg k n⟩])) → Exchange net (h ++ [⟨u, .msg k n⟩]) l (ss ++ [(k, n)])
  | reported {h l ss u v k n} : Exchange net h l ss → ¬ Ok (net (h ++ [⟨u, .msg k n⟩])) → Ok (net (h ++ [⟨u, .msg k n⟩, ⟨v, .fail n⟩])) →
      reaches v = (reaches u).map (fun q => (q.1, .error)) → Exchange net (h ++ [⟨u, .msg k n⟩, ⟨v, .fail n⟩]) l (ss ++ [(k, n)])
  | printed {h l ss u v k n} : Exchange net h l ss → ¬ Ok (net (h ++ [⟨u, .msg k n⟩])) → ¬ Ok (net (h ++ [⟨u, .msg k n⟩, ⟨v, .fail n⟩])) →
      reaches v = (reaches u).map (fun q => (q.1, .error)) → Exchange net (h ++ [⟨u, .msg k n⟩, ⟨v, .fail n⟩]) (l + 1) (ss ++ [(k, n)])

/-! ### Values of the template -/

/-- What a name stands for. -/
inductive Value where
  /-- an expression with the value of `iota` -/
  | is (e : Expr) (iota : Nat)
  /-- one of the results of a call -/
  | part (e : Expr) (i : Nat)
  /-- a variable without value -/
  | zero
  deriving DecidableEq, Repr

/-- Values for the names of one spec; `none` if it does not compile. `prev` are the values of the spec before, which constants without values repeat. -/
def specValues (tok : Tok) (iota : Nat) (prev : List Expr) (names : List Str) (values : List (Option Expr)) : Option (List Value × List Expr) :=
  if values.any Option.isNone then none
  else
    let vs := values.filterMap id
    if vs.length = names.length then some (vs.map (.is · iota), vs)
    else match tok, vs with
      | .const, [] => if prev.length = names.length then some (prev.map (.is · iota), prev) else none
      | .var, [] => some (names.map fun _ => .zero, [])
      | .var, [e] => some ((List.range names.length).map (.part e ·), [e])
      | _, _ => none

def groupValues (tok : Tok) : Nat → List Expr → List VSpec → Option (List (Str × Value))
  | _, _, [] => some []
  | i, prev, s :: ss => (specValues tok i prev s.names s.values).bind fun q =>
      (groupValues tok (i + 1) q.2 ss).map fun rest => s.names.zip q.1 ++ rest

/-- Names and values of all constants and variables of a file, in order. -/
def fileValues : List Decl → Option (List (Str × Value))
  | [] => some []
  | .gen .type_ _ :: ds => fileValues ds
  | .gen tok ss :: ds => (groupValues tok 0 [] ss).bind fun q => (fileValues ds).map (q ++ ·)
  | .other _ :: ds => fileValues ds

/-- Everything of a file except the values of constants and variables. -/
def skeleton : List Decl → List (Option Nat × List (List Str))
  | [] => []
  | .gen _ ss :: ds => (none, ss.map (·.names)) :: skeleton ds
  | .other n :: ds => (some n, []) :: skeleton ds

/-- The value a name gets if it is configured. -/
def configured (vals : Str → Option Str) (q : Str × Value) : Str × Value := match vals q.1, q.2 with
  | some v, .is _ i => (q.1, .is (.lit v) i)
  | _, _ => q

/-- Specs whose values may be put in: each configured name has its own value, and no other constant repeats it. -/
def Fits (vals : Str → Option Str) : List Decl → Prop
  | [] => True
  | .gen .type_ _ :: ds => Fits vals ds
  | .gen _ ss :: ds => ((∀ s ∈ ss, ∀ x ∈ s.names, vals x = none) ∨ ∀ s ∈ ss, s.values.length = s.names.length) ∧ Fits vals ds
  | .other _ :: ds => Fits vals ds

end Verif.Client
