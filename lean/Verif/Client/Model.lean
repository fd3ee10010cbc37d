import Verif.Base

/-!
The client that is put into each instrumented package: `/repo/lens/astclient.go` lines 20–190, the template rewriting of `/repo/lens/asttweak.go` lines
327–383 and the routes of `/repo/lens/astsrv.go` lines 71–93.

Not modelled: the encoding of messages (`Wire`), the stacks, what the HTTP client does with a URL that has a server (timeouts, redirects; the
response is any), several goroutines sending at the same time (each message is handled on its own).
-/

namespace Verif.Client

open Verif

abbrev Str := List Char

/-! ### Ports -/

def digit (d : Nat) : Char := Char.ofNat (48 + d)

/-- `strconv.Itoa`, `%d`. -/
def itoa : Int → Str
  | .ofNat n => (digits10 n).map digit
  | .negSucc n => '-' :: (digits10 (n + 1)).map digit

/-- Digits only, at least one. -/
def natOf (s : Str) : Option Nat :=
  if s ≠ [] ∧ s.all (fun c => 48 ≤ c.toNat ∧ c.toNat ≤ 57) then some (ofDigits10 (s.map fun c => c.toNat - 48)) else none

/-- Values outside of 64 bits are an error. -/
def inRange (i : Int) : Option Int := if -(2 ^ 63) ≤ i ∧ i < 2 ^ 63 then some i else none

/-- `strconv.Atoi`. -/
def atoi : Str → Option Int
  | '-' :: s => (natOf s).bind fun n => inRange (-(n : Int))
  | '+' :: s => (natOf s).bind fun n => inRange n
  | s => (natOf s).bind fun n => inRange n

/-- The port, astclient.go:45–52: the environment variable if it is not empty, else the constant. `none` is the panic of line 49. -/
def choosePort (const : Int) : Str → Option Int
  | [] => some const
  | env => atoi env

/-- `Port`, astsrv.go:72–76: what follows the first colon of the address. -/
def serverPort (addr : Str) : Int := (atoi ((addr.dropWhile (· ≠ ':')).drop 1)).getD 0

/-- "127.0.0.1", astclient.go:24. -/
def host : Str := ['1', '2', '7', '.', '0', '.', '0', '.', '1']

/-- The address of a server, astsrv.go:82. -/
def address (port : Int) : Str := host ++ ':' :: itoa port

/-- The value of the variable, astexec.go:243. -/
def envValue (port : Int) : Str := itoa (serverPort (address port))

/-! ### Endpoints -/

inductive Kind where
  | point | state | panic
  deriving DecidableEq, Repr

/-- What an endpoint is for. -/
inductive Target where
  | kind (k : Kind)
  | error
  deriving DecidableEq, Repr

/-- astapi.go:4–7. -/
def path : Target → Str
  | .error => ['/', 'a', 's', 't', '.', '0', '/', 'e', 'v', 'e', 'n', 't', '/', 'e', 'r', 'r', 'o', 'r']
  | .kind .point => ['/', 'a', 's', 't', '.', '0', '/', 'p', 'o', 'i', 'n', 't', '/', 'p', 'o', 'i', 'n', 't']
  | .kind .state => ['/', 'a', 's', 't', '.', '0', '/', 'p', 'o', 'i', 'n', 't', '/', 's', 't', 'a', 't', 'e']
  | .kind .panic => ['/', 'a', 's', 't', '.', '0', '/', 'p', 'o', 'i', 'n', 't', '/', 'p', 'a', 'n', 'i', 'c']

/-- The handlers of the server, astsrv.go:86–89. -/
def handlers : List (Str × Target) :=
  [(path .error, .error), (path (.kind .point), .kind .point), (path (.kind .state), .kind .state), (path (.kind .panic), .kind .panic)]

/-- "http://", astclient.go:54. -/
def scheme : Str := ['h', 't', 't', 'p', ':', '/', '/']

/-- `serverURL + path`, astclient.go:54–58. -/
def urlOf (port : Int) (t : Target) : Str := scheme ++ host ++ ':' :: itoa port ++ path t

/-! ### Messages -/

/-- What the HTTP client reports: an error or a status. -/
inductive Resp where
  | err
  | status (code : Nat)
  deriving DecidableEq, Repr

/-- The `n`-th message, or the error that follows from it. -/
inductive Body where
  | msg (k : Kind) (n : Nat)
  | fail (n : Nat)
  deriving DecidableEq, Repr

structure Req where
  url : Str
  body : Body
  deriving DecidableEq, Repr

/-- Responses may depend on everything sent before; the last request is the one answered. -/
abbrev Net := List Req → Resp

structure St where
  /-- the port in the endpoint variables (astclient.go:38–41), which are empty strings before `init` -/
  port : Option Int
  /-- `lensHttpClient` is not nil, astclient.go:31–37 -/
  ready : Bool
  reqs : List Req
  /-- lines printed, astclient.go:183 and 187 -/
  lines : Nat
  /-- the other effects of the program -/
  effects : List Nat
  /-- ended by a panic -/
  dead : Bool
  deriving DecidableEq, Repr

def St.start : St := ⟨none, false, [], 0, [], false⟩

def St.endpoint (st : St) (t : Target) : Str := match st.port with
  | none => []
  | some p => urlOf p t

/-- `resp.StatusCode >= 300` or an error, astclient.go:160–166 and 182–186. -/
def bad : Resp → Bool
  | .err => true
  | .status c => 300 ≤ c

/-- `lensHttpClient.Post`, if the client is there. -/
def St.post (st : St) (t : Target) (b : Body) : St := { st with reqs := st.reqs ++ [⟨st.endpoint t, b⟩] }

/-- `sendLensError`, astclient.go:171–190. -/
def sendError (net : Net) (st : St) (n : Nat) : St :=
  let st := st.post .error (.fail n)
  if bad (net st.reqs) then { st with lines := st.lines + 1 } else st

/-- `postLensMonitorMessage`, astclient.go:158–168, for the endpoints given at 67, 99 and 128. `Post` of a nil client panics. -/
def postMessage (net : Net) (st : St) (k : Kind) (n : Nat) : St :=
  if st.ready then
    let st := st.post (.kind k) (.msg k n)
    if bad (net st.reqs) then sendError net st n else st
  else { st with dead := true }

/-! ### Package initialization -/

/-- What instrumented code does: send a message or anything else. -/
inductive Act where
  | send (k : Kind) (n : Nat)
  | effect (n : Nat)
  deriving DecidableEq, Repr

inductive Ev where
  | act (a : Act)
  /-- the variables of the client get their values, astclient.go:29–37 -/
  | client
  /-- `init` of the client, astclient.go:44–59 -/
  | setup
  deriving DecidableEq, Repr

def step (net : Net) (const : Int) (env : Str) (st : St) : Ev → St
  | .act (.send k n) => if st.dead then st else postMessage net st k n
  | .act (.effect n) => if st.dead then st else { st with effects := st.effects ++ [n] }
  | .client => if st.dead then st else { st with ready := true }
  | .setup => if st.dead then st else match choosePort const env with
    | some p => { st with port := some p }
    | none => { st with dead := true }

def run (net : Net) (const : Int) (env : Str) (st : St) (evs : List Ev) : St := evs.foldl (step net const env) st

/-- A file of the package and what its `init` functions do, in order. -/
structure File where
  name : Str
  inits : List Ev

/-- "xx_lens_client_gen.go", asttweak.go:33 and 229. -/
def clientName : Str := ['x', 'x', '_', 'l', 'e', 'n', 's', '_', 'c', 'l', 'i', 'e', 'n', 't', '_', 'g', 'e', 'n', '.', 'g', 'o']

def clientFile : File := ⟨clientName, [.setup]⟩

/-! ### The template -/

inductive Tok where
  | const | var | type_
  deriving DecidableEq, Repr

/-- An expression of the template (its number) or a literal put in. -/
inductive Expr where
  | orig (n : Nat)
  | lit (v : Str)
  deriving DecidableEq, Repr

/-- `ast.ValueSpec`; `none` is a nil entry of `Values`. -/
structure VSpec where
  names : List Str
  values : List (Option Expr)
  deriving DecidableEq, Repr

inductive Decl where
  | gen (tok : Tok) (specs : List VSpec)
  | other (n : Nat)
  deriving DecidableEq, Repr

/-- The slot for a literal, asttweak.go:371–378: the list is filled with nil entries if it is too short. -/
def setSlot (vs : List (Option Expr)) (i : Nat) (v : Str) : List (Option Expr) :=
  if vs.length ≤ i then vs ++ List.replicate (i - vs.length) none ++ [some (.lit v)] else vs.set i (some (.lit v))

/-- The loop over the names of a spec, asttweak.go:363–380. -/
def replaceNames (vals : Str → Option Str) : Nat → List Str → List (Option Expr) → List (Option Expr)
  | _, [], vs => vs
  | i, x :: xs, vs => match vals x with
    | some v => replaceNames vals (i + 1) xs (setSlot vs i v)
    | none => replaceNames vals (i + 1) xs vs

def replaceSpec (vals : Str → Option Str) (s : VSpec) : VSpec := { s with values := replaceNames vals 0 s.names s.values }

/-- `updateConstLiterals`, asttweak.go:353–383. -/
def updateConsts (vals : Str → Option Str) : List Decl → List Decl
  | [] => []
  | .gen .type_ ss :: ds => .gen .type_ ss :: updateConsts vals ds
  | .gen tok ss :: ds => .gen tok (ss.map (replaceSpec vals)) :: updateConsts vals ds
  | .other n :: ds => .other n :: updateConsts vals ds

/-- A source file of the template. -/
structure Source where
  pkg : Str
  decls : List Decl
  deriving DecidableEq, Repr

/-- `rewriteAstClientTemplate`, asttweak.go:329–348; parsing and printing are not modelled. -/
def rewrite (src : Source) (pkg : Str) (vals : Str → Option Str) : Source := ⟨pkg, updateConsts vals src.decls⟩

end Verif.Client
