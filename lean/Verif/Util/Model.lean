import Verif.AMap

/-!
Models of the small helpers in `/repo/lens/util.go`, `util_io.go`, `exec.go` and `file.go`.
Go strings are byte strings; '\n' is 10, '=' is 61, '/' is 47, '.' is 46.
-/

namespace Verif.Util

abbrev Bytes := List UInt8

/-! ### limitingWaitGroup, util.go:24–63 -/

/-- A goroutine that still has `r` activities to start: not holding, or holding the limiter. -/
inductive GPhase where
  | idle (r : Nat)
  | holding (r : Nat)
deriving DecidableEq, Repr

/-- `tokens` values are in the channel (capacity `limit`); the joining goroutine has taken `joined` of them. -/
structure LState where
  tokens : Nat
  gs : List GPhase
  joined : Nat

def isHolding : GPhase → Bool
  | .holding _ => true
  | .idle _ => false

/-- Activities a goroutine still has to start. -/
def remaining : GPhase → Nat
  | .holding r => r
  | .idle r => r

/-- One atomic step. `Take` receives from the channel, `Release` sends (and blocks while the channel is full), each
iteration of `Join` is a `Take`. With `contract` set, `Join` starts only when no further `Take` will be made
(the documented expectation, util.go:48). -/
inductive LStep (limit : Nat) (contract : Bool) : LState → LState → Prop
  | take (s : LState) (i r : Nat) : s.gs[i]? = some (.idle (r + 1)) → 0 < s.tokens →
      LStep limit contract s ⟨s.tokens - 1, s.gs.set i (.holding r), s.joined⟩
  | release (s : LState) (i r : Nat) : s.gs[i]? = some (.holding r) → s.tokens < limit →
      LStep limit contract s ⟨s.tokens + 1, s.gs.set i (.idle r), s.joined⟩
  | join (s : LState) : s.joined < limit → 0 < s.tokens → (contract = true → ∀ g ∈ s.gs, remaining g = 0) →
      LStep limit contract s ⟨s.tokens - 1, s.gs, s.joined + 1⟩

/-- `NewLimitingWaitGroup`, util.go:52–63: the channel is filled; goroutine `i` will run `rounds[i]` activities. -/
def linit (limit : Nat) (rounds : List Nat) : LState := ⟨limit, rounds.map .idle, 0⟩

/-- Reachable states. -/
inductive LReach (limit : Nat) (contract : Bool) (s₀ : LState) : LState → Prop
  | refl : LReach limit contract s₀ s₀
  | step {s s'} : LReach limit contract s₀ s → LStep limit contract s s' → LReach limit contract s₀ s'

/-! ### stripedMutex, util.go:79–115 -/

/-- A goroutine that does not hold a lock, or holds the mutex `stripe` it got for `key`. -/
inductive MPhase (K : Type) where
  | free
  | holds (key : K) (stripe : Nat)

/-- The mutexes (locked or not) and the goroutines. -/
structure MState (K : Type) where
  locks : List Bool
  gs : List (MPhase K)

/-- `getLock`, util.go:109–115: the hash of the key modulo the number of stripes. -/
def stripeOf {K : Type} (hash : K → Nat) (n : Nat) (k : K) : Nat := hash k % n

/-- `Lock` succeeds when the mutex is not locked; `Unlock` on the mutex returned by `Lock`. -/
inductive MStep {K : Type} (hash : K → Nat) : MState K → MState K → Prop
  | lock (s : MState K) (i : Nat) (k : K) : s.gs[i]? = some .free →
      s.locks[stripeOf hash s.locks.length k]? = some false →
      MStep hash s ⟨s.locks.set (stripeOf hash s.locks.length k) true,
        s.gs.set i (.holds k (stripeOf hash s.locks.length k))⟩
  | unlock (s : MState K) (i : Nat) (k : K) (j : Nat) : s.gs[i]? = some (.holds k j) →
      MStep hash s ⟨s.locks.set j false, s.gs.set i .free⟩

inductive MReach {K : Type} (hash : K → Nat) (s₀ : MState K) : MState K → Prop
  | refl : MReach hash s₀ s₀
  | step {s s'} : MReach hash s₀ s → MStep hash s s' → MReach hash s₀ s'

/-- `newStripedMutex`, util.go:84–95, used by `g` goroutines. -/
def minit (K : Type) (stripes g : Nat) : MState K := ⟨List.replicate stripes false, List.replicate g .free⟩

/-! ### limitStringLines, util.go:65–77 -/

/-- `strings.Split(s, "\n")`. -/
def splitLines : Bytes → List Bytes
  | [] => [[]]
  | b :: s =>
    if b = 10 then [] :: splitLines s
    else match splitLines s with
      | [] => [[b]]
      | l :: ls => (b :: l) :: ls

/-- `strings.Join(lines, "\n")`. -/
def joinLines : List Bytes → Bytes
  | [] => []
  | [l] => l
  | l :: ls => l ++ 10 :: joinLines ls

/-- `limitStringLines`, for a non-negative count (a negative one panics in Go). -/
def limitStringLines (s : Bytes) (count : Nat) (head : Bool) : Bytes :=
  let lines := splitLines s
  if lines.length > count then
    if head then joinLines (lines.take count) else joinLines (lines.drop (lines.length - count))
  else s

/-! ### limitedRollingBuffer, util_io.go:62–86 -/

/-- "..." -/
def dots : Bytes := [46, 46, 46]

/-- `Write`, util_io.go:74–86, on the content of the buffer. -/
def rollWrite (max : Nat) (buf p : Bytes) : Bytes :=
  let cur := buf ++ p
  if cur.length > max then dots ++ cur.drop (cur.length - max / 2) else cur

/-! ### TeeWriter, util_io.go:12–60 -/

/-- A writer: one given by the caller, with whether it can be closed; `io.Discard`; or a tee. -/
inductive Writer where
  | leaf (id : Nat) (closable : Bool)
  | discard
  | tee (one two : Writer)
deriving DecidableEq, Repr

/-- The loop of `TeeWriter`, util_io.go:18–31; `none` in the input is a nil writer, `none` as state is `last == nil`. -/
def teeFold : Option Writer → List (Option Writer) → Option Writer
  | last, [] => last
  | last, none :: ws => teeFold last ws
  | none, some w :: ws => teeFold (some w) ws
  | some l, some w :: ws => teeFold (some (.tee l w)) ws

def isCloser : Writer → Bool
  | .leaf _ c => c
  | .discard => false
  | .tee _ _ => true

/-- `TeeWriter`, util_io.go:17–40; `none` is the tee around a nil writer that results from a list without writers. -/
def teeWriter (ws : List (Option Writer)) : Option Writer :=
  match teeFold none ws with
  | none => none
  | some w => if isCloser w then some w else some (.tee w .discard)

/-- Result of a write: which writers were called, in order, with what; count; the errors reported. -/
structure WRes where
  calls : List (Nat × Bytes)
  n : Nat
  errs : List Nat
deriving DecidableEq, Repr

/-- Error code used for "uneven write". -/
def unevenErr : Nat := 0

/-- `Write`, util_io.go:42–49.  `resp id` is what the caller's writer `id` answers: count and error codes. -/
def writeTo (resp : Nat → Nat × List Nat) (p : Bytes) : Writer → WRes
  | .leaf id _ => ⟨[(id, p)], (resp id).1, (resp id).2⟩
  | .discard => ⟨[], p.length, []⟩
  | .tee one two =>
    let r1 := writeTo resp p one
    let r2 := writeTo resp p two
    if r1.errs = [] ∧ r2.errs = [] ∧ r1.n ≠ r2.n then ⟨r1.calls ++ r2.calls, 0, [unevenErr]⟩
    else ⟨r1.calls ++ r2.calls, r1.n, r1.errs ++ r2.errs⟩

/-- `Close`, util_io.go:51–60: the caller's writers closed, in order. -/
def closeAll : Writer → List Nat
  | .leaf id c => if c then [id] else []
  | .discard => []
  | .tee one two => closeAll one ++ closeAll two

/-! ### mergeSafeEnv, exec.go:36–52 -/

/-- `strings.SplitN(kv, "=", 2)[0]`. -/
def envKey (e : Bytes) : Bytes := e.takeWhile (· ≠ 61)

/-- What follows the first '='. -/
def envVal (e : Bytes) : Bytes := (e.dropWhile (· ≠ 61)).drop 1

/-- "LD_" -/
def ldPrefix : Bytes := [76, 68, 95]

/-- `mergeSafeEnv`; `os` is `os.Environ()`. -/
def mergeSafeEnv (env os : List Bytes) : List Bytes :=
  let envKeys := env.map envKey
  os.filter (fun e =>
    if e = [] ∨ e = [61] ∨ ldPrefix.isPrefixOf e then false
    else if envKey e ∈ envKeys then false
    else true) ++ env

/-! ### fileWithinDir, file.go:25–49 -/

/-- Components of a path string. -/
def splitPath : Bytes → List Bytes
  | [] => [[]]
  | b :: s =>
    if b = 47 then [] :: splitPath s
    else match splitPath s with
      | [] => [[b]]
      | l :: ls => (b :: l) :: ls

/-- Lexical cleaning of the components of an absolute path (`filepath.Clean`): empty and "." vanish, ".." removes the
component before it and is ignored at the root.  `acc` is the cleaned part, last component first. -/
def cleanRev : List Bytes → List Bytes → List Bytes
  | acc, [] => acc
  | acc, c :: cs =>
    if c = [] ∨ c = [46] then cleanRev acc cs
    else if c = [46, 46] then cleanRev acc.tail cs
    else cleanRev (c :: acc) cs

def clean (cs : List Bytes) : List Bytes := (cleanRev [] cs).reverse

/-- `filepath.Abs` followed by `filepath.Clean`: a relative path is taken from the working directory. -/
def absClean (cwd : List Bytes) (p : Bytes) : List Bytes :=
  match p with
  | 47 :: _ => clean (splitPath p)
  | _ => clean (cwd ++ splitPath p)

/-- `filepath.Rel` on two cleaned absolute paths, as components: drop the common beginning, go up for what is left of
the base, then down. -/
def relComps : List Bytes → List Bytes → List Bytes
  | b :: bs, t :: ts => if b = t then relComps bs ts else List.replicate (bs.length + 1) [46, 46] ++ t :: ts
  | bs, ts => List.replicate bs.length [46, 46] ++ ts

/-- Components joined with '/'; `filepath.Rel` returns "." for equal paths. -/
def joinPath : List Bytes → Bytes
  | [] => [46]
  | [c] => c
  | c :: cs => c ++ 47 :: joinPath cs

/-- `fileWithinDir`. `filepath.Abs` and `filepath.Rel` do not fail on Unix for absolute paths. -/
def fileWithinDir (cwd : List Bytes) (file dir : Bytes) : Bool :=
  let rel := joinPath (relComps (absClean cwd dir) (absClean cwd file))
  if [46, 46].isPrefixOf rel || [46, 46, 47].isPrefixOf rel then false else true

end Verif.Util
