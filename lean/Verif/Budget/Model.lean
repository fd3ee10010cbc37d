import Verif.Storage.Model

/-!
How the database behind the storage is set up: `NewBadgerStorage`, `/repo/lens/storage.go:162–232`, the check of the budget in `/repo/lens/engine.go:1114–1115`, and the
transaction of `SaveState`, `/repo/lens/storage.go:240–291`.

The rules of the library (`Rules` below) are those of badger v4 as known; they are part of the trusted base: options.go / db.go (`checkAndSetOptions`: size of the value
log, value threshold, batch size and count) and txn.go (`modify`, `checkSize`).
-/

namespace Verif.Budget

open Verif.Storage (Key Blob DB numParts partSize partKey marker parseMarker)

/-! ### Sizes -/

/-- One megabyte, `<< 20`. -/
def mb : Nat := 1048576

/-- `clamp`, storage.go:184–186. -/
def clamp (val lo high : Nat) : Nat := min (max val lo) high

/-- engine.go:1114–1115. -/
def permitted (m : Nat) : Bool := !(m < 1 || m > 10240)

/-- storage.go:187–190 (`badgerCompression` is ZSTD). -/
def blockCache (m : Nat) : Nat := clamp (m / 8) 2 128 * mb

/-- storage.go:192. -/
def memTable (m : Nat) : Nat := clamp (m / 4) 8 64 * mb

/-- storage.go:205. -/
def indexCache (m : Nat) : Nat := clamp (m / 4) 16 128 * mb

/-- `WithNumMemtables(2)`, storage.go:200. -/
def memTables : Nat := 2

/-- `badgerSplitLimit`, storage.go:162–168. -/
def splitLimit : Nat := 1073741824 - 16 - 240

/-- `WithValueLogFileSize`, storage.go:206. -/
def logFile (limit : Nat) : Nat := max (1024 * 1024 * 128) (limit + 240)

/-! ### The transaction of `SaveState` -/

inductive Act where
  | put (k : Key) (v : Blob)
  | del (k : Key)
deriving DecidableEq

def Act.key : Act → Key
  | .put k _ => k
  | .del k => k

def Act.value : Act → Blob
  | .put _ v => v
  | .del _ => []

/-- storage.go:250–263. -/
def wipeActs (db : DB) (k : Key) : List Act :=
  match db.get k with
  | none => []
  | some v =>
    match parseMarker v with
    | none => []
    | some (n, _, _) => (List.range n).map fun i => .del (partKey k i)

/-- storage.go:278–287. -/
def partActs (k : Key) (len parts : Nat) : Nat → Nat → Blob → List Act
  | 0, _, _ => []
  | n + 1, i, rest => .put (partKey k i) (rest.take (partSize len parts i)) :: partActs k len parts n (i + 1) (rest.drop (partSize len parts i))

/-- storage.go:246–291. -/
def saveActs (limit : Nat) (db : DB) (k : Key) (b : Blob) : List Act :=
  wipeActs db k ++
    if b.length ≤ limit then [.put k b]
    else partActs k b.length (numParts limit b.length) (numParts limit b.length) 0 b ++
      [.put k (marker (numParts limit b.length) b.length b.length)]

end Verif.Budget
