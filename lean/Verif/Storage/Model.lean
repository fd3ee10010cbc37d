import Verif.Storage.Spec

/-!
Models of the three storages of `/repo/lens/storage.go`.

Simplifications: locks are not modelled for the in-memory storage (every method holds the mutex for its whole body,
so calls are atomic); badger is a map with atomic transactions, and accepts every key (the real one refuses the empty
key, keys over 65000 bytes and keys starting with `!badger!`).  `badgerCompression` is ZSTD, so the manual
compression branches (storage.go:242–244, 351–355) are dead code and not modelled.
-/

namespace Verif.Storage

/-! ### In-memory storage -/

/-- `memStorage` as a state machine over values, storage.go:96–160. Go's map iteration order is the list order. -/
def memStep (m : AMap Key Blob) : Op → AMap Key Blob × Resp
  | .save k b => (m.set k b, .ok)                                   -- 106–112
  | .load k => (m, .blob (m.get k))                                 -- 114–123
  | .delete k => (m.del k, .ok)                                     -- 125–131
  | .list p => (m, .keys (m.keys.filter (fun k => p.isPrefixOf k))) -- 133–145
  | .clear => ([], .ok)                                             -- 147–153

abbrev memStorage : Impl := ⟨AMap Key Blob, [], memStep⟩

/-! ### In-memory storage with mutable buffers

The same code with byte slices as references into a heap, to express aliasing.  The caller owns the buffers it
created and those returned to it. -/

/-- Heap of buffers, the map of the storage (key to buffer), and the buffers the caller can write to. -/
structure MemWorld where
  heap : List Blob
  data : AMap Key Nat
  held : List Nat

/-- What the caller can do: make a buffer, overwrite a buffer it holds, call the storage with a buffer it holds. -/
inductive COp where
  | alloc (b : Blob)
  | write (r : Nat) (b : Blob)
  | save (k : Key) (r : Nat)
  | load (k : Key)
  | delete (k : Key)
  | clear
deriving DecidableEq, Repr

def MemWorld.buf (w : MemWorld) (r : Nat) : Blob := w.heap.getD r []

/-- One step. `save` stores a fresh copy (storage.go:110), `load` hands out a fresh copy (storage.go:122).
The second component is the content seen by a `load` when it returns. A write to a buffer the caller does not hold
is impossible and ignored. -/
def MemWorld.step (w : MemWorld) : COp → MemWorld × Option (Option Blob)
  | .alloc b => (⟨w.heap ++ [b], w.data, w.heap.length :: w.held⟩, none)
  | .write r b => (if r ∈ w.held then ⟨w.heap.set r b, w.data, w.held⟩ else w, none)
  | .save k r => (⟨w.heap ++ [w.buf r], w.data.set k w.heap.length, w.held⟩, none)
  | .load k =>
    match w.data.get k with
    | none => (w, some none)
    | some r => (⟨w.heap ++ [w.buf r], w.data, w.heap.length :: w.held⟩, some (some (w.buf r)))
  | .delete k => (⟨w.heap, w.data.del k, w.held⟩, none)
  | .clear => (⟨w.heap, [], w.held⟩, none)

def MemWorld.empty : MemWorld := ⟨[], [], []⟩

/-! ### Disk storage -/

/-- `splitPrefixString` = "badger_split:", storage.go:164. -/
def splitPrefix : List UInt8 := [98, 97, 100, 103, 101, 114, 95, 115, 112, 108, 105, 116, 58]

/-- `fmt.Sprintf("%s%s-%d", splitPrefixString, key, i)`, storage.go:256, 281, 330, 379. -/
def partKey (k : Key) (i : Nat) : Key := splitPrefix ++ k ++ 45 :: itoaBytes i

/-- The marker value, storage.go:289. -/
def marker (parts stored orig : Nat) : Blob :=
  splitPrefix ++ itoaBytes parts ++ 58 :: itoaBytes stored ++ 58 :: itoaBytes orig

def isDigit (b : UInt8) : Bool := 48 ≤ b.toNat && b.toNat ≤ 57

/-- The value of a run of digits (`strconv.Atoi`; simplified: no overflow, a marker number of more than 63 bits
can only come from a blob that itself looks like a marker). -/
def atoi (l : List UInt8) : Nat := ofDigits10 (l.map fun b => b.toNat - 48)

/-- One `(\d+)` group of the regular expression: the longest run of digits, which must be non-empty. -/
def digitGroup (l : List UInt8) : Option (Nat × List UInt8) :=
  if l.takeWhile isDigit = [] then none else some (atoi (l.takeWhile isDigit), l.dropWhile isDigit)

/-- The `splitRe` match, storage.go:171: `^badger_split:(\d+):(\d+):(\d+)$`. -/
def parseMarker (v : Blob) : Option (Nat × Nat × Nat) :=
  if splitPrefix.isPrefixOf v then
    match digitGroup (v.drop splitPrefix.length) with
    | some (a, c :: r) =>
      if c = 58 then
        match digitGroup r with
        | some (b, c' :: r') =>
          if c' = 58 then
            match digitGroup r' with
            | some (d, []) => some (a, b, d)
            | _ => none
          else none
        | _ => none
      else none
    | _ => none
  else none

/-- Physical records of the database. -/
abbrev DB := AMap Key Blob

/-- Delete the part records `0 … n-1` of a key, storage.go:255–257 and 378–382. -/
def delParts (db : DB) (k : Key) : Nat → DB
  | 0 => db
  | n + 1 => (delParts db k n).del (partKey k n)

/-- Delete the parts of a key if its current value is a marker, storage.go:250–263 and 374–383. -/
def wipeParts (db : DB) (k : Key) : DB :=
  match db.get k with
  | none => db
  | some v =>
    match parseMarker v with
    | none => db
    | some (n, _, _) => delParts db k n

/-- Number of parts, storage.go:271–274. -/
def numParts (limit len : Nat) : Nat := len / limit + (if len % limit ≠ 0 then 1 else 0)

/-- Size of part `i`, storage.go:275–281. -/
def partSize (len parts i : Nat) : Nat := len / parts + (if i < len % parts then 1 else 0)

/-- The loop writing parts `i, i+1, …` (`n` of them), storage.go:278–287; `rest` is `storeBlob[off:]`. -/
def writeParts (db : DB) (k : Key) (len parts : Nat) : Nat → Nat → Blob → DB
  | 0, _, _ => db
  | n + 1, i, rest =>
    writeParts (db.set (partKey k i) (rest.take (partSize len parts i))) k len parts n (i + 1)
      (rest.drop (partSize len parts i))

/-- `SaveState`, storage.go:240–291. -/
def dbSave (limit : Nat) (db : DB) (k : Key) (b : Blob) : DB :=
  let db1 := wipeParts db k
  if b.length ≤ limit then db1.set k b
  else
    let parts := numParts limit b.length
    (writeParts db1 k b.length parts parts 0 b).set k (marker parts b.length b.length)

/-- Reading parts `i …` into a buffer of which `buf` is already filled and `room` bytes are left,
storage.go:328–345: `copy` stops at the end of the buffer; `none` is an error (or the panic of `stored[off:]`
when `off` is already past the end). -/
def readParts (db : DB) (k : Key) : Nat → Nat → Blob → Nat → Bool → Option Blob
  | 0, _, buf, room, _ => some (buf ++ List.replicate room 0)
  | n + 1, i, buf, room, over =>
    if over then none
    else match db.get (partKey k i) with
      | none => none
      | some v => readParts db k n (i + 1) (buf ++ v.take room) (room - v.length) (decide (room < v.length))

/-- `LoadState` as two transactions, storage.go:293–359: the main record is read from `db`, the parts from `db'`. -/
def dbLoad2 (db db' : DB) (k : Key) : Resp :=
  match db.get k with
  | none => .blob none
  | some [] => .blob none                       -- `append([]byte(nil), v...)` of an empty value is nil, 302–311
  | some raw =>
    match parseMarker raw with
    | none => .blob (some raw)
    | some (n, size, _) =>
      match readParts db' k n 0 [] size false with
      | none => .error
      | some b => .blob (some b)

/-- `DeleteState`, storage.go:361–389. -/
def dbDelete (db : DB) (k : Key) : DB :=
  match db.get k with
  | none => db
  | some _ => (wipeParts db k).del k

/-- The disk storage, calls one after the other. -/
def badgerStep (limit : Nat) (db : DB) : Op → DB × Resp
  | .save k b => (dbSave limit db k b, .ok)
  | .load k => (db, dbLoad2 db db k)
  | .delete k => (dbDelete db k, .ok)
  | .list p => (db, .keys (db.keys.filter fun k => p.isPrefixOf k && !splitPrefix.isPrefixOf k))  -- 391–407
  | .clear => ([], .ok)                                                                             -- 413–416

abbrev badgerStorage (limit : Nat) : Impl := ⟨DB, [], badgerStep limit⟩

/-! ### Prefix wrapper -/

/-- `strings.TrimPrefix`. -/
def trimPrefix (p k : List UInt8) : List UInt8 := if p.isPrefixOf k then k.drop p.length else k

/-- Delete a list of keys one after the other through the wrapper, stopping at an error, storage.go:86–93. -/
def deleteAll (I : Impl) (pre : List UInt8) : I.σ → List Key → I.σ × Resp
  | st, [] => (st, .ok)
  | st, k :: ks =>
    match I.step st (.delete (pre ++ k)) with
    | (st', .error) => (st', .error)
    | (st', _) => deleteAll I pre st' ks

/-- The wrapper's methods on a backing storage, storage.go:51–93; `pre` is the prefix with its separator. -/
def prefixStep (I : Impl) (pre : List UInt8) (st : I.σ) : Op → I.σ × Resp
  | .save k b => I.step st (.save (pre ++ k) b)
  | .load k => I.step st (.load (pre ++ k))
  | .delete k => I.step st (.delete (pre ++ k))
  | .list p =>
    match I.step st (.list (pre ++ p)) with
    | (st', .keys ks) => (st', .keys (ks.map (trimPrefix pre)))
    | (st', r) => (st', r)
  | .clear =>
    match I.step st (.list (pre ++ [])) with
    | (st', .keys ks) => deleteAll I pre st' (ks.map (trimPrefix pre))
    | (st', r) => (st', r)

/-- `KeyPrefixStorage`, storage.go:36–44: the prefix with ";" appended, or the store itself for an empty prefix. -/
def keyPrefixStep (I : Impl) (p : List UInt8) (st : I.σ) (o : Op) : I.σ × Resp :=
  if p = [] then I.step st o else prefixStep I (p ++ [59]) st o

end Verif.Storage
