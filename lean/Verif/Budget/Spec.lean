import Verif.Budget.Model

/-! Rules of the database library, and what the settings should achieve. -/

namespace Verif.Budget

open Verif.Storage (Key Blob DB Op)

/-! ### The rules of badger -/

/-- From this size on values are kept in the value log (default `ValueThreshold`). -/
def threshold : Nat := 1048576

/-- A transaction holds at most 15% of a memory table. -/
def maxBatchSize (table : Nat) : Nat := 15 * table / 100

/-- `maxBatchSize / MaxNodeSize`. -/
def maxBatchCount (table : Nat) : Nat := maxBatchSize table / 96

/-- The options are accepted: the size of the value log files is between 1 MB and 2 GB, and a value below the threshold fits in a transaction. -/
structure Opens (table log : Nat) : Prop where
  least : 1048576 ≤ log
  most : log < 2147483648
  value : threshold ≤ maxBatchSize table

/-- The size of an entry in a transaction. -/
def Act.size (a : Act) : Nat := (if a.value.length < threshold then a.key.length + a.value.length + 2 else a.key.length + 12 + 2) + 10

/-- Key and value of an entry are accepted. -/
structure EntryOk (log : Nat) (a : Act) : Prop where
  some : a.key ≠ []
  short : a.key.length ≤ 65000
  free : ¬ ("!badger!".toUTF8.toList <+: a.key)
  value : a.value.length ≤ log

/-- A transaction is accepted: all of its entries are, and when each of them is added it does not grow too big. A new transaction counts as one entry of 21 bytes. -/
def Accepted (table log : Nat) (acts : List Act) : Prop :=
  ∀ before a after, acts = before ++ a :: after →
    EntryOk log a ∧ 1 + before.length + 1 < maxBatchCount table ∧ 21 + (before.map Act.size).sum + a.size < maxBatchSize table

/-- What an entry does to the database. -/
def Act.apply (db : DB) : Act → DB
  | .put k v => db.set k v
  | .del k => db.del k

/-! ### What is stored -/

/-- Keys and blobs of a run: keys of up to 700 bytes that begin neither like internal keys of the storage nor of the library, blobs up to 128 GB that are not markers. -/
def Usual : Op → Prop
  | .save k b => k ≠ [] ∧ k.length ≤ 700 ∧ ¬ ("!badger!".toUTF8.toList <+: k) ∧ ¬ (Verif.Storage.splitPrefix <+: k) ∧ Verif.Storage.parseMarker b = none ∧
      b.length ≤ 137438953472
  | _ => True

/-- The memory the database needs: memory tables and caches (storage.go:193). -/
def memory (m : Nat) : Nat := memTables * memTable m + blockCache m + indexCache m

end Verif.Budget
