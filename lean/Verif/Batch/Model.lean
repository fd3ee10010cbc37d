import Verif.Util.Model
import Mathlib.Data.List.Lex

/-!
Grouping functions by file for concurrent instrumentation: `injectMonitorPoints`, `/repo/lens/astexec.go:301–478`. The two loops
(callers of the project, changed functions of modules) are the same. What a worker does to its file is in `Verif/Returns`; here it only matters
which worker gets which functions.
-/

namespace Verif.Batch
open Verif Verif.Util

/-- A function: its file and its identifier (`Function`, static.go). -/
structure Fn where
  file : Bytes
  ident : Nat
deriving DecidableEq, Repr

/-- `filepath.Dir`, astexec.go:378 and 457, cut off at the last slash (cleaning is left out: the paths come from the parser and are clean). -/
def dirOf (p : Bytes) : Bytes := ((p.reverse.dropWhile (· != 47)).drop 1).reverse

/-- The loop, astexec.go:370–393 and 449–476: the batches handed to workers and the packages that get the client. -/
def group (cur : Bytes) (acc : List Fn) (dirs : List Bytes) : List Fn → List (List Fn) × List Bytes
  | [] => ([acc], dirs)
  | f :: fs =>
    if cur = f.file then group cur (acc ++ [f]) dirs fs
    else
      match group f.file [f] (if dirOf f.file ∈ dirs then dirs else dirs ++ [dirOf f.file]) fs with
      | (bs, ds) => (acc :: bs, ds)

/-- All batches for a sorted list, astexec.go:367–394. -/
def batches (l : List Fn) : List (List Fn) := (group [] [] [] l).1

/-- The packages that get the client, astexec.go:309 and 399. -/
def clientDirs (l : List Fn) : List Bytes := (group [] [] [] l).2

/-- The check of the worker, astexec.go:312–316 and 401–405. -/
def accepted (b : List Fn) : Bool := b.isEmpty || b.head?.map Fn.file == b.getLast?.map Fn.file

/-- `strings.Compare` by file, astexec.go:367 and 446: sorted means no later file is smaller. -/
def ByFile (l : List Fn) : Prop := l.Pairwise fun a b => a.file ≤ b.file

end Verif.Batch
