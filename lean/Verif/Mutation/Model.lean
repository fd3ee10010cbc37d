import Verif.Lines.Model

/-!
Mutation testing: `/repo/lens/mutation.go`.

The two bash scripts written by `buildExecSelectTestsScript` and `buildExecAllTestsScript` are modelled as the commands they run, on the three
files they touch. What the commands do (`mv`, `cp`, `go test`, `trap … EXIT` and signals in bash) is modelled from their documentation;
`go-mutesting` itself is not modelled beyond its counting of exit codes. Paths contain no blanks or characters special to the shell; see `Verif/Script` for those.
-/

namespace Verif.Mutation
open Verif Verif.Util

/-! ### The script -/

abbrev Content := Nat

/-- The mutated file and `$MUTATE_ORIGINAL.mbkp`, mutation.go:272 and 307. -/
structure Disk where
  orig : Option Content
  bkp : Option Content
deriving DecidableEq, Repr

/-- `cp`: done, or failed leaving something or nothing. -/
inductive Copy where
  | ok
  | fail (left : Option Content)
deriving DecidableEq, Repr

/-- Where bash is stopped by a signal. -/
inductive Point where
  | start
  | moved
  | trapSet
  | copied
  | tested
deriving DecidableEq, Repr

/-- What happens: whether tests are known for the file, the commands, the exit code of `go test`, and a signal (`true` if bash cannot catch it). -/
structure Env where
  covered : Bool
  mv : Bool
  cp : Copy
  test : Nat
  back : Bool
  stop : Option (Point × Bool)
deriving DecidableEq, Repr

inductive Exit where
  | code (n : Nat)
  | signal
deriving DecidableEq, Repr

/-- `mv "$MUTATE_ORIGINAL.mbkp" "$MUTATE_ORIGINAL"` in the trap, mutation.go:276 and 311. -/
def trapRun (e : Env) (d : Disk) : Disk :=
  if e.back then
    match d.bkp with
    | some c => ⟨some c, none⟩
    | none => d
  else d

/-- `scriptFinishCheck`, mutation.go:200–223. -/
def verdict (t : Nat) : Nat :=
  match t with
  | 0 => 1
  | 1 => 0
  | 2 => 2
  | n => n

/-- A signal at a point after the trap is set. -/
def stopped (e : Env) (d : Disk) (hard : Bool) : Disk := if hard then d else trapRun e d

/-- What is left on disk, how the script ends, and the content of the file while the tests ran. -/
structure Out where
  disk : Disk
  exit : Exit
  seen : Option Content
deriving DecidableEq, Repr

/-- The script, mutation.go:261–282 and 307–317 with the end from 200–223. -/
def script (changed : Content) (e : Env) (d : Disk) : Out :=
  if e.stop = some (.start, false) ∨ e.stop = some (.start, true) then ⟨d, .signal, none⟩
  else if e.covered = false then ⟨d, .code 2, none⟩
  else
    match d.orig, e.mv with
    | some c, true =>
      let d1 : Disk := ⟨none, some c⟩
      match e.stop with
      | some (.moved, _) => ⟨d1, .signal, none⟩
      | some (.trapSet, hard) => ⟨stopped e d1 hard, .signal, none⟩
      | stop =>
        match e.cp with
        | .fail left => ⟨trapRun e ⟨left, some c⟩, .code 2, none⟩
        | .ok =>
          let d2 : Disk := ⟨some changed, some c⟩
          match stop with
          | some (.copied, hard) => ⟨stopped e d2 hard, .signal, none⟩
          | some (.tested, hard) => ⟨stopped e d2 hard, .signal, d2.orig⟩
          | _ => ⟨trapRun e d2, .code (verdict e.test), d2.orig⟩
    | _, _ => ⟨d, .code 2, none⟩

/-! ### The score -/

/-- `MutationResult`, types.go:655–660. -/
structure Score where
  count : Nat
  squashed : Nat
deriving DecidableEq, Repr

/-- How the tool counts the exit codes: 0 is "passed", 1 is "failed", 2 is "skipped" (comments in mutation.go:205–218; summary in mutation.go:50–53). -/
def summary (codes : List Nat) : Nat × Nat × Nat × Nat :=
  (codes.countP (· == 0), codes.countP (· == 1), codes.countP (· == 2), codes.countP (· ≤ 2))

/-- Reading the summary, mutation.go:188–197. -/
def scoreOf (codes : List Nat) : Score :=
  match summary codes with
  | (_, failed, _, total) => ⟨total, failed⟩

/-! ### Scope -/

/-- A changed function (`ModuleFunction`, types.go:69–84): name, marks, and the lines of its source needed by `InsertFuncLines`. -/
structure Change where
  name : Bytes
  marks : List Bool
deriving DecidableEq, Repr

/-- The loop over the changes with line scope, mutation.go:86–114: the functions selected; the flag is set if the loop ends in the error of line 88. -/
def select : List Change → List Change × Bool
  | [] => ([], false)
  | c :: cs =>
    if c.marks = [] then ([], true)
    else if true ∉ c.marks then select cs
    else match select cs with | (s, err) => (c :: s, err)

/-- `// mutator-disable-next-line *` -/
def directive : Bytes :=
  [47, 47, 32, 109, 117, 116, 97, 116, 111, 114, 45, 100, 105, 115, 97, 98, 108, 101, 45, 110, 101, 120, 116, 45, 108, 105, 110, 101, 32, 42]

/-- The callback, mutation.go:103–108. -/
def scopeCb (marks : List Bool) : Lines.Cb := fun _ i _ => if marks[i]? = some false then (directive, true) else ([], true)

/-- `--match` with all names, mutation.go:155: the tool mutates a function if the pattern, which is not anchored, is found in its name. Names are
identifiers, so the pattern of each is found where it is a part. -/
def matched (names : List Bytes) (fn : Bytes) : Bool := names.any fun n => (List.range (fn.length + 1)).any fun k => n.isPrefixOf (fn.drop k)

/-- Lines of statements in the printed definition, module.go:646–660 with `go/printer`: comments are gone, and what is left of the space between two
statements is at most one empty line. The list has the source line of each statement, relative to the function. -/
def printed : Nat → Nat → List Nat → List Nat
  | _, _, [] => []
  | src, out, l :: ls => (out + min (l - src) 2) :: printed l (out + min (l - src) 2) ls

/-! ### Workers and restoring -/

/-- Sources, backups and the cleanup actions registered. -/
structure Tree where
  file : Nat → Content
  bkp : Nat → Option Content
  cleanup : List Nat

/-- A step of a worker (asttweak.go:386–397 and 1976) or of `Restore` (asttweak.go:92–108). -/
inductive Step where
  | backup (f : Nat)
  | write (f : Nat) (c : Content)
  | restore
deriving DecidableEq, Repr

/-- Putting a file back, asttweak.go:392–394. -/
def putBack (t : Tree) (f : Nat) : Tree :=
  match t.bkp f with
  | some c => ⟨fun g => if g = f then c else t.file g, fun g => if g = f then none else t.bkp g, t.cleanup⟩
  | none => t

/-- One step. -/
def step (t : Tree) : Step → Tree
  | .backup f =>
    match t.bkp f with
    | some _ => t
    | none => ⟨t.file, fun g => if g = f then some (t.file f) else t.bkp g, t.cleanup ++ [f]⟩
  | .write f c => ⟨fun g => if g = f then c else t.file g, t.bkp, t.cleanup⟩
  | .restore =>
    let t' := t.cleanup.foldl putBack t
    ⟨t'.file, t'.bkp, []⟩

/-- All steps. -/
def run (t : Tree) (s : List Step) : Tree := s.foldl step t

/-- Steps of the workers in any order that keeps the steps of each worker: a file is written after it is backed up. -/
def FromWorkers (s : List Step) : Prop := Step.restore ∉ s ∧ ∀ (i : Nat) (f : Nat) (c : Content), s[i]? = some (.write f c) → ∃ j < i, s[j]? = some (.backup f)

end Verif.Mutation
