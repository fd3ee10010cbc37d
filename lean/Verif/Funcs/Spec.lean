import Verif.Funcs.Model

/-!
What should hold of the points put into functions, in terms of the files and the maps only, and which functions have changed.
-/

namespace Verif.Funcs
open Verif

/-- All points in the files, with the function they are in. -/
def pts (files : List (List Decl)) : List (Kind × Nat × Nat) := files.flatten.flatMap fun d => d.points.map fun p => (p.1, p.2, d.ident)

/-- No function has a point or a marker yet. -/
def Clean (files : List (List Decl)) : Prop := ∀ ds ∈ files, ∀ d ∈ ds, d.points = [] ∧ d.marked = false

/-- All workers start with empty maps. -/
def Begin (ws : List Worker) : Prop := ∀ w ∈ ws, ∃ m a l, w = worker m a l

/-- All workers are done and none has failed: `injectMonitorPoints` returns its maps. -/
def Finished (s : St) : Prop := s.failed = false ∧ ∀ w ∈ s.workers, w.done = true

/-- The identifiers in a file are distinct. -/
def Distinct (files : List (List Decl)) : Prop := ∀ ds ∈ files, (ds.map Decl.ident).Nodup

/-- No two workers for the project have the same file. -/
def OwnFile (ws : List Worker) : Prop :=
  ∀ (j j' : Nat) (x x' : Worker), ws[j]? = some x → ws[j']? = some x' → x.modul = false → x'.modul = false → x.file = x'.file → j = j'

/-- The number of points of a kind. -/
def count (k : Kind) (d : Decl) : Nat := d.points.countP fun p => p.1 == k

/-- The same function, but for its points. -/
def SameDecl (d d' : Decl) : Prop := d'.ident = d.ident ∧ d'.hasBody = d.hasBody ∧ d'.returns = d.returns

/-- A function that was asked for has the points it should have: those of the project a point for each return, and one for panics; those of
modules one for the entry, and one for panics unless they only panic. -/
def Watched (modul : Bool) (f : Fn) (d : Decl) : Prop :=
  if modul then 1 ≤ count .entry d ∧ (f.retPanic = false → 1 ≤ count .panic d)
  else f.retPanic = false → count .state d = max 1 d.returns ∧ 1 ≤ count .panic d

/-- A point of kind `k` in a function with identifier `i` in file `a` was asked for. -/
def Asked (ws : List Worker) (a : Nat) (i : Nat) (k : Kind) : Prop :=
  ∃ w ∈ ws, w.file = a ∧ ∃ f ∈ w.todo, f.ident = i ∧
    match k with
    | .state => w.modul = false ∧ f.retPanic = false
    | .entry => w.modul = true
    | .panic => f.retPanic = false

/-- The function `f` of the old version has another definition in the new one. -/
def Changed (olds news : List Pkg) (f : Fun) : Prop :=
  ∃ o ∈ olds, ∃ n ∈ news, o.path = n.path ∧ f ∈ o.files.flatten ∧ ∃ g ∈ n.files.flatten, g.ident = f.ident ∧ g.text ≠ f.text

/-- The functions of a package have distinct identifiers. -/
def Names (p : Pkg) : Prop := (p.files.flatten.map Fun.ident).Nodup

/-- Every function can be printed. -/
def Printable (p : Pkg) : Prop := ∀ f ∈ p.files.flatten, f.text ≠ none

end Verif.Funcs
