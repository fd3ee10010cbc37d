import Verif.Inject.Lemmas
import Verif.Pkgs.Props
import Verif.Temps.Props
import Verif.Compare.Model

/-!
C165: the client that is put into a directory is of the package of the directory, and no package is refused for being edited.
C166: whether types are known for a function, and with it which fields it reports, does not depend on the schedule.
-/

namespace Verif.Inject

/-! ### Examples -/

def fileA : Pkgs.File := ⟨[97, 46, 103, 111], false, true, some true, some [112]⟩
def fileB : Pkgs.File := ⟨[98, 46, 103, 111], false, true, some true, some [112]⟩

/-- `a.go` of package `p`. -/
def one : Dir := ⟨[fileA], true⟩
/-- `a.go` and `b.go` of package `p`. -/
def two : Dir := ⟨[fileA, fileB], true⟩

def oneFn (i : Nat) : Nat := if i = 0 then 1 else 0
def twoFns (i : Nat) : Nat := if i = 0 then 2 else 0
def each (i : Nat) : Nat := if i < 2 then 1 else 0

/-- All steps of the goroutine of the client, for `n` files. -/
def putIn (n : Nat) : List Act := List.replicate n (.cRead false) ++ [.cDetect, .cCut, .cWrite]
/-- All steps for a function of file `i`, for `n` files. -/
def handle (n i : Nat) : List Act := .wList i :: List.replicate n (.wRead i false) ++ [.wClient i false, .wDecide i]
def save (i : Nat) : List Act := [.wCut i, .wWrite i]

/-! ### C165 -/

/-- A file of the directory is handled and being written when the package is looked for: it cannot be parsed, and the run ends with an error although the package is in order. -/
theorem C165_client_violated : ¬ ClientIn := by
  intro h
  have hs : ∃ s, run one (handle 1 0 ++ [.wCut 0, .cRead false, .cDetect]) (start oneFn) = some s ∧ s.cl = .ended none := ⟨_, rfl, by decide⟩
  obtain ⟨s, hs, hc⟩ := hs
  have := h _ _ _ _ _ hs hc
  exact absurd this (by decide)

/-- In all schedules: a client that was put in is complete and of the package of the directory: the one package of its sources, each of which names it. -/
theorem C165_name (d : Dir) (fns : Nat → Nat) (as : List Act) (s : St) (p : Bytes) (h : run d as (start fns) = some s) (he : s.cl = .ended (some p)) :
    s.client = .there ∧ Pkgs.detect d.files = some p ∧ (∃ f ∈ d.files, Pkgs.Source f) ∧ ∀ f ∈ d.files, Pkgs.Source f → f.pkg = some p := by
  have := runIf_inv (Right d) (fun _ _ _ hr _ hs => right_step hr hs) as _ _ (right_start d fns) h
  unfold Right at this
  rw [he] at this
  obtain ⟨h1, h2⟩ := this
  have h3 := (Pkgs.C136_exact _ _).mp h1
  exact ⟨h2, h1, h3.2⟩

example : ∃ s, run two (handle 2 0 ++ [.wCut 0, .cRead true, .cRead false, .wWrite 0, .cDetect, .cCut] ++ handle 2 1 ++ [.cWrite]) (start each) = some s ∧ s.cl = .ended (some [112]) :=
  ⟨_, rfl, by decide⟩

/-- If no file is written while the package is looked for, the client is put in exactly if there is one package. What is missing: the code allows other schedules. -/
theorem C165_client_partial (d : Dir) (fns : Nat → Nat) (as : List Act) (s : St) (r : Option Bytes) (h : runIf clientFirst d as (start fns) = some s) (he : s.cl = .ended r) :
    r = Pkgs.detect d.files ∧ ∀ p, r = some p ↔ Pkgs.Readable d.files ∧ (∃ f ∈ d.files, Pkgs.Source f) ∧ ∀ f ∈ d.files, Pkgs.Source f → f.pkg = some p := by
  have := runIf_inv (Calm d) (fun _ _ _ hr hok hs => calm_step hr hok hs) as _ _ (calm_start d fns) h
  unfold Calm at this
  rw [he] at this
  dsimp only at this
  exact ⟨this, fun p => this ▸ Pkgs.C136_exact _ _⟩

example : ∃ s, runIf clientFirst two (handle 2 0 ++ [.cRead false, .wList 1, .cRead true, .cDetect, .wCut 0, .cCut, .wWrite 0, .cWrite]) (start each) = some s ∧ s.cl = .ended (some [112]) :=
  ⟨_, rfl, by decide⟩

/-! ### C166 -/

/-- Two functions of one file: with the client in place types are known for both; before, only for the first, whose instrumented form uses the client. -/
theorem C166_types_violated : ¬ SameTypes := by
  intro h
  have h1 : ∃ s, run one (putIn 1 ++ handle 1 0 ++ handle 1 0) (start twoFns) = some s ∧ (s.wk 0).todo = 0 ∧ (s.wk 0).infos = [true, true] := ⟨_, rfl, by decide⟩
  have h2 : ∃ s, run one (handle 1 0 ++ handle 1 0 ++ putIn 1) (start twoFns) = some s ∧ (s.wk 0).todo = 0 ∧ (s.wk 0).infos = [true, false] := ⟨_, rfl, by decide⟩
  obtain ⟨s, hs, ht, hi⟩ := h1
  obtain ⟨s', hs', ht', hi'⟩ := h2
  have := h _ _ _ _ _ _ 0 hs hs' ht ht'
  rw [hi, hi'] at this
  exact absurd this (by decide)

/-- The same with one function in each file: the other file is being written. -/
theorem C166_sibling_violated : ∃ s s', run two (putIn 2 ++ handle 2 0 ++ save 0 ++ handle 2 1) (start each) = some s ∧ run two (putIn 2 ++ handle 2 0 ++ [.wCut 0] ++ handle 2 1) (start each) = some s' ∧
    (s.wk 1).todo = 0 ∧ (s'.wk 1).todo = 0 ∧ (s.wk 1).infos = [true] ∧ (s'.wk 1).infos = [false] :=
  ⟨_, _, rfl, rfl, by decide⟩

/-- If files are looked at only when the client is in place and no file is being written, types are known for all functions handled, or, if the package does not pass the check, for none. -/
theorem C166_types_partial (d : Dir) (fns : Nat → Nat) (as : List Act) (s : St) (i : Nat) (h : runIf orderly d as (start fns) = some s) :
    (∀ b ∈ (s.wk i).infos, b = d.typed) ∧ ((s.wk i).todo = 0 → (s.wk i).infos = List.replicate (fns i) d.typed) := by
  have o := runIf_inv (Orderly d fns) (fun _ _ _ hr hok hs => orderly_step hr hok hs) as _ _ (orderly_start d fns) h
  refine ⟨o.infos i, fun h0 => ?_⟩
  rw [List.eq_replicate_iff]
  have := o.count i
  exact ⟨by omega, o.infos i⟩

example : ∃ s, runIf orderly two (putIn 2 ++ handle 2 0 ++ save 0 ++ handle 2 1 ++ save 1) (start each) = some s ∧ (s.wk 1).todo = 0 ∧ (s.wk 1).infos = [true] ∧ s.ver 1 = .done :=
  ⟨_, rfl, by decide⟩

/-- In all schedules: no types are known in a package that does not pass the check, and there is at most one answer for each function. -/
theorem C166_untyped (d : Dir) (fns : Nat → Nat) (as : List Act) (s : St) (i : Nat) (h : run d as (start fns) = some s) :
    (s.wk i).infos.length ≤ fns i ∧ (d.typed = false → true ∉ (s.wk i).infos) := by
  have o := runIf_inv (Counted d fns) (fun _ _ _ hr _ hs => counted_step hr hs) as _ _ (counted_start d fns) h
  refine ⟨?_, o.untyped i⟩
  have := o.count i
  omega

example : ∃ s, run ⟨[fileA], false⟩ (handle 1 0 ++ handle 1 0) (start twoFns) = some s ∧ (s.wk 0).infos = [false, false] := ⟨_, rfl, by decide⟩

/-! #### Fields -/

/-- `return err` in a function with result `error`. -/
def errFacts : Facts := ⟨false, true, false, false, false⟩
def retErr (known : Bool) : Temps.Expr Temps.goSys := ⟨.ident ['e', 'r', 'r'] (needTmp known errFacts), [['e', 'r', 'r']], .typed .errorT (some (.ptr, 9))⟩
/-- What `return err` reports. -/
def reported (known : Bool) : Option (List (Temps.Name × Temps.Dyn Temps.goSys) × List (Temps.Dyn Temps.goSys)) :=
  Temps.outcome (S := Temps.goSys) (fun _ => false) [Temps.ty ['e', 'r', 'r', 'o', 'r'] .errorT] []
    (Temps.build [Temps.var ['e', 'r', 'r'] .errorT 9] [Temps.ty ['e', 'r', 'r', 'o', 'r'] .errorT] [] (.exprs [retErr known]))

theorem C166_fields_violated : (reported true).map (·.1.map (·.1)) = some [['e', 'r', 'r'], ['r', 'e', 't', '0']] ∧ (reported false).map (·.1.map (·.1)) = some [['e', 'r', 'r']] := by
  constructor <;> decide +kernel

def errName : Bytes := [101, 114, 114]
def ret0Name : Bytes := [114, 101, 116, 48]

/-- Then the same values before and after the update count as a difference, whatever the value. -/
theorem C166_report_violated (dv : Bytes → Bytes → Bytes) (v : Bytes) :
    (Compare.fieldLoop dv [(errName, v), (ret0Name, v)] [(errName, v)] [errName, ret0Name] ⟨0, 0, []⟩).diff = 1 := by
  simp [Compare.fieldLoop, AMap.get, errName, ret0Name]

end Verif.Inject
