import Verif.Inject.Model
import Verif.Pkgs.Spec

/-! What is asked of schedules, and what is claimed. -/

namespace Verif.Inject

/-- No file is cut while the package is looked for. -/
def clientFirst (_ : Dir) (s : St) : Act → Bool
  | .wCut _ => match s.cl with | .reading _ => false | _ => true
  | _ => true

/-- The files are looked at for a type check only when the client is in place and no file is cut, and no file is cut meanwhile. -/
def orderly (d : Dir) (s : St) : Act → Bool
  | .wList _ => (match s.cl with | .ended (some _) => true | _ => false) && (List.range d.files.length).all fun j => s.ver j != .torn
  | .wCut _ => (match s.cl with | .ended _ => true | _ => false) && (List.range d.files.length).all fun j => (s.wk j).reads.isNone
  | _ => true

/-- C165, the full statement: when the goroutine of the client ends, it has put in a client of the package of the directory, if there is one. -/
def ClientIn : Prop := ∀ (d : Dir) (fns : Nat → Nat) (as : List Act) (s : St) (r : Option Bytes), run d as (start fns) = some s → s.cl = .ended r → r = Pkgs.detect d.files

/-- C166, the full statement: whether types are known for a function does not depend on the schedule. -/
def SameTypes : Prop := ∀ (d : Dir) (fns : Nat → Nat) (as as' : List Act) (s s' : St) (i : Nat), run d as (start fns) = some s → run d as' (start fns) = some s' →
  (s.wk i).todo = 0 → (s'.wk i).todo = 0 → (s.wk i).infos = (s'.wk i).infos

end Verif.Inject
