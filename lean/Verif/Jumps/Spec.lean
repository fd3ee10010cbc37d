import Verif.Jumps.Model

/-! Valid jumps and terminating statements, after the Go specification ("Goto statements", "Terminating statements"). -/

namespace Verif.Jumps

/-- The labels of the statements in a row, not those within their bodies. -/
def labels : Code → List Label
  | .done => []
  | .simple _ _ rest => labels rest
  | .jump _ rest => labels rest
  | .leave _ rest => labels rest
  | .through rest => labels rest
  | .ret _ _ rest => labels rest
  | .label l inner rest => l :: (labels inner ++ labels rest)
  | .nest _ _ _ rest => labels rest
  | .clause _ _ rest => labels rest

/-- The labels that can be reached from before the statements without passing one that stops; `k` are those behind them. -/
def ahead (stops : Kind → Option Nat → Bool) (k : List Label) : Code → List Label
  | .done => k
  | .simple kind own rest => if stops kind own then [] else ahead stops k rest
  | .jump _ rest => ahead stops k rest
  | .leave _ rest => ahead stops k rest
  | .through rest => ahead stops k rest
  | .ret own _ rest => if stops .other own then [] else ahead stops k rest
  | .label l inner rest => l :: ahead stops (ahead stops k rest) inner
  | .nest _ own _ rest => if stops .other own then [] else ahead stops k rest
  | .clause _ _ rest => ahead stops k rest

/-- Every `goto` has its label in its block or one around it: before the `goto` (`t`), or behind it with nothing between that stops. -/
def Jumps (stops : Kind → Option Nat → Bool) (t k : List Label) : Code → Prop
  | .done => True
  | .simple _ _ rest => Jumps stops t k rest
  | .jump l rest => (l ∈ t ∨ l ∈ ahead stops k rest) ∧ Jumps stops t k rest
  | .leave _ rest => Jumps stops t k rest
  | .through rest => Jumps stops t k rest
  | .ret _ _ rest => Jumps stops t k rest
  | .label l inner rest => Jumps stops (l :: t) (ahead stops k rest) inner ∧ Jumps stops (l :: (labels inner ++ t)) k rest
  | .nest _ _ cl rest => Jumps stops t (ahead stops k rest) cl ∧ Jumps stops t k rest
  | .clause _ b rest => Jumps stops t k b ∧ Jumps stops t k rest

/-- No `goto` leads over a declaration of a variable in the block of its label, or into a block. -/
def Valid (c : Code) : Prop := Jumps (fun kind _ => kind == .decl) [] [] c

/-- No call is reported before any of the statements. -/
def Unmarked : Code → Prop
  | .done => True
  | .simple _ own rest => own = none ∧ Unmarked rest
  | .jump _ rest => Unmarked rest
  | .leave _ rest => Unmarked rest
  | .through rest => Unmarked rest
  | .ret own _ rest => own = none ∧ Unmarked rest
  | .label _ inner rest => Unmarked inner ∧ Unmarked rest
  | .nest _ own cl rest => own = none ∧ Unmarked cl ∧ Unmarked rest
  | .clause _ b rest => Unmarked b ∧ Unmarked rest

/-- Labelled statements are not looked into, so they have no marks. -/
def Represented : Code → Prop
  | .done => True
  | .simple _ _ rest => Represented rest
  | .jump _ rest => Represented rest
  | .leave _ rest => Represented rest
  | .through rest => Represented rest
  | .ret _ _ rest => Represented rest
  | .label _ inner rest => Unmarked inner ∧ Represented rest
  | .nest _ _ cl rest => Represented cl ∧ Represented rest
  | .clause _ b rest => Represented b ∧ Represented rest

/-- Neither a declaration nor a call reported with variables lies between a `goto` and a label behind it. -/
def Clear (c : Code) : Prop := Jumps (fun kind own => kind == .decl || (match own with | some (_ + 1) => true | _ => false)) [] [] c

def isDone : Code → Bool
  | .done => true
  | _ => false

/-- The last statement is `fallthrough`. -/
def falls : Code → Bool
  | .done => false
  | .simple _ _ rest => falls rest
  | .jump _ rest => falls rest
  | .leave _ rest => falls rest
  | .through rest => isDone rest || falls rest
  | .ret _ _ rest => falls rest
  | .label _ _ rest => falls rest
  | .nest _ _ _ rest => falls rest
  | .clause _ _ rest => falls rest

/-- There is a clause without a condition. -/
def hasDefault : Code → Bool
  | .clause d _ rest => d || hasDefault rest
  | _ => false

def Head.breakable : Head → Bool
  | .block => false
  | .branch => false
  | _ => true

/-- There is a `break` for the statement with these labels: without a label (if not within another such statement), or with one of them. -/
def breaks (lab : List Label) (inside : Bool) : Code → Bool
  | .done => false
  | .simple _ _ rest => breaks lab inside rest
  | .jump _ rest => breaks lab inside rest
  | .leave none rest => !inside || breaks lab inside rest
  | .leave (some l) rest => decide (l ∈ lab) || breaks lab inside rest
  | .through rest => breaks lab inside rest
  | .ret _ _ rest => breaks lab inside rest
  | .label _ inner rest => breaks lab inside inner || breaks lab inside rest
  | .nest h _ cl rest => breaks lab (inside || h.breakable) cl || breaks lab inside rest
  | .clause _ b rest => breaks lab inside b || breaks lab inside rest

/-- The statements end in a terminating one; of clauses, all do, or (`sw`) end in `fallthrough`. `lab` are the labels of the first. -/
def ends (sw : Bool) (lab : List Label) : Code → Bool
  | .done => false
  | .simple k _ rest => if isDone rest then k == .panics else ends false [] rest
  | .jump _ rest => isDone rest || ends false [] rest
  | .leave _ rest => !isDone rest && ends false [] rest
  | .through rest => !isDone rest && ends false [] rest
  | .ret _ _ rest => isDone rest || ends false [] rest
  | .label l inner rest => if isDone rest then ends false (l :: lab) inner else ends false [] rest
  | .nest h _ cl rest => if isDone rest then
      (match h with
        | .block => ends false [] cl
        | .branch => hasDefault cl && ends false [] cl
        | .loop cond => !cond && !breaks lab false cl
        | .switch => hasDefault cl && !breaks lab false cl && ends true [] cl
        | .select => !breaks lab false cl && (isDone cl || ends false [] cl))
    else ends false [] rest
  | .clause _ b rest => (ends false [] b || (sw && falls b)) && (isDone rest || ends sw [] rest)

/-- The function may have results. -/
def Terminating (c : Code) : Prop := ends false [] c = true

end Verif.Jumps
