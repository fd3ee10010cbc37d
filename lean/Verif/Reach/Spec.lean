import Verif.Reach.Model
import Verif.Static.Spec

/-! What C134–C136 talk about: ways through a call graph, as lists of nodes. -/

namespace Verif.Reach

open Verif.Static (Bytes Graph Fn Reportable IsProjectTest endsWay)

/-- `a` calls `b`. -/
def CallsNext {N : Type} (g : Graph N) (a b : N) : Prop := some a ∈ g.callers b

/-- Each node of the list calls the next one. -/
def Way {N : Type} (g : Graph N) (l : List N) : Prop := l.IsChain (CallsNext g)

/-- The graph with tests `gt` repeats the graph without tests `g`: `of` says which node of `g` a node of `gt` is a copy of (there are two copies of a package
that has tests); functions in test files are copies of nothing. Calls between copies are calls in `g`. -/
structure Repeated {N M : Type} (g : Graph N) (gt : Graph M) (of : M → Option N) : Prop where
  node : ∀ {x y}, of x = some y → y ∈ g.nodes ∧ (gt.fn x).ident = (g.fn y).ident ∧ (gt.fn x).mainOrInit = (g.fn y).mainOrInit
  calls : ∀ {x y x' y'}, CallsNext gt x y → of x = some x' → of y = some y' → CallsNext g x' y'

/-- The identifier of a change belongs to one function of the project and its modules. -/
def Unique {N : Type} (g : Graph N) (ch : Bytes) : Prop := ∀ x ∈ g.nodes, ∀ y ∈ g.nodes, (g.fn x).ident = ch → (g.fn y).ident = ch → x = y

end Verif.Reach
