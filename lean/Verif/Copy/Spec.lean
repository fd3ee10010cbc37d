import Verif.Copy.Model

/-! What is at a path of a tree, and where paths lead through links. -/

namespace Verif.Copy

def Tree.node : Tree → Node
  | .file c => .file c
  | .link t => .link t
  | .dir _ _ => .dir

def child : List String → List Tree → String → Option Tree
  | n :: ns, k :: ks, x => if x = n then some k else child ns ks x
  | _, _, _ => none

/-- What is at a path, without following links. -/
def Tree.at : Path → Tree → Option Node
  | [], t => some t.node
  | x :: p, .dir ns ks => (child ns ks x).bind (Tree.at p)
  | _ :: _, _ => none

mutual
/-- The names in a directory are different. -/
def Tree.Wf : Tree → Prop
  | .file _ => True
  | .link _ => True
  | .dir ns ks => ns.Nodup ∧ ns.length = ks.length ∧ WfAll ks
def WfAll : List Tree → Prop
  | [] => True
  | k :: ks => k.Wf ∧ WfAll ks
end

/-- Where a path leads, following links, from the directory `cur`; `none` if there are too many links. -/
def resolve : Nat → FS → Path → Path → Option Path
  | 0, _, _, _ => none
  | _ + 1, _, cur, [] => some cur
  | k + 1, d, cur, x :: rest =>
    if x = ".." then resolve k d cur.dropLast rest
    else match d (cur ++ [x]) with
      | some (.link (.abs t)) => resolve k d [] (t ++ rest)
      | some (.link (.rel t)) => resolve k d cur (t ++ rest)
      | _ => resolve k d (cur ++ [x]) rest

/-- Where a path below the root of a tree leads as long as it stays below: no absolute links, and not out through "..". -/
def resolveIn : Nat → (Path → Option Node) → Path → Path → Option Path
  | 0, _, _, _ => none
  | _ + 1, _, cur, [] => some cur
  | k + 1, d, cur, x :: rest =>
    if x = ".." then if cur = [] then none else resolveIn k d cur.dropLast rest
    else match d (cur ++ [x]) with
      | some (.link (.abs _)) => none
      | some (.link (.rel t)) => resolveIn k d cur (t ++ rest)
      | _ => resolveIn k d (cur ++ [x]) rest

/-- A file system with a tree at an absolute path. -/
def Holds (d : FS) (root : Path) (t : Path → Option Node) : Prop := ∀ p, d (root ++ p) = t p

end Verif.Copy

namespace Verif.Copy

/-- A run of some number of steps, failing or not. -/
inductive Run (limit : Nat) : Nat → St → St → Prop
  | refl (st) : Run limit 0 st st
  | ok (n a b c) : Run limit n a b → Ok limit b c → Run limit (n + 1) a c
  | fail (n a b c e) : Run limit n a b → Fail b e c → Run limit (n + 1) a c

/-- No directory above or at a path is a link. -/
def Plain (d : FS) (root : Path) : Prop := ".." ∉ root ∧ ∀ q t, q <+: root → q ≠ [] → d q ≠ some (.link t)

end Verif.Copy
