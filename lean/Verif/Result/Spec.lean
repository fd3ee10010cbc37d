import Verif.Result.Model

/-!
Contents of field trees, as functions of paths, and the assumptions about the hash function.
-/

namespace Verif.Result

/-- The node with a name. -/
def FMap.find : FMap → Bytes → Option (Bytes × FMap)
  | .cons k v kids rest, x => if k = x then some (v, kids) else rest.find x
  | _, _ => none

/-- The value of the node at a path. -/
def valAt : List Bytes → FMap → Option Bytes
  | [], _ => none
  | [k], m => (m.find k).map (·.1)
  | k :: k' :: ks, m => (m.find k).bind fun n => valAt (k' :: ks) n.2

/-- The value at a path that ends in a node without children. -/
def leafAt : List Bytes → FMap → Option Bytes
  | [], _ => none
  | [k], m => (m.find k).bind fun n => if n.2.isEmpty then some n.1 else none
  | k :: k' :: ks, m => (m.find k).bind fun n => leafAt (k' :: ks) n.2

/-- Same names, values and nesting; nil and empty maps are not distinguished. -/
def Same (a b : FMap) : Prop := ∀ p, valAt p a = valAt p b

/-- Same names and nesting. -/
def SameShape (a b : FMap) : Prop := ∀ p, (valAt p a).isSome = (valAt p b).isSome

/-- Names are distinct at every level, as in every Go map. -/
def WF : FMap → Prop
  | .cons k _ kids rest => k ∉ rest.names ∧ WF kids ∧ WF rest
  | _ => True

/-- No node has both a value and children, as in every captured tree (astexec.go:861–877). -/
def ValueOnLeaves : FMap → Prop
  | .cons _ v kids rest => (kids.isEmpty = false → v = []) ∧ ValueOnLeaves kids ∧ ValueOnLeaves rest
  | _ => True

/-- All names satisfy `p`. -/
def NamesAll (p : Bytes → Prop) : FMap → Prop
  | .cons k _ kids rest => p k ∧ NamesAll p kids ∧ NamesAll p rest
  | _ => True

/-- All names and values are shorter than 2^64 bytes, as all Go strings. -/
def Fits : FMap → Prop
  | .cons k v kids rest => k.length < 2 ^ 64 ∧ v.length < 2 ^ 64 ∧ Fits kids ∧ Fits rest
  | _ => True

/-- Names joined with dots. -/
def dotted : List Bytes → Bytes
  | [] => []
  | [k] => k
  | k :: ks => k ++ 46 :: dotted ks

/-- The maps below a map. -/
def subMaps : FMap → List FMap
  | .cons _ _ kids rest => kids :: (subMaps kids ++ subMaps rest)
  | _ => []

/-- The nodes of a map, at all levels. -/
def subNodes : FMap → List (Bytes × FMap)
  | .cons _ v kids rest => (v, kids) :: (subNodes kids ++ subNodes rest)
  | _ => []

/-- All maps, nodes and stacks of a result. -/
def TestResult.maps (tr : TestResult) : List FMap := tr.frames.flatMap fun f => f.fields :: subMaps f.fields
def TestResult.nodes (tr : TestResult) : List (Bytes × FMap) := tr.frames.flatMap fun f => subNodes f.fields
def TestResult.stacks (tr : TestResult) : List (List StackFrame) := tr.frames.map (·.stack)

/-- The byte strings hashed for the key of a map and of a node. -/
def nodePre (H : Bytes → Bytes) (n : Bytes × FMap) : Bytes := le64 n.1.length ++ n.1 ++ mapID H n.2

/-- The hash function shows no collision on the strings hashed for these maps and nodes, and no string short enough
to be used as its own key happens to be a hash value.  `H` yields 20 bytes, as SHA-1 does. -/
structure HashOK (H : Bytes → Bytes) (maps : List FMap) (nodes : List (Bytes × FMap)) : Prop where
  len : ∀ x, (H x).length = 20
  maps : ∀ a ∈ maps, ∀ b ∈ maps, H (stream a) = H (stream b) → stream a = stream b
  nodes : ∀ a ∈ nodes, ∀ b ∈ nodes, bytesKey H (nodePre H a) = bytesKey H (nodePre H b) → nodePre H a = nodePre H b

/-- Maps that write the same bytes to the hash have the same content. -/
def NoClash (maps : List FMap) : Prop := ∀ a ∈ maps, ∀ b ∈ maps, stream a = stream b → Same a b

/-- Different stacks have different keys. -/
def StackKeysOK (stackKey : List StackFrame → Bytes) (sts : List (List StackFrame)) : Prop :=
  ∀ a ∈ sts, ∀ b ∈ sts, stackKey a = stackKey b → a = b

/-- Equality of frames and results up to nil/empty maps and the order of listings inside field trees. -/
def SameFrame (a b : CallFrame) : Prop := Same a.fields b.fields ∧ a.stack = b.stack ∧ a.time = b.time

def SameFrames (a b : List CallFrame) : Prop := List.Forall₂ SameFrame a b

def SameFrameMap (a b : List (Bytes × List CallFrame)) : Prop :=
  List.Forall₂ (fun x y => x.1 = y.1 ∧ SameFrames x.2 y.2) a b

structure SameResult (a b : TestResult) : Prop where
  ident : a.testIdent = b.testIdent
  name : a.testName = b.testName
  callers : SameFrameMap a.callers b.callers
  projectPanics : a.projectPanics = b.projectPanics
  modulePanics : a.modulePanics = b.modulePanics
  hit : a.changesHit = b.changesHit
  failure : a.failure = b.failure
  extension : SameFrameMap a.extension b.extension

/-- The dictionary references in inline data: to nodes and to maps. -/
def nodeRefs : EMap → List Int
  | .cons _ (some i) _ _ _ rest => i :: nodeRefs rest
  | .cons _ none _ (some _) _ rest => nodeRefs rest
  | .cons _ none _ none cvl rest => nodeRefs cvl ++ nodeRefs rest
  | _ => []

def mapRefs : EMap → List Int
  | .cons _ (some _) _ _ _ rest => mapRefs rest
  | .cons _ none _ (some i) _ rest => i :: mapRefs rest
  | .cons _ none _ none cvl rest => mapRefs cvl ++ mapRefs rest
  | _ => []

/-- No node has children. -/
def Flat : FMap → Prop
  | .cons _ _ kids rest => kids.isEmpty = true ∧ Flat rest
  | _ => True

/-- A node as a map with one entry. -/
def ENode.asMap (n : ENode) : EMap := .cons [] n.ni n.v n.ci n.cvl .empty

/-- A reference into the dictionary of nodes or of maps. -/
inductive Ref where
  | node (i : Int)
  | map (i : Int)
deriving DecidableEq, Repr

/-- The references found in encoded data, directly or by following references. -/
inductive Uses (d : Dicts) : EMap → Ref → Prop
  | node {e i} : i ∈ nodeRefs e → Uses d e (.node i)
  | map {e i} : i ∈ mapRefs e → Uses d e (.map i)
  | viaNode {e i n r} : Uses d e (.node i) → 0 ≤ i → d.fvn[i.toNat]? = some (some n) → Uses d n.asMap r → Uses d e r
  | viaMap {e i m r} : Uses d e (.map i) → 0 ≤ i → d.fv[i.toNat]? = some (some m) → Uses d m r → Uses d e r

/-- The reference points to an existing entry. -/
def Ref.inRange (d : Dicts) : Ref → Prop
  | .node i => 0 ≤ i ∧ i.toNat < d.fvn.length
  | .map i => 0 ≤ i ∧ i.toNat < d.fv.length

/-- Every reference of a frame, including those met by following references, points to an existing entry. -/
def FrameRefsOK (d : Dicts) (f : EFrame) : Prop :=
  (∀ i, f.si = some i → 0 ≤ i ∧ i.toNat < d.st.length) ∧
  match f.fvi with
  | some i => (Ref.map i).inRange d ∧ ∀ m, d.fv[i.toNat]? = some (some m) → ∀ r, Uses d m r → r.inRange d
  | none => ∀ r, Uses d f.fv r → r.inRange d

end Verif.Result
