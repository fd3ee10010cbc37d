import Verif.Result.RefLemmas

/-!
Property theorems C18–C21: saving and loading test results, identity keys, flattening, references.
-/

namespace Verif.Result

/-! ### Data for the examples -/

/-- A hash function with 20 bytes of output, for the examples. -/
def toyH (x : Bytes) : Bytes :=
  le64 x.length ++ le64 (x.foldl (fun a b => (a * 257 + b.toNat) % 2 ^ 64) 7) ++ [0, 0, 0, 0]

theorem toyH_len (x : Bytes) : (toyH x).length = 20 := by simp [toyH, le64_length]

/-- A key for stacks, for the examples. -/
def toyKey (st : List StackFrame) : Bytes := st.flatMap fun f => framed f.file ++ le64 f.line ++ framed f.func

def leaf (k v : Bytes) (rest : FMap) : FMap := .cons k v .goNil rest

/-- `{a: {b: "xyzuv", c: "y"}}` and the like. -/
def tA : FMap := .cons [97] [] (leaf [98] [120, 121, 122, 117, 118] (leaf [99] [121] .empty)) .empty
def tB : FMap := .cons [97] [] (leaf [98] [120, 121, 122, 117, 118] .empty) (leaf [99] [121] .empty)
def tC : FMap := leaf [98] [120, 121, 122, 117, 118] (leaf [99] [121] .empty)

def stk : List StackFrame := [⟨[46, 47, 102], 12, [70]⟩, ⟨[46, 47, 103], 3, [71]⟩]

/-- Two callers; repeated trees, subtrees, nodes and stacks. -/
def exampleResult : TestResult :=
  ⟨[84], [84, 49], [([109], [⟨tA, stk, 5⟩, ⟨tC, stk, 7⟩, ⟨tA, [], 9⟩])], [([109], [[112]])], [], 3, true,
    [([101], [⟨tC, stk, 1⟩, ⟨.goNil, [], 0⟩])]⟩

/-- Two frames that differ only in where a field belongs. -/
def clashResult : TestResult :=
  ⟨[84], [84, 49], [([109], [⟨tA, stk, 5⟩, ⟨tB, stk, 7⟩])], [], [], 0, false, []⟩

/-! ### C18: round trip -/

/-- Encoding and decoding a result gives the same result — test, callers, frames in order, field trees, stacks, times,
panics, counters, extension frames — for every choice of what is put into the dictionaries, every order in which maps
are listed and every nesting, provided that
the hash shows no collision, stacks have distinct keys, and maps that write the same bytes to the hash have the same
content.  Missing for the full claim: the last condition does not always hold (`C18_roundtrip_violated`). -/
theorem C18_roundtrip_partial (c : Cfg) (tr : TestResult) (hf : ∀ f ∈ tr.frames, Fits f.fields)
    (hH : HashOK c.H tr.maps tr.nodes) (hst : StackKeysOK c.stackKey tr.stacks) (hclash : NoClash tr.maps) :
    ∃ r f0, (∀ fuel, f0 ≤ fuel → decode fuel (encode c tr).wire = .ok r) ∧ SameResult r tr := by
  obtain ⟨r, f0, h, h1, h2, h3, h4, h5, h6, h7, h8⟩ := decode_encode_match (Q := Same) tr c rfl
    (matchOK_of tr hH hf (fun _ _ => same_empties) (fun k v _ _ _ _ => same_cons k v)
      (fun a ha b hb he _ hd => hd.trans (hclash a ha b hb he)))
    (fun _ _ _ he hs => he.same.trans hs) hst
  exact ⟨r, f0, h, h1, h2, h7, h3, h4, h5, h6, h8⟩

/-- The same for the counts the encoder takes itself, and without the condition on equal bytes, if no field has
children. -/
theorem C18_roundtrip_flat_partial (H : Bytes → Bytes) (stackKey : List StackFrame → Bytes) (tr : TestResult)
    (hf : ∀ f ∈ tr.frames, Fits f.fields ∧ WF f.fields ∧ Flat f.fields)
    (hH : HashOK H tr.maps tr.nodes) (hst : StackKeysOK stackKey tr.stacks) :
    ∃ r f0, (∀ fuel, f0 ≤ fuel → decode fuel (encode (cfgOf H stackKey tr) tr).wire = .ok r) ∧ SameResult r tr := by
  refine C18_roundtrip_partial (cfgOf H stackKey tr) tr (fun f h => (hf f h).1) hH hst ?_
  have hall : ∀ m ∈ tr.maps, Flat m ∧ WF m ∧ Fits m := by
    intro m hm
    obtain ⟨f, hf', hm⟩ := List.mem_flatMap.mp hm
    rw [List.mem_cons] at hm
    rcases hm with rfl | hm
    · exact ⟨(hf f hf').2.2, (hf f hf').2.1, (hf f hf').1⟩
    · have := flat_subMaps (hf f hf').2.2 m hm
      cases m with
      | cons => simp [FMap.isEmpty] at this
      | _ => exact ⟨trivial, trivial, trivial⟩
  intro a ha b hb he
  exact stream_flat (hall a ha).1 (hall a ha).2.1 (hall b hb).2.1 (hall a ha).2.2 (hall b hb).2.2 he

/-- Different results of the example class are not confused: the example satisfies the conditions and its dictionaries
are in use. -/
example : HashOK toyH exampleResult.maps exampleResult.nodes ∧ StackKeysOK toyKey exampleResult.stacks ∧
    (encode (cfgOf toyH toyKey exampleResult) exampleResult).dicts.fv.length = 2 ∧
    (encode (cfgOf toyH toyKey exampleResult) exampleResult).dicts.fvn.length = 2 ∧
    (encode (cfgOf toyH toyKey exampleResult) exampleResult).dicts.st.length = 2 :=
  ⟨⟨toyH_len, by decide +kernel, by decide +kernel⟩, by unfold StackKeysOK; decide +kernel, by decide +kernel,
    by decide +kernel, by decide +kernel⟩

example : decode 9 (encode (cfgOf toyH toyKey exampleResult) exampleResult).wire = .ok exampleResult := by decide +kernel

/-- A well-formed result, with captured trees only, no hash collision and distinct stack keys, that does not survive
saving and loading: the second frame comes back with the fields of the first. -/
theorem C18_roundtrip_violated : ∃ (H : Bytes → Bytes) (stackKey : List StackFrame → Bytes) (tr : TestResult),
    HashOK H tr.maps tr.nodes ∧ StackKeysOK stackKey tr.stacks ∧
    (∀ f ∈ tr.frames, WF f.fields ∧ Fits f.fields ∧ ValueOnLeaves f.fields) ∧
    ∃ r, (∀ fuel, 9 ≤ fuel → decode fuel (encode (cfgOf H stackKey tr) tr).wire = .ok r) ∧ ¬ SameResult r tr := by
  have hok : HashOK toyH clashResult.maps clashResult.nodes := ⟨toyH_len, by decide +kernel, by decide +kernel⟩
  have hst : StackKeysOK toyKey clashResult.stacks := by unfold StackKeysOK; decide +kernel
  have hwf : ∀ f ∈ clashResult.frames, WF f.fields ∧ Fits f.fields ∧ ValueOnLeaves f.fields := by
    intro f hf
    simp only [TestResult.frames, clashResult, List.flatMap_cons, List.flatMap_nil, List.append_nil, List.mem_cons,
      List.not_mem_nil, or_false] at hf
    rcases hf with rfl | rfl <;>
      simp [WF, Fits, ValueOnLeaves, tA, tB, leaf, FMap.names, FMap.isEmpty]
  refine ⟨toyH, toyKey, clashResult, hok, hst, hwf, ⟨[84], [84, 49], [([109], [⟨tA, stk, 5⟩, ⟨tA, stk, 7⟩])], [], [], 0, false, []⟩, ?_, ?_⟩
  · -- decoding does not depend on the fuel once it succeeds
    obtain ⟨r, f0, h, -⟩ := decode_encode_match (Q := fun _ _ => True) clashResult (cfgOf toyH toyKey clashResult) rfl
      (matchOK_of clashResult hok (fun f hf => (hwf f hf).2.1) (fun _ _ _ _ => trivial) (fun _ _ _ _ _ _ _ _ => trivial)
        (fun _ _ _ _ _ _ _ => trivial)) (fun _ _ _ _ _ => trivial) hst
    intro fuel hfuel
    have h9 : decode 9 (encode (cfgOf toyH toyKey clashResult) clashResult).wire =
        .ok ⟨[84], [84, 49], [([109], [⟨tA, stk, 5⟩, ⟨tA, stk, 7⟩])], [], [], 0, false, []⟩ := by decide +kernel
    have he : (encode (cfgOf toyH toyKey clashResult) clashResult).wire =
      ⟨[84], [84, 49], [([109], [⟨some 0, .goNil, some 0, [], 5⟩, ⟨some 0, .goNil, some 0, [], 7⟩])], [], [], 0, false, [],
        ⟨[some (.cons [97] none [] none (.cons [98] (some 0) [] none .goNil (.cons [99] none [121] none .goNil .empty)) .empty)],
         [some ⟨none, [120, 121, 122, 117, 118], none, .goNil⟩], [stk]⟩⟩ := by decide +kernel
    rw [he]
    match fuel, hfuel with
    | n + 9, _ =>
      simp only [decode, decodeInto, decFrameMap, decFrames, decFrame, decFV, decExt, decStack]
      simp [jumps, dictGet, slotMap, slotNode, decEntries, bind, Except.bind, pure, Except.pure, tA, leaf]
  · intro h
    have hc := h.callers
    simp only [clashResult, SameFrameMap, List.forall₂_cons, SameFrames] at hc
    have := hc.1.2.2.1.1 [[99]]
    revert this
    decide

/-- Loading into a value that already holds a result with extension frames keeps the old extension frames if the saved
result has none. -/
theorem C18_reused_receiver_violated : ∃ (H : Bytes → Bytes) (stackKey : List StackFrame → Bytes) (tr old : TestResult),
    tr.extension = [] ∧ HashOK H tr.maps tr.nodes ∧ StackKeysOK stackKey tr.stacks ∧ NoClash tr.maps ∧
    ∃ r, (∀ fuel, decodeInto old.extension fuel (encode (cfgOf H stackKey tr) tr).wire = .ok r) ∧ ¬ SameResult r tr := by
  refine ⟨toyH, toyKey, ⟨[84], [84, 49], [], [], [], 0, false, []⟩, exampleResult, rfl,
    ⟨toyH_len, by simp [TestResult.maps, TestResult.frames], by simp [TestResult.nodes, TestResult.frames]⟩,
    by simp [StackKeysOK, TestResult.stacks, TestResult.frames], by simp [NoClash, TestResult.maps, TestResult.frames],
    ⟨[84], [84, 49], [], [], [], 0, false, exampleResult.extension⟩, fun _ => rfl, ?_⟩
  intro h
  have := h.extension
  simp [SameFrameMap, exampleResult] at this

/-! ### C19: identity keys -/

/-- The key of a map is determined by its content, whatever the order of iteration. -/
theorem C19_order_independent (H : Bytes → Bytes) (a b : FMap) (wa : WF a) (wb : WF b) (hne : a.isEmpty = false)
    (h : Same a b) : mapID H a = mapID H b := by
  have hs : stream a = stream b :=
    raw_eq_of_same _ _ (sorted_canon wa) (sorted_canon wb) (((canon_same wa).trans h).trans (canon_same wb).symm)
  have hb := same_isEmpty h
  rw [hne] at hb
  cases a with
  | goNil => simp [FMap.isEmpty] at hne
  | empty => simp [FMap.isEmpty] at hne
  | cons =>
      cases b with
      | goNil => simp [FMap.isEmpty] at hb
      | empty => simp [FMap.isEmpty] at hb
      | cons => simp only [mapID, hs]

/-- Maps of the same shape with the same key agree on all leaves, if the hash shows no collision on them; if moreover
values are on leaves only, as in captured trees, they have the same content.  Missing for the full claim: maps of
different shapes (`C19_nesting_violated`), values of nodes with children (`C19_inner_value_violated`). -/
theorem C19_distinguishes_partial (H : Bytes → Bytes) (a b : FMap) (wa : WF a) (wb : WF b) (fa : Fits a) (fb : Fits b)
    (hH : HashOK H [a, b] []) (hs : SameShape a b) (h : mapID H a = mapID H b) : ∀ p, leafAt p a = leafAt p b := by
  have hst := mapID_stream hH (a := a) (b := b) (by simp) (by simp) h
  have := raw_inj_shape (canon a) (canon b) [] [] (sorted_canon wa) (sorted_canon wb) (fits_canon fa) (fits_canon fb)
    (((canon_same wa).shape.trans hs).trans (canon_same wb).shape.symm) (by simpa [stream] using hst)
  intro p
  rw [← (canon_same wa).leaf, ← (canon_same wb).leaf, this.1]

/-- A map without nested maps is distinguished from every other map with different content. -/
theorem C19_distinguishes_flat_partial (H : Bytes → Bytes) (a b : FMap) (wa : WF a) (wb : WF b) (fa : Fits a) (fb : Fits b)
    (hH : HashOK H [a, b] []) (hflat : Flat a) (h : mapID H a = mapID H b) : Same a b :=
  stream_flat hflat wa wb fa fb (mapID_stream hH (a := a) (b := b) (by simp) (by simp) h)

/-- Nodes with the same key have the same value and children with the same key. -/
theorem C19_node (H : Bytes → Bytes) (v w : Bytes) (a b : FMap) (hv : v.length < 2 ^ 64) (hw : w.length < 2 ^ 64)
    (hH : HashOK H [] [(v, a), (w, b)]) (h : nodeID H v a = nodeID H w b) : v = w ∧ mapID H a = mapID H b :=
  nodeID_inj hH (a := (v, a)) (b := (w, b)) (by simp) (by simp) hv hw h

/-- No tree, the empty tree and a tree with fields have different IDs, whatever the hash of 20 bytes. -/
theorem C19_empty (H : Bytes → Bytes) (hH : ∀ x, (H x).length = 20) (a b : FMap) (h : mapID H a = mapID H b) :
    (a = .goNil ↔ b = .goNil) ∧ (a = .empty ↔ b = .empty) := by
  have h0 : ∀ x, H x ≠ [] := fun x e => by have := hH x; rw [e] at this; cases this
  have h5 : ∀ x, H x ≠ emptyId := fun x e => by have := hH x; rw [e] at this; cases this
  have he : emptyId ≠ [] := by decide
  cases a with
  | goNil =>
    cases b with
    | goNil => simp
    | empty => exact absurd h.symm he
    | cons => exact absurd h.symm (h0 _)
  | empty =>
    cases b with
    | goNil => exact absurd h he
    | empty => simp
    | cons => exact absurd h.symm (h5 _)
  | cons =>
    cases b with
    | goNil => exact absurd h (h0 _)
    | empty => exact absurd h (h5 _)
    | cons => simp

/-- Keys have at most 20 bytes, and short texts are their own keys: they are told apart without relying on the hash. -/
theorem C19_short (H : Bytes → Bytes) (hH : ∀ x, (H x).length = 20) :
    (∀ b, (bytesKey H b).length ≤ 20) ∧ ∀ a b, a.length ≤ 20 → b.length ≤ 20 → bytesKey H a = bytesKey H b → a = b := by
  refine ⟨fun b => ?_, fun a b ha hb h => ?_⟩
  · unfold bytesKey
    split
    · assumption
    · exact Nat.le_of_eq (hH b)
  · unfold bytesKey at h
    rwa [if_pos ha, if_pos hb] at h

example : WF tA ∧ Fits tA ∧ ValueOnLeaves tA ∧ SameShape tA (.cons [97] [] (leaf [99] [1] (leaf [98] [2] .empty)) .empty) ∧
    HashOK toyH [tA, .cons [97] [] (leaf [99] [1] (leaf [98] [2] .empty)) .empty] [] := by
  refine ⟨by simp [WF, tA, leaf, FMap.names], by simp [Fits, tA, leaf], by simp [ValueOnLeaves, tA, leaf, FMap.isEmpty], ?_,
    ⟨toyH_len, by decide +kernel, by decide +kernel⟩⟩
  rw [sameShape_iff]
  intro x
  by_cases hx : ([97] : Bytes) = x
  · simp only [tA, leaf, FMap.find, if_pos hx]
    rw [sameShape_iff]
    intro y
    by_cases h1 : ([98] : Bytes) = y
    · subst h1; simp only [FMap.find, if_true, SameShape]; simp [sameShape_iff, FMap.find]
    · by_cases h2 : ([99] : Bytes) = y
      · subst h2; simp [FMap.find, SameShape]
      · simp [FMap.find, h1, h2]
  · simp [tA, leaf, FMap.find, hx]

/-- Whatever the hash: two captured trees that differ in where a field belongs have the same key. -/
theorem C19_nesting_violated : ∃ a b : FMap, WF a ∧ WF b ∧ ValueOnLeaves a ∧ ValueOnLeaves b ∧ Fits a ∧ Fits b ∧
    ¬ Same a b ∧ ∀ H, mapID H a = mapID H b := by
  refine ⟨tA, tB, by simp [WF, tA, leaf, FMap.names], by simp [WF, tB, leaf, FMap.names],
    by simp [ValueOnLeaves, tA, leaf, FMap.isEmpty], by simp [ValueOnLeaves, tB, leaf, FMap.isEmpty],
    by simp [Fits, tA, leaf], by simp [Fits, tB, leaf], ?_, ?_⟩
  · intro h
    have := h [[99]]
    revert this; decide
  · intro H
    have : stream tA = stream tB := by decide +kernel
    show H (stream tA) = H (stream tB)
    rw [this]

/-- Whatever the hash: the value of a node with children does not enter the key. -/
theorem C19_inner_value_violated : ∃ a b : FMap, WF a ∧ WF b ∧ SameShape a b ∧ ¬ Same a b ∧ ∀ H, mapID H a = mapID H b := by
  refine ⟨.cons [97] [1] tC .empty, .cons [97] [2] tC .empty, by simp [WF, tC, leaf, FMap.names],
    by simp [WF, tC, leaf, FMap.names], ?_, ?_, fun H => ?_⟩
  · rw [sameShape_iff]
    intro x
    by_cases hx : ([97] : Bytes) = x
    · simp only [FMap.find, if_pos hx]; intro p; rfl
    · simp [FMap.find, hx]
  · intro h
    have := h [[97]]
    revert this; decide
  · have : stream (.cons [97] [1] tC .empty) = stream (.cons [97] [2] tC .empty) := by decide +kernel
    show H _ = H _
    rw [this]

/-! ### C20: flattening -/

/-- The flattened tree has exactly one entry per leaf, with the leaf's value, under its dotted path, and different
leaves have different dotted paths — if no name is empty or contains a dot.  Missing: such names
(`C20_dot_in_name_violated`). -/
theorem C20_flatten_partial (m : FMap) (hw : WF m) (hn : NamesAll (fun k => k ≠ [] ∧ (46 : UInt8) ∉ k) m) :
    (∀ key v, (flatten m).get key = some v ↔ ∃ p, leafAt p m = some v ∧ dotted p = key) ∧
    (∀ p q v w, leafAt p m = some v → leafAt q m = some w → dotted p = dotted q → p = q) := by
  have hinj : ∀ p q v w, leafAt p m = some v → leafAt q m = some w → dotted p = dotted q → p = q := by
    intro p q v w hp hq h
    exact dotted_inj (leafAt_ne_nil hp) (leafAt_ne_nil hq) (fun k hk => (leafAt_names_all p m v hn hp k hk).2)
      (fun k hk => (leafAt_names_all q m w hn hq k hk).2) h
  have hext : ∀ p v, leafAt p m = some v → extend [] p = dotted p :=
    fun p v hp => extend_nil fun k hk => (leafAt_names_all p m v hn hp k hk).1
  refine ⟨?_, hinj⟩
  intro key v
  constructor
  · intro h
    obtain ⟨p, hp, hk⟩ := flatten_get hw h
    exact ⟨p, hp, by rw [hk, hext p v hp]⟩
  · rintro ⟨p, hp, rfl⟩
    have := flatten_isSome hw hp
    rw [hext p v hp] at this
    obtain ⟨v', hv'⟩ := Option.ne_none_iff_exists'.mp this
    obtain ⟨q, hq, hk⟩ := flatten_get hw hv'
    rw [hext q v' hq] at hk
    rw [← hinj p q v v' hp hq hk] at hq
    rw [hv', ← hq, hp]

/-- With any non-empty names: every entry is the value of a leaf with that dotted path, and no leaf is left out. -/
theorem C20_flatten_sound (m : FMap) (hw : WF m) (hn : NamesAll (fun k => k ≠ []) m) :
    (∀ key v, (flatten m).get key = some v → ∃ p, leafAt p m = some v ∧ dotted p = key) ∧
    (∀ p v, leafAt p m = some v → ((flatten m).get (dotted p)).isSome = true) := by
  have hext : ∀ p v, leafAt p m = some v → extend [] p = dotted p :=
    fun p v hp => extend_nil fun k hk => leafAt_names_all p m v hn hp k hk
  constructor
  · intro key v h
    obtain ⟨p, hp, hk⟩ := flatten_get hw h
    exact ⟨p, hp, by rw [hk, hext p v hp]⟩
  · intro p v hp
    have := flatten_isSome hw hp
    rw [hext p v hp] at this
    exact Option.isSome_iff_ne_none.mpr this

/-- Flattened trees are equal exactly if the leaves are: in particular the order of iteration does not matter. -/
theorem C20_compare_partial (a b : FMap) (wa : WF a) (wb : WF b) (na : NamesAll (fun k => k ≠ [] ∧ (46 : UInt8) ∉ k) a)
    (nb : NamesAll (fun k => k ≠ [] ∧ (46 : UInt8) ∉ k) b) :
    (∀ key, (flatten a).get key = (flatten b).get key) ↔ ∀ p, leafAt p a = leafAt p b := by
  have ha := C20_flatten_partial a wa na
  have hb := C20_flatten_partial b wb nb
  have hdir : ∀ (x y : FMap), NamesAll (fun k => k ≠ [] ∧ (46 : UInt8) ∉ k) x → NamesAll (fun k => k ≠ [] ∧ (46 : UInt8) ∉ k) y →
      (∀ key v, (flatten x).get key = some v ↔ ∃ p, leafAt p x = some v ∧ dotted p = key) →
      (∀ key v, (flatten y).get key = some v ↔ ∃ p, leafAt p y = some v ∧ dotted p = key) →
      (∀ key, (flatten x).get key = (flatten y).get key) → ∀ p v, leafAt p x = some v → leafAt p y = some v := by
    intro x y nx ny hx hy h p v hp
    have h1 := (hx (dotted p) v).mpr ⟨p, hp, rfl⟩
    rw [h] at h1
    obtain ⟨q, hq, hk⟩ := (hy _ _).mp h1
    have : q = p := dotted_inj (leafAt_ne_nil hq) (leafAt_ne_nil hp) (fun k hk => (leafAt_names_all q y v ny hq k hk).2)
      (fun k hk => (leafAt_names_all p x v nx hp k hk).2) hk
    rw [← this]; exact hq
  constructor
  · intro h p
    apply Option.ext
    intro v
    exact ⟨hdir a b na nb ha.1 hb.1 h p v, hdir b a nb na hb.1 ha.1 (fun k => (h k).symm) p v⟩
  · intro h key
    apply Option.ext
    intro v
    rw [ha.1, hb.1]
    simp only [h]

example : WF tA ∧ NamesAll (fun k => k ≠ [] ∧ (46 : UInt8) ∉ k) tA ∧
    flatten tA = [([97, 46, 99], [121]), ([97, 46, 98], [120, 121, 122, 117, 118])] :=
  ⟨by simp [WF, tA, leaf, FMap.names], by simp [NamesAll, tA, leaf], by decide⟩

/-- A name with a dot (a key of a captured Go map can be any text): two leaves, one entry, and the entry depends on the
order of iteration. -/
theorem C20_dot_in_name_violated : ∃ a b : FMap, WF a ∧ WF b ∧ Same a b ∧
    NamesAll (fun k => k ≠ []) a ∧ (∃ p q, p ≠ q ∧ leafAt p a ≠ none ∧ leafAt q a ≠ none ∧ leafAt p a ≠ leafAt q a) ∧
    (flatten a).length = 1 ∧ ∃ key, (flatten a).get key ≠ (flatten b).get key := by
  refine ⟨.cons [97] [] (leaf [98] [1] .empty) (leaf [97, 46, 98] [2] .empty),
    leaf [97, 46, 98] [2] (.cons [97] [] (leaf [98] [1] .empty) .empty), by simp [WF, leaf, FMap.names],
    by simp [WF, leaf, FMap.names], ?_, by simp [NamesAll, leaf], ⟨[[97], [98]], [[97, 46, 98]], by decide⟩, by decide,
    [97, 46, 98], by decide⟩
  rw [same_iff]
  intro x
  by_cases h1 : ([97] : Bytes) = x
  · subst h1; simp only [leaf, FMap.find, FindRel]; simp [FindRel, Same]
  · by_cases h2 : ([97, 46, 98] : Bytes) = x
    · subst h2; simp only [leaf, FMap.find]; simp [FindRel, Same]
    · simp [leaf, FMap.find, h1, h2, FindRel]

/-! ### C21: references -/

/-- What the encoder writes always decodes: no reference dangles and following references ends — for any choice of what
is put into the dictionaries, if hash and stack keys show no collision. -/
theorem C21_encoded_data_decodes (c : Cfg) (tr : TestResult) (hf : ∀ f ∈ tr.frames, Fits f.fields)
    (hH : HashOK c.H tr.maps tr.nodes) (hst : StackKeysOK c.stackKey tr.stacks) :
    (∃ r f0, ∀ fuel, f0 ≤ fuel → decode fuel (encode c tr).wire = .ok r) ∧
    ∀ kv ∈ (encode c tr).wire.callers ++ (encode c tr).wire.extension, ∀ f ∈ kv.2, FrameRefsOK (encode c tr).wire.dicts f := by
  obtain ⟨r, f0, h, -⟩ := decode_encode_match (Q := fun _ _ => True) tr c rfl
    (matchOK_of tr hH hf (fun _ _ _ _ => trivial) (fun _ _ _ _ _ _ _ _ => trivial)
      (fun _ _ _ _ _ _ _ => trivial)) (fun _ _ _ _ _ => trivial) hst
  refine ⟨⟨r, f0, h⟩, ?_⟩
  have h0 := h f0 (Nat.le_refl _)
  unfold decode decodeInto at h0
  obtain ⟨cr, h1, h0⟩ := bind_ok h0
  obtain ⟨ef, h2, _⟩ := bind_ok h0
  intro kv hkv
  rw [List.mem_append] at hkv
  rcases hkv with hkv | hkv
  · exact decFrameMap_refs _ _ h1 kv hkv
  · unfold decExt at h2
    split at h2
    · rename_i he; rw [he] at hkv; cases hkv
    · exact decFrameMap_refs _ _ h2 kv hkv

/-- Data with a reference out of range — of a frame to the fields or the stack, or of any field met on the way — is not
accepted. -/
theorem C21_bad_reference_rejected (old : List (Bytes × List CallFrame)) (fuel : Nat) (e : ETest)
    (h : ∃ kv ∈ e.callers ++ e.extension, ∃ f ∈ kv.2, ¬ FrameRefsOK e.dicts f) :
    ∀ r, decodeInto old fuel e ≠ .ok r := by
  intro r hr
  obtain ⟨kv, hkv, f, hf, hbad⟩ := h
  unfold decodeInto at hr
  obtain ⟨cr, h1, hr⟩ := bind_ok hr
  obtain ⟨ef, h2, _⟩ := bind_ok hr
  rw [List.mem_append] at hkv
  rcases hkv with hkv | hkv
  · exact hbad (decFrameMap_refs _ _ h1 kv hkv f hf)
  · unfold decExt at h2
    split at h2
    · rename_i he; rw [he] at hkv; cases hkv
    · exact hbad (decFrameMap_refs _ _ h2 kv hkv f hf)

/-- A reference out of range two steps away. -/
example : ¬ FrameRefsOK ⟨[some (.cons [97] none [] (some 1) .goNil .empty), some (.cons [98] (some 7) [] none .goNil .empty)], [], []⟩
    ⟨some 0, .goNil, none, [], 0⟩ := by
  rintro ⟨-, h⟩
  simp only at h
  have := h.2 _ rfl (.node 7) (.viaMap (i := 1) (m := .cons [98] (some 7) [] none .goNil .empty)
    (.map (by simp [mapRefs])) (by decide) rfl (.node (by simp [nodeRefs])))
  simp [Ref.inRange] at this

/-- Data in which references form a cycle are never decoded: no amount of recursion suffices. -/
theorem C21_cyclic_data_never_decodes (fuel : Nat) :
    decode fuel ⟨[], [], [([109], [⟨some 0, .goNil, none, [], 0⟩])], [], [], 0, false, [],
      ⟨[some (.cons [97] none [] (some 0) .goNil .empty)], [], []⟩⟩ = .error .stuck := by
  have key : ∀ n, (jumps ⟨[some (.cons [97] none [] (some 0) .goNil .empty)], [], []⟩ n).2 0 = .error .stuck := by
    intro n
    induction n with
    | zero => rfl
    | succ n ih =>
        simp only [jumps, dictGet, le_refl, if_true, Int.toNat_zero, List.getElem?_cons_zero, slotMap, Option.getD_some,
          decEntries, ih]
        rfl
  simp only [decode, decodeInto, decFrameMap, decFrames, decFrame, decFV, key]
  rfl

end Verif.Result
