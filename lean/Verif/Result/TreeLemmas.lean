import Verif.Result.DecLemmas

/-!
Contents of field trees, the hashed byte streams, flattening.
-/

namespace Verif.Result

/-! ### Contents -/

/-- Nodes with the same value and same children. -/
def FindRel : Option (Bytes × FMap) → Option (Bytes × FMap) → Prop
  | none, none => True
  | some a, some b => a.1 = b.1 ∧ Same a.2 b.2
  | _, _ => False

theorem same_iff {a b : FMap} : Same a b ↔ ∀ x, FindRel (a.find x) (b.find x) := by
  constructor
  · intro h x
    have h1 := h [x]
    simp only [valAt] at h1
    cases ha : a.find x with
    | none =>
        cases hb : b.find x with
        | none => trivial
        | some n => rw [ha, hb] at h1; simp at h1
    | some m =>
        cases hb : b.find x with
        | none => rw [ha, hb] at h1; simp at h1
        | some n =>
            rw [ha, hb] at h1
            simp only [Option.map_some, Option.some.injEq] at h1
            refine ⟨h1, ?_⟩
            intro p
            cases p with
            | nil => rfl
            | cons k ks =>
                have := h (x :: k :: ks)
                simpa [valAt, ha, hb] using this
  · intro h p
    match p with
    | [] => rfl
    | [k] =>
        have := h k
        simp only [valAt]
        cases ha : a.find k <;> cases hb : b.find k <;> rw [ha, hb] at this <;> simp only [FindRel] at this
        · simp [this.1]
    | k :: k' :: ks =>
        have := h k
        simp only [valAt]
        cases ha : a.find k <;> cases hb : b.find k <;> rw [ha, hb] at this <;> simp only [FindRel] at this
        · exact this.2 _

theorem find_empty {a : FMap} (h : a.isEmpty = true) (x : Bytes) : a.find x = none := by
  cases a with
  | goNil => rfl
  | empty => rfl
  | cons => simp [FMap.isEmpty] at h

theorem Same.refl (a : FMap) : Same a a := fun _ => rfl
theorem Same.trans {a b c : FMap} (h : Same a b) (h' : Same b c) : Same a c := fun p => (h p).trans (h' p)
theorem Same.symm {a b : FMap} (h : Same a b) : Same b a := fun p => (h p).symm

theorem same_empties {a b : FMap} (ha : a.isEmpty = true) (hb : b.isEmpty = true) : Same a b := by
  rw [same_iff]; intro x; rw [find_empty ha, find_empty hb]; trivial

theorem same_cons (k v : Bytes) {a b r s : FMap} (h1 : Same a b) (h2 : Same r s) :
    Same (.cons k v a r) (.cons k v b s) := by
  rw [same_iff] at h2 ⊢
  intro x
  simp only [FMap.find]
  by_cases hx : k = x
  · simp only [if_pos hx]; exact ⟨rfl, h1⟩
  · simp only [if_neg hx]; exact h2 x

theorem Eqv.same {a b : FMap} (h : Eqv a b) : Same a b := by
  induction h with
  | empties ha hb => exact same_empties ha hb
  | cons _ _ ih1 ih2 => exact same_cons _ _ ih1 ih2

theorem same_isEmpty {a b : FMap} (h : Same a b) : a.isEmpty = b.isEmpty := by
  rw [same_iff] at h
  cases a with
  | goNil =>
      cases b with
      | cons k v kids rest => have := h k; simp [FMap.find, FindRel] at this
      | _ => rfl
  | empty =>
      cases b with
      | cons k v kids rest => have := h k; simp [FMap.find, FindRel] at this
      | _ => rfl
  | cons k v kids rest =>
      cases b with
      | cons => rfl
      | goNil => have := h k; simp [FMap.find, FindRel] at this
      | empty => have := h k; simp [FMap.find, FindRel] at this

/-! ### Hash keys -/

theorem mapID_stream {H : Bytes → Bytes} {ms : List FMap} {ns : List (Bytes × FMap)} (hH : HashOK H ms ns)
    {a b : FMap} (ha : a ∈ ms) (hb : b ∈ ms) (h : mapID H a = mapID H b) : stream a = stream b := by
  have hl : ∀ k v x y, (mapID H (.cons k v x y)).length = 20 := fun k v x y => hH.len _
  cases a with
  | goNil =>
      cases b with
      | goNil => rfl
      | empty => rfl
      | cons k v x y => have := congrArg List.length h; rw [hl] at this; simp [mapID] at this
  | empty =>
      cases b with
      | goNil => rfl
      | empty => rfl
      | cons k v x y => have := congrArg List.length h; rw [hl] at this; simp [mapID, emptyId] at this
  | cons k v x y =>
      cases b with
      | goNil => have := congrArg List.length h; rw [hl] at this; simp [mapID] at this
      | empty => have := congrArg List.length h; rw [hl] at this; simp [mapID, emptyId] at this
      | cons => exact hH.maps _ ha _ hb h

theorem le64_length (n : Nat) : (le64 n).length = 8 := by simp [le64]

theorem ofNat_inj {a b : Nat} (ha : a < 256) (hb : b < 256) (h : UInt8.ofNat a = UInt8.ofNat b) : a = b := by
  have := congrArg UInt8.toNat h
  rw [UInt8.toNat_ofNat', UInt8.toNat_ofNat'] at this
  omega

theorem le64_inj {n m : Nat} (hn : n < 2 ^ 64) (hm : m < 2 ^ 64) (h : le64 n = le64 m) : n = m := by
  have key : ∀ i, i < 8 → n / 256 ^ i % 256 = m / 256 ^ i % 256 := by
    intro i hi
    have h1 := congrArg (fun l : List UInt8 => l[i]?) h
    simp only [le64, List.getElem?_map, List.getElem?_range hi, Option.map_some, Option.some.injEq] at h1
    exact ofNat_inj (Nat.mod_lt _ (by decide)) (Nat.mod_lt _ (by decide)) h1
  have k0 := key 0 (by decide)
  have k1 := key 1 (by decide)
  have k2 := key 2 (by decide)
  have k3 := key 3 (by decide)
  have k4 := key 4 (by decide)
  have k5 := key 5 (by decide)
  have k6 := key 6 (by decide)
  have k7 := key 7 (by decide)
  norm_num at k0 k1 k2 k3 k4 k5 k6 k7 hn hm
  omega

theorem framed_inj {a b s t : Bytes} (ha : a.length < 2 ^ 64) (hb : b.length < 2 ^ 64)
    (h : framed a ++ s = framed b ++ t) : a = b ∧ s = t := by
  unfold framed at h
  rw [List.append_assoc, List.append_assoc] at h
  obtain ⟨h1, h2⟩ := List.append_inj h (by rw [le64_length, le64_length])
  exact List.append_inj h2 (le64_inj ha hb h1)

theorem nodeID_inj {H : Bytes → Bytes} {ms : List FMap} {ns : List (Bytes × FMap)} (hH : HashOK H ms ns)
    {a b : Bytes × FMap} (ha : a ∈ ns) (hb : b ∈ ns) (fa : a.1.length < 2 ^ 64) (fb : b.1.length < 2 ^ 64)
    (h : nodeID H a.1 a.2 = nodeID H b.1 b.2) : a.1 = b.1 ∧ mapID H a.2 = mapID H b.2 := by
  have := hH.nodes a ha b hb h
  exact framed_inj fa fb this

theorem fits_nodes {m : FMap} (h : Fits m) : ∀ n ∈ subNodes m, n.1.length < 2 ^ 64 := by
  induction m with
  | goNil => simp [subNodes]
  | empty => simp [subNodes]
  | cons k v kids rest ihk ihr =>
      obtain ⟨_, h2, h3, h4⟩ := h
      intro n hn
      simp only [subNodes, List.mem_cons, List.mem_append] at hn
      rcases hn with rfl | hn | hn
      · exact h2
      · exact ihk h3 n hn
      · exact ihr h4 n hn

theorem nodes_maps {m : FMap} : ∀ n ∈ subNodes m, n.2 ∈ subMaps m := by
  induction m with
  | goNil => simp [subNodes]
  | empty => simp [subNodes]
  | cons k v kids rest ihk ihr =>
      intro n hn
      simp only [subNodes, subMaps, List.mem_cons, List.mem_append] at hn ⊢
      rcases hn with rfl | hn | hn
      · exact Or.inl rfl
      · exact Or.inr (Or.inl (ihk n hn))
      · exact Or.inr (Or.inr (ihr n hn))

theorem matchOK_of {H : Bytes → Bytes} {Q : FMap → FMap → Prop} (tr : TestResult) (hH : HashOK H tr.maps tr.nodes)
    (hf : ∀ f ∈ tr.frames, Fits f.fields)
    (empties : ∀ a b, a.isEmpty = true → b.isEmpty = true → Q a b)
    (cons : ∀ k v a b r s, Q a b → Q r s → Q (.cons k v a r) (.cons k v b s))
    (trans : ∀ a ∈ tr.maps, ∀ b ∈ tr.maps, stream a = stream b → ∀ d, Q d a → Q d b) :
    MatchOK H tr.maps tr.nodes Q where
  empties := empties
  cons := cons
  map := fun a ha b hb h => trans a ha b hb (mapID_stream hH ha hb h)
  mapStream := fun _ ha _ hb h => mapID_stream hH ha hb h
  node := by
    intro a ha b hb h
    have hl : ∀ n ∈ tr.nodes, n.1.length < 2 ^ 64 := by
      intro n hn
      obtain ⟨f, hf', hn⟩ := List.mem_flatMap.mp hn
      exact fits_nodes (hf f hf') n hn
    exact nodeID_inj hH ha hb (hl a ha) (hl b hb) h
  nodeMap := by
    intro n hn
    obtain ⟨f, hf', hn⟩ := List.mem_flatMap.mp hn
    exact List.mem_flatMap.mpr ⟨f, hf', List.mem_cons_of_mem _ (nodes_maps n hn)⟩

/-! ### Sorted listings -/

theorem map_toNat_inj {a b : Bytes} (h : a.map UInt8.toNat = b.map UInt8.toNat) : a = b :=
  List.map_injective_iff.mpr (fun _ _ h => UInt8.toNat_inj.mp h) h

def lt' (a b : Bytes) : Prop := a.map UInt8.toNat < b.map UInt8.toNat

theorem leBytes_of_not {a b : Bytes} (h : leBytes a b = false) : lt' b a := by
  unfold leBytes at h
  exact not_le.mp (of_decide_eq_false h)

theorem lt'_of_le {a b : Bytes} (h : leBytes a b = true) (hne : a ≠ b) : lt' a b := by
  unfold leBytes at h
  exact lt_of_le_of_ne (of_decide_eq_true h) fun h' => hne (map_toNat_inj h')

theorem lt'_irrefl (a : Bytes) : ¬ lt' a a := lt_irrefl _
theorem lt'_trans {a b c : Bytes} (h : lt' a b) (h' : lt' b c) : lt' a c := lt_trans (α := List Nat) h h'

/-- Every name of the listing is larger than `k`. -/
def AllGt (k : Bytes) (m : FMap) : Prop := ∀ x ∈ m.names, lt' k x

/-- Sorted at every level. -/
def Sorted : FMap → Prop
  | .cons k _ kids rest => AllGt k rest ∧ Sorted kids ∧ Sorted rest
  | _ => True

theorem find_none_iff : ∀ (m : FMap) (x : Bytes), m.find x = none ↔ x ∉ m.names
  | .goNil, x => by simp [FMap.find, FMap.names]
  | .empty, x => by simp [FMap.find, FMap.names]
  | .cons k v kids rest, x => by
      simp only [FMap.find, FMap.names, List.mem_cons, not_or]
      by_cases h : k = x
      · simp [h]
      · rw [if_neg h, find_none_iff rest x]
        exact ⟨fun h' => ⟨fun h2 => h h2.symm, h'⟩, fun h' => h'.2⟩

theorem names_insertE (k v : Bytes) (kids : FMap) : ∀ m x, x ∈ (insertE k v kids m).names ↔ x = k ∨ x ∈ m.names
  | .goNil, x => by simp [insertE, FMap.names]
  | .empty, x => by simp [insertE, FMap.names]
  | .cons k2 v2 kids2 rest, x => by
      have ih := names_insertE k v kids rest x
      unfold insertE
      split
      · simp [FMap.names]
      · simp only [FMap.names, List.mem_cons, ih]
        constructor
        · rintro (h | h | h) <;> simp [h]
        · rintro (h | h | h) <;> simp [h]

theorem names_canon : ∀ m x, x ∈ (canon m).names ↔ x ∈ m.names
  | .goNil, x => Iff.rfl
  | .empty, x => Iff.rfl
  | .cons k v kids rest, x => by
      simp only [canon, names_insertE, names_canon rest x, FMap.names, List.mem_cons]

theorem sorted_insertE {k v : Bytes} {kids : FMap} (hk : Sorted kids) : ∀ {m}, Sorted m → k ∉ m.names → Sorted (insertE k v kids m)
  | .goNil, _, _ => ⟨by simp [AllGt, FMap.names], hk, trivial⟩
  | .empty, _, _ => ⟨by simp [AllGt, FMap.names], hk, trivial⟩
  | .cons k2 v2 kids2 rest, hs, hn => by
      obtain ⟨h1, h2, h3⟩ := hs
      simp only [FMap.names, List.mem_cons, not_or] at hn
      unfold insertE
      split
      · rename_i hle
        have hlt := lt'_of_le hle hn.1
        refine ⟨?_, hk, h1, h2, h3⟩
        intro x hx
        simp only [FMap.names, List.mem_cons] at hx
        rcases hx with rfl | hx
        · exact hlt
        · exact lt'_trans hlt (h1 x hx)
      · rename_i hle
        have hlt : lt' k2 k := leBytes_of_not (by simpa using hle)
        refine ⟨?_, h2, sorted_insertE hk h3 hn.2⟩
        intro x hx
        rw [names_insertE] at hx
        rcases hx with rfl | hx
        · exact hlt
        · exact h1 x hx

theorem sorted_canon : ∀ {m}, WF m → Sorted (canon m)
  | .goNil, _ => trivial
  | .empty, _ => trivial
  | .cons k v kids rest, h => by
      obtain ⟨h1, h2, h3⟩ := h
      exact sorted_insertE (sorted_canon h2) (sorted_canon h3) (fun hc => h1 ((names_canon rest k).mp hc))

theorem find_insertE (k v : Bytes) (kids : FMap) : ∀ m, k ∉ m.names → ∀ x,
    (insertE k v kids m).find x = if k = x then some (v, kids) else m.find x
  | .goNil, _, x => by simp [insertE, FMap.find]
  | .empty, _, x => by simp [insertE, FMap.find]
  | .cons k2 v2 kids2 rest, hn, x => by
      simp only [FMap.names, List.mem_cons, not_or] at hn
      have ih := find_insertE k v kids rest hn.2 x
      unfold insertE
      split
      · rfl
      · simp only [FMap.find, ih]
        by_cases h1 : k2 = x
        · have : k ≠ x := fun h => hn.1 (h.trans h1.symm)
          simp [h1, this]
        · simp [h1]

theorem canon_same : ∀ {m}, WF m → Same (canon m) m
  | .goNil, _ => Same.refl _
  | .empty, _ => Same.refl _
  | .cons k v kids rest, h => by
      obtain ⟨h1, h2, h3⟩ := h
      have ihk := canon_same h2
      have ihr := canon_same h3
      rw [same_iff] at ihr ⊢
      intro x
      simp only [canon]
      rw [find_insertE _ _ _ _ (fun hc => h1 ((names_canon rest k).mp hc))]
      simp only [FMap.find]
      by_cases hx : k = x
      · simp only [if_pos hx]; exact ⟨rfl, ihk⟩
      · simp only [if_neg hx]; exact ihr x

/-- The head of a sorted listing is smaller than every other name. -/
theorem sorted_head_find {k v : Bytes} {kids rest : FMap} (hs : Sorted (.cons k v kids rest)) {x : Bytes}
    (h : (FMap.cons k v kids rest).find x ≠ none) : x = k ∨ lt' k x := by
  have : x ∈ (FMap.cons k v kids rest).names := by
    by_contra hn; exact h ((find_none_iff _ _).mpr hn)
  simp only [FMap.names, List.mem_cons] at this
  rcases this with rfl | h'
  · exact Or.inl rfl
  · exact Or.inr (hs.1 x h')

/-- Heads agree for sorted listings with the same names. -/
theorem heads_eq {k v k2 v2 : Bytes} {kids rest kids2 rest2 : FMap} (h1 : Sorted (.cons k v kids rest))
    (h2 : Sorted (.cons k2 v2 kids2 rest2))
    (hn : ∀ x, (FMap.cons k v kids rest).find x = none ↔ (FMap.cons k2 v2 kids2 rest2).find x = none) : k = k2 := by
  have ha : (FMap.cons k2 v2 kids2 rest2).find k ≠ none := by
    intro hc; have := (hn k).mpr hc; simp [FMap.find] at this
  have hb : (FMap.cons k v kids rest).find k2 ≠ none := by
    intro hc; have := (hn k2).mp hc; simp [FMap.find] at this
  rcases sorted_head_find h2 ha with h | h
  · exact h
  · rcases sorted_head_find h1 hb with h' | h'
    · exact h'.symm
    · exact absurd (lt'_trans h h') (lt'_irrefl _)

theorem find_head {k v : Bytes} {kids rest : FMap} : (FMap.cons k v kids rest).find k = some (v, kids) := by
  simp [FMap.find]

theorem find_rest {k v : Bytes} {kids rest : FMap} (hs : Sorted (.cons k v kids rest)) (x : Bytes) :
    rest.find x = if x = k then none else (FMap.cons k v kids rest).find x := by
  split
  · rename_i h; subst h
    rw [find_none_iff]; intro hc; exact lt'_irrefl _ (hs.1 _ hc)
  · rename_i h; simp only [FMap.find]; rw [if_neg (fun h' => h h'.symm)]

theorem findRel_none {a b : Option (Bytes × FMap)} (h : FindRel a b) : a = none ↔ b = none := by
  cases a <;> cases b <;> simp [FindRel] at h ⊢

/-- Same contents, same bytes. -/
theorem raw_eq_of_same : ∀ (a b : FMap), Sorted a → Sorted b → Same a b → raw a = raw b
  | .goNil, b, _, _, h => by
      have := same_isEmpty h
      cases b with
      | cons => simp [FMap.isEmpty] at this
      | _ => rfl
  | .empty, b, _, _, h => by
      have := same_isEmpty h
      cases b with
      | cons => simp [FMap.isEmpty] at this
      | _ => rfl
  | .cons k v kids rest, b, ha, hb, h => by
      have he := same_isEmpty h
      cases b with
      | goNil => simp [FMap.isEmpty] at he
      | empty => simp [FMap.isEmpty] at he
      | cons k2 v2 kids2 rest2 =>
          have hf := same_iff.mp h
          have hk : k = k2 := heads_eq ha hb (fun x => findRel_none (hf x))
          subst hk
          have hh := hf k
          rw [find_head, find_head] at hh
          obtain ⟨hv, hkids⟩ := hh
          simp only at hv hkids
          subst hv
          have hrest : Same rest rest2 := by
            rw [same_iff]
            intro x
            rw [find_rest ha x, find_rest hb x]
            by_cases hx : x = k
            · simp only [if_pos hx]; trivial
            · simp only [if_neg hx]; exact hf x
          simp only [raw]
          rw [raw_eq_of_same kids kids2 ha.2.1 hb.2.1 hkids, raw_eq_of_same rest rest2 ha.2.2 hb.2.2 hrest,
            same_isEmpty hkids]

/-! ### Streams of trees of the same shape -/

theorem sameShape_iff {a b : FMap} : SameShape a b ↔ ∀ x, match a.find x, b.find x with
    | none, none => True
    | some m, some n => SameShape m.2 n.2
    | _, _ => False := by
  constructor
  · intro h x
    have h1 := h [x]
    simp only [valAt] at h1
    cases ha : a.find x with
    | none =>
        cases hb : b.find x with
        | none => trivial
        | some n => rw [ha, hb] at h1; simp at h1
    | some m =>
        cases hb : b.find x with
        | none => rw [ha, hb] at h1; simp at h1
        | some n =>
            intro p
            cases p with
            | nil => rfl
            | cons k ks =>
                have := h (x :: k :: ks)
                simpa [valAt, ha, hb] using this
  · intro h p
    match p with
    | [] => rfl
    | [k] =>
        have := h k
        simp only [valAt]
        cases ha : a.find k <;> cases hb : b.find k <;> rw [ha, hb] at this <;> simp at this ⊢
    | k :: k' :: ks =>
        have := h k
        simp only [valAt]
        cases ha : a.find k <;> cases hb : b.find k <;> rw [ha, hb] at this <;> simp only at this
        · exact this _

theorem Same.shape {a b : FMap} (h : Same a b) : SameShape a b := fun p => by rw [h p]

theorem SameShape.trans {a b c : FMap} (h : SameShape a b) (h' : SameShape b c) : SameShape a c :=
  fun p => (h p).trans (h' p)

theorem SameShape.symm {a b : FMap} (h : SameShape a b) : SameShape b a := fun p => (h p).symm

theorem sameShape_isEmpty {a b : FMap} (h : SameShape a b) : a.isEmpty = b.isEmpty := by
  rw [sameShape_iff] at h
  cases a with
  | goNil =>
      cases b with
      | cons k v kids rest => have := h k; simp [FMap.find] at this
      | _ => rfl
  | empty =>
      cases b with
      | cons k v kids rest => have := h k; simp [FMap.find] at this
      | _ => rfl
  | cons k v kids rest =>
      cases b with
      | cons => rfl
      | goNil => have := h k; simp [FMap.find] at this
      | empty => have := h k; simp [FMap.find] at this

theorem leafAt_empty {a : FMap} (h : a.isEmpty = true) (p : List Bytes) : leafAt p a = none := by
  match p with
  | [] => rfl
  | [k] => simp [leafAt, find_empty h]
  | k :: k' :: ks => simp [leafAt, find_empty h]

theorem fits_insertE {k v : Bytes} {kids : FMap} (h : k.length < 2 ^ 64 ∧ v.length < 2 ^ 64 ∧ Fits kids) : ∀ {m},
    Fits m → Fits (insertE k v kids m)
  | .goNil, _ => ⟨h.1, h.2.1, h.2.2, trivial⟩
  | .empty, _ => ⟨h.1, h.2.1, h.2.2, trivial⟩
  | .cons k2 v2 kids2 rest, hm => by
      unfold insertE
      split
      · exact ⟨h.1, h.2.1, h.2.2, hm⟩
      · exact ⟨hm.1, hm.2.1, hm.2.2.1, fits_insertE h hm.2.2.2⟩

theorem fits_canon : ∀ {m}, Fits m → Fits (canon m)
  | .goNil, _ => trivial
  | .empty, _ => trivial
  | .cons _ _ _ _, h => fits_insertE ⟨h.1, h.2.1, fits_canon h.2.2.1⟩ (fits_canon h.2.2.2)

/-- Trees of the same shape that write the same bytes have the same leaves, and nothing is left over. -/
theorem raw_inj_shape : ∀ (a b : FMap) (s t : Bytes), Sorted a → Sorted b → Fits a → Fits b → SameShape a b →
    raw a ++ s = raw b ++ t → (∀ p, leafAt p a = leafAt p b) ∧ s = t
  | .goNil, b, s, t, _, _, _, _, h, he => by
      have := sameShape_isEmpty h
      cases b with
      | cons => simp [FMap.isEmpty] at this
      | goNil => exact ⟨fun p => rfl, he⟩
      | empty => exact ⟨fun p => by rw [leafAt_empty rfl, leafAt_empty rfl], he⟩
  | .empty, b, s, t, _, _, _, _, h, he => by
      have := sameShape_isEmpty h
      cases b with
      | cons => simp [FMap.isEmpty] at this
      | goNil => exact ⟨fun p => by rw [leafAt_empty rfl, leafAt_empty rfl], he⟩
      | empty => exact ⟨fun p => rfl, he⟩
  | .cons k v kids rest, b, s, t, ha, hb, fa, fb, h, he => by
      have hem := sameShape_isEmpty h
      cases b with
      | goNil => simp [FMap.isEmpty] at hem
      | empty => simp [FMap.isEmpty] at hem
      | cons k2 v2 kids2 rest2 =>
          have hf := sameShape_iff.mp h
          have hnone : ∀ x, (FMap.cons k v kids rest).find x = none ↔ (FMap.cons k2 v2 kids2 rest2).find x = none := by
            intro x
            have := hf x
            cases h1 : (FMap.cons k v kids rest).find x <;> cases h2 : (FMap.cons k2 v2 kids2 rest2).find x <;>
              rw [h1, h2] at this <;> simp at this ⊢
          have hk : k = k2 := heads_eq ha hb hnone
          subst hk
          have hh := hf k
          rw [find_head, find_head] at hh
          simp only at hh
          have hrest : SameShape rest rest2 := by
            rw [sameShape_iff]
            intro x
            rw [find_rest ha x, find_rest hb x]
            by_cases hx : x = k
            · simp only [if_pos hx]
            · simp only [if_neg hx]; exact hf x
          have hke := sameShape_isEmpty hh
          simp only [raw, List.append_assoc] at he
          obtain ⟨_, he⟩ := framed_inj fa.1 fb.1 he
          have main : (kids.isEmpty = true → v = v2) ∧ (∀ p, leafAt p kids = leafAt p kids2) ∧ raw rest ++ s = raw rest2 ++ t := by
            cases hk' : kids.isEmpty with
            | true =>
                rw [hk'] at hke
                rw [hk', ← hke] at he
                simp only [if_true, List.cons_append, List.cons.injEq, true_and] at he
                obtain ⟨h1, h2⟩ := framed_inj fa.2.1 fb.2.1 he
                exact ⟨fun _ => h1, fun p => by rw [leafAt_empty hk', leafAt_empty hke.symm], h2⟩
            | false =>
                rw [hk'] at hke
                rw [hk', ← hke] at he
                simp only [Bool.false_eq_true, if_false, List.cons_append, List.cons.injEq, true_and] at he
                obtain ⟨h1, h2⟩ := raw_inj_shape kids kids2 _ _ ha.2.1 hb.2.1 fa.2.2.1 fb.2.2.1 hh he
                exact ⟨by simp, h1, h2⟩
          obtain ⟨hv, hkl, he⟩ := main
          obtain ⟨hr, hst⟩ := raw_inj_shape rest rest2 s t ha.2.2 hb.2.2 fa.2.2.2 fb.2.2.2 hrest he
          refine ⟨?_, hst⟩
          intro p
          match p with
          | [] => rfl
          | [x] =>
              by_cases hx : k = x
              · subst hx
                simp only [leafAt, find_head, Option.bind_some]
                rw [hke]
                cases hk2 : kids2.isEmpty with
                | true => rw [hv (hke.trans hk2)]
                | false => rfl
              · have := hr [x]
                simp only [leafAt, FMap.find, if_neg hx] at this ⊢
                exact this
          | x :: y :: ys =>
              by_cases hx : k = x
              · subst hx
                simp only [leafAt, find_head, Option.bind_some]
                exact hkl _
              · have := hr (x :: y :: ys)
                simp only [leafAt, FMap.find, if_neg hx] at this ⊢
                exact this

theorem Same.leaf {a b : FMap} (h : Same a b) : ∀ p, leafAt p a = leafAt p b := by
  intro p
  induction p generalizing a b with
  | nil => rfl
  | cons k ks ih =>
      have hk := same_iff.mp h k
      cases ks with
      | nil =>
          simp only [leafAt]
          cases h1 : a.find k <;> cases h2 : b.find k <;> rw [h1, h2] at hk <;> simp only [FindRel] at hk
          · simp only [Option.bind_some, hk.1, same_isEmpty hk.2]
      | cons k' ks =>
          simp only [leafAt]
          cases h1 : a.find k <;> cases h2 : b.find k <;> rw [h1, h2] at hk <;> simp only [FindRel] at hk
          · simp only [Option.bind_some]; exact ih hk.2

end Verif.Result
