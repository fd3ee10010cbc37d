import Verif.Result.Spec

/-!
The encoder and decoder: what the encoder writes decodes, to something that matches the source.
-/

namespace Verif.Result

/-! ### Sizes of streams -/

theorem raw_insertE_length (k v : Bytes) (kids : FMap) : ∀ m,
    (raw (insertE k v kids m)).length =
      (framed k ++ (if kids.isEmpty then 0 :: framed v else 1 :: raw kids)).length + (raw m).length
  | .goNil => by simp [insertE, raw]
  | .empty => by simp [insertE, raw]
  | .cons k2 v2 kids2 rest => by
      have ih := raw_insertE_length k v kids rest
      unfold insertE
      split
      · simp only [raw, List.length_append] at *; omega
      · simp only [raw, List.length_append] at *; omega

theorem insertE_ne (k v : Bytes) (kids m : FMap) : (insertE k v kids m).isEmpty = false := by
  cases m with
  | goNil => rfl
  | empty => rfl
  | cons k2 v2 kids2 rest => unfold insertE; split <;> rfl

theorem canon_isEmpty (m : FMap) : (canon m).isEmpty = m.isEmpty := by
  cases m with
  | goNil => rfl
  | empty => rfl
  | cons k v kids rest => simp only [canon, insertE_ne]; rfl

theorem stream_cons_length (k v : Bytes) (kids rest : FMap) :
    (stream (.cons k v kids rest)).length =
      (framed k ++ (if kids.isEmpty then 0 :: framed v else 1 :: stream kids)).length + (stream rest).length := by
  simp only [stream, canon, raw_insertE_length, canon_isEmpty]

theorem stream_empty {m : FMap} (h : m.isEmpty = true) : stream m = [] := by
  cases m with
  | goNil => rfl
  | empty => rfl
  | cons => simp [FMap.isEmpty] at h

/-- The children maps of the entries of one level. -/
def kidsOf : FMap → List FMap
  | .cons _ _ kids rest => kids :: kidsOf rest
  | _ => []

theorem stream_kids_lt : ∀ m, ∀ k ∈ kidsOf m, (stream k).length < (stream m).length
  | .goNil => by simp [kidsOf]
  | .empty => by simp [kidsOf]
  | .cons k v kids rest => by
      intro x hx
      rw [stream_cons_length]
      rcases List.mem_cons.mp hx with rfl | hx
      · cases he : x.isEmpty with
        | true =>
            rw [stream_empty he]
            simp only [if_pos, List.length_append, List.length_cons, List.length_nil]; omega
        | false =>
            simp only [Bool.false_eq_true, if_false, List.length_append, List.length_cons]; omega
      · have := stream_kids_lt rest x hx
        omega

/-! ### Decoding as a relation -/

/-- A node as a map with one entry. -/
def single (n : ENode) : EMap := .cons [] n.ni n.v n.ci n.cvl .empty

/-- `e` decodes to the map, using only filled dictionary slots. -/
inductive Dec (D : Dicts) : EMap → FMap → Prop
  | goNil : Dec D .goNil .goNil
  | empty : Dec D .empty .empty
  | node {k i v ci cvl rest n v' kids rest'} : dictGet D.fvn i = some (some n) →
      Dec D (single n) (.cons [] v' kids .empty) → Dec D rest rest' →
      Dec D (.cons k (some i) v ci cvl rest) (.cons k v' kids rest')
  | kidsDict {k v i cvl rest e kids rest'} : dictGet D.fv i = some (some e) → Dec D e kids → Dec D rest rest' →
      Dec D (.cons k none v (some i) cvl rest) (.cons k v kids rest')
  | inline {k v cvl rest kids rest'} : Dec D cvl kids → Dec D rest rest' →
      Dec D (.cons k none v none cvl rest) (.cons k v kids rest')

/-- Filled slots stay as they are. -/
structure DLe (D D' : Dicts) : Prop where
  fv : ∀ (i : Nat) e, D.fv[i]? = some (some e) → D'.fv[i]? = some (some e)
  fvn : ∀ (i : Nat) n, D.fvn[i]? = some (some n) → D'.fvn[i]? = some (some n)

theorem DLe.refl (D : Dicts) : DLe D D := ⟨fun _ _ h => h, fun _ _ h => h⟩

theorem DLe.trans {A B C : Dicts} (h : DLe A B) (h' : DLe B C) : DLe A C :=
  ⟨fun i e x => h'.fv i e (h.fv i e x), fun i e x => h'.fvn i e (h.fvn i e x)⟩

theorem dictGet_nat {α : Type} (l : List (Option α)) (n : Nat) : dictGet l (n : Int) = l[n]? := by
  unfold dictGet; rw [if_pos (by omega)]; simp

theorem DLe.getFv {D D' : Dicts} (h : DLe D D') {i : Int} {e} (hi : dictGet D.fv i = some (some e)) :
    dictGet D'.fv i = some (some e) := by
  unfold dictGet at *
  split at hi
  · rename_i h0; rw [if_pos h0]; exact h.fv _ _ hi
  · simp at hi

theorem DLe.getFvn {D D' : Dicts} (h : DLe D D') {i : Int} {e} (hi : dictGet D.fvn i = some (some e)) :
    dictGet D'.fvn i = some (some e) := by
  unfold dictGet at *
  split at hi
  · rename_i h0; rw [if_pos h0]; exact h.fvn _ _ hi
  · simp at hi

theorem Dec.mono {D D' : Dicts} (h : DLe D D') {e : EMap} {m : FMap} (hd : Dec D e m) : Dec D' e m := by
  induction hd with
  | goNil => exact .goNil
  | empty => exact .empty
  | node hn _ _ ih1 ih2 => exact .node (h.getFvn hn) ih1 ih2
  | kidsDict hn _ _ ih1 ih2 => exact .kidsDict (h.getFv hn) ih1 ih2
  | inline _ _ ih1 ih2 => exact .inline ih1 ih2

/-! ### The encoder -/

/-- What is needed of the matching relation between decoded and source maps. -/
structure MatchOK (H : Bytes → Bytes) (ms : List FMap) (ns : List (Bytes × FMap)) (Q : FMap → FMap → Prop) : Prop where
  empties : ∀ a b, a.isEmpty = true → b.isEmpty = true → Q a b
  cons : ∀ k v a b r s, Q a b → Q r s → Q (.cons k v a r) (.cons k v b s)
  map : ∀ a ∈ ms, ∀ b ∈ ms, mapID H a = mapID H b → ∀ d, Q d a → Q d b
  mapStream : ∀ a ∈ ms, ∀ b ∈ ms, mapID H a = mapID H b → stream a = stream b
  node : ∀ a ∈ ns, ∀ b ∈ ns, nodeID H a.1 a.2 = nodeID H b.1 b.2 → a.1 = b.1 ∧ mapID H a.2 = mapID H b.2
  nodeMap : ∀ a ∈ ns, a.2 ∈ ms

section
variable {c : Cfg} {ms : List FMap} {ns : List (Bytes × FMap)} {Q : FMap → FMap → Prop}

def ClosedM (Q : FMap → FMap → Prop) (D : Dicts) (pos : Nat) (m : FMap) : Prop :=
  ∃ e d, D.fv[pos]? = some (some e) ∧ Dec D e d ∧ Q d m

def ClosedN (Q : FMap → FMap → Prop) (D : Dicts) (pos : Nat) (n : Bytes × FMap) : Prop :=
  ∃ e d, D.fvn[pos]? = some (some e) ∧ Dec D (single e) (.cons [] n.1 d .empty) ∧ Q d n.2

theorem ClosedM.mono {D D' : Dicts} (h : DLe D D') {pos m} (hc : ClosedM Q D pos m) : ClosedM Q D' pos m := by
  obtain ⟨e, d, h1, h2, h3⟩ := hc
  exact ⟨e, d, h.fv _ _ h1, h2.mono h, h3⟩

theorem ClosedN.mono {D D' : Dicts} (h : DLe D D') {pos m} (hc : ClosedN Q D pos m) : ClosedN Q D' pos m := by
  obtain ⟨e, d, h1, h2, h3⟩ := hc
  exact ⟨e, d, h.fvn _ _ h1, h2.mono h, h3⟩

/-- Keys of maps (nodes) whose stream is shorter than the bound have a filled slot. -/
structure Pre (c : Cfg) (ms : List FMap) (ns : List (Bytes × FMap)) (Q : FMap → FMap → Prop) (s : EncState)
    (R Rn : Nat) : Prop where
  m : ∀ key pos, s.fvIdx.get key = some pos → ∀ a ∈ ms, mapID c.H a = key → (stream a).length < R → ClosedM Q s.d pos a
  n : ∀ key pos, s.fvnIdx.get key = some pos → ∀ a ∈ ns, nodeID c.H a.1 a.2 = key → (stream a.2).length < Rn →
    ClosedN Q s.d pos a

/-- What a part of the encoder does to the state. -/
structure Post (c : Cfg) (ms : List FMap) (ns : List (Bytes × FMap)) (Q : FMap → FMap → Prop) (s s' : EncState) : Prop where
  fv : s.d.fv <+: s'.d.fv
  fvn : s.d.fvn <+: s'.d.fvn
  st : s'.d.st = s.d.st
  stIdx : s'.stIdx = s.stIdx
  m : ∀ key pos, s'.fvIdx.get key = some pos → s.fvIdx.get key = some pos ∨
    ∀ a ∈ ms, mapID c.H a = key → ClosedM Q s'.d pos a
  n : ∀ key pos, s'.fvnIdx.get key = some pos → s.fvnIdx.get key = some pos ∨
    ∀ a ∈ ns, nodeID c.H a.1 a.2 = key → ClosedN Q s'.d pos a

theorem prefix_getElem? {α : Type} {a b : List α} (h : a <+: b) {i : Nat} {x : α} (hi : a[i]? = some x) : b[i]? = some x := by
  obtain ⟨t, rfl⟩ := h
  rw [List.getElem?_append_left (List.getElem?_eq_some_iff.mp hi).1]; exact hi

theorem Post.dle {s s' : EncState} (h : Post c ms ns Q s s') : DLe s.d s'.d :=
  ⟨fun _ _ hi => prefix_getElem? h.fv hi, fun _ _ hi => prefix_getElem? h.fvn hi⟩

theorem Post.refl (s : EncState) : Post c ms ns Q s s :=
  ⟨List.prefix_refl _, List.prefix_refl _, rfl, rfl, fun _ _ h => Or.inl h, fun _ _ h => Or.inl h⟩

theorem Post.trans {a b d : EncState} (h : Post c ms ns Q a b) (h' : Post c ms ns Q b d) : Post c ms ns Q a d where
  fv := h.fv.trans h'.fv
  fvn := h.fvn.trans h'.fvn
  st := h'.st.trans h.st
  stIdx := h'.stIdx.trans h.stIdx
  m := by
    intro key pos hk
    rcases h'.m key pos hk with h1 | h1
    · rcases h.m key pos h1 with h2 | h2
      · exact Or.inl h2
      · exact Or.inr fun x hx he => (h2 x hx he).mono h'.dle
    · exact Or.inr h1
  n := by
    intro key pos hk
    rcases h'.n key pos hk with h1 | h1
    · rcases h.n key pos h1 with h2 | h2
      · exact Or.inl h2
      · exact Or.inr fun x hx he => (h2 x hx he).mono h'.dle
    · exact Or.inr h1

theorem Pre.post {s s' : EncState} {R Rn : Nat} (hp : Pre c ms ns Q s R Rn) (h : Post c ms ns Q s s') :
    Pre c ms ns Q s' R Rn where
  m := by
    intro key pos hk a ha he hr
    rcases h.m key pos hk with h1 | h1
    · exact (hp.m key pos h1 a ha he hr).mono h.dle
    · exact h1 a ha he
  n := by
    intro key pos hk a ha he hr
    rcases h.n key pos hk with h1 | h1
    · exact (hp.n key pos h1 a ha he hr).mono h.dle
    · exact h1 a ha he

theorem Pre.weaken {s : EncState} {R Rn R' Rn' : Nat} (hp : Pre c ms ns Q s R Rn) (h : R' ≤ R) (h' : Rn' ≤ Rn) :
    Pre c ms ns Q s R' Rn' :=
  ⟨fun key pos hk a ha he hr => hp.m key pos hk a ha he (by omega),
   fun key pos hk a ha he hr => hp.n key pos hk a ha he (by omega)⟩

/-- What an encoded map with optional index stands for. -/
def DecIdx (D : Dicts) (e : EMap) (i : Option Int) (d : FMap) : Prop :=
  match i with
  | none => Dec D e d
  | some i => ∃ e', dictGet D.fv i = some (some e') ∧ Dec D e' d

theorem set_append_none {α : Type} {l t : List (Option α)} {x : Option α} :
    (l ++ [none] ++ t).set l.length x = l ++ x :: t := by
  rw [List.append_assoc, List.set_append_right _ _ (by omega)]
  simp

/-- `encodeFV`, given what the loop does. -/
theorem encFV_ok (hQ : MatchOK c.H ms ns Q) (src : FMap) (hsrc : src ∈ ms)
    (ent : EncState → EMap × EncState)
    (hent : ∀ s, Pre c ms ns Q s (stream src).length (stream src).length →
      Post c ms ns Q s (ent s).2 ∧ ∃ d, Dec (ent s).2.d (ent s).1 d ∧ Q d src)
    (s : EncState) (R Rn : Nat) (hp : Pre c ms ns Q s R Rn) (hR : (stream src).length < R)
    (hRn : (stream src).length ≤ Rn) :
    Post c ms ns Q s (encFVWith c ent src s).2.2 ∧
      ∃ d, DecIdx (encFVWith c ent src s).2.2.d (encFVWith c ent src s).1 (encFVWith c ent src s).2.1 d ∧ Q d src := by
  by_cases hnil : src = .goNil
  · subst hnil
    exact ⟨Post.refl s, _, Dec.goNil, hQ.empties _ _ rfl rfl⟩
  have hu : encFVWith c ent src s =
      if c.dupFV (mapID c.H src) then
        match s.fvIdx.get (mapID c.H src) with
        | some pos => (.goNil, some (pos : Int), s)
        | none =>
          let pos := s.d.fv.length
          let s1 := { s with fvIdx := s.fvIdx.set (mapID c.H src) pos, d := { s.d with fv := s.d.fv ++ [none] } }
          let (e, s2) := ent s1
          (.goNil, some (pos : Int), { s2 with d := { s2.d with fv := s2.d.fv.set pos (some e) } })
      else
        let (e, s1) := ent s
        (e, none, s1) := by
    cases src with
    | goNil => exact absurd rfl hnil
    | empty => rfl
    | cons => rfl
  rw [hu]
  clear hu
  split
  · split
    · rename_i pos hpos
      obtain ⟨e, d, h1, h2, h3⟩ := hp.m _ pos hpos src hsrc rfl hR
      exact ⟨Post.refl s, d, ⟨e, by rw [dictGet_nat]; exact h1, h2⟩, h3⟩
    · rename_i hnone
      simp only
      set s1 : EncState := { s with fvIdx := s.fvIdx.set (mapID c.H src) s.d.fv.length, d := { s.d with fv := s.d.fv ++ [none] } } with hs1
      have hle1 : DLe s.d s1.d := ⟨fun i e hi => prefix_getElem? (List.prefix_append _ _) hi, fun _ _ h => h⟩
      have hp1 : Pre c ms ns Q s1 (stream src).length (stream src).length := by
        constructor
        · intro key pos hk a ha he hr
          rw [show s1.fvIdx = s.fvIdx.set (mapID c.H src) s.d.fv.length from rfl, AMap.get_set] at hk
          split at hk
          · rename_i hkey
            have := hQ.mapStream a ha src hsrc (by rw [he, hkey])
            rw [this] at hr; omega
          · exact (hp.m key pos hk a ha he (by omega)).mono hle1
        · intro key pos hk a ha he hr
          exact (hp.n key pos hk a ha he (by omega)).mono hle1
      obtain ⟨hpost, d, hd, hq⟩ := hent s1 hp1
      generalize hes : ent s1 = r at hpost hd ⊢
      obtain ⟨e, s2⟩ := r
      simp only at hpost hd ⊢
      obtain ⟨t, ht⟩ := hpost.fv
      have ht' : s2.d.fv = s.d.fv ++ [none] ++ t := ht.symm
      have hset : s2.d.fv.set s.d.fv.length (some e) = s.d.fv ++ some e :: t := by rw [ht', set_append_none]
      set s3 : EncState := { s2 with d := { s2.d with fv := s2.d.fv.set s.d.fv.length (some e) } } with hs3
      have hle : DLe s2.d s3.d := by
        constructor
        · intro i x hi
          show (s2.d.fv.set s.d.fv.length (some e))[i]? = _
          rw [List.getElem?_set]
          split
          · rename_i h; subst h
            rw [ht', List.append_assoc, List.getElem?_append_right (by omega)] at hi
            simp at hi
          · exact hi
        · intro i x hi; exact hi
      have hslot : s3.d.fv[s.d.fv.length]? = some (some e) := by
        show (s2.d.fv.set s.d.fv.length (some e))[s.d.fv.length]? = _
        rw [hset, List.getElem?_append_right (by omega)]; simp
      have hclosed : ∀ a ∈ ms, mapID c.H a = mapID c.H src → ClosedM Q s3.d s.d.fv.length a := by
        intro a ha he
        exact ⟨e, d, hslot, hd.mono hle, hQ.map src hsrc a ha he.symm d hq⟩
      refine ⟨?_, d, ⟨e, by rw [dictGet_nat]; exact hslot, hd.mono hle⟩, hq⟩
      refine ⟨?_, hpost.fvn, hpost.st, hpost.stIdx, ?_, ?_⟩
      · show s.d.fv <+: s2.d.fv.set s.d.fv.length (some e)
        rw [hset]; exact List.prefix_append _ _
      · intro key pos hk
        rcases hpost.m key pos hk with h1 | h1
        · rw [show s1.fvIdx = s.fvIdx.set (mapID c.H src) s.d.fv.length from rfl, AMap.get_set] at h1
          split at h1
          · rename_i hkey
            cases h1; subst hkey
            exact Or.inr hclosed
          · exact Or.inl h1
        · exact Or.inr fun a ha he => (h1 a ha he).mono hle
      · intro key pos hk
        rcases hpost.n key pos hk with h1 | h1
        · exact Or.inl h1
        · exact Or.inr fun a ha he => (h1 a ha he).mono hle
  · obtain ⟨hpost, d, hd, hq⟩ := hent s (hp.weaken (by omega) hRn)
    exact ⟨hpost, d, hd, hq⟩

/-- The inline node, given what encoding the children does. -/
theorem encInline_ok (hQ : MatchOK c.H ms ns Q) (v : Bytes) (kids : FMap)
    (encKids : EncState → EMap × Option Int × EncState) (s : EncState)
    (hk : Post c ms ns Q s (encKids s).2.2 ∧ ∃ d, DecIdx (encKids s).2.2.d (encKids s).1 (encKids s).2.1 d ∧ Q d kids) :
    Post c ms ns Q s (encInline v kids.isEmpty encKids s).2 ∧
      ∃ d, Dec (encInline v kids.isEmpty encKids s).2.d (single (encInline v kids.isEmpty encKids s).1) (.cons [] v d .empty)
        ∧ Q d kids := by
  unfold encInline
  cases he : kids.isEmpty with
  | true =>
      simp only [if_true]
      exact ⟨Post.refl s, .goNil, Dec.inline Dec.goNil Dec.empty, hQ.empties _ _ rfl he⟩
  | false =>
      simp only [Bool.false_eq_true, if_false]
      obtain ⟨hpost, d, hd, hq⟩ := hk
      generalize encKids s = r at hpost hd ⊢
      obtain ⟨e, i, s1⟩ := r
      cases i with
      | none => exact ⟨hpost, d, Dec.inline hd Dec.empty, hq⟩
      | some i =>
          obtain ⟨e', h1, h2⟩ := hd
          exact ⟨hpost, d, Dec.kidsDict h1 h2 Dec.empty, hq⟩

/-- `encodeNode`, given what encoding the children does. -/
theorem encNode_ok (hQ : MatchOK c.H ms ns Q) (v : Bytes) (kids : FMap) (hn : (v, kids) ∈ ns)
    (encKids : EncState → EMap × Option Int × EncState)
    (hkids : ∀ s R, Pre c ms ns Q s R (stream kids).length → (stream kids).length < R →
      Post c ms ns Q s (encKids s).2.2 ∧ ∃ d, DecIdx (encKids s).2.2.d (encKids s).1 (encKids s).2.1 d ∧ Q d kids)
    (s : EncState) (R : Nat) (hp : Pre c ms ns Q s R R) (hR : (stream kids).length < R) :
    Post c ms ns Q s (encNodeWith c v kids encKids s).2 ∧
      ∃ d, Dec (encNodeWith c v kids encKids s).2.d (single (encNodeWith c v kids encKids s).1) (.cons [] v d .empty) ∧ Q d kids := by
  unfold encNodeWith
  simp only
  split
  · split
    · rename_i pos hpos
      obtain ⟨e, d, h1, h2, h3⟩ := hp.n _ pos hpos (v, kids) hn rfl hR
      exact ⟨Post.refl s, d, Dec.node (by rw [dictGet_nat]; exact h1) h2 Dec.empty, h3⟩
    · rename_i hnone
      set s1 : EncState := { s with fvnIdx := s.fvnIdx.set (nodeID c.H v kids) s.d.fvn.length, d := { s.d with fvn := s.d.fvn ++ [none] } } with hs1
      have hle1 : DLe s.d s1.d := ⟨fun _ _ h => h, fun i e hi => prefix_getElem? (List.prefix_append _ _) hi⟩
      have hp1 : Pre c ms ns Q s1 R (stream kids).length := by
        constructor
        · intro key pos hk a ha he hr
          exact (hp.m key pos hk a ha he (by omega)).mono hle1
        · intro key pos hk a ha he hr
          rw [show s1.fvnIdx = s.fvnIdx.set (nodeID c.H v kids) s.d.fvn.length from rfl, AMap.get_set] at hk
          split at hk
          · rename_i hkey
            have h1 := (hQ.node a ha (v, kids) hn (by rw [he, hkey])).2
            have := hQ.mapStream a.2 (hQ.nodeMap a ha) kids (hQ.nodeMap _ hn) h1
            rw [this] at hr; omega
          · exact (hp.n key pos hk a ha he (by omega)).mono hle1
      obtain ⟨hpost, d, hd, hq⟩ := encInline_ok hQ v kids encKids s1 (hkids s1 R hp1 hR)
      generalize hes : encInline v kids.isEmpty encKids s1 = r at hpost hd ⊢
      obtain ⟨e, s2⟩ := r
      simp only at hpost hd ⊢
      obtain ⟨t, ht⟩ := hpost.fvn
      have ht' : s2.d.fvn = s.d.fvn ++ [none] ++ t := ht.symm
      have hset : s2.d.fvn.set s.d.fvn.length (some e) = s.d.fvn ++ some e :: t := by rw [ht', set_append_none]
      set s3 : EncState := { s2 with d := { s2.d with fvn := s2.d.fvn.set s.d.fvn.length (some e) } } with hs3
      have hle : DLe s2.d s3.d := by
        constructor
        · intro i x hi; exact hi
        · intro i x hi
          show (s2.d.fvn.set s.d.fvn.length (some e))[i]? = _
          rw [List.getElem?_set]
          split
          · rename_i h; subst h
            rw [ht', List.append_assoc, List.getElem?_append_right (by omega)] at hi
            simp at hi
          · exact hi
      have hslot : s3.d.fvn[s.d.fvn.length]? = some (some e) := by
        show (s2.d.fvn.set s.d.fvn.length (some e))[s.d.fvn.length]? = _
        rw [hset, List.getElem?_append_right (by omega)]; simp
      have hclosed : ∀ a ∈ ns, nodeID c.H a.1 a.2 = nodeID c.H v kids → ClosedN Q s3.d s.d.fvn.length a := by
        intro a ha he
        obtain ⟨h1, h2⟩ := hQ.node a ha (v, kids) hn he
        refine ⟨e, d, hslot, ?_, hQ.map kids (hQ.nodeMap _ hn) a.2 (hQ.nodeMap a ha) h2.symm d hq⟩
        rw [h1]; exact hd.mono hle
      refine ⟨?_, d, Dec.node (by rw [dictGet_nat]; exact hslot) (hd.mono hle) Dec.empty, hq⟩
      refine ⟨hpost.fv, ?_, hpost.st, hpost.stIdx, ?_, ?_⟩
      · show s.d.fvn <+: s2.d.fvn.set s.d.fvn.length (some e)
        rw [hset]; exact List.prefix_append _ _
      · intro key pos hk
        rcases hpost.m key pos hk with h1 | h1
        · exact Or.inl h1
        · exact Or.inr fun a ha he => (h1 a ha he).mono hle
      · intro key pos hk
        rcases hpost.n key pos hk with h1 | h1
        · rw [show s1.fvnIdx = s.fvnIdx.set (nodeID c.H v kids) s.d.fvn.length from rfl, AMap.get_set] at h1
          split at h1
          · rename_i hkey
            cases h1; subst hkey
            exact Or.inr hclosed
          · exact Or.inl h1
        · exact Or.inr fun a ha he => (h1 a ha he).mono hle
  · exact encInline_ok hQ v kids encKids s (hkids s R (hp.weaken (by omega) (by omega)) hR)

/-- The loop over the entries. -/
theorem encEntries_ok (hQ : MatchOK c.H ms ns Q) (m : FMap) :
    ∀ (_ : ∀ k ∈ subMaps m, k ∈ ms) (_ : ∀ n ∈ subNodes m, n ∈ ns) (R : Nat)
      (_ : ∀ k ∈ kidsOf m, (stream k).length < R) (s : EncState) (_ : Pre c ms ns Q s R R),
    Post c ms ns Q s (encEntries c m s).2 ∧ ∃ d, Dec (encEntries c m s).2.d (encEntries c m s).1 d ∧ Q d m := by
  induction m with
  | goNil => intro _ _ _ _ s _; exact ⟨Post.refl s, .empty, Dec.empty, hQ.empties _ _ rfl rfl⟩
  | empty => intro _ _ _ _ s _; exact ⟨Post.refl s, .empty, Dec.empty, hQ.empties _ _ rfl rfl⟩
  | cons k v kids rest ihk ihr =>
      intro hm hn R hR s hp
      simp only [subMaps, subNodes, kidsOf, List.mem_cons, List.mem_append] at hm hn hR
      have hkm : kids ∈ ms := hm _ (Or.inl rfl)
      have hkids : ∀ s R, Pre c ms ns Q s R (stream kids).length → (stream kids).length < R →
          Post c ms ns Q s (encFVWith c (encEntries c kids) kids s).2.2 ∧
          ∃ d, DecIdx (encFVWith c (encEntries c kids) kids s).2.2.d (encFVWith c (encEntries c kids) kids s).1
            (encFVWith c (encEntries c kids) kids s).2.1 d ∧ Q d kids := by
        intro s R hp hR
        refine encFV_ok hQ kids hkm _ ?_ s R _ hp hR (by omega)
        intro s hp
        exact ihk (fun x hx => hm x (Or.inr (Or.inl hx))) (fun x hx => hn x (Or.inr (Or.inl hx))) _
          (stream_kids_lt kids) s hp
      obtain ⟨hpost, d, hd, hq⟩ := encNode_ok hQ v kids (hn _ (Or.inl rfl)) _ hkids s R hp (hR _ (Or.inl rfl))
      unfold encEntries
      simp only
      generalize encNodeWith c v kids (encFVWith c (encEntries c kids) kids) s = r at hpost hd ⊢
      obtain ⟨n, s1⟩ := r
      simp only at hpost hd ⊢
      obtain ⟨hpost2, d2, hd2, hq2⟩ := ihr (fun x hx => hm x (Or.inr (Or.inr hx))) (fun x hx => hn x (Or.inr (Or.inr hx)))
        R (fun x hx => hR x (Or.inr hx)) s1 (hp.post hpost)
      refine ⟨hpost.trans hpost2, .cons k v d d2, ?_, hQ.cons k v d kids d2 rest hq hq2⟩
      have hd' := hd.mono hpost2.dle
      obtain ⟨ni, nv, ci, cvl⟩ := n
      cases hd' with
      | node h1 h2 _ => exact Dec.node h1 h2 hd2
      | kidsDict h1 h2 _ => exact Dec.kidsDict h1 h2 hd2
      | inline h1 _ => exact Dec.inline h1 hd2

end

end Verif.Result
