import Verif.Wire.Lemmas
import Verif.Wire.Spec

namespace Verif.Wire

/-! ### Locality: a successful read depends only on the bytes it consumes -/

/-- A successful read consumes a prefix `c` of the input and would succeed with the same result whatever follows `c`. -/
def Local {α} (d : Rd α) : Prop :=
  ∀ bs a r, (d bs).out = some (a, r) → ∃ c, bs = c ++ r ∧ ∀ x, (d (c ++ x)).out = some (a, x)

theorem Local.pure {α} (a : α) : Local (Pure.pure a : Rd α) := by
  intro bs b r h
  simp at h
  exact ⟨[], by simp [h.2], by intro x; simp [h.1]⟩

theorem Local.fail {α} : Local (Rd.fail : Rd α) := by intro bs b r h; simp at h

theorem Local.alloc (a : Alloc) : Local (Rd.alloc a) := by
  intro bs b r h
  simp at h
  exact ⟨[], by simp [h], by intro x; simp⟩

theorem Local.readByte : Local readByte := by
  intro bs b r h
  cases bs with
  | nil => simp [Wire.readByte] at h
  | cons b' bs =>
    simp at h
    obtain ⟨rfl, rfl⟩ := h
    exact ⟨[b'], rfl, fun x => rfl⟩

theorem Local.readFull (n : Nat) : Local (readFull n) := by
  intro bs b r h
  unfold Wire.readFull at h
  split at h
  · rename_i hn
    simp at h
    obtain ⟨rfl, rfl⟩ := h
    refine ⟨bs.take n, by simp, fun x => ?_⟩
    have hl : (bs.take n).length = n := by simp [hn]
    have := out_readFull_append (bs.take n) x
    rwa [hl] at this
  · simp at h

theorem Local.bind {α β} {d : Rd α} {f : α → Rd β} (hd : Local d) (hf : ∀ a, Local (f a)) : Local (d >>= f) := by
  intro bs b r h
  rw [out_bind] at h
  cases h1 : (d bs).out with
  | none => rw [h1] at h; simp at h
  | some p =>
    obtain ⟨a, r1⟩ := p
    rw [h1] at h
    simp only [Option.bind_some] at h
    obtain ⟨c1, hc1, hx1⟩ := hd bs a r1 h1
    obtain ⟨c2, hc2, hx2⟩ := hf a r1 b r h
    refine ⟨c1 ++ c2, by rw [hc1, hc2]; simp, fun x => ?_⟩
    rw [List.append_assoc, out_bind_some (hx1 _)]
    exact hx2 x

theorem Local.ite {α} {p : Prop} [Decidable p] {d e : Rd α} (hd : Local d) (he : Local e) :
    Local (if p then d else e) := by split <;> assumption

theorem Local.readVarint : Local readVarint := by
  have key : ∀ (bs : Bytes) (v : UInt64) (s : Nat) (a : UInt64) (r : Bytes),
      readVarintLoop bs v s = some (a, r) →
      ∃ c, bs = c ++ r ∧ ∀ x, readVarintLoop (c ++ x) v s = some (a, x) := by
    intro bs
    induction bs with
    | nil => intro v s a r h; simp [readVarintLoop] at h
    | cons b bs ih =>
      intro v s a r h
      simp only [readVarintLoop] at h
      split at h
      · rename_i hb
        simp at h
        obtain ⟨rfl, rfl⟩ := h
        exact ⟨[b], rfl, fun x => by simp [readVarintLoop, hb]⟩
      · rename_i hb
        split at h
        · simp at h
        · rename_i hs
          obtain ⟨c, hc, hx⟩ := ih _ _ _ _ h
          refine ⟨b :: c, by simp [hc], fun x => ?_⟩
          simp only [List.cons_append, readVarintLoop, hb, hs, ↓reduceIte]
          exact hx x
  intro bs a r h
  exact key bs 0 0 a r h

theorem Local.readN {α} {d : Rd α} (hd : Local d) (n : Nat) : Local (readN d n) := by
  induction n with
  | zero => exact Local.pure _
  | succ n ih => exact hd.bind fun a => ih.bind fun l => Local.pure _

theorem Local.readInt64 : Local readInt64 := (Local.readFull 8).bind fun _ => Local.pure _
theorem Local.readFloat32 : Local readFloat32 := (Local.readFull 4).bind fun _ => Local.pure _
theorem Local.readFloat64 : Local readFloat64 := (Local.readFull 8).bind fun _ => Local.pure _
theorem Local.readSignedVarint : Local readSignedVarint := Local.readVarint.bind fun _ => Local.pure _

theorem Local.readString : Local readString :=
  Local.readVarint.bind fun _ => (Local.pure _).ite (Local.fail.ite
    ((Local.alloc _).bind fun _ => Local.readFull _))

theorem Local.readSlice {α} {d : Rd α} (hd : Local d) (m : Nat) : Local (readSlice m d) :=
  Local.readVarint.bind fun _ => Local.fail.ite ((Local.pure _).ite
    ((Local.alloc _).bind fun _ => hd.readN _))

theorem Local.readBytes (m : Nat) : Local (readBytes m) :=
  Local.readVarint.bind fun _ => (Local.pure _).ite (Local.fail.ite
    ((Local.alloc _).bind fun _ => Local.readFull _))

theorem Local.readBools (n c : Nat) : Local (readBools n c) := by
  induction n generalizing c with
  | zero => exact Local.pure _
  | succ n ih => exact Local.readByte.bind fun _ => (ih _).bind fun _ => Local.pure _

theorem Local.readBoolSlice (m : Nat) : Local (readBoolSlice m) :=
  Local.readVarint.bind fun _ => Local.fail.ite ((Local.pure _).ite
    ((Local.alloc _).bind fun _ => Local.readBools _ _))

theorem Local.readFrame (t : List Bytes) : Local (readFrame t) := by
  refine Local.readVarint.bind fun fi => ?_
  split
  · exact Local.fail
  · refine Local.readVarint.bind fun fu => ?_
    split
    · exact Local.fail
    · exact Local.readVarint.bind fun _ => Local.pure _

theorem Local.readStackFrames : Local readStackFrames :=
  Local.readVarint.bind fun _ => Local.fail.ite ((Local.pure _).ite
    (Local.readVarint.bind fun _ => Local.fail.ite
      ((Local.alloc _).bind fun _ => (Local.readString.readN _).bind fun t =>
        (Local.alloc _).bind fun _ => (Local.readFrame t).readN _)))

theorem ite_some_elim {α} {P : α → Prop} {p : Prop} [Decidable p] {a : α} {b : Option α}
    (h1 : P a) (h2 : ∀ d, b = some d → P d) : ∀ d, (if p then some a else b) = some d → P d := by
  intro d h
  split at h
  · exact Option.some.inj h ▸ h1
  · exact h2 d h

theorem Local.readLeaf {m : Nat} {tag : UInt8} {d : Rd Val} (h : readLeaf m tag = some d) : Local d := by
  suffices hh : ∀ d, Wire.readLeaf m tag = some d → Local d from hh d h
  clear h d
  unfold Wire.readLeaf
  refine ite_some_elim (P := Local) (Local.pure _) ?_
  refine ite_some_elim (P := Local) ((Local.readByte.bind fun _ => Local.pure _)) ?_
  refine ite_some_elim (P := Local) ((Local.readSignedVarint.bind fun _ => Local.pure _)) ?_
  refine ite_some_elim (P := Local) ((Local.readSignedVarint.bind fun _ => Local.pure _)) ?_
  refine ite_some_elim (P := Local) ((Local.readVarint.bind fun _ => Local.pure _)) ?_
  refine ite_some_elim (P := Local) ((Local.readVarint.bind fun _ => Local.pure _)) ?_
  refine ite_some_elim (P := Local) ((Local.readFloat32.bind fun _ => Local.pure _)) ?_
  refine ite_some_elim (P := Local) ((Local.readFloat64.bind fun _ => Local.pure _)) ?_
  refine ite_some_elim (P := Local) ((Local.readFloat64.bind fun _ => (Local.readFloat64.bind fun _ => Local.pure _))) ?_
  refine ite_some_elim (P := Local) ((Local.readString.bind fun _ => Local.pure _)) ?_
  refine ite_some_elim (P := Local) (((Local.readBoolSlice _).bind fun _ => Local.pure _)) ?_
  refine ite_some_elim (P := Local) (((Local.readBytes _).bind fun _ => Local.pure _)) ?_
  refine ite_some_elim (P := Local) ((((Local.readSignedVarint.bind fun _ => Local.pure _).readSlice _).bind fun _ => Local.pure _)) ?_
  refine ite_some_elim (P := Local) (((Local.readSignedVarint.readSlice _).bind fun _ => Local.pure _)) ?_
  refine ite_some_elim (P := Local) ((((Local.readVarint.bind fun _ => Local.pure _).readSlice _).bind fun _ => Local.pure _)) ?_
  refine ite_some_elim (P := Local) (((Local.readVarint.readSlice _).bind fun _ => Local.pure _)) ?_
  refine ite_some_elim (P := Local) (((Local.readFloat32.readSlice _).bind fun _ => Local.pure _)) ?_
  refine ite_some_elim (P := Local) (((Local.readFloat64.readSlice _).bind fun _ => Local.pure _)) ?_
  refine ite_some_elim (P := Local) (((Local.readString.readSlice _).bind fun _ => Local.pure _)) ?_
  simp

theorem Local.readValue {m : Nat} {field : Rd Field} (hf : Local field) : Local (readValue m field) := by
  refine Local.readByte.bind fun tag => ?_
  split
  · rename_i d h
    exact (Local.readLeaf h).bind fun _ => Local.pure _
  · refine (Local.readVarint.bind fun _ => Local.fail.ite ((Local.alloc _).bind fun _ =>
      (hf.readN _).bind fun _ => Local.pure _)).ite
      ((Local.readVarint.bind fun _ => (Local.alloc _).bind fun _ =>
      (hf.readN _).bind fun _ => Local.pure _).ite Local.fail)

theorem Local.readField (m fuel : Nat) : Local (readField m fuel) := by
  induction fuel with
  | zero => exact Local.fail
  | succ n ih =>
    refine Local.readString.bind fun _ => Local.readString.bind fun _ => (Local.readValue ih).bind fun p => ?_
    cases p <;> exact Local.pure _

theorem Local.readFields (m fuel : Nat) : Local (readFields m fuel) :=
  Local.readVarint.bind fun _ => Local.fail.ite ((Local.alloc _).bind fun _ => (Local.readField m fuel).readN _)

theorem Local.length_le {α} {d : Rd α} (hd : Local d) {bs r : Bytes} {a : α} (h : (d bs).out = some (a, r)) :
    r.length ≤ bs.length := by
  obtain ⟨c, hc, -⟩ := hd bs a r h
  rw [hc]; simp

/-! ### Fuel -/

/-- Extensional equality of readers on inputs of bounded length. -/
def AgreeUpTo {α} (N : Nat) (d e : Rd α) : Prop := ∀ bs, bs.length ≤ N → d bs = e bs

theorem AgreeUpTo.bind {α β} {N : Nat} {d : Rd α} {f g : α → Rd β} (hd : Local d)
    (h : ∀ a, AgreeUpTo N (f a) (g a)) : AgreeUpTo N (d >>= f) (d >>= g) := by
  intro bs hbs
  show Rd.bind d f bs = Rd.bind d g bs
  unfold Rd.bind
  cases h1 : (d bs).out with
  | none => rfl
  | some p =>
    obtain ⟨a, r⟩ := p
    have hr := hd.length_le h1
    simp [h a r (by omega)]

/-- Binding after a reader that consumes at least one byte. -/
theorem AgreeUpTo.bind_consume {α β} {N : Nat} {d : Rd α} {f g : α → Rd β}
    (hd : ∀ bs a r, (d bs).out = some (a, r) → r.length < bs.length)
    (h : ∀ a, AgreeUpTo N (f a) (g a)) : AgreeUpTo (N + 1) (d >>= f) (d >>= g) := by
  intro bs hbs
  show Rd.bind d f bs = Rd.bind d g bs
  unfold Rd.bind
  cases h1 : (d bs).out with
  | none => rfl
  | some p =>
    obtain ⟨a, r⟩ := p
    have hr := hd _ _ _ h1
    simp [h a r (by omega)]

theorem AgreeUpTo.readN {α} {N : Nat} {d e : Rd α} (hd : Local d) (h : AgreeUpTo N d e) (n : Nat) :
    AgreeUpTo N (readN d n) (readN e n) := by
  induction n with
  | zero => intro bs _; rfl
  | succ n ih =>
    intro bs hbs
    show Rd.bind d (fun a => Wire.readN d n >>= fun l => Pure.pure (a :: l)) bs =
      Rd.bind e (fun a => Wire.readN e n >>= fun l => Pure.pure (a :: l)) bs
    unfold Rd.bind
    rw [← h bs hbs]
    cases h1 : (d bs).out with
    | none => rfl
    | some p =>
      obtain ⟨a, r⟩ := p
      have hr := hd.length_le h1
      have h2 := ih r (by omega)
      show (⟨((Wire.readN d n >>= fun l => (Pure.pure (a :: l) : Rd (List α))) r).out, _⟩ : Res _) =
        ⟨((Wire.readN e n >>= fun l => (Pure.pure (a :: l) : Rd (List α))) r).out, _⟩
      have h3 : (Wire.readN d n >>= fun l => (Pure.pure (a :: l) : Rd (List α))) r =
          (Wire.readN e n >>= fun l => (Pure.pure (a :: l) : Rd (List α))) r := by
        show Rd.bind _ _ r = Rd.bind _ _ r
        unfold Rd.bind
        rw [h2]
      simp only [h3]

theorem AgreeUpTo.rfl' {α} {N : Nat} {d : Rd α} : AgreeUpTo N d d := fun _ _ => rfl

theorem AgreeUpTo.ite {α} {N : Nat} {p : Prop} [Decidable p] {d e d' e' : Rd α}
    (h : AgreeUpTo N d d') (h' : AgreeUpTo N e e') :
    AgreeUpTo N (if p then d else e) (if p then d' else e') := by split <;> assumption

theorem AgreeUpTo.bind_left {α β} {N : Nat} {d e : Rd α} {f : α → Rd β} (h : AgreeUpTo N d e) :
    AgreeUpTo N (d >>= f) (e >>= f) := by
  intro bs hbs
  show Rd.bind d f bs = Rd.bind e f bs
  unfold Rd.bind
  rw [h bs hbs]

theorem AgreeUpTo.readValue {N m : Nat} {f g : Rd Field} (hf : Local f) (h : AgreeUpTo N f g) :
    AgreeUpTo N (readValue m f) (readValue m g) := by
  refine AgreeUpTo.bind Local.readByte fun tag => ?_
  split
  · exact AgreeUpTo.rfl'
  · refine AgreeUpTo.ite (AgreeUpTo.bind Local.readVarint fun _ => AgreeUpTo.ite AgreeUpTo.rfl' ?_)
      (AgreeUpTo.ite (AgreeUpTo.bind Local.readVarint fun _ => ?_) AgreeUpTo.rfl')
    · exact AgreeUpTo.bind (Local.alloc _) fun _ => AgreeUpTo.bind_left (AgreeUpTo.readN hf h _)
    · exact AgreeUpTo.bind (Local.alloc _) fun _ => AgreeUpTo.bind_left (AgreeUpTo.readN hf h _)

theorem readVarint_consumes (bs : Bytes) (a : UInt64) (r : Bytes) (h : (readVarint bs).out = some (a, r)) :
    r.length < bs.length := by
  obtain ⟨c, hc, hx⟩ := Local.readVarint bs a r h
  cases c with
  | nil =>
    have := hx []
    simp [readVarint, readVarintLoop] at this
  | cons b c => rw [hc]; simp; omega

theorem readString_consumes (bs : Bytes) (a r : Bytes) (h : (readString bs).out = some (a, r)) :
    r.length < bs.length := by
  unfold readString at h
  rw [out_bind] at h
  cases h1 : (readVarint bs).out with
  | none => rw [h1] at h; simp at h
  | some p =>
    obtain ⟨n, r1⟩ := p
    have hlt := readVarint_consumes _ _ _ h1
    rw [h1] at h
    simp only [Option.bind_some] at h
    have hloc : Local (if n = 0 then (Pure.pure [] : Rd Bytes) else if n.toNat > maxUint32 then Rd.fail else do
        Rd.alloc (.str n.toNat); readFull n.toNat) :=
      (Local.pure _).ite (Local.fail.ite ((Local.alloc _).bind fun _ => Local.readFull _))
    have := hloc.length_le h
    omega

/-- Fuel beyond the length of the input never matters: the decoder's recursion always terminates. -/
theorem readField_agree (m : Nat) (N : Nat) : ∀ k k', N < k → N < k' →
    AgreeUpTo N (readField m k) (readField m k') := by
  induction N with
  | zero =>
    intro k k' hk hk' bs hbs
    have : bs = [] := List.length_eq_zero_iff.mp (by omega)
    subst this
    cases k with
    | zero => omega
    | succ k => cases k' with
      | zero => omega
      | succ k' => rfl
  | succ N ih =>
    intro k k' hk hk'
    cases k with
    | zero => omega
    | succ k => cases k' with
      | zero => omega
      | succ k' =>
        refine AgreeUpTo.bind_consume readString_consumes fun _ =>
          AgreeUpTo.bind Local.readString fun _ => AgreeUpTo.bind_left ?_
        exact AgreeUpTo.readValue (Local.readField m k) (ih k k' (by omega) (by omega))

/-! ### Round trip of fields -/

theorem signExtend_setWidth (v : BitVec 32) : (v.signExtend 64).setWidth 32 = v := by
  apply BitVec.eq_of_getLsbD_eq
  intro i hi
  rw [BitVec.getLsbD_setWidth, BitVec.getLsbD_signExtend]
  simp [hi, show i < 64 by omega]

theorem toUInt64_toUInt32 (v : UInt32) : v.toUInt64.toUInt32 = v := by simp

theorem out_readSigned32 (v : BitVec 32) (r : Bytes) :
    ((do return (← readSignedVarint).setWidth 32 : Rd (BitVec 32)) (writeSignedVarint (v.signExtend 64) ++ r)).out =
      some (v, r) := by
  rw [out_bind_some (out_readSignedVarint_write _ _)]
  rw [signExtend_setWidth]; rfl

theorem out_readUnsigned32 (v : UInt32) (r : Bytes) :
    ((do return (← readVarint).toUInt32 : Rd UInt32) (writeVarint v.toUInt64 ++ r)).out = some (v, r) := by
  rw [out_bind_some (out_readVarint_write _ _)]
  simp

/-- A leaf value is read back after its tag byte. -/
theorem readLeaf_encVal (L : Nat) (v : Val) (hv : v.OK L) (rest : Bytes) :
    ∃ tag payload d, encVal v = tag :: payload ∧ readLeaf L tag = some d ∧
      (d (payload ++ rest)).out = some (v, rest) := by
  cases v with
  | nil => exact ⟨_, _, _, rfl, rfl, rfl⟩
  | bool b => exact ⟨_, _, _, rfl, rfl, by cases b <;> rfl⟩
  | int32 v =>
    refine ⟨_, _, _, rfl, rfl, ?_⟩
    rw [out_bind_some (out_readSignedVarint_write _ _), signExtend_setWidth]; rfl
  | int64 v =>
    refine ⟨_, _, _, rfl, rfl, ?_⟩
    rw [out_bind_some (out_readSignedVarint_write _ _)]; rfl
  | uint32 v =>
    refine ⟨_, _, _, rfl, rfl, ?_⟩
    rw [out_bind_some (out_readVarint_write _ _)]; simp
  | uint64 v =>
    refine ⟨_, _, _, rfl, rfl, ?_⟩
    rw [out_bind_some (out_readVarint_write _ _)]; rfl
  | float32 v =>
    refine ⟨_, _, _, rfl, rfl, ?_⟩
    rw [out_bind_some (out_readFloat32_write _ _)]; rfl
  | float64 v =>
    refine ⟨_, _, _, rfl, rfl, ?_⟩
    rw [out_bind_some (out_readFloat64_write _ _)]; rfl
  | complex re im =>
    refine ⟨_, _, _, rfl, rfl, ?_⟩
    rw [List.append_assoc, out_bind_some (out_readFloat64_write _ _), out_bind_some (out_readFloat64_write _ _)]; rfl
  | str s =>
    refine ⟨_, _, _, rfl, rfl, ?_⟩
    rw [out_bind_some (out_readString_write _ _ hv)]; rfl
  | boolSlice l =>
    refine ⟨_, _, _, rfl, rfl, ?_⟩
    rw [out_bind_some (out_readBoolSlice_write _ _ _ hv.1 hv.2)]; rfl
  | bytes l =>
    refine ⟨_, _, _, rfl, rfl, ?_⟩
    rw [out_bind_some (out_readBytes_write _ _ _ hv.1 hv.2)]; rfl
  | int32Slice l =>
    refine ⟨_, _, _, rfl, rfl, ?_⟩
    rw [out_bind_some (out_readSlice_write _ _ _ l rest (fun a _ r => out_readSigned32 a r) hv.1 hv.2)]; rfl
  | int64Slice l =>
    refine ⟨_, _, _, rfl, rfl, ?_⟩
    rw [out_bind_some (out_readSlice_write _ _ _ l rest (fun a _ r => out_readSignedVarint_write a r) hv.1 hv.2)]; rfl
  | uint32Slice l =>
    refine ⟨_, _, _, rfl, rfl, ?_⟩
    rw [out_bind_some (out_readSlice_write _ _ _ l rest (fun a _ r => out_readUnsigned32 a r) hv.1 hv.2)]; rfl
  | uint64Slice l =>
    refine ⟨_, _, _, rfl, rfl, ?_⟩
    rw [out_bind_some (out_readSlice_write _ _ _ l rest (fun a _ r => out_readVarint_write a r) hv.1 hv.2)]; rfl
  | float32Slice l =>
    refine ⟨_, _, _, rfl, rfl, ?_⟩
    rw [out_bind_some (out_readSlice_write _ _ _ l rest (fun a _ r => out_readFloat32_write a r) hv.1 hv.2)]; rfl
  | float64Slice l =>
    refine ⟨_, _, _, rfl, rfl, ?_⟩
    rw [out_bind_some (out_readSlice_write _ _ _ l rest (fun a _ r => out_readFloat64_write a r) hv.1 hv.2)]; rfl
  | strSlice l =>
    refine ⟨_, _, _, rfl, rfl, ?_⟩
    rw [out_bind_some (out_readSlice_write _ _ _ l rest
      (fun a ha r => out_readString_write a r (hv.2.2 a ha)) hv.1 hv.2.1)]; rfl

theorem out_readN_map {α β} (d : Rd β) (enc : α → Bytes) (g : α → β) (l : List α) (rest : Bytes)
    (h : ∀ a ∈ l, ∀ r, (d (enc a ++ r)).out = some (g a, r)) :
    (readN d l.length ((l.map enc).flatten ++ rest)).out = some (l.map g, rest) := by
  induction l with
  | nil => rfl
  | cons a l ih =>
    simp only [List.length_cons, readN, List.map_cons, List.flatten_cons, List.append_assoc]
    rw [out_bind_some (h a (by simp) _)]
    rw [out_bind_some (ih fun b hb => h b (by simp [hb]))]
    rfl

theorem length_le_flatten {α} {l : List α} {enc : α → Bytes} {a : α} (h : a ∈ l) :
    (enc a).length ≤ (l.map enc).flatten.length := by
  induction l with
  | nil => simp at h
  | cons b l ih =>
    simp only [List.map_cons, List.flatten_cons, List.length_append]
    rcases List.mem_cons.mp h with rfl | h
    · omega
    · have := ih h; omega

theorem out_readField_enc (L : Nat) (f : WField) (hf : f.OK L) :
    ∀ fuel rest, (encField f).length ≤ fuel →
      (readField L fuel (encField f ++ rest)).out = some (f.erase, rest) := by
  induction hf with
  | @leaf n t v hn ht hv =>
    intro fuel rest hfuel
    simp only [encField] at hfuel ⊢
    obtain ⟨tag, payload, d, he, hl, hd⟩ := readLeaf_encVal L v hv rest
    rw [he] at hfuel ⊢
    cases fuel with
    | zero => simp at hfuel
    | succ fuel =>
      simp only [List.append_assoc, List.cons_append, readField]
      rw [out_bind_some (out_readString_write _ _ hn), out_bind_some (out_readString_write _ _ ht)]
      have hval : (readValue L (readField L fuel) (tag :: (payload ++ rest))).out = some (.val v, rest) := by
        unfold readValue
        rw [out_bind_some (out_readByte_cons _ _), hl]
        simp only
        rw [out_bind_some hd]; rfl
      rw [out_bind_some hval]
      simp [WField.erase]
  | @node n t k cs hn ht hk hc hcs ih =>
    intro fuel rest hfuel
    simp only [encField] at hfuel ⊢
    cases fuel with
    | zero => simp at hfuel
    | succ fuel =>
      simp only [List.append_assoc, List.cons_append, readField]
      rw [out_bind_some (out_readString_write _ _ hn), out_bind_some (out_readString_write _ _ ht)]
      have hchildren : (readN (readField L fuel) cs.length ((cs.map encField).flatten ++ rest)).out =
          some (cs.map WField.erase, rest) := by
        refine out_readN_map _ _ _ _ _ fun c hc r => ih c hc fuel r ?_
        have h1 := length_le_flatten (enc := encField) hc
        simp only [List.length_append, List.length_cons] at hfuel
        omega
      have hval : (readValue L (readField L fuel)
          (k.tag :: (writeVarint (UInt64.ofNat cs.length) ++ ((cs.map encField).flatten ++ rest)))).out =
          some (.children (cs.map WField.erase), rest) := by
        unfold readValue
        rw [out_bind_some (out_readByte_cons _ _)]
        cases k with
        | map =>
          have : ¬ cs.length > L := by have := hk (by simp); omega
          simp only [show readLeaf L CKind.map.tag = none from rfl]
          rw [if_pos (by decide), out_bind_some (out_readVarint_write _ _), toNat_ofNat_len hc]
          simp only [this, ↓reduceIte]
          rw [out_bind_some (out_alloc _ _), out_bind_some hchildren]; rfl
        | struct =>
          simp only [show readLeaf L CKind.struct.tag = none from rfl]
          rw [if_neg (by decide), if_pos (by decide), out_bind_some (out_readVarint_write _ _), toNat_ofNat_len hc]
          rw [out_bind_some (out_alloc _ _), out_bind_some hchildren]; rfl
        | slice =>
          have : ¬ cs.length > L := by have := hk (by simp); omega
          simp only [show readLeaf L CKind.slice.tag = none from rfl]
          rw [if_pos (by decide), out_bind_some (out_readVarint_write _ _), toNat_ofNat_len hc]
          simp only [this, ↓reduceIte]
          rw [out_bind_some (out_alloc _ _), out_bind_some hchildren]; rfl
      rw [out_bind_some hval]
      simp [WField.erase]

theorem out_readFields_enc (L : Nat) (fs : List WField) (hf : ∀ f ∈ fs, f.OK L) (hlen : fs.length ≤ maxUint32)
    (fuel : Nat) (rest : Bytes) (hfuel : ((fs.map encField).flatten).length ≤ fuel) :
    (readFields L fuel (writeVarint (UInt64.ofNat fs.length) ++ ((fs.map encField).flatten ++ rest))).out =
      some (fs.map WField.erase, rest) := by
  unfold readFields
  rw [out_bind_some (out_readVarint_write _ _), toNat_ofNat_len hlen]
  have : ¬ fs.length > maxUint32 := by omega
  simp only [this, ↓reduceIte]
  rw [out_bind_some (out_alloc _ _)]
  refine out_readN_map _ _ _ _ _ fun f hfm r => out_readField_enc L f (hf f hfm) fuel r ?_
  have := length_le_flatten (enc := encField) hfm
  omega

/-! ### Reservation logs -/

/-- Every reservation a reader makes, on any input, satisfies `P`. -/
def LogOK {α} (P : Alloc → Prop) (d : Rd α) : Prop := ∀ bs, ∀ a ∈ (d bs).log, P a

theorem LogOK.pure {α} {P} (a : α) : LogOK P (Pure.pure a : Rd α) := by intro bs x h; simp at h
theorem LogOK.fail {α} {P} : LogOK P (Rd.fail : Rd α) := by intro bs x h; simp at h
theorem LogOK.alloc {P : Alloc → Prop} {a : Alloc} (h : P a) : LogOK P (Rd.alloc a) := by
  intro bs x hx; simp at hx; subst hx; exact h
theorem LogOK.bind {α β} {P} {d : Rd α} {f : α → Rd β} (hd : LogOK P d) (hf : ∀ a, LogOK P (f a)) :
    LogOK P (d >>= f) := by
  intro bs x hx
  rw [log_bind] at hx
  rcases List.mem_append.mp hx with h | h
  · exact hd bs x h
  · cases h1 : (d bs).out with
    | none => rw [h1] at h; simp at h
    | some p => rw [h1] at h; exact hf _ _ x h
theorem LogOK.ite {α} {P} {p : Prop} [Decidable p] {d e : Rd α} (hd : p → LogOK P d) (he : ¬ p → LogOK P e) :
    LogOK P (if p then d else e) := by
  split
  · exact hd ‹_›
  · exact he ‹_›
theorem LogOK.readN {α} {P} {d : Rd α} (hd : LogOK P d) (n : Nat) : LogOK P (readN d n) := by
  induction n with
  | zero => exact LogOK.pure _
  | succ n ih => exact hd.bind fun a => ih.bind fun l => LogOK.pure _
theorem LogOK.readByte {P} : LogOK P readByte := by
  intro bs x h; cases bs <;> simp [Wire.readByte] at h
theorem LogOK.readFull {P} (n : Nat) : LogOK P (readFull n) := by
  intro bs x h; unfold Wire.readFull at h; split at h <;> simp at h
theorem LogOK.readVarint {P} : LogOK P readVarint := by
  intro bs x h; simp [Wire.readVarint] at h
theorem LogOK.readInt64 {P} : LogOK P readInt64 := (LogOK.readFull 8).bind fun _ => LogOK.pure _
theorem LogOK.readFloat32 {P} : LogOK P readFloat32 := (LogOK.readFull 4).bind fun _ => LogOK.pure _
theorem LogOK.readFloat64 {P} : LogOK P readFloat64 := (LogOK.readFull 8).bind fun _ => LogOK.pure _
theorem LogOK.readSignedVarint {P} : LogOK P readSignedVarint := LogOK.readVarint.bind fun _ => LogOK.pure _

theorem LogOK.readString {L} : LogOK (Alloc.bounded L) readString :=
  LogOK.readVarint.bind fun _ => LogOK.ite (fun _ => LogOK.pure _) fun _ => LogOK.ite (fun _ => LogOK.fail) fun h =>
    (LogOK.alloc (by simp only [Alloc.bounded]; omega)).bind fun _ => LogOK.readFull _

theorem LogOK.readSlice {α} {L} {d : Rd α} (hd : LogOK (Alloc.bounded L) d) :
    LogOK (Alloc.bounded L) (readSlice L d) :=
  LogOK.readVarint.bind fun _ => LogOK.ite (fun _ => LogOK.fail) fun h => LogOK.ite (fun _ => LogOK.pure _) fun _ =>
    (LogOK.alloc (by simp only [Alloc.bounded]; omega)).bind fun _ => hd.readN _

theorem LogOK.readBytes {L} : LogOK (Alloc.bounded L) (readBytes L) :=
  LogOK.readVarint.bind fun _ => LogOK.ite (fun _ => LogOK.pure _) fun _ => LogOK.ite (fun _ => LogOK.fail) fun h =>
    (LogOK.alloc (by simp only [Alloc.bounded]; omega)).bind fun _ => LogOK.readFull _

theorem LogOK.readBools {P} (n c : Nat) : LogOK P (readBools n c) := by
  induction n generalizing c with
  | zero => exact LogOK.pure _
  | succ n ih => exact LogOK.readByte.bind fun _ => (ih _).bind fun _ => LogOK.pure _

theorem LogOK.readBoolSlice {L} : LogOK (Alloc.bounded L) (readBoolSlice L) :=
  LogOK.readVarint.bind fun _ => LogOK.ite (fun _ => LogOK.fail) fun h => LogOK.ite (fun _ => LogOK.pure _) fun _ =>
    (LogOK.alloc (by simp only [Alloc.bounded]; omega)).bind fun _ => LogOK.readBools _ _

theorem LogOK.readFrame {P} (t : List Bytes) : LogOK P (readFrame t) := by
  refine LogOK.readVarint.bind fun fi => ?_
  split
  · exact LogOK.fail
  · refine LogOK.readVarint.bind fun fu => ?_
    split
    · exact LogOK.fail
    · exact LogOK.readVarint.bind fun _ => LogOK.pure _

theorem LogOK.readStackFrames {L} : LogOK (Alloc.bounded L) readStackFrames :=
  LogOK.readVarint.bind fun _ => LogOK.ite (fun _ => LogOK.fail) fun h => LogOK.ite (fun _ => LogOK.pure _) fun _ =>
    LogOK.readVarint.bind fun _ => LogOK.ite (fun _ => LogOK.fail) fun h2 =>
      (LogOK.alloc (by simp only [Alloc.bounded]; omega)).bind fun _ => (LogOK.readString.readN _).bind fun t =>
        (LogOK.alloc (by simp only [Alloc.bounded]; omega)).bind fun _ => (LogOK.readFrame t).readN _

theorem LogOK.readLeaf {L : Nat} {tag : UInt8} {d : Rd Val} (h : readLeaf L tag = some d) :
    LogOK (Alloc.bounded L) d := by
  suffices hh : ∀ d, Wire.readLeaf L tag = some d → LogOK (Alloc.bounded L) d from hh d h
  clear h d
  unfold Wire.readLeaf
  refine ite_some_elim (P := LogOK (Alloc.bounded L)) (LogOK.pure _) ?_
  refine ite_some_elim (P := LogOK (Alloc.bounded L)) ((LogOK.readByte.bind fun _ => LogOK.pure _)) ?_
  refine ite_some_elim (P := LogOK (Alloc.bounded L)) ((LogOK.readSignedVarint.bind fun _ => LogOK.pure _)) ?_
  refine ite_some_elim (P := LogOK (Alloc.bounded L)) ((LogOK.readSignedVarint.bind fun _ => LogOK.pure _)) ?_
  refine ite_some_elim (P := LogOK (Alloc.bounded L)) ((LogOK.readVarint.bind fun _ => LogOK.pure _)) ?_
  refine ite_some_elim (P := LogOK (Alloc.bounded L)) ((LogOK.readVarint.bind fun _ => LogOK.pure _)) ?_
  refine ite_some_elim (P := LogOK (Alloc.bounded L)) ((LogOK.readFloat32.bind fun _ => LogOK.pure _)) ?_
  refine ite_some_elim (P := LogOK (Alloc.bounded L)) ((LogOK.readFloat64.bind fun _ => LogOK.pure _)) ?_
  refine ite_some_elim (P := LogOK (Alloc.bounded L)) ((LogOK.readFloat64.bind fun _ => (LogOK.readFloat64.bind fun _ => LogOK.pure _))) ?_
  refine ite_some_elim (P := LogOK (Alloc.bounded L)) ((LogOK.readString.bind fun _ => LogOK.pure _)) ?_
  refine ite_some_elim (P := LogOK (Alloc.bounded L)) (((LogOK.readBoolSlice).bind fun _ => LogOK.pure _)) ?_
  refine ite_some_elim (P := LogOK (Alloc.bounded L)) (((LogOK.readBytes).bind fun _ => LogOK.pure _)) ?_
  refine ite_some_elim (P := LogOK (Alloc.bounded L)) ((((LogOK.readSignedVarint.bind fun _ => LogOK.pure _).readSlice).bind fun _ => LogOK.pure _)) ?_
  refine ite_some_elim (P := LogOK (Alloc.bounded L)) (((LogOK.readSignedVarint.readSlice).bind fun _ => LogOK.pure _)) ?_
  refine ite_some_elim (P := LogOK (Alloc.bounded L)) ((((LogOK.readVarint.bind fun _ => LogOK.pure _).readSlice).bind fun _ => LogOK.pure _)) ?_
  refine ite_some_elim (P := LogOK (Alloc.bounded L)) (((LogOK.readVarint.readSlice).bind fun _ => LogOK.pure _)) ?_
  refine ite_some_elim (P := LogOK (Alloc.bounded L)) (((LogOK.readFloat32.readSlice).bind fun _ => LogOK.pure _)) ?_
  refine ite_some_elim (P := LogOK (Alloc.bounded L)) (((LogOK.readFloat64.readSlice).bind fun _ => LogOK.pure _)) ?_
  refine ite_some_elim (P := LogOK (Alloc.bounded L)) (((LogOK.readString.readSlice).bind fun _ => LogOK.pure _)) ?_
  simp

theorem LogOK.readValue {L : Nat} {field : Rd Field} (hf : LogOK (Alloc.bounded L) field) :
    LogOK (Alloc.bounded L) (readValue L field) := by
  refine LogOK.readByte.bind fun tag => ?_
  split
  · rename_i d h
    exact (LogOK.readLeaf h).bind fun _ => LogOK.pure _
  · refine LogOK.ite (fun _ => LogOK.readVarint.bind fun _ => LogOK.ite (fun _ => LogOK.fail) fun h =>
        (LogOK.alloc (by simp only [Alloc.bounded]; omega)).bind fun _ => (hf.readN _).bind fun _ => LogOK.pure _)
      fun _ => LogOK.ite (fun _ => LogOK.readVarint.bind fun _ =>
        (LogOK.alloc (by simp only [Alloc.bounded])).bind fun _ => (hf.readN _).bind fun _ => LogOK.pure _)
      fun _ => LogOK.fail

theorem LogOK.readField (L fuel : Nat) : LogOK (Alloc.bounded L) (readField L fuel) := by
  induction fuel with
  | zero => exact LogOK.fail
  | succ n ih =>
    refine LogOK.readString.bind fun _ => LogOK.readString.bind fun _ => (LogOK.readValue ih).bind fun p => ?_
    cases p <;> exact LogOK.pure _

theorem LogOK.readFields (L fuel : Nat) : LogOK (Alloc.bounded L) (readFields L fuel) :=
  LogOK.readVarint.bind fun _ => LogOK.ite (fun _ => LogOK.fail) fun h =>
    (LogOK.alloc (by simp only [Alloc.bounded]; omega)).bind fun _ => (LogOK.readField L fuel).readN _

end Verif.Wire
