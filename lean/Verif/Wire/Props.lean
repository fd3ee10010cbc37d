import Verif.Wire.FieldLemmas

/-! Property theorems C07, C08, C10, C11, C12, C15, C17. -/

namespace Verif.Wire

/-! ## C07 -/

/-- C07: every unsigned number survives the wire, exactly the bytes written are consumed, at most ten are used. -/
theorem C07_varint_roundtrip (v : UInt64) (rest : Bytes) :
    (readVarint (writeVarint v ++ rest)).out = some (v, rest) ∧ (writeVarint v).length ≤ 10 := by
  refine ⟨out_readVarint_write v rest, length_writeVarint_le v 9 ?_⟩
  have := v.toNat_lt
  omega

/-- C07: every signed number survives the wire. -/
theorem C07_signed_varint_roundtrip (v : BitVec 64) (rest : Bytes) :
    (readSignedVarint (writeSignedVarint v ++ rest)).out = some (v, rest) ∧ (writeSignedVarint v).length ≤ 10 := by
  refine ⟨out_readSignedVarint_write v rest, length_writeVarint_le _ 9 ?_⟩
  have := (UInt64.ofBitVec (zigzagEnc v)).toNat_lt
  simp only [Nat.reduceAdd, Nat.reduceMul]
  omega

/-- C07: the bytes written are the standard LEB128 form of the number. -/
theorem C07_varint_is_leb128 (v : UInt64) (rest : Bytes) :
    (leb (writeVarint v ++ rest)).map (fun x => (x.1, x.2.2)) = some (v.toNat, rest) := by
  induction v using writeVarint.induct with
  | case1 v h =>
    rw [writeVarint, dif_pos h]
    have hv : v.toNat < 128 := by simpa [UInt64.lt_iff_toNat_lt] using h
    have hb : v.toUInt8.toNat = v.toNat := by simp; omega
    simp [leb, hb, hv]
  | case2 v h ih =>
    rw [writeVarint, dif_neg h]
    have hv : v.toNat ≥ 128 := by simpa [UInt64.le_iff_toNat_le] using h
    have hb := toUInt8_or_toNat v
    simp only [List.cons_append, leb]
    rw [if_neg (by omega)]
    cases hl : leb (writeVarint (v >>> 7) ++ rest) with
    | none => rw [hl] at ih; simp at ih
    | some p =>
      obtain ⟨x, k, r⟩ := p
      rw [hl] at ih
      simp only [Option.map_some, Option.some.injEq, Prod.mk.injEq] at ih ⊢
      refine ⟨?_, ih.2⟩
      rw [ih.1, hb]
      have : (v >>> 7).toNat = v.toNat / 128 := by
        rw [UInt64.toNat_shiftRight]; simp [Nat.shiftRight_eq_div_pow]
      rw [this]; omega

example : writeVarint 300 = [0xAC, 0x02] ∧ (readVarint [0xAC, 0x02, 7]).out = some (300, [7]) := by decide +kernel
example : writeSignedVarint (-3#64) = [5] ∧ (readSignedVarint [5]).out = some (-3#64, []) := by decide +kernel

/-! ## C12 -/

/-- What the reader accepts, in terms of the LEB128 definition: at most ten bytes, and the value modulo 2^64. -/
theorem readVarint_spec (bs : Bytes) :
    (readVarint bs).out = (leb bs).bind fun x => if x.2.1 ≤ 10 then some (UInt64.ofNat x.1, x.2.2) else none := by
  have key : ∀ (bs : Bytes) (acc : UInt64) (j : Nat), j ≤ 9 → acc.toNat < 2 ^ (7 * j) →
      readVarintLoop bs acc (7 * j) = (leb bs).bind fun x =>
        if x.2.1 + j ≤ 10 then some (UInt64.ofNat (acc.toNat + x.1 * 2 ^ (7 * j)), x.2.2) else none := by
    intro bs
    induction bs with
    | nil => intros; rfl
    | cons b bs ih =>
      intro acc j hj hacc
      have hor := or_shift_toNat acc b (7 * j) (by omega) hacc
      simp only [readVarintLoop, leb]
      have hbl : b < 0x80 ↔ b.toNat < 128 := by rw [UInt8.lt_iff_toNat_lt]; rfl
      have hb256 := b.toNat_lt
      by_cases hb : b.toNat < 128
      · rw [if_pos (hbl.mpr hb), if_pos hb]
        simp only [Option.bind_some]
        rw [if_pos (by omega)]
        congr 2
        apply UInt64.toNat.inj
        have hlt := (acc ||| (b &&& 0x7F).toUInt64 <<< UInt64.ofNat (7 * j)).toNat_lt
        rw [hor] at hlt
        rw [hor, UInt64.toNat_ofNat', Nat.mod_eq_of_lt hb] at *
        generalize b.toNat * 2 ^ (7 * j) = X at *
        omega
      · rw [if_neg (fun h => hb (hbl.mp h)), if_neg hb]
        by_cases h9 : j = 9
        · subst h9
          rw [if_pos (by omega)]
          cases hl : leb bs with
          | none => rfl
          | some x =>
            obtain ⟨v, k, r⟩ := x
            have hk : 1 ≤ k := by
              cases bs with
              | nil => simp [leb] at hl
              | cons c bs =>
                simp only [leb] at hl
                split at hl
                · simp at hl; omega
                · cases h2 : leb bs with
                  | none => rw [h2] at hl; simp at hl
                  | some y => rw [h2] at hl; simp at hl; omega
            simp only [Option.map_some, Option.bind_some]
            rw [if_neg (by omega)]
        · rw [if_neg (by omega)]
          have hp : (7 * j + 7) = 7 * (j + 1) := by ring
          have hpow : 2 ^ (7 * (j + 1)) = 2 ^ (7 * j) * 128 := by rw [Nat.mul_succ, Nat.pow_add]
          have hle : 2 ^ (7 * (j + 1)) ≤ 2 ^ 63 := Nat.pow_le_pow_right (by omega) (by omega)
          have hlt : acc.toNat + b.toNat % 128 * 2 ^ (7 * j) < 2 ^ (7 * (j + 1)) := by
            rw [hpow]
            have h1 : b.toNat % 128 ≤ 127 := by omega
            have h2 := Nat.mul_le_mul_right (2 ^ (7 * j)) h1
            omega
          have hor' : (acc ||| (b &&& 0x7F).toUInt64 <<< UInt64.ofNat (7 * j)).toNat =
              acc.toNat + b.toNat % 128 * 2 ^ (7 * j) := by
            rw [hor, Nat.mod_eq_of_lt (by omega)]
          rw [hp, ih _ (j + 1) (by omega) (by rw [hor']; exact hlt)]
          cases hl : leb bs with
          | none => rfl
          | some x =>
            obtain ⟨v, k, r⟩ := x
            simp only [Option.map_some, Option.bind_some]
            by_cases hk : k + (j + 1) ≤ 10
            · rw [if_pos hk, if_pos (by omega), hor', hpow]
              congr 3
              have : b.toNat % 128 = b.toNat - 128 := by omega
              rw [this]; ring
            · rw [if_neg hk, if_neg (by omega)]
  have := key bs 0 0 (by omega) (by simp)
  simpa [readVarint] using this

/-- C12 (partial): a number longer than ten bytes is rejected, and a number that fits in 64 bits is read exactly.
Missing: numbers of exactly ten bytes whose value exceeds 64 bits are accepted (`C12_overflow_violated`). -/
theorem C12_varint_rejects_long_partial (bs : Bytes) (v k : Nat) (r : Bytes) (h : leb bs = some (v, k, r)) :
    (10 < k → (readVarint bs).out = none) ∧
    (k ≤ 10 → v < 2 ^ 64 → ∃ x, (readVarint bs).out = some (x, r) ∧ x.toNat = v) := by
  rw [readVarint_spec, h]
  refine ⟨fun hk => ?_, fun hk hv => ⟨UInt64.ofNat v, ?_, ?_⟩⟩
  · simp only [Option.bind_some]; rw [if_neg (by omega)]
  · simp only [Option.bind_some]; rw [if_pos hk]
  · rw [UInt64.toNat_ofNat']; exact Nat.mod_eq_of_lt hv

/-- C12 (partial): bytes that are not a complete number are rejected. -/
theorem C12_varint_rejects_incomplete_partial (bs : Bytes) (h : leb bs = none) : (readVarint bs).out = none := by
  rw [readVarint_spec, h]; rfl

/-- C12 is violated for ten-byte numbers: the value 2^64 + 1 is read as 1 instead of being rejected. -/
theorem C12_overflow_violated :
    ∃ bs v k x, leb bs = some (v, k, []) ∧ 2 ^ 64 ≤ v ∧ (readVarint bs).out = some (x, []) ∧ x.toNat ≠ v := by
  refine ⟨[0x81, 0x80, 0x80, 0x80, 0x80, 0x80, 0x80, 0x80, 0x80, 0x02], 2 ^ 64 + 1, 10, 1, ?_, ?_, ?_, ?_⟩ <;> decide +kernel

/-- C12 is violated for point ids: a point message naming point 2^32 + 5 is attributed to point 5. -/
theorem C12_point_id_violated :
    ∃ bs v k r m r', leb bs = some (v, k, r) ∧ 2 ^ 32 ≤ v ∧ (decodePoint bs).out = some (m, r') ∧ m.id = 5 := by
  refine ⟨[0x85, 0x80, 0x80, 0x80, 0x10, 0, 0, 0, 0, 0, 0, 0, 0, 0], 2 ^ 32 + 5, 5,
    [0, 0, 0, 0, 0, 0, 0, 0, 0], ⟨5, 0, []⟩, [], ?_, ?_, ?_, rfl⟩
  · decide +kernel
  · omega
  · rfl

/-- C12 (partial): a point id below 2^32 is attributed to exactly that point. -/
theorem C12_point_id_partial (bs : Bytes) (v k : Nat) (r : Bytes) (h : leb bs = some (v, k, r)) (hv : v < 2 ^ 32)
    (m : MsgPoint) (r' : Bytes) (hm : (decodePoint bs).out = some (m, r')) : m.id.toNat = v := by
  have hs := readVarint_spec bs
  rw [h] at hs
  simp only [Option.bind_some] at hs
  unfold decodePoint at hm
  rw [out_bind, hs] at hm
  split at hm
  · simp only [Option.bind_some] at hm
    rw [out_bind] at hm
    cases h1 : (readInt64 r).out with
    | none => rw [h1] at hm; simp at hm
    | some p =>
      rw [h1] at hm
      simp only [Option.bind_some] at hm
      rw [out_bind] at hm
      cases h2 : (readStackFrames p.2).out with
      | none => rw [h2] at hm; simp at hm
      | some q =>
        rw [h2] at hm
        simp at hm
        rw [← hm.1]
        simp
        omega
  · simp at hm

example : leb (List.replicate 10 0x80 ++ [1]) = some (2 ^ 70, 11, []) := by decide +kernel
example : leb [0xAC, 0x02, 9] = some (300, 2, [9]) := by decide +kernel

/-! ## C08 -/

theorem C08_point_roundtrip (m : MsgPoint) (rest : Bytes) (h : stackOK m.stack) :
    (decodePoint (encPoint m ++ rest)).out = some (m, rest) := by
  unfold decodePoint encPoint
  simp only [List.append_assoc]
  rw [out_bind_some (out_readVarint_write _ _), out_bind_some (out_readInt64_write _ _),
    out_bind_some (out_readStackFrames_write _ _ h.1 h.2)]
  simp

/-- C08: a state message of any shape within the protocol limits arrives unchanged. -/
theorem C08_state_roundtrip (L : Nat) (m : MsgState WField) (rest : Bytes) (h : m.OK L) :
    (decodeState L (encState m ++ rest)).out = some (m.erase, rest) := by
  unfold decodeState encState
  have hf : ((m.fields.map encField).flatten).length ≤
      (writeVarint m.id.toUInt64 ++ writeInt64 m.time ++ writeStackFrames m.stack ++
        writeVarint (UInt64.ofNat m.fields.length) ++ (m.fields.map encField).flatten ++ rest).length + 1 := by
    simp only [List.length_append]; omega
  generalize hN : (writeVarint m.id.toUInt64 ++ writeInt64 m.time ++ writeStackFrames m.stack ++
        writeVarint (UInt64.ofNat m.fields.length) ++ (m.fields.map encField).flatten ++ rest).length + 1 = N at hf ⊢
  simp only [List.append_assoc]
  rw [out_bind_some (out_readVarint_write _ _), out_bind_some (out_readInt64_write _ _),
    out_bind_some (out_readStackFrames_write _ _ h.1.1 h.1.2),
    out_bind_some (out_readFields_enc L m.fields h.2.2 h.2.1 N rest hf)]
  simp [MsgState.erase]

theorem C08_panic_roundtrip (m : MsgPanic) (rest : Bytes) (h : m.message.length ≤ maxUint32) :
    (decodePanic (encPanic m ++ rest)).out = some (m, rest) := by
  unfold decodePanic encPanic
  simp only [List.append_assoc]
  rw [out_bind_some (out_readVarint_write _ _), out_bind_some (out_readInt64_write _ _),
    out_bind_some (out_readString_write _ _ h)]
  simp

theorem C08_error_roundtrip (m : MsgError) (rest : Bytes) (h : m.message.length ≤ maxUint32) (hs : stackOK m.stack) :
    (decodeError (encError m ++ rest)).out = some (m, rest) := by
  unfold decodeError encError
  simp only [List.append_assoc]
  rw [out_bind_some (out_readVarint_write _ _), out_bind_some (out_readString_write _ _ h),
    out_bind_some (out_readStackFrames_write _ _ hs.1 hs.2)]
  simp

/-- C08: the decoder's recursion depth is never a limit: any two depth allowances above the input length agree. -/
theorem C08_depth_unlimited (L : Nat) (bs : Bytes) (k k' : Nat) (h : bs.length < k) (h' : bs.length < k') :
    readField L k bs = readField L k' bs :=
  readField_agree L bs.length k k' h h' bs (le_refl _)

/-- A state with a nested map, a packed bool slice and a two-frame stack. -/
def sampleState : MsgState WField :=
  ⟨7, 123456789#64, [⟨[97], [98], 10⟩, ⟨[97], [99], 20⟩],
    [.node [120] [109] .map [.leaf [107] [98] (.boolSlice [true, false, true]), .leaf [49] [105] (.int32 (-5#32))]]⟩

theorem sampleState_OK : sampleState.OK 1024 := by
  refine ⟨⟨by decide, by decide⟩, by decide, ?_⟩
  intro f hf
  simp only [sampleState, List.mem_singleton] at hf
  subst hf
  refine .node (by decide) (by decide) (fun _ => by decide) (by decide) ?_
  intro c hc
  simp only [List.mem_cons, List.not_mem_nil, or_false] at hc
  rcases hc with rfl | rfl
  · exact .leaf (by decide) (by decide) ⟨by decide, by decide⟩
  · exact .leaf (by decide) (by decide) trivial

example : (decodeState 1024 (encState sampleState)).out = some (sampleState.erase, []) := by
  simpa using C08_state_roundtrip 1024 sampleState [] sampleState_OK

/-! ## C10 -/

theorem cut_rejected {α} {d : Rd α} (hd : Local d) {p bs : Bytes} (hcut : CutShort p bs) {m : α}
    (h : (d bs).out = some (m, [])) : (d p).out = none := by
  obtain ⟨q, hq, rfl⟩ := hcut
  cases hp : (d p).out with
  | none => rfl
  | some x =>
    obtain ⟨a, r⟩ := x
    obtain ⟨c, hc, hx⟩ := hd p a r hp
    have := hx (r ++ q)
    rw [← List.append_assoc, ← hc, h] at this
    simp at this
    exact absurd this.2.2 hq

theorem Local.decodePoint : Local decodePoint :=
  Local.readVarint.bind fun _ => Local.readInt64.bind fun _ => Local.readStackFrames.bind fun _ => Local.pure _

theorem Local.decodePanic : Local decodePanic :=
  Local.readVarint.bind fun _ => Local.readInt64.bind fun _ => Local.readString.bind fun _ => Local.pure _

theorem Local.decodeError : Local decodeError :=
  Local.readVarint.bind fun _ => Local.readString.bind fun _ => Local.readStackFrames.bind fun _ => Local.pure _

/-- `decodeState` with an explicit depth allowance. -/
def decodeStateAt (L N : Nat) : Rd (MsgState Field) := do
  let point ← readVarint
  let time ← readInt64
  let stack ← readStackFrames
  let fields ← readFields L N
  return (⟨point.toUInt32, time, stack, fields⟩ : MsgState Field)

theorem Local.decodeStateAt (L N : Nat) : Local (decodeStateAt L N) :=
  Local.readVarint.bind fun _ => Local.readInt64.bind fun _ => Local.readStackFrames.bind fun _ =>
    (Local.readFields L N).bind fun _ => Local.pure _

theorem readFields_agree (L N k k' : Nat) (h : N < k) (h' : N < k') : AgreeUpTo N (readFields L k) (readFields L k') :=
  AgreeUpTo.bind Local.readVarint fun _ => AgreeUpTo.ite AgreeUpTo.rfl' <|
    AgreeUpTo.bind (Local.alloc _) fun _ => AgreeUpTo.readN (Local.readField L k) (readField_agree L N k k' h h') _

theorem decodeState_eq_at (L : Nat) (bs : Bytes) (N : Nat) (h : bs.length < N) :
    decodeState L bs = decodeStateAt L N bs := by
  show Wire.decodeStateAt L (bs.length + 1) bs = _
  exact (AgreeUpTo.bind Local.readVarint fun _ => AgreeUpTo.bind Local.readInt64 fun _ =>
    AgreeUpTo.bind Local.readStackFrames fun _ => AgreeUpTo.bind_left
      (readFields_agree L bs.length (bs.length + 1) N (by omega) h)) bs (le_refl _)

theorem C10_cut_point_rejected (bs p : Bytes) (m : MsgPoint) (h : (decodePoint bs).out = some (m, []))
    (hp : CutShort p bs) : (decodePoint p).out = none := cut_rejected Local.decodePoint hp h

/-- C10: no strict prefix of a state message decodes. -/
theorem C10_cut_state_rejected (L : Nat) (bs p : Bytes) (m : MsgState Field) (h : (decodeState L bs).out = some (m, []))
    (hp : CutShort p bs) : (decodeState L p).out = none := by
  obtain ⟨q, hq, rfl⟩ := hp
  rw [decodeState_eq_at L _ ((p ++ q).length + 1) (by omega)] at h
  rw [decodeState_eq_at L p ((p ++ q).length + 1) (by simp; omega)]
  exact cut_rejected (Local.decodeStateAt L _) ⟨q, hq, rfl⟩ h

theorem C10_cut_panic_rejected (bs p : Bytes) (m : MsgPanic) (h : (decodePanic bs).out = some (m, []))
    (hp : CutShort p bs) : (decodePanic p).out = none := cut_rejected Local.decodePanic hp h

theorem C10_cut_error_rejected (bs p : Bytes) (m : MsgError) (h : (decodeError bs).out = some (m, []))
    (hp : CutShort p bs) : (decodeError p).out = none := cut_rejected Local.decodeError hp h

example : (decodeState 1024 ((encState sampleState).take 20)).out = none := by
  refine C10_cut_state_rejected 1024 (encState sampleState) _ sampleState.erase
    (by simpa using C08_state_roundtrip 1024 sampleState [] sampleState_OK) ⟨(encState sampleState).drop 20, ?_, by simp⟩
  decide +kernel

/-! ## C11 -/

theorem decodeState_log (L : Nat) : LogOK (Alloc.bounded L) (decodeState L) := by
  intro bs
  exact (LogOK.readVarint.bind fun _ => LogOK.readInt64.bind fun _ => LogOK.readStackFrames.bind fun _ =>
    (LogOK.readFields L (bs.length + 1)).bind fun _ => LogOK.pure _) bs

/-- C11 (partial): whatever bytes arrive, each reservation made while decoding is bounded by its limit.
Missing: struct field lists, which have no limit (`C11_struct_violated`). -/
theorem C11_reservations_bounded_partial (L : Nat) (bs : Bytes) :
    (∀ a ∈ (decodeState L bs).log, a.bounded L) ∧ (∀ a ∈ (decodePoint bs).log, a.bounded L) ∧
    (∀ a ∈ (decodePanic bs).log, a.bounded L) ∧ (∀ a ∈ (decodeError bs).log, a.bounded L) :=
  ⟨decodeState_log L bs,
    (LogOK.readVarint.bind fun _ => LogOK.readInt64.bind fun _ => LogOK.readStackFrames.bind fun _ => LogOK.pure _) bs,
    (LogOK.readVarint.bind fun _ => LogOK.readInt64.bind fun _ => LogOK.readString.bind fun _ => LogOK.pure _) bs,
    (LogOK.readVarint.bind fun _ => LogOK.readString.bind fun _ => LogOK.readStackFrames.bind fun _ => LogOK.pure _) bs⟩

/-- C11 is violated: a 20 byte message makes the server reserve a list of 2^40 fields; no limit applies to structs. -/
theorem C11_struct_violated (L : Nat) :
    ∃ bs : Bytes, bs.length = 20 ∧ ∃ a ∈ (decodeState L bs).log, a.size = 2 ^ 40 := by
  refine ⟨[0, 0, 0, 0, 0, 0, 0, 0, 0, 0, 1, 0, 0, 0x41, 0x80, 0x80, 0x80, 0x80, 0x80, 0x20], rfl, .struct (2 ^ 40), ?_, rfl⟩
  have : (decodeState L [0, 0, 0, 0, 0, 0, 0, 0, 0, 0, 1, 0, 0, 0x41, 0x80, 0x80, 0x80, 0x80, 0x80, 0x20]).log =
      [.fields 1, .struct (2 ^ 40)] := rfl
  rw [this]; simp

example : (decodeState 1024 (encState sampleState)).log ≠ [] := by decide +kernel

/-! ## C15 -/

/-- C15: a string within the limit is sent unchanged. -/
theorem C15_short_unchanged (limit : Nat) (s : Bytes) (h : s.length ≤ limit) : limitString limit s = s := by
  rw [limitString, if_neg (by omega)]

/-- C15: a longer string is sent as its first `limit` bytes followed by a note that depends only on, and determines,
the number of dropped bytes. -/
theorem C15_long_truncated (limit : Nat) :
    ∃ note : Nat → Bytes, (∀ m n, note m = note n → m = n) ∧
      ∀ s : Bytes, limit < s.length → limitString limit s = s.take limit ++ note (s.length - limit) := by
  refine ⟨fun n => [0xE2, 0x80, 0xA6, 0x28] ++ itoaBytes n ++ [0x20, 0x6D, 0x6F, 0x72, 0x65, 0x29], ?_, ?_⟩
  · intro m n h
    exact itoaBytes_injective (List.append_cancel_left (List.append_cancel_right h))
  · intro s hs
    rw [limitString, if_pos hs]
    simp

/-- C15: equal captured text means equal length and equal first `limit` bytes. -/
theorem C15_captured_text_faithful (limit : Nat) (s t : Bytes) (h : limitString limit s = limitString limit t) :
    s.length = t.length ∧ s.take limit = t.take limit := by
  have hlen : ∀ s : Bytes, limit < s.length → limit < (limitString limit s).length := by
    intro s hs
    rw [limitString, if_pos hs]
    simp only [List.length_append, List.length_take, List.length_cons, List.length_nil]
    omega
  by_cases hs : limit < s.length <;> by_cases ht : limit < t.length
  · obtain ⟨note, hinj, hnote⟩ := C15_long_truncated limit
    rw [hnote s hs, hnote t ht] at h
    have hl : (s.take limit).length = (t.take limit).length := by simp; omega
    obtain ⟨h1, h2⟩ := List.append_inj h hl
    refine ⟨?_, h1⟩
    have := hinj _ _ h2
    omega
  · exfalso
    have h1 := hlen s hs
    rw [h, C15_short_unchanged limit t (by omega)] at h1
    omega
  · exfalso
    have h1 := hlen t ht
    rw [← h, C15_short_unchanged limit s (by omega)] at h1
    omega
  · rw [C15_short_unchanged limit t (by omega), C15_short_unchanged limit s (by omega)] at h
    subst h; exact ⟨rfl, rfl⟩

example : limitString 3 [97, 98, 99, 100, 101] =
    [97, 98, 99, 0xE2, 0x80, 0xA6, 0x28, 50, 0x20, 0x6D, 0x6F, 0x72, 0x65, 0x29] := by decide +kernel

/-! ## C17 -/

/-- The message a request carries, if its body decodes at its endpoint; the body may have trailing bytes. -/
def carried (L : Nat) (ep : Endpoint) (body : Bytes) (e : Effect) : Prop :=
  match ep, e with
  | .point, .point m => ∃ r, (decodePoint body).out = some (m, r)
  | .state, .state m => ∃ r, (decodeState L body).out = some (m, r)
  | .panic, .panic m => ∃ r, (decodePanic body).out = some (m, r)
  | .error, .logged m => ∃ r, (decodeError body).out = some (m, r)
  | _, _ => False

/-- C17: the three outcomes of a request, and nothing else. -/
theorem C17_all_or_nothing (L : Nat) (r : Request) :
    (r.isPost = false → (serve L r).status = 405 ∧ (serve L r).effects = []) ∧
    (r.isPost = true → (¬ ∃ e, carried L r.endpoint r.body e) →
      (serve L r).status = 400 ∧ (serve L r).effects = []) ∧
    (r.isPost = true → ∀ e, carried L r.endpoint r.body e →
      (serve L r).status = 200 ∧ (serve L r).effects = [e]) := by
  obtain ⟨ep, post, body⟩ := r
  refine ⟨?_, ?_, ?_⟩
  · rintro rfl; exact ⟨rfl, rfl⟩
  · rintro rfl hno
    simp only [serve, ↓reduceIte]
    cases ep
    · simp only [reply]; split
      · exact ⟨rfl, rfl⟩
      · rename_i m r hm; exact absurd ⟨.point m, r, hm⟩ hno
    · simp only [reply]; split
      · exact ⟨rfl, rfl⟩
      · rename_i m r hm; exact absurd ⟨.state m, r, hm⟩ hno
    · simp only [reply]; split
      · exact ⟨rfl, rfl⟩
      · rename_i m r hm; exact absurd ⟨.panic m, r, hm⟩ hno
    · simp only [reply]; split
      · exact ⟨rfl, rfl⟩
      · rename_i m r hm; exact absurd ⟨.logged m, r, hm⟩ hno
  · rintro rfl e he
    cases ep <;> cases e <;> simp only [carried] at he <;>
      first
      | exact he.elim
      | (obtain ⟨x, hx⟩ := he
         simp [serve, reply, hx])

/-- C17 with C08: posting the client's encoding of a state delivers exactly that state, once. -/
theorem C17_state_delivered (L : Nat) (m : MsgState WField) (h : m.OK L) :
    serve L ⟨.state, true, encState m⟩ = ⟨200, [.state m.erase]⟩ := by
  have := C08_state_roundtrip L m [] h
  rw [List.append_nil] at this
  simp [serve, reply, this]

/-- C17 with C10: posting a message that was cut short has no effect. -/
theorem C17_cut_state_no_effect (L : Nat) (m : MsgState WField) (h : m.OK L) (p : Bytes)
    (hp : CutShort p (encState m)) : serve L ⟨.state, true, p⟩ = ⟨400, []⟩ := by
  have h1 := C08_state_roundtrip L m [] h
  rw [List.append_nil] at h1
  have := C10_cut_state_rejected L _ p _ h1 hp
  simp [serve, reply, this]

example : (serve 1024 ⟨.panic, true, [7, 0, 0, 0, 0, 0, 0, 0, 0, 1, 104]⟩).status = 200 := by decide +kernel
example : (serve 1024 ⟨.panic, true, [7, 0, 0, 0, 0, 0, 0, 0, 0, 2, 104]⟩).status = 400 := by decide +kernel

end Verif.Wire
