import Verif.Base
import Verif.Wire.Model

namespace Verif.Wire

/-! ### Algebra of readers -/

theorem bind_def {α β} (d : Rd α) (f : α → Rd β) : (d >>= f) = Rd.bind d f := rfl
theorem pure_def {α} (a : α) : (pure a : Rd α) = Rd.pure a := rfl

@[simp] theorem out_pure {α} (a : α) (bs : Bytes) : ((pure a : Rd α) bs).out = some (a, bs) := rfl
@[simp] theorem log_pure {α} (a : α) (bs : Bytes) : ((pure a : Rd α) bs).log = [] := rfl
@[simp] theorem out_fail {α} (bs : Bytes) : ((Rd.fail : Rd α) bs).out = none := rfl
@[simp] theorem log_fail {α} (bs : Bytes) : ((Rd.fail : Rd α) bs).log = [] := rfl
@[simp] theorem out_alloc (a : Alloc) (bs : Bytes) : (Rd.alloc a bs).out = some ((), bs) := rfl
@[simp] theorem log_alloc (a : Alloc) (bs : Bytes) : (Rd.alloc a bs).log = [a] := rfl

theorem out_bind {α β} (d : Rd α) (f : α → Rd β) (bs : Bytes) :
    ((d >>= f) bs).out = (d bs).out.bind fun p => (f p.1 p.2).out := by
  rw [bind_def, Rd.bind]
  cases h : (d bs).out with
  | none => rfl
  | some p => rfl

theorem out_bind_some {α β} {d : Rd α} {f : α → Rd β} {bs r : Bytes} {a : α}
    (h : (d bs).out = some (a, r)) : ((d >>= f) bs).out = (f a r).out := by
  rw [out_bind, h]; rfl

theorem log_bind {α β} (d : Rd α) (f : α → Rd β) (bs : Bytes) :
    ((d >>= f) bs).log = (d bs).log ++ (match (d bs).out with | none => [] | some p => (f p.1 p.2).log) := by
  rw [bind_def, Rd.bind]
  cases h : (d bs).out with
  | none => simp
  | some p => rfl

@[simp] theorem out_readByte_cons (b : UInt8) (bs : Bytes) : (readByte (b :: bs)).out = some (b, bs) := rfl

theorem out_readFull_append (l r : Bytes) : (readFull l.length (l ++ r)).out = some (l, r) := by
  simp [readFull]

/-! ### Variable-length numbers -/

theorem toUInt8_or_toNat (v : UInt64) : (v.toUInt8 ||| 0x80).toNat = v.toNat % 128 + 128 := by
  have h : ∀ b : UInt8, (b ||| 0x80).toNat = b.toNat % 128 + 128 := forall_byte (by decide +kernel)
  rw [h]; simp

theorem and7F (b : UInt8) : (b &&& 0x7F).toUInt64.toNat = b.toNat % 128 := by
  have h : ∀ b : UInt8, (b &&& 0x7F).toNat = b.toNat % 128 := forall_byte (by decide +kernel)
  simpa using h b

/-- One step of the accumulation in `readVarint`, as arithmetic. -/
theorem or_shift_toNat (v : UInt64) (b : UInt8) (s : Nat) (hs : s < 64) (hv : v.toNat < 2 ^ s) :
    (v ||| ((b &&& 0x7F).toUInt64 <<< UInt64.ofNat s)).toNat =
      v.toNat + (b.toNat % 128 * 2 ^ s) % 2 ^ 64 := by
  have hs64 : (UInt64.ofNat s).toNat = s := by
    simp; omega
  rw [UInt64.toNat_or, UInt64.toNat_shiftLeft, hs64, and7F, Nat.mod_eq_of_lt hs, Nat.shiftLeft_eq]
  have hdiv : (b.toNat % 128 * 2 ^ s) % 2 ^ 64 = ((b.toNat % 128) % 2 ^ (64 - s)) <<< s := by
    rw [Nat.shiftLeft_eq]
    have : 2 ^ 64 = 2 ^ s * 2 ^ (64 - s) := by rw [← Nat.pow_add]; congr 1; omega
    rw [this, Nat.mul_comm, Nat.mul_mod_mul_left, Nat.mul_comm]
  rw [hdiv, Nat.or_comm, ← Nat.shiftLeft_add_eq_or_of_lt hv]
  omega

theorem writeVarint_ne_nil (v : UInt64) : writeVarint v ≠ [] := by
  unfold writeVarint; split <;> simp

/-- Reading in the middle of a number: accumulated low bits `acc < 2^s`, rest `v`. -/
theorem readVarintLoop_write (v acc : UInt64) (s : Nat) (rest : Bytes)
    (hs : s < 64) (hacc : acc.toNat < 2 ^ s) (hfit : v.toNat * 2 ^ s < 2 ^ 64) :
    ∃ r : UInt64, readVarintLoop (writeVarint v ++ rest) acc s = some (r, rest) ∧
      r.toNat = acc.toNat + v.toNat * 2 ^ s := by
  induction v using writeVarint.induct generalizing acc s with
  | case1 v h =>
    have hv : v.toNat < 128 := by simpa [UInt64.lt_iff_toNat_lt] using h
    have h8 : v.toUInt8.toNat = v.toNat := by simp; omega
    have hlt : v.toUInt8 < 0x80 := by
      rw [UInt8.lt_iff_toNat_lt, h8]; simpa using hv
    unfold writeVarint
    simp only [h, ↓reduceDIte, List.cons_append, List.nil_append, readVarintLoop, hlt, ↓reduceIte]
    refine ⟨_, rfl, ?_⟩
    rw [or_shift_toNat _ _ _ hs hacc, h8, Nat.mod_eq_of_lt hv, Nat.mod_eq_of_lt hfit]
  | case2 v h ih =>
    have hv : ¬ v.toNat < 128 := by simpa [UInt64.lt_iff_toNat_lt] using h
    have hshr : (v >>> 7).toNat = v.toNat / 128 := by
      simp [UInt64.toNat_shiftRight, Nat.shiftRight_eq_div_pow]
    have hb : (v.toUInt8 ||| 0x80).toNat = v.toNat % 128 + 128 := toUInt8_or_toNat v
    have hnlt : ¬ (v.toUInt8 ||| 0x80) < 0x80 := by
      rw [UInt8.lt_iff_toNat_lt, hb]; simp
    have hbm : (v.toUInt8 ||| 0x80).toNat % 128 = v.toNat % 128 := by rw [hb]; omega
    -- the shift stays below 64
    have hs7 : s + 7 < 64 := by
      by_contra hc
      have h1 : 2 ^ 57 ≤ 2 ^ s := Nat.pow_le_pow_right (by omega) (by omega)
      have h2 : 128 * 2 ^ 57 ≤ v.toNat * 2 ^ s := Nat.mul_le_mul (by omega) h1
      omega
    have hpow : 2 ^ (s + 7) = 2 ^ s * 128 := by rw [Nat.pow_add]
    have hdecomp : v.toNat * 2 ^ s = v.toNat % 128 * 2 ^ s + v.toNat / 128 * 2 ^ (s + 7) := by
      rw [hpow, ← Nat.mul_assoc, Nat.mul_right_comm, ← Nat.add_mul]
      congr 1; omega
    have hstep := or_shift_toNat acc (v.toUInt8 ||| 0x80) s hs hacc
    rw [hbm] at hstep
    have hlow : v.toNat % 128 * 2 ^ s < 2 ^ 64 := by omega
    rw [Nat.mod_eq_of_lt hlow] at hstep
    have hacc' : (acc ||| (((v.toUInt8 ||| 0x80) &&& 0x7F).toUInt64 <<< UInt64.ofNat s)).toNat < 2 ^ (s + 7) := by
      rw [hstep, hpow]
      have : v.toNat % 128 * 2 ^ s ≤ 127 * 2 ^ s := Nat.mul_le_mul_right _ (by omega)
      omega
    obtain ⟨r, hr, hval⟩ := ih _ (s + 7) hs7 hacc' (by rw [hshr]; omega)
    unfold writeVarint
    simp only [h, ↓reduceDIte, List.cons_append, readVarintLoop, hnlt, ↓reduceIte]
    have : ¬ (s + 7 ≥ 64) := by omega
    simp only [this, ↓reduceIte]
    refine ⟨r, hr, ?_⟩
    rw [hval, hstep, hshr]; omega

theorem out_readVarint_write (v : UInt64) (rest : Bytes) :
    (readVarint (writeVarint v ++ rest)).out = some (v, rest) := by
  obtain ⟨r, hr, hv⟩ := readVarintLoop_write v 0 0 rest (by omega) (by simp) (by simpa using v.toNat_lt)
  have : r = v := by
    apply UInt64.toNat_inj.mp
    simpa using hv
  simp [readVarint, hr, this]

theorem length_writeVarint_le (v : UInt64) (k : Nat) (h : v.toNat < 2 ^ (7 * (k + 1))) :
    (writeVarint v).length ≤ k + 1 := by
  induction k generalizing v with
  | zero =>
    have : v < 0x80 := by simpa [UInt64.lt_iff_toNat_lt] using h
    unfold writeVarint; simp [this]
  | succ k ih =>
    unfold writeVarint
    split
    · simp
    · simp only [List.length_cons]
      have hshr : (v >>> 7).toNat = v.toNat / 128 := by
        simp [UInt64.toNat_shiftRight, Nat.shiftRight_eq_div_pow]
      have : (v >>> 7).toNat < 2 ^ (7 * (k + 1)) := by
        rw [hshr]
        apply Nat.div_lt_of_lt_mul
        calc v.toNat < 2 ^ (7 * (k + 1 + 1)) := h
          _ = 128 * 2 ^ (7 * (k + 1)) := by
            rw [show 7 * (k + 1 + 1) = 7 + 7 * (k + 1) by omega, Nat.pow_add]
      have := ih _ this
      omega

/-! ### Zig-zag -/

theorem zigzag_dec_enc (v : BitVec 64) : zigzagDec (zigzagEnc v) = v := by
  unfold zigzagDec zigzagEnc
  have hbit0 : (v <<< 1 ^^^ v.sshiftRight 63).getLsbD 0 = v.msb := by
    rw [BitVec.getLsbD_xor, BitVec.getLsbD_sshiftRight]
    simp [BitVec.msb_eq_getLsbD_last]
  have hand : (v <<< 1 ^^^ v.sshiftRight 63) &&& 1#64 = if v.msb then 1#64 else 0#64 := by
    apply BitVec.eq_of_getLsbD_eq
    intro i hi
    rw [BitVec.getLsbD_and]
    by_cases h0 : i = 0
    · subst h0; rw [hbit0]; cases v.msb <;> simp
    · have : (1#64).getLsbD i = false := by
        simp [BitVec.getLsbD_one, h0]
      rw [this]; cases v.msb <;> simp [h0]
  have hneg : -((v <<< 1 ^^^ v.sshiftRight 63) &&& 1#64) = if v.msb then BitVec.allOnes 64 else 0#64 := by
    rw [hand]; cases v.msb <;> simp
  rw [show (1 : BitVec 64) = 1#64 from rfl] at *
  rw [hneg]
  apply BitVec.eq_of_getLsbD_eq
  intro i hi
  have hs : ∀ j, j < 64 → (v.sshiftRight 63).getLsbD j = v.msb := by
    intro j hj
    rw [BitVec.getLsbD_sshiftRight]
    by_cases h0 : j = 0
    · subst h0; simp [BitVec.msb_eq_getLsbD_last]
    · have h1 : ¬ (63 + j < 64) := by omega
      have h2 : decide (64 ≤ j) = false := by simp; omega
      simp [h1, h2]
  rw [BitVec.getLsbD_xor, BitVec.getLsbD_ushiftRight, BitVec.getLsbD_xor]
  by_cases h63 : i = 63
  · subst h63
    simp
    cases h : v.msb <;> simp [BitVec.msb_eq_getLsbD_last] at h ⊢ <;> simp [h]
  · rw [hs (1 + i) (by omega)]
    have : (v <<< 1).getLsbD (1 + i) = v.getLsbD i := by
      rw [BitVec.getLsbD_shiftLeft]
      have : 1 + i < 64 := by omega
      simp [this]
    rw [this]
    cases v.msb
    · simp
    · rw [if_pos rfl, BitVec.getLsbD_allOnes]; simp [hi]

theorem out_readSignedVarint_write (v : BitVec 64) (rest : Bytes) :
    (readSignedVarint (writeSignedVarint v ++ rest)).out = some (v, rest) := by
  unfold readSignedVarint writeSignedVarint
  rw [out_bind_some (out_readVarint_write _ _)]
  simp [zigzag_dec_enc]

/-! ### Fixed-width numbers -/

theorem length_leBytes (n v : Nat) : (leBytes n v).length = n := by
  induction n generalizing v with
  | zero => rfl
  | succ n ih => simp [leBytes, ih]

theorem leVal_leBytes (n v : Nat) : leVal (leBytes n v) = v % 256 ^ n := by
  induction n generalizing v with
  | zero => simp [leBytes, leVal, Nat.mod_one]
  | succ n ih =>
    rw [leBytes, leVal, ih, UInt8.toNat_ofNat', Nat.pow_succ' (n := n) (m := 256), Nat.mod_mul]

theorem out_readInt64_write (v : BitVec 64) (rest : Bytes) :
    (readInt64 (writeInt64 v ++ rest)).out = some (v, rest) := by
  unfold readInt64 writeInt64
  have h := out_readFull_append (leBytes 8 v.toNat) rest
  rw [length_leBytes] at h
  rw [out_bind_some h]
  simp [leVal_leBytes, Nat.mod_eq_of_lt v.isLt]

theorem out_readFloat32_write (v : UInt32) (rest : Bytes) :
    (readFloat32 (writeFloat32 v ++ rest)).out = some (v, rest) := by
  unfold readFloat32 writeFloat32
  have h := out_readFull_append (leBytes 4 v.toNat) rest
  rw [length_leBytes] at h
  rw [out_bind_some h]
  have := v.toNat_lt
  simp [leVal_leBytes, Nat.mod_eq_of_lt this]

theorem out_readFloat64_write (v : UInt64) (rest : Bytes) :
    (readFloat64 (writeFloat64 v ++ rest)).out = some (v, rest) := by
  unfold readFloat64 writeFloat64
  have h := out_readFull_append (leBytes 8 v.toNat) rest
  rw [length_leBytes] at h
  rw [out_bind_some h]
  have := v.toNat_lt
  simp [leVal_leBytes, Nat.mod_eq_of_lt this]

/-! ### Strings and lists -/

theorem toNat_ofNat_len {n : Nat} (h : n ≤ maxUint32) : (UInt64.ofNat n).toNat = n := by
  have : n < 2 ^ 64 := by unfold maxUint32 at h; omega
  simpa using this

theorem ofNat_eq_zero {n : Nat} (h : n ≤ maxUint32) : UInt64.ofNat n = 0 ↔ n = 0 := by
  rw [← UInt64.toNat_inj, toNat_ofNat_len h]; simp

theorem out_readString_write (s rest : Bytes) (h : s.length ≤ maxUint32) :
    (readString (writeString s ++ rest)).out = some (s, rest) := by
  unfold readString writeString
  rw [List.append_assoc, out_bind_some (out_readVarint_write _ _)]
  rw [toNat_ofNat_len h]
  by_cases h0 : s.length = 0
  · have : s = [] := List.length_eq_zero_iff.mp h0
    subst this; simp
  · have h1 : ¬ UInt64.ofNat s.length = 0 := by rw [ofNat_eq_zero h]; exact h0
    have h2 : ¬ s.length > maxUint32 := by omega
    simp only [h1, h2, ↓reduceIte]
    rw [out_bind]
    simp [out_readFull_append]

theorem out_readN_flatMap {α} (d : Rd α) (enc : α → Bytes) (l : List α) (rest : Bytes)
    (h : ∀ a ∈ l, ∀ r, (d (enc a ++ r)).out = some (a, r)) :
    (readN d l.length (l.flatMap enc ++ rest)).out = some (l, rest) := by
  induction l with
  | nil => rfl
  | cons a l ih =>
    simp only [List.length_cons, readN, List.flatMap_cons, List.append_assoc]
    rw [out_bind_some (h a (by simp) _)]
    rw [out_bind_some (ih fun b hb => h b (by simp [hb]))]
    rfl

theorem out_readSlice_write {α} (maxLen : Nat) (d : Rd α) (enc : α → Bytes) (l : List α) (rest : Bytes)
    (h : ∀ a ∈ l, ∀ r, (d (enc a ++ r)).out = some (a, r))
    (hl : l.length ≤ maxLen) (hu : l.length ≤ maxUint32) :
    (readSlice maxLen d (writeVarint (UInt64.ofNat l.length) ++ l.flatMap enc ++ rest)).out = some (l, rest) := by
  unfold readSlice
  rw [List.append_assoc, out_bind_some (out_readVarint_write _ _), toNat_ofNat_len hu]
  have h2 : ¬ l.length > maxLen := by omega
  simp only [h2, ↓reduceIte]
  by_cases h0 : l.length = 0
  · have : l = [] := List.length_eq_zero_iff.mp h0
    subst this; simp
  · have h1 : ¬ UInt64.ofNat l.length = 0 := by rw [ofNat_eq_zero hu]; exact h0
    simp only [h1, ↓reduceIte]
    rw [out_bind]
    simpa using out_readN_flatMap d enc l rest h

theorem out_readBytes_write (maxLen : Nat) (l rest : Bytes)
    (hl : l.length ≤ maxLen) (hu : l.length ≤ maxUint32) :
    (readBytes maxLen (writeVarint (UInt64.ofNat l.length) ++ l ++ rest)).out = some (l, rest) := by
  unfold readBytes
  rw [List.append_assoc, out_bind_some (out_readVarint_write _ _), toNat_ofNat_len hu]
  have h2 : ¬ l.length > maxLen := by omega
  by_cases h0 : l.length = 0
  · have : l = [] := List.length_eq_zero_iff.mp h0
    subst this; simp
  · have h1 : ¬ UInt64.ofNat l.length = 0 := by rw [ofNat_eq_zero hu]; exact h0
    simp only [h1, h2, ↓reduceIte]
    rw [out_bind]
    simp [out_readFull_append]

/-! ### Packed bools -/

/-- A byte assembled from the bits of `l` starting at bit `j` has no bit below `j`, and unpacks to `l`. -/
theorem packByte_toNat_testBit (l : List Bool) (j : Nat) (h : j + l.length ≤ 8) (i : Nat) :
    (packByte l j).toNat.testBit i = (decide (j ≤ i) && (l[i - j]?.getD false)) := by
  induction l generalizing j with
  | nil => simp [packByte]
  | cons b l ih =>
    simp only [packByte, UInt8.toNat_or, Nat.testBit_or]
    simp only [List.length_cons] at h
    rw [ih (j + 1) (by omega)]
    have hb : (if b then (1 : UInt8) <<< UInt8.ofNat j else 0).toNat.testBit i = (b && decide (i = j)) := by
      cases b
      · simp
      · simp only [↓reduceIte, Bool.true_and]
        have hj : j < 8 := by omega
        have : ((1 : UInt8) <<< UInt8.ofNat j).toNat = 2 ^ j := by
          have : j = 0 ∨ j = 1 ∨ j = 2 ∨ j = 3 ∨ j = 4 ∨ j = 5 ∨ j = 6 ∨ j = 7 := by omega
          rcases this with h | h | h | h | h | h | h | h <;> subst h <;> rfl
        rw [this, Nat.testBit_two_pow]
        simp [eq_comm]
    rw [hb]
    by_cases h1 : i = j
    · subst h1; simp [show ¬ i + 1 ≤ i by omega]
    · by_cases h2 : j + 1 ≤ i
      · have : i - j = (i - (j + 1)) + 1 := by omega
        simp [h1, h2, this, show j ≤ i by omega]
      · have : ¬ j ≤ i := by omega
        simp [h1, h2, this]

theorem bit_test (b : UInt8) (j : Nat) (hj : j < 8) :
    ((b &&& ((1 : UInt8) <<< UInt8.ofNat j)) != 0) = b.toNat.testBit j := by
  have hall : ∀ b : UInt8, ∀ j : Fin 8, ((b &&& ((1 : UInt8) <<< UInt8.ofNat j.val)) != 0) = b.toNat.testBit j.val := by
    exact forall_byte (by decide +kernel)
  exact hall b ⟨j, hj⟩

theorem unpackByte_eq (b : UInt8) (n j : Nat) (h : j + n ≤ 8) :
    unpackByte b n j = (List.range n).map fun i => b.toNat.testBit (j + i) := by
  induction n generalizing j with
  | zero => rfl
  | succ n ih =>
    rw [unpackByte, ih (j + 1) (by omega), bit_test b j (by omega), List.range_succ_eq_map]
    simp [Function.comp_def, Nat.add_assoc, Nat.add_comm 1]

theorem unpack_pack (l : List Bool) (h : l.length ≤ 8) : unpackByte (packByte l 0) l.length 0 = l := by
  rw [unpackByte_eq _ _ _ (by omega)]
  apply List.ext_getElem?
  intro i
  rw [List.getElem?_map]
  by_cases hi : i < l.length
  · simp only [hi, List.getElem?_range, Option.map_some, Nat.zero_add, List.getElem?_eq_getElem]
    rw [packByte_toNat_testBit _ _ (by omega)]
    simp [hi]
  · simp [hi]

theorem packBools_of_ne_nil (l : List Bool) (h : l ≠ []) :
    packBools l = packByte (l.take 8) 0 :: packBools (l.drop 8) := by
  cases l with
  | nil => exact absurd rfl h
  | cons b bs => rw [packBools]

theorem out_readBools_write (n : Nat) (l : List Bool) (rest : Bytes) (hn : n = (l.length + 7) / 8) :
    (readBools n l.length (packBools l ++ rest)).out = some (l, rest) := by
  induction n generalizing l with
  | zero =>
    have : l = [] := by
      apply List.length_eq_zero_iff.mp; omega
    subst this; simp [readBools, packBools]
  | succ n ih =>
    have hne : l ≠ [] := by
      intro h; subst h; simp at hn
    rw [packBools_of_ne_nil l hne]
    simp only [readBools, List.cons_append]
    rw [out_bind_some (out_readByte_cons _ _)]
    have hlen : (l.drop 8).length = l.length - 8 := by simp
    have := ih (l.drop 8) (by rw [hlen]; omega)
    rw [hlen] at this
    rw [out_bind_some this]
    have hmin : min 8 l.length = (l.take 8).length := by simp
    rw [out_pure, hmin, unpack_pack _ (by simp), List.take_append_drop]

theorem out_readBoolSlice_write (maxLen : Nat) (l : List Bool) (rest : Bytes)
    (hl : l.length ≤ maxLen) (hu : l.length ≤ maxUint32) :
    (readBoolSlice maxLen (writeVarint (UInt64.ofNat l.length) ++ packBools l ++ rest)).out = some (l, rest) := by
  unfold readBoolSlice
  rw [List.append_assoc, out_bind_some (out_readVarint_write _ _), toNat_ofNat_len hu]
  have h2 : ¬ l.length > maxLen := by omega
  simp only [h2, ↓reduceIte]
  by_cases h0 : l.length = 0
  · have : l = [] := List.length_eq_zero_iff.mp h0
    subst this; simp [packBools]
  · have h1 : ¬ UInt64.ofNat l.length = 0 := by rw [ofNat_eq_zero hu]; exact h0
    simp only [h1, ↓reduceIte]
    rw [out_bind]
    simpa using out_readBools_write _ l rest rfl

/-! ### Stack frames -/

theorem mem_addString_self (t : List Bytes) (s : Bytes) : s ∈ addString t s := by
  unfold addString; split <;> simp_all

theorem mem_addString_of_mem {t : List Bytes} {s x : Bytes} (h : x ∈ t) : x ∈ addString t s := by
  unfold addString; split <;> simp_all

theorem length_addString (t : List Bytes) (s : Bytes) : (addString t s).length ≤ t.length + 1 := by
  unfold addString; split <;> simp

theorem mem_buildTable_of_mem {t : List Bytes} {x : Bytes} (h : x ∈ t) (fs : List Frame) : x ∈ buildTable t fs := by
  induction fs generalizing t with
  | nil => exact h
  | cons f fs ih => exact ih (mem_addString_of_mem (mem_addString_of_mem h))

theorem mem_buildTable {t : List Bytes} {fs : List Frame} {f : Frame} (h : f ∈ fs) :
    f.file ∈ buildTable t fs ∧ f.func ∈ buildTable t fs := by
  induction fs generalizing t with
  | nil => simp at h
  | cons g fs ih =>
    rcases List.mem_cons.mp h with rfl | h
    · exact ⟨mem_buildTable_of_mem (mem_addString_of_mem (mem_addString_self _ _)) _,
        mem_buildTable_of_mem (mem_addString_self _ _) _⟩
    · exact ih h

theorem length_buildTable (t : List Bytes) (fs : List Frame) :
    (buildTable t fs).length ≤ t.length + 2 * fs.length := by
  induction fs generalizing t with
  | nil => simp [buildTable]
  | cons f fs ih =>
    have := ih (addString (addString t f.file) f.func)
    have h1 := length_addString t f.file
    have h2 := length_addString (addString t f.file) f.func
    simp only [buildTable, List.length_cons]; omega

theorem getElem?_indexIn {t : List Bytes} {s : Bytes} (h : s ∈ t) : t[indexIn t s]? = some s := by
  have hlt : indexIn t s < t.length := List.findIdx_lt_length_of_exists ⟨s, h, by simp⟩
  rw [List.getElem?_eq_getElem hlt]
  have := List.findIdx_getElem (p := (· == s)) (xs := t) (w := hlt)
  exact congrArg some (eq_of_beq this)

theorem indexIn_le {t : List Bytes} (s : Bytes) : indexIn t s ≤ t.length := List.findIdx_le_length

theorem out_readFrame_write (t : List Bytes) (f : Frame) (rest : Bytes)
    (h1 : f.file ∈ t) (h2 : f.func ∈ t) (ht : t.length ≤ maxUint32) :
    (readFrame t (encFrame t f ++ rest)).out = some (f, rest) := by
  unfold readFrame encFrame
  have hn1 : indexIn t f.file ≤ maxUint32 := le_trans (indexIn_le _) ht
  have hn2 : indexIn t f.func ≤ maxUint32 := le_trans (indexIn_le _) ht
  simp only [List.append_assoc]
  rw [out_bind_some (out_readVarint_write _ _), toNat_ofNat_len hn1, getElem?_indexIn h1]
  simp only
  rw [out_bind_some (out_readVarint_write _ _), toNat_ofNat_len hn2, getElem?_indexIn h2]
  simp only
  rw [out_bind_some (out_readVarint_write _ _)]
  simp

theorem out_readStackFrames_write (fs : List Frame) (rest : Bytes)
    (hlen : fs.length ≤ maxStackFrames)
    (hstr : ∀ f ∈ fs, f.file.length ≤ maxUint32 ∧ f.func.length ≤ maxUint32) :
    (readStackFrames (writeStackFrames fs ++ rest)).out = some (fs, rest) := by
  unfold readStackFrames writeStackFrames
  have hmf : maxStackFrames = 2048 := rfl
  have hmu : maxUint32 = 4294967295 := rfl
  have hfu : fs.length ≤ maxUint32 := by omega
  have hlt : ¬ fs.length > maxStackFrames := by omega
  rw [List.append_assoc, out_bind_some (out_readVarint_write _ _), toNat_ofNat_len hfu]
  simp only [hlt, ↓reduceIte]
  by_cases h0 : fs = []
  · subst h0; simp
  · have hl0 : fs.length ≠ 0 := by simpa using h0
    have h1 : ¬ UInt64.ofNat fs.length = 0 := by rw [ofNat_eq_zero hfu]; exact hl0
    have he : fs.isEmpty = false := by simpa using h0
    simp only [h1, he, ↓reduceIte, Bool.false_eq_true, List.append_assoc]
    have htl := length_buildTable [] fs
    simp only [List.length_nil, Nat.zero_add] at htl
    have htu : (buildTable [] fs).length ≤ maxUint32 := by omega
    rw [out_bind_some (out_readVarint_write _ _), toNat_ofNat_len htu]
    have h3 : ¬ (buildTable [] fs).length > fs.length * 2 := by omega
    simp only [h3, ↓reduceIte]
    rw [out_bind_some (out_alloc _ _)]
    -- every string in the table is one of the strings of the frames
    have htab : ∀ s ∈ buildTable [] fs, s.length ≤ maxUint32 := by
      have key : ∀ (l : List Frame) (t : List Bytes), (∀ s ∈ t, s.length ≤ maxUint32) →
          (∀ f ∈ l, f.file.length ≤ maxUint32 ∧ f.func.length ≤ maxUint32) →
          ∀ s ∈ buildTable t l, s.length ≤ maxUint32 := by
        intro l
        induction l with
        | nil => intro t ht _ s hs; exact ht s hs
        | cons f l ih =>
          intro t ht hl s hs
          refine ih _ ?_ (fun g hg => hl g (by simp [hg])) s hs
          have hf := hl f (by simp)
          have hadd : ∀ (t : List Bytes) (x : Bytes), (∀ s ∈ t, s.length ≤ maxUint32) → x.length ≤ maxUint32 →
              ∀ s ∈ addString t x, s.length ≤ maxUint32 := by
            intro t x ht hx s hs
            unfold addString at hs
            split at hs
            · exact ht s hs
            · rcases List.mem_append.mp hs with h | h
              · exact ht s h
              · simp at h; subst h; exact hx
          exact hadd _ _ (hadd _ _ ht hf.1) hf.2
      exact key fs [] (by simp) hstr
    rw [out_bind_some (out_readN_flatMap readString writeString _ _
      (fun s hs r => out_readString_write s r (htab s hs)))]
    rw [out_bind_some (out_alloc _ _)]
    exact out_readN_flatMap _ _ _ _ fun f hf r =>
      out_readFrame_write _ f r (mem_buildTable hf).1 (mem_buildTable hf).2 htu

end Verif.Wire
