import Verif.Budget.Spec
import Verif.Storage.Lemmas

namespace Verif.Budget

open Verif.Storage (Key Blob DB Op numParts partSize partKey marker parseMarker delParts wipeParts writeParts dbSave dbDelete splitPrefix goodKey badgerStep badgerStorage)

theorem digits_len : ∀ (d n : Nat), n < 10 ^ (d + 1) → (digits10 n).length ≤ d + 1
  | 0, n, h => by
    rw [digits10, if_pos (by simpa using h)]; simp
  | d + 1, n, h => by
    rw [digits10]
    split
    · simp
    · rw [List.length_append]
      have := digits_len d (n / 10) (by rw [Nat.div_lt_iff_lt_mul (by omega)]; rw [Nat.pow_succ] at h; exact h)
      simp only [List.length_cons, List.length_nil]
      omega

theorem itoa_len {d n : Nat} (h : n < 10 ^ (d + 1)) : (itoaBytes n).length ≤ d + 1 := by
  unfold itoaBytes
  rw [List.length_map]
  exact digits_len d n h

theorem partKey_len {k : Key} {i : Nat} (h : i < 10000) : (partKey k i).length ≤ k.length + 18 := by
  have := itoa_len (d := 3) (n := i) (by omega)
  unfold partKey
  simp only [List.length_append, List.length_cons, splitPrefix, List.length_nil]
  omega

theorem accepted_of {table log : Nat} {acts : List Act} (he : ∀ a ∈ acts, EntryOk log a) (hc : 1 + acts.length < maxBatchCount table)
    (hs : 21 + (acts.map Act.size).sum < maxBatchSize table) : Accepted table log acts := by
  rintro b a r rfl
  simp only [List.length_append, List.length_cons, List.map_append, List.map_cons, List.sum_append, List.sum_cons] at hc hs
  exact ⟨he a (by simp), by omega, by omega⟩

theorem sum_le {acts : List Act} {c : Nat} (h : ∀ a ∈ acts, a.size ≤ c) : (acts.map Act.size).sum ≤ acts.length * c := by
  induction acts with
  | nil => simp
  | cons a l ih =>
    simp only [List.map_cons, List.sum_cons, List.length_cons, Nat.succ_mul]
    have := ih fun a ha => h a (by simp [ha])
    have := h a (by simp)
    omega

theorem size_any (a : Act) : a.size ≤ a.key.length + 1048588 := by
  unfold Act.size threshold
  split <;> omega

theorem size_le (a : Act) : a.size ≤ a.key.length + a.value.length + 24 := by
  unfold Act.size threshold
  split <;> omega

theorem size_large {a : Act} (h : 1048576 ≤ a.value.length) : a.size = a.key.length + 24 := by
  unfold Act.size threshold
  rw [if_neg (by omega)]

theorem partActs_length (k : Key) (len parts : Nat) : ∀ (n i : Nat) (rest : Blob), (partActs k len parts n i rest).length = n
  | 0, _, _ => rfl
  | n + 1, i, rest => by simp [partActs, partActs_length k len parts n]

/-- The parts have the sizes they should have. -/
theorem partActs_mem {k : Key} {len parts : Nat} : ∀ {n i : Nat} {rest : Blob} {a : Act}, a ∈ partActs k len parts n i rest →
    Verif.Storage.partOff len parts i + rest.length = len → Verif.Storage.partOff len parts (i + n) ≤ len →
    ∃ j v, i ≤ j ∧ j < i + n ∧ a = .put (partKey k j) v ∧ v.length = partSize len parts j
  | 0, _, _, _, h, _, _ => by simp [partActs] at h
  | n + 1, i, rest, a, h, hl, hn => by
    have hs := Verif.Storage.partOff_succ len parts i
    have hmono : ∀ x y, Verif.Storage.partOff len parts x ≤ Verif.Storage.partOff len parts (x + y) := by
      intro x y
      induction y with
      | zero => exact Nat.le_refl _
      | succ y ih => have := Verif.Storage.partOff_succ len parts (x + y); rw [← Nat.add_assoc, this]; omega
    have h1 : Verif.Storage.partOff len parts (i + 1) ≤ len := by
      have := hmono (i + 1) n
      rw [show i + 1 + n = i + (n + 1) by omega] at this
      omega
    simp only [partActs, List.mem_cons] at h
    rcases h with rfl | h
    · exact ⟨i, _, Nat.le_refl _, by omega, rfl, by rw [List.length_take]; omega⟩
    · obtain ⟨j, v, a1, a2, a3, a4⟩ := partActs_mem h (by rw [List.length_drop]; omega) (by rw [show i + 1 + n = i + (n + 1) by omega]; exact hn)
      exact ⟨j, v, by omega, by omega, a3, a4⟩

/-- No part is small. -/
theorem partSize_ge {limit len : Nat} (hl : 0 < limit) (h : limit < len) (i : Nat) : limit / 2 ≤ partSize len (numParts limit len) i := by
  have h1 := Nat.div_add_mod len limit
  have h2 : 1 ≤ len / limit := (Nat.one_le_div_iff hl).mpr (by omega)
  have hp := Verif.Storage.numParts_pos hl h
  have hle : numParts limit len ≤ len / limit + 1 := by unfold numParts; split <;> omega
  have : limit / 2 ≤ len / numParts limit len := by
    rw [Nat.le_div_iff_mul_le (by omega)]
    have e1 : limit / 2 * numParts limit len ≤ limit / 2 * (len / limit + 1) := Nat.mul_le_mul_left _ hle
    have e2 : limit / 2 * (len / limit + 1) ≤ limit / 2 * (2 * (len / limit)) := Nat.mul_le_mul_left _ (by omega)
    have e3 : limit / 2 * (2 * (len / limit)) = (limit / 2 * 2) * (len / limit) := by ring
    have e4 : (limit / 2 * 2) * (len / limit) ≤ limit * (len / limit) := Nat.mul_le_mul_right _ (by omega)
    omega
  unfold partSize
  omega

/-- The transaction does what `dbSave` says. -/
theorem wipeActs_apply (db : DB) (k : Key) : (wipeActs db k).foldl Act.apply db = wipeParts db k := by
  unfold wipeActs wipeParts
  cases db.get k with
  | none => rfl
  | some v =>
    simp only
    cases parseMarker v with
    | none => rfl
    | some t =>
      obtain ⟨n, x, y⟩ := t
      simp only
      induction n with
      | zero => rfl
      | succ n ih => rw [List.range_succ, List.map_append, List.foldl_append, ih]; rfl

theorem partActs_apply (k : Key) (len parts : Nat) : ∀ (n i : Nat) (rest : Blob) (db : DB),
    (partActs k len parts n i rest).foldl Act.apply db = writeParts db k len parts n i rest
  | 0, _, _, _ => rfl
  | n + 1, i, rest, db => by simp only [partActs, List.foldl_cons, partActs_apply k len parts n, writeParts, Act.apply]

theorem saveActs_apply (limit : Nat) (db : DB) (k : Key) (b : Blob) : (saveActs limit db k b).foldl Act.apply db = dbSave limit db k b := by
  unfold saveActs dbSave
  rw [List.foldl_append, wipeActs_apply]
  split
  · rfl
  · rw [List.foldl_append, partActs_apply]
    rfl

/-! ### How many parts there are -/

/-- No marker counts more than 129 parts. -/
def Few (db : DB) : Prop := ∀ x v n y z, goodKey x → db.get x = some v → parseMarker v = some (n, y, z) → n ≤ 129

theorem few_of_sub {db db' : DB} (h : Few db) (hs : ∀ x v, goodKey x → db'.get x = some v → db.get x = some v) : Few db' :=
  fun x v n y z hx hg hm => h x v n y z hx (hs x v hx hg) hm

theorem wipe_get {db : DB} {k x : Key} (hx : goodKey x) : (wipeParts db k).get x = db.get x := by
  unfold wipeParts
  cases db.get k with
  | none => rfl
  | some v =>
    simp only
    cases parseMarker v with
    | none => rfl
    | some t => exact Verif.Storage.get_delParts_of_ne _ _ _ _ fun i _ => Verif.Storage.goodKey_ne_partKey hx k i

theorem numParts_few {len : Nat} (h : len ≤ 137438953472) : numParts splitLimit len ≤ 129 := by
  unfold numParts splitLimit
  split <;> omega

theorem save_get {db : DB} {k x : Key} {b : Blob} (hx : goodKey x) :
    (dbSave splitLimit db k b).get x = if x = k then some (if b.length ≤ splitLimit then b else marker (numParts splitLimit b.length) b.length b.length)
      else db.get x := by
  unfold dbSave
  simp only
  split
  · rw [AMap.get_set, wipe_get hx]
  · rw [AMap.get_set, Verif.Storage.get_writeParts_of_ne _ _ _ _ _ _ _ _ fun j _ _ => Verif.Storage.goodKey_ne_partKey hx k j, wipe_get hx]

theorem few_step {db : DB} {o : Op} (h : Few db) (ho : Usual o) : Few (badgerStep splitLimit db o).1 := by
  cases o with
  | save k b =>
    intro x v n y z hx hg hm
    simp only [badgerStep] at hg
    rw [save_get hx] at hg
    obtain ⟨-, -, -, -, hb, hlen⟩ := ho
    split at hg
    · rw [Option.some.injEq] at hg
      split at hg
      · rw [← hg, hb] at hm; cases hm
      · rw [← hg, Verif.Storage.parseMarker_marker, Option.some.injEq, Prod.mk.injEq] at hm
        rw [← hm.1]
        exact numParts_few hlen
    · exact h x v n y z hx hg hm
  | load k => exact h
  | list p => exact h
  | clear => intro x v n y z _ hg; simp [badgerStep] at hg
  | delete k =>
    refine few_of_sub h fun x v hx hg => ?_
    simp only [badgerStep, dbDelete] at hg
    cases hk : db.get k with
    | none => rw [hk] at hg; exact hg
    | some w =>
      rw [hk] at hg
      simp only at hg
      rw [AMap.get_del] at hg
      split at hg
      · cases hg
      · rwa [wipe_get hx] at hg

theorem few_final : ∀ (ops : List Op) (db : DB), Few db → (∀ o ∈ ops, Usual o) → Few ((badgerStorage splitLimit).final db ops)
  | [], _, h, _ => h
  | o :: os, db, h, ho => few_final os _ (few_step h (ho o (by simp))) fun x hx => ho x (by simp [hx])

theorem wipeActs_mem {db : DB} {k : Key} (h : Few db) (hk : goodKey k) :
    (wipeActs db k).length ≤ 129 ∧ ∀ a ∈ wipeActs db k, ∃ i < 129, a = .del (partKey k i) := by
  unfold wipeActs
  cases hg : db.get k with
  | none => simp
  | some v =>
    simp only
    cases hm : parseMarker v with
    | none => simp
    | some t =>
      obtain ⟨n, x, y⟩ := t
      have := h k v n x y hk hg hm
      simp only [List.length_map, List.length_range, List.mem_map, List.mem_range]
      refine ⟨this, ?_⟩
      rintro a ⟨i, hi, rfl⟩
      exact ⟨i, by omega, rfl⟩

theorem free_partKey (k : Key) (i : Nat) : ¬ ("!badger!".toUTF8.toList <+: partKey k i) := by
  have : "!badger!".toUTF8.toList = [33, 98, 97, 100, 103, 101, 114, 33] := by decide +kernel
  rw [this]
  rintro ⟨r, h⟩
  simp [partKey, splitPrefix] at h

end Verif.Budget
