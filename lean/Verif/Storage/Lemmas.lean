import Verif.Storage.Model

namespace Verif.Storage

/-! ### Separators and decimal numbers -/

theorem append_sep_inj {α} {x : α} : ∀ {l₁ l₂ a b : List α}, x ∉ a → x ∉ b → l₁ ++ x :: a = l₂ ++ x :: b →
    l₁ = l₂ ∧ a = b
  | [], [], _, _, _, _, h => by simpa using h
  | [], y :: l₂, a, b, ha, _, h => by
    simp at h
    exact absurd (by rw [h.2]; simp) ha
  | y :: l₁, [], a, b, _, hb, h => by
    simp at h
    exact absurd (by rw [← h.2]; simp) hb
  | y :: l₁, z :: l₂, a, b, ha, hb, h => by
    simp only [List.cons_append, List.cons.injEq] at h
    obtain ⟨h1, h2⟩ := append_sep_inj ha hb h.2
    exact ⟨by rw [h.1, h1], h2⟩

theorem isDigit_itoa {n : Nat} {b : UInt8} (h : b ∈ itoaBytes n) : isDigit b = true := by
  have := itoaBytes_digit n b h
  simp [isDigit, this]

theorem not_mem_itoa {n : Nat} {b : UInt8} (h : isDigit b = false) : b ∉ itoaBytes n := by
  intro hm; rw [isDigit_itoa hm] at h; simp at h

theorem atoi_itoa (n : Nat) : atoi (itoaBytes n) = n := by
  unfold atoi itoaBytes
  rw [List.map_map]
  have : (digits10 n).map ((fun b : UInt8 => b.toNat - 48) ∘ fun d => UInt8.ofNat (48 + d)) = digits10 n := by
    conv => rhs; rw [← List.map_id (digits10 n)]
    apply List.map_congr_left
    intro d hd
    have := digits10_lt n d hd
    simp only [Function.comp_apply, id_eq, UInt8.toNat_ofNat']
    omega
  rw [this, ofDigits10_digits10]

theorem takeWhile_itoa (n : Nat) (r : List UInt8) (h : ∀ b ∈ r.head?, isDigit b = false) :
    (itoaBytes n ++ r).takeWhile isDigit = itoaBytes n ∧ (itoaBytes n ++ r).dropWhile isDigit = r := by
  rw [List.takeWhile_append_of_pos (fun b hb => isDigit_itoa hb),
    List.dropWhile_append_of_pos (fun b hb => isDigit_itoa hb)]
  cases r with
  | nil => simp
  | cons b r =>
    have : isDigit b = false := h b (by simp)
    simp [this]

theorem digitGroup_itoa (n : Nat) (r : List UInt8) (h : ∀ b ∈ r.head?, isDigit b = false) :
    digitGroup (itoaBytes n ++ r) = some (n, r) := by
  obtain ⟨h1, h2⟩ := takeWhile_itoa n r h
  unfold digitGroup
  rw [h1, h2, if_neg (itoaBytes_ne_nil n), atoi_itoa]

theorem parseMarker_marker (a b c : Nat) : parseMarker (marker a b c) = some (a, b, c) := by
  unfold parseMarker marker
  have hp : splitPrefix.isPrefixOf (splitPrefix ++ itoaBytes a ++ 58 :: itoaBytes b ++ 58 :: itoaBytes c) = true := by
    rw [List.isPrefixOf_iff_prefix]
    exact ⟨itoaBytes a ++ (58 :: itoaBytes b ++ 58 :: itoaBytes c), by simp only [List.append_assoc]⟩
  rw [hp]
  simp only [List.append_assoc, ↓reduceIte, List.drop_left, List.cons_append]
  rw [digitGroup_itoa a _ (by simp; decide)]
  simp only [↓reduceIte]
  rw [digitGroup_itoa b _ (by simp; decide)]
  simp only [↓reduceIte]
  have := digitGroup_itoa c [] (by simp)
  rw [List.append_nil] at this
  rw [this]

theorem takeWhile_digits (l : List UInt8) : ∀ x ∈ l.takeWhile isDigit, 48 ≤ x.toNat ∧ x.toNat ≤ 57 := by
  induction l with
  | nil => simp
  | cons y l ih =>
    rw [List.takeWhile_cons]
    split
    · rename_i hy
      intro x hx
      rcases List.mem_cons.mp hx with rfl | hx
      · simpa [isDigit] using hy
      · exact ih x hx
    · simp

theorem digitGroup_some {l r : List UInt8} {n : Nat} (h : digitGroup l = some (n, r)) :
    ∃ d, d ≠ [] ∧ (∀ x ∈ d, 48 ≤ x.toNat ∧ x.toNat ≤ 57) ∧ l = d ++ r := by
  unfold digitGroup at h
  split at h
  · exact absurd h (by simp)
  · rename_i hne
    simp only [Option.some.injEq, Prod.mk.injEq] at h
    refine ⟨_, hne, takeWhile_digits l, ?_⟩
    rw [← h.2, List.takeWhile_append_dropWhile]

/-- Only texts of the reserved form are taken for markers. -/
theorem looks_of_parse {v : Blob} (h : parseMarker v ≠ none) : LooksMarker v := by
  unfold parseMarker at h
  split at h
  case isFalse => exact absurd rfl h
  rename_i hp
  obtain ⟨t, rfl⟩ := List.isPrefixOf_iff_prefix.mp hp
  rw [List.drop_left] at h
  split at h
  case h_2 => exact absurd rfl h
  rename_i a c r h1
  split at h
  case isFalse => exact absurd rfl h
  rename_i hc
  split at h
  case h_2 => exact absurd rfl h
  rename_i b c' r' h2
  split at h
  case isFalse => exact absurd rfl h
  rename_i hc'
  split at h
  case h_2 => exact absurd rfl h
  rename_i d h3
  obtain ⟨x, hx, dx, ex⟩ := digitGroup_some h1
  obtain ⟨y, hy, dy, ey⟩ := digitGroup_some h2
  obtain ⟨z, hz, dz, ez⟩ := digitGroup_some h3
  refine ⟨x, y, z, hx, hy, hz, fun w hw => ?_, ?_⟩
  · rw [List.mem_append, List.mem_append] at hw
    rcases hw with (hw | hw) | hw
    · exact dx w hw
    · exact dy w hw
    · exact dz w hw
  · rw [ex, ey, ez, hc, hc', List.append_nil]; rfl

theorem parse_none {v : Blob} (h : ¬ LooksMarker v) : parseMarker v = none := by
  by_contra hn
  exact h (looks_of_parse hn)

/-- A text that does not begin as a marker does is no marker. -/
theorem not_looks {v : Blob} (h : ¬ splitPrefix <+: v) : ¬ LooksMarker v := by
  rintro ⟨a, b, c, _, _, _, _, e⟩
  exact h ⟨_, e.symm⟩

theorem marker_ne_nil (a b c : Nat) : marker a b c ≠ [] := by
  simp [marker, splitPrefix]

theorem partKey_inj {k k' : Key} {i i' : Nat} (h : partKey k i = partKey k' i') : k = k' ∧ i = i' := by
  unfold partKey at h
  have h' := append_sep_inj (not_mem_itoa (by decide)) (not_mem_itoa (by decide)) h
  exact ⟨List.append_cancel_left h'.1, itoaBytes_injective h'.2⟩

theorem splitPrefix_partKey (k : Key) (i : Nat) : splitPrefix <+: partKey k i :=
  ⟨k ++ 45 :: itoaBytes i, by simp [partKey]⟩

/-! ### Database operations, by key -/

theorem get_delParts_of_ne (db : DB) (k : Key) (n : Nat) (x : Key) (h : ∀ i < n, x ≠ partKey k i) :
    (delParts db k n).get x = db.get x := by
  induction n with
  | zero => rfl
  | succ n ih =>
    rw [delParts, AMap.get_del, if_neg (h n (by omega)), ih fun i hi => h i (by omega)]

theorem get_delParts_part (db : DB) (k : Key) (n i : Nat) (h : i < n) :
    (delParts db k n).get (partKey k i) = none := by
  induction n with
  | zero => omega
  | succ n ih =>
    rw [delParts, AMap.get_del]
    by_cases hi : i = n
    · simp [hi]
    · rw [if_neg (fun h' => hi (partKey_inj h').2), ih (by omega)]

theorem nodup_delParts {db : DB} (h : db.keys.Nodup) (k : Key) (n : Nat) : (delParts db k n).keys.Nodup := by
  induction n with
  | zero => exact h
  | succ n ih => exact AMap.nodup_del ih _

theorem nodup_wipeParts {db : DB} (h : db.keys.Nodup) (k : Key) : (wipeParts db k).keys.Nodup := by
  unfold wipeParts
  split
  · exact h
  · split
    · exact h
    · exact nodup_delParts h _ _

theorem nodup_writeParts {db : DB} (h : db.keys.Nodup) (k : Key) (len parts n i : Nat) (rest : Blob) :
    (writeParts db k len parts n i rest).keys.Nodup := by
  induction n generalizing db i rest with
  | zero => exact h
  | succ n ih => exact ih (AMap.nodup_set h _ _) _ _

/-- Where part `i` starts. -/
def partOff (len parts i : Nat) : Nat := i * (len / parts) + min i (len % parts)

/-- Part `i` of a blob. -/
def piece (parts : Nat) (b : Blob) (i : Nat) : Blob :=
  (b.drop (partOff b.length parts i)).take (partSize b.length parts i)

theorem partOff_succ (len parts i : Nat) : partOff len parts (i + 1) = partOff len parts i + partSize len parts i := by
  unfold partOff partSize
  rw [Nat.succ_mul]
  split <;> omega

theorem partOff_all {len parts : Nat} (h : 0 < parts) : partOff len parts parts = len := by
  unfold partOff
  have h1 := Nat.mod_lt len h
  have h2 := Nat.div_add_mod len parts
  rw [Nat.min_eq_right (by omega)]
  omega

theorem partOff_le (len parts i : Nat) (h : 0 < parts) (hi : i ≤ parts) : partOff len parts i ≤ len := by
  have h2 := Nat.div_add_mod len parts
  unfold partOff
  have h3 : i * (len / parts) ≤ parts * (len / parts) := Nat.mul_le_mul_right _ hi
  have h1 := Nat.mod_lt len h
  omega

theorem flatten_pieces (parts : Nat) (b : Blob) (n : Nat) :
    ((List.range n).map (piece parts b)).flatten = b.take (partOff b.length parts n) := by
  induction n with
  | zero => simp [partOff]
  | succ n ih =>
    rw [List.range_succ, List.map_append, List.flatten_append, ih, partOff_succ, List.take_add]
    simp [piece]

theorem length_piece {parts : Nat} {b : Blob} {i : Nat} (h : 0 < parts) (hi : i < parts) :
    (piece parts b i).length = partSize b.length parts i := by
  have h1 := partOff_le b.length parts (i + 1) h hi
  rw [partOff_succ] at h1
  simp only [piece, List.length_take, List.length_drop]
  omega

theorem get_writeParts_of_ne (db : DB) (k : Key) (len parts n i : Nat) (rest : Blob) (x : Key)
    (h : ∀ j, i ≤ j → j < i + n → x ≠ partKey k j) : (writeParts db k len parts n i rest).get x = db.get x := by
  induction n generalizing db i rest with
  | zero => rfl
  | succ n ih =>
    rw [writeParts, ih _ _ _ fun j hj hj' => h j (by omega) (by omega), AMap.get_set,
      if_neg (h i (by omega) (by omega))]

theorem get_writeParts_part (db : DB) (k : Key) (parts n i : Nat) (b : Blob) (j : Nat) (h1 : i ≤ j) (h2 : j < i + n) :
    (writeParts db k b.length parts n i (b.drop (partOff b.length parts i))).get (partKey k j) =
      some (piece parts b j) := by
  induction n generalizing db i with
  | zero => omega
  | succ n ih =>
    rw [writeParts, List.drop_drop, ← partOff_succ]
    by_cases hj : j = i
    · subst hj
      rw [get_writeParts_of_ne, AMap.get_set, if_pos rfl]
      · rfl
      · intro j' hj' _ he
        have := (partKey_inj he).2
        omega
    · exact ih _ (i + 1) (by omega) (by omega)

theorem readParts_pieces (db : DB) (k : Key) (ps : List Blob) :
    ∀ (i : Nat) (buf : Blob) (room : Nat), (∀ j (h : j < ps.length), db.get (partKey k (i + j)) = some ps[j]) →
      room = ps.flatten.length → readParts db k ps.length i buf room false = some (buf ++ ps.flatten) := by
  induction ps with
  | nil => intro i buf room _ hr; simp [readParts, hr]
  | cons p ps ih =>
    intro i buf room hget hroom
    have h0 := hget 0 (by simp)
    simp only [Nat.add_zero, List.getElem_cons_zero] at h0
    simp only [List.flatten_cons, List.length_append] at hroom
    simp only [List.length_cons, readParts, h0, Bool.false_eq_true, ↓reduceIte]
    have hd : decide (room < p.length) = false := by simp; omega
    rw [hd, ih (i + 1) (buf ++ p.take room) (room - p.length)]
    · rw [List.take_of_length_le (by omega)]; simp
    · intro j hj
      have := hget (j + 1) (by simp; omega)
      simp only [List.getElem_cons_succ] at this
      rw [← this]
      congr 2
      omega
    · omega

theorem numParts_pos {limit len : Nat} (hl : 0 < limit) (h : limit < len) : 2 ≤ numParts limit len := by
  unfold numParts
  have h1 := Nat.div_add_mod len limit
  have h2 : 1 ≤ len / limit := (Nat.one_le_div_iff hl).mpr (by omega)
  split
  · omega
  · rename_i h0
    rcases Nat.lt_or_ge 1 (len / limit) with h3 | h3
    · omega
    · have : len / limit = 1 := by omega
      rw [this] at h1
      omega

theorem len_le_numParts {limit len : Nat} (hl : 0 < limit) : len ≤ numParts limit len * limit := by
  unfold numParts
  have h1 := Nat.div_add_mod len limit
  have h2 := Nat.mod_lt len hl
  split
  · rw [Nat.add_mul, Nat.mul_comm]; omega
  · rw [Nat.add_zero, Nat.mul_comm]; omega

theorem numParts_le {limit len : Nat} (hl : 0 < limit) : numParts limit len ≤ len := by
  unfold numParts
  have h1 := Nat.div_add_mod len limit
  have h3 : len / limit ≤ limit * (len / limit) := Nat.le_mul_of_pos_left _ hl
  split <;> omega

theorem partSize_bounds {limit len : Nat} (hl : 0 < limit) (h : limit < len) (i : Nat) :
    0 < partSize len (numParts limit len) i ∧ partSize len (numParts limit len) i ≤ limit := by
  have h1 := numParts_pos hl h
  have h2 := numParts_le (len := len) hl
  have h3 := len_le_numParts (len := len) hl
  generalize numParts limit len = n at *
  have h4 : 1 ≤ len / n := (Nat.one_le_div_iff (by omega)).mpr h2
  have h5 := Nat.div_add_mod len n
  refine ⟨by unfold partSize; omega, ?_⟩
  unfold partSize
  have h6 : len / n ≤ limit := by
    have : n * (len / n) ≤ n * limit := by rw [Nat.mul_comm n limit] ; rw [Nat.mul_comm] at h3; omega
    exact Nat.le_of_mul_le_mul_left this (by omega)
  split
  · have : n * (len / n) < n * limit := by rw [Nat.mul_comm n limit]; rw [Nat.mul_comm] at h3; omega
    have := Nat.lt_of_mul_lt_mul_left this
    omega
  · omega

/-! ### The simulation for the disk storage -/

/-- Keys that do not collide with the internal records. -/
def goodKey (k : Key) : Prop := ¬ splitPrefix <+: k

/-- Blobs that survive: not empty and not of the form of an internal marker. -/
def goodBlob (b : Blob) : Prop := b ≠ [] ∧ ¬ LooksMarker b

/-- How a live key is represented physically. -/
def Stored (limit : Nat) (db : DB) (k : Key) (b : Blob) : Prop :=
  if b.length ≤ limit then db.get k = some b
  else db.get k = some (marker (numParts limit b.length) b.length b.length) ∧
    ∀ i < numParts limit b.length, db.get (partKey k i) = some (piece (numParts limit b.length) b i)

/-- The relation between the database and the abstract store. -/
structure BR (limit : Nat) (db : DB) (s : AbsStore) : Prop where
  nodup : db.keys.Nodup
  absent : ∀ k, goodKey k → s k = none → db.get k = none
  stored : ∀ k b, s k = some b → goodKey k ∧ goodBlob b ∧ Stored limit db k b
  owned : ∀ x, (db.get x).isSome → goodKey x ∨ ∃ k i b, x = partKey k i ∧ s k = some b ∧
    limit < b.length ∧ i < numParts limit b.length

theorem not_goodKey_partKey (k : Key) (i : Nat) : ¬ goodKey (partKey k i) := fun h => h (splitPrefix_partKey k i)

theorem goodKey_ne_partKey {k : Key} (h : goodKey k) (k' : Key) (i : Nat) : k ≠ partKey k' i := by
  rintro rfl; exact not_goodKey_partKey k' i h

/-- After wiping, no part of `k` is left and nothing else has changed. -/
theorem get_wipeParts {limit : Nat} {db : DB} {s : AbsStore} (R : BR limit db s) {k : Key} (hk : goodKey k) :
    (∀ i, (wipeParts db k).get (partKey k i) = none) ∧
    (∀ x, (∀ i, x ≠ partKey k i) → (wipeParts db k).get x = db.get x) := by
  have hnone : ∀ i, (∀ b, s k = some b → ¬ (limit < b.length ∧ i < numParts limit b.length)) →
      db.get (partKey k i) = none := by
    intro i hi
    by_contra hne
    have hs : (db.get (partKey k i)).isSome := by rwa [Option.isSome_iff_ne_none]
    rcases R.owned _ hs with h | ⟨k', i', b, he, hsk, hlt, hi'⟩
    · exact not_goodKey_partKey k i h
    · obtain ⟨rfl, rfl⟩ := partKey_inj he
      exact hi b hsk ⟨hlt, hi'⟩
  unfold wipeParts
  cases hs : s k with
  | none =>
    rw [R.absent k hk hs]
    exact ⟨fun i => hnone i (by simp [hs]), fun x _ => rfl⟩
  | some b =>
    obtain ⟨_, hb, hst⟩ := R.stored k b hs
    unfold Stored at hst
    split at hst
    · rw [hst]
      simp only [parse_none hb.2]
      refine ⟨fun i => hnone i fun b' hb' => ?_, fun x _ => trivial⟩
      rw [hs] at hb'
      obtain rfl := Option.some.inj hb'
      omega
    · rw [hst.1]
      simp only [parseMarker_marker]
      refine ⟨fun i => ?_, fun x hx => get_delParts_of_ne _ _ _ _ fun i _ => hx i⟩
      by_cases hi : i < numParts limit b.length
      · exact get_delParts_part _ _ _ _ hi
      · rw [get_delParts_of_ne]
        · refine hnone i fun b' hb' => ?_
          rw [hs] at hb'
          obtain rfl := Option.some.inj hb'
          omega
        · intro j hj he
          have := (partKey_inj he).2
          omega

/-- A live key other than `k` keeps its records when only `k` and parts of `k` change. -/
theorem Stored.frame {limit : Nat} {db db' : DB} {k x : Key} {b : Blob} (hst : Stored limit db x b) (hx : goodKey x)
    (hk : goodKey k) (hne : x ≠ k) (h : ∀ y, y ≠ k → (∀ i, y ≠ partKey k i) → db'.get y = db.get y) :
    Stored limit db' x b := by
  unfold Stored at hst ⊢
  have h1 : db'.get x = db.get x := h x hne fun i => goodKey_ne_partKey hx k i
  split at hst
  · rename_i hb; rw [if_pos hb, h1]; exact hst
  · rename_i hb
    rw [if_neg hb, h1]
    refine ⟨hst.1, fun i hi => ?_⟩
    rw [h _ (goodKey_ne_partKey hk x i).symm fun j he => hne (partKey_inj he).1]
    exact hst.2 i hi

theorem BR.empty (limit : Nat) : BR limit [] AbsStore.empty :=
  ⟨List.nodup_nil, fun _ _ _ => rfl, fun k b h => by simp [AbsStore.empty] at h, fun x h => by simp at h⟩

/-- What saving does to every physical record. -/
theorem get_dbSave {limit : Nat} {db : DB} {s : AbsStore} (R : BR limit db s) {k : Key} (hk : goodKey k) (b : Blob) :
    Stored limit (dbSave limit db k b) k b ∧
    (∀ x, x ≠ k → (∀ i, x ≠ partKey k i) → (dbSave limit db k b).get x = db.get x) ∧
    (∀ i, ((dbSave limit db k b).get (partKey k i)).isSome → limit < b.length ∧ i < numParts limit b.length) := by
  obtain ⟨hw1, hw2⟩ := get_wipeParts R hk
  unfold dbSave Stored
  by_cases hb : b.length ≤ limit
  · simp only [hb, ↓reduceIte]
    refine ⟨by rw [AMap.get_set, if_pos rfl], fun x hx hx' => ?_, fun i hi => ?_⟩
    · rw [AMap.get_set, if_neg hx, hw2 x hx']
    · rw [AMap.get_set, if_neg (goodKey_ne_partKey hk k i).symm, hw1] at hi
      simp at hi
  · simp only [hb, ↓reduceIte]
    have hz : b = b.drop (partOff b.length (numParts limit b.length) 0) := by simp [partOff]
    refine ⟨⟨by rw [AMap.get_set, if_pos rfl], fun i hi => ?_⟩, fun x hx hx' => ?_, fun i hi => ?_⟩
    · rw [AMap.get_set, if_neg (goodKey_ne_partKey hk k i).symm]
      have := get_writeParts_part (wipeParts db k) k (numParts limit b.length) (numParts limit b.length) 0 b i
        (by omega) (by omega)
      rwa [← hz] at this
    · rw [AMap.get_set, if_neg hx, get_writeParts_of_ne _ _ _ _ _ _ _ _ (fun j _ _ => hx' j), hw2 x hx']
    · refine ⟨by omega, ?_⟩
      by_contra hlt
      rw [AMap.get_set, if_neg (goodKey_ne_partKey hk k i).symm, get_writeParts_of_ne, hw1] at hi
      · simp at hi
      · intro j _ hj he
        have := (partKey_inj he).2
        omega

theorem BR.save {limit : Nat} {db : DB} {s : AbsStore} (R : BR limit db s) {k : Key} (hk : goodKey k) {b : Blob}
    (hb : goodBlob b) : BR limit (dbSave limit db k b) (absStep s (.save k b)) := by
  obtain ⟨h1, h2, h3⟩ := get_dbSave R hk b
  refine ⟨?_, ?_, ?_, ?_⟩
  · unfold dbSave
    simp only
    split
    · exact AMap.nodup_set (nodup_wipeParts R.nodup k) _ _
    · exact AMap.nodup_set (nodup_writeParts (nodup_wipeParts R.nodup k) _ _ _ _ _ _) _ _
  · intro x hx hsx
    simp only [absStep] at hsx
    split at hsx
    · simp at hsx
    · rename_i hne
      rw [h2 x hne fun i => goodKey_ne_partKey hx k i]
      exact R.absent x hx hsx
  · intro x b' hsx
    simp only [absStep] at hsx
    split at hsx
    · rename_i he
      obtain rfl := Option.some.inj hsx
      subst he
      exact ⟨hk, hb, h1⟩
    · rename_i hne
      obtain ⟨g1, g2, g3⟩ := R.stored x b' hsx
      exact ⟨g1, g2, g3.frame g1 hk hne h2⟩
  · intro x hx
    by_cases hxk : x = k
    · subst hxk; exact .inl hk
    · by_cases hp : ∃ i, x = partKey k i
      · obtain ⟨i, rfl⟩ := hp
        obtain ⟨h4, h5⟩ := h3 i hx
        exact .inr ⟨k, i, b, rfl, by simp [absStep], h4, h5⟩
      · have hp' : ∀ i, x ≠ partKey k i := fun i he => hp ⟨i, he⟩
        rw [h2 x hxk hp'] at hx
        rcases R.owned x hx with h | ⟨k', i, b', rfl, hs, h4, h5⟩
        · exact .inl h
        · refine .inr ⟨k', i, b', rfl, ?_, h4, h5⟩
          have : k' ≠ k := by rintro rfl; exact hp' i rfl
          simp [absStep, this, hs]

theorem get_dbDelete {limit : Nat} {db : DB} {s : AbsStore} (R : BR limit db s) {k : Key} (hk : goodKey k) :
    (dbDelete db k).get k = none ∧ (∀ i, (dbDelete db k).get (partKey k i) = none) ∧
    (∀ x, x ≠ k → (∀ i, x ≠ partKey k i) → (dbDelete db k).get x = db.get x) := by
  obtain ⟨hw1, hw2⟩ := get_wipeParts R hk
  unfold dbDelete
  cases hg : db.get k with
  | none =>
    have hwp : wipeParts db k = db := by simp [wipeParts, hg]
    rw [hwp] at hw1
    exact ⟨hg, hw1, fun _ _ _ => rfl⟩
  | some v =>
    refine ⟨by rw [AMap.get_del, if_pos rfl], fun i => ?_, fun x hx hx' => ?_⟩
    · rw [AMap.get_del, if_neg (goodKey_ne_partKey hk k i).symm, hw1]
    · rw [AMap.get_del, if_neg hx, hw2 x hx']

theorem BR.delete {limit : Nat} {db : DB} {s : AbsStore} (R : BR limit db s) {k : Key} (hk : goodKey k) :
    BR limit (dbDelete db k) (absStep s (.delete k)) := by
  obtain ⟨h0, h1, h2⟩ := get_dbDelete R hk
  refine ⟨?_, ?_, ?_, ?_⟩
  · unfold dbDelete
    split
    · exact R.nodup
    · exact AMap.nodup_del (nodup_wipeParts R.nodup k) _
  · intro x hx hsx
    by_cases hxk : x = k
    · subst hxk; exact h0
    · rw [h2 x hxk fun i => goodKey_ne_partKey hx k i]
      refine R.absent x hx ?_
      simpa [absStep, hxk] using hsx
  · intro x b' hsx
    simp only [absStep] at hsx
    split at hsx
    · simp at hsx
    · rename_i hne
      obtain ⟨g1, g2, g3⟩ := R.stored x b' hsx
      exact ⟨g1, g2, g3.frame g1 hk hne h2⟩
  · intro x hx
    by_cases hxk : x = k
    · subst hxk; exact .inl hk
    · by_cases hp : ∃ i, x = partKey k i
      · obtain ⟨i, rfl⟩ := hp
        rw [h1] at hx
        simp at hx
      · have hp' : ∀ i, x ≠ partKey k i := fun i he => hp ⟨i, he⟩
        rw [h2 x hxk hp'] at hx
        rcases R.owned x hx with h | ⟨k', i, b', rfl, hs, h4, h5⟩
        · exact .inl h
        · refine .inr ⟨k', i, b', rfl, ?_, h4, h5⟩
          have : k' ≠ k := by rintro rfl; exact hp' i rfl
          simp [absStep, this, hs]

/-- Reading the parts that `Stored` describes gives the blob back. -/
theorem readParts_stored {limit : Nat} (hl : 0 < limit) {db : DB} {k : Key} {b : Blob} (hb : limit < b.length)
    (h : ∀ i < numParts limit b.length, db.get (partKey k i) = some (piece (numParts limit b.length) b i)) :
    readParts db k (numParts limit b.length) 0 [] b.length false = some b := by
  have hpos := numParts_pos hl hb
  have hfl := flatten_pieces (numParts limit b.length) b (numParts limit b.length)
  rw [partOff_all (by omega), List.take_length] at hfl
  have := readParts_pieces db k ((List.range (numParts limit b.length)).map (piece (numParts limit b.length) b)) 0 []
    b.length (by
      intro j hj
      simp only [List.length_map, List.length_range] at hj
      simp only [Nat.zero_add, List.getElem_map, List.getElem_range]
      exact h j hj) (by rw [hfl])
  rwa [List.length_map, List.length_range, hfl, List.nil_append] at this

theorem dbLoad_eq {limit : Nat} (hl : 0 < limit) {db : DB} {s : AbsStore} (R : BR limit db s) {k : Key}
    (hk : goodKey k) : dbLoad2 db db k = .blob (s k) := by
  unfold dbLoad2
  cases hs : s k with
  | none => rw [R.absent k hk hs]
  | some b =>
    obtain ⟨_, hb, hst⟩ := R.stored k b hs
    unfold Stored at hst
    split at hst
    · rw [hst]
      cases b with
      | nil => exact absurd rfl hb.1
      | cons x b => simp [parse_none hb.2]
    · rename_i hlen
      rw [hst.1]
      have hne := marker_ne_nil (numParts limit b.length) b.length b.length
      cases hm : marker (numParts limit b.length) b.length b.length with
      | nil => exact absurd hm hne
      | cons x m =>
        have hpm := parseMarker_marker (numParts limit b.length) b.length b.length
        rw [hm] at hpm
        simp only [hpm]
        rw [readParts_stored hl (by omega) hst.2]

theorem BR.list {limit : Nat} {db : DB} {s : AbsStore} (R : BR limit db s) (p : List UInt8) :
    ∃ ks, Resp.keys (db.keys.filter fun k => p.isPrefixOf k && !splitPrefix.isPrefixOf k) = .keys ks ∧ ks.Nodup ∧
      ∀ k, k ∈ ks ↔ (p <+: k ∧ (s k).isSome) := by
  refine ⟨_, rfl, R.nodup.filter _, fun k => ?_⟩
  rw [List.mem_filter, AMap.mem_keys]
  simp only [Bool.and_eq_true, List.isPrefixOf_iff_prefix, Bool.not_eq_true', ← Bool.not_eq_true]
  constructor
  · rintro ⟨h1, h2, h3⟩
    refine ⟨h2, ?_⟩
    rw [Option.isSome_iff_ne_none]
    intro h0
    rw [R.absent k h3 h0] at h1
    simp at h1
  · rintro ⟨h1, h2⟩
    obtain ⟨b, hb⟩ := Option.isSome_iff_exists.mp h2
    obtain ⟨g1, g2, g3⟩ := R.stored k b hb
    refine ⟨?_, h1, g1⟩
    unfold Stored at g3
    split at g3
    · simp [g3]
    · simp [g3.1]

/-- Operations the disk storage handles faithfully. -/
def goodOp : Op → Prop
  | .save k b => goodKey k ∧ goodBlob b
  | .load k => goodKey k
  | .delete k => goodKey k
  | .list _ => True
  | .clear => True

/-- The disk storage simulates the abstract store on good operations. -/
def badgerSim (limit : Nat) (hl : 0 < limit) : Sim (badgerStorage limit) goodOp where
  R := BR limit
  init := BR.empty limit
  resp := by
    intro db s o R hg
    cases o with
    | save k b => rfl
    | load k => exact dbLoad_eq hl R hg
    | delete k => rfl
    | list p => exact R.list p
    | clear => rfl
  step := by
    intro db s o R hg
    cases o with
    | save k b => exact R.save hg.1 hg.2
    | load k => exact R
    | delete k => exact R.delete hg
    | list p => exact R
    | clear => exact BR.empty limit

/-- The in-memory storage simulates the abstract store on all operations. -/
def memSim : Sim memStorage (fun _ => True) where
  R := fun (m : AMap Key Blob) s => m.keys.Nodup ∧ ∀ k, m.get k = s k
  init := ⟨List.nodup_nil, fun _ => rfl⟩
  resp := by
    rintro (m : AMap Key Blob) s o ⟨h1, h2⟩ -
    cases o with
    | save k b => rfl
    | load k => exact congrArg Resp.blob (h2 k)
    | delete k => rfl
    | list p =>
      refine ⟨_, rfl, h1.filter _, fun k => ?_⟩
      rw [List.mem_filter, AMap.mem_keys, List.isPrefixOf_iff_prefix, h2]
      exact And.comm
    | clear => rfl
  step := by
    rintro (m : AMap Key Blob) s o ⟨h1, h2⟩ -
    cases o with
    | save k b => exact ⟨AMap.nodup_set h1 _ _, fun x => by
        show (AMap.set m k b).get x = _
        rw [AMap.get_set, h2]; rfl⟩
    | load k => exact ⟨h1, h2⟩
    | delete k => exact ⟨AMap.nodup_del h1 _, fun x => by
        show (AMap.del m k).get x = _
        rw [AMap.get_del, h2]; rfl⟩
    | list p => exact ⟨h1, h2⟩
    | clear => exact ⟨List.nodup_nil, fun _ => rfl⟩

/-! ### The prefix wrapper -/

theorem trimPrefix_append (p k : List UInt8) : trimPrefix p (p ++ k) = k := by
  unfold trimPrefix
  rw [if_pos (by rw [List.isPrefixOf_iff_prefix]; exact List.prefix_append _ _), List.drop_left]

/-- What a wrapper sees of the backing store. -/
def viewOf (pre : List UInt8) (s : AbsStore) : AbsStore := fun k => s (pre ++ k)

/-- Prefixes (with separator) that never start the same key. -/
def Disjoint (p q : List UInt8) : Prop := ∀ a b, p ++ a ≠ q ++ b

/-- Deleting through one wrapper: the keys are gone from its view, other views are untouched. -/
theorem deleteAll_ok {I : Impl} {good : Op → Prop} (S : Sim I good) (pre : List UInt8)
    (hgd : ∀ k, good (.delete (pre ++ k))) (ks : List Key) :
    ∀ st s, S.R st s → ∃ s', S.R (deleteAll I pre st ks).1 s' ∧ (deleteAll I pre st ks).2 = .ok ∧
      (∀ k, viewOf pre s' k = if k ∈ ks then none else viewOf pre s k) ∧
      (∀ x, (∀ k, x ≠ pre ++ k) → s' x = s x) := by
  induction ks with
  | nil => intro st s R; exact ⟨s, R, rfl, by simp, fun _ _ => rfl⟩
  | cons k ks ih =>
    intro st s R
    have h1 := S.resp st s (.delete (pre ++ k)) R (hgd k)
    have h2 := S.step st s (.delete (pre ++ k)) R (hgd k)
    simp only [RespOK] at h1
    have hd : deleteAll I pre st (k :: ks) = deleteAll I pre (I.step st (.delete (pre ++ k))).1 ks := by
      rw [deleteAll]
      have : I.step st (.delete (pre ++ k)) = ((I.step st (.delete (pre ++ k))).1, Resp.ok) := by rw [← h1]
      rw [this]
    rw [hd]
    obtain ⟨s', g1, g2, g3, g4⟩ := ih _ _ h2
    refine ⟨s', g1, g2, fun x => ?_, fun x hx => ?_⟩
    · rw [g3 x]
      simp only [viewOf, absStep, List.mem_cons]
      by_cases hx : x ∈ ks
      · simp [hx]
      · by_cases hxk : x = k
        · simp [hxk]
        · simp [hx, hxk]
    · rw [g4 x hx]
      simp [absStep, hx k]

/-- One call through a wrapper behaves as a call on a map of its own and leaves disjoint keys alone. -/
theorem prefixStep_ok {I : Impl} {good : Op → Prop} (S : Sim I good) (pre : List UInt8) (o : Op)
    (hgs : ∀ k b, o = .save k b → good (.save (pre ++ k) b)) (hgl : ∀ k, good (.load (pre ++ k)))
    (hgd : ∀ k, good (.delete (pre ++ k))) (hgp : ∀ p, good (.list p)) (st : I.σ) (s : AbsStore) (R : S.R st s) :
    RespOK (viewOf pre s) o (prefixStep I pre st o).2 ∧
    ∃ s', S.R (prefixStep I pre st o).1 s' ∧ (∀ k, viewOf pre s' k = absStep (viewOf pre s) o k) ∧
      (∀ x, (∀ k, x ≠ pre ++ k) → s' x = s x) := by
  cases o with
  | save k b =>
    have hg := hgs k b rfl
    refine ⟨S.resp st s _ R hg, _, S.step st s _ R hg, fun x => ?_, fun x hx => ?_⟩
    · simp [viewOf, absStep]
    · simp [absStep, hx k]
  | load k =>
    exact ⟨S.resp st s _ R (hgl k), _, S.step st s _ R (hgl k), fun x => rfl, fun x hx => rfl⟩
  | delete k =>
    refine ⟨S.resp st s _ R (hgd k), _, S.step st s _ R (hgd k), fun x => ?_, fun x hx => ?_⟩
    · simp [viewOf, absStep]
    · simp [absStep, hx k]
  | list p =>
    obtain ⟨ks, hr, hnd, hmem⟩ := S.resp st s (.list (pre ++ p)) R (hgp _)
    have hst : I.step st (.list (pre ++ p)) = ((I.step st (.list (pre ++ p))).1, Resp.keys ks) := by rw [← hr]
    have h1 : prefixStep I pre st (.list p) =
        ((I.step st (.list (pre ++ p))).1, .keys (ks.map (trimPrefix pre))) := by
      simp only [prefixStep]; rw [hst]
    rw [h1]
    have hall : ∀ k ∈ ks, ∃ k', k = pre ++ k' := by
      intro k hk
      obtain ⟨t, ht⟩ := ((hmem k).mp hk).1
      exact ⟨p ++ t, by rw [← ht]; simp⟩
    refine ⟨⟨_, rfl, ?_, fun k => ?_⟩, _, S.step st s _ R (hgp _), fun x => rfl, fun x _ => rfl⟩
    · refine List.Nodup.map_on ?_ hnd
      intro a ha b hb hab
      obtain ⟨a', rfl⟩ := hall a ha
      obtain ⟨b', rfl⟩ := hall b hb
      rw [trimPrefix_append, trimPrefix_append] at hab
      rw [hab]
    · rw [List.mem_map]
      constructor
      · rintro ⟨a, ha, rfl⟩
        obtain ⟨a', rfl⟩ := hall a ha
        rw [trimPrefix_append]
        obtain ⟨h2, h3⟩ := (hmem _).mp ha
        exact ⟨(List.prefix_append_right_inj _).mp h2, h3⟩
      · rintro ⟨h2, h3⟩
        exact ⟨pre ++ k, (hmem _).mpr ⟨(List.prefix_append_right_inj _).mpr h2, h3⟩, trimPrefix_append _ _⟩
  | clear =>
    obtain ⟨ks, hr, hnd, hmem⟩ := S.resp st s (.list (pre ++ [])) R (hgp _)
    have hst : I.step st (.list (pre ++ [])) = ((I.step st (.list (pre ++ []))).1, Resp.keys ks) := by rw [← hr]
    have h1 : prefixStep I pre st .clear =
        deleteAll I pre (I.step st (.list (pre ++ []))).1 (ks.map (trimPrefix pre)) := by
      simp only [prefixStep]; rw [hst]
    rw [h1]
    obtain ⟨s', g1, g2, g3, g4⟩ := deleteAll_ok S pre hgd (ks.map (trimPrefix pre)) _ _ (S.step st s _ R (hgp _))
    refine ⟨g2, s', g1, fun k => ?_, g4⟩
    rw [g3 k]
    show (if k ∈ ks.map (trimPrefix pre) then none else viewOf pre s k) = none
    split
    · rfl
    · rename_i hk
      by_contra hne
      have : (s (pre ++ k)).isSome := by rw [Option.isSome_iff_ne_none]; exact hne
      exact hk (List.mem_map.mpr ⟨pre ++ k, (hmem _).mpr ⟨by simp, this⟩, trimPrefix_append _ _⟩)

/-- Deleting a list of keys through the wrapper, and deleting them directly. -/
theorem deleteAll_direct (I : Impl) (pre : List UInt8) : ∀ (ks : List Key) (st : I.σ), (∀ k ∈ ks, pre <+: k) →
    ((deleteAll I pre st (ks.map (trimPrefix pre))).2 = .ok ↔ ∀ e ∈ I.run st (ks.map .delete), e.2 ≠ .error) ∧
    ((deleteAll I pre st (ks.map (trimPrefix pre))).2 = .ok →
      (deleteAll I pre st (ks.map (trimPrefix pre))).1 = I.final st (ks.map .delete))
  | [], st, _ => by simp [deleteAll, Impl.run, Impl.final]
  | k :: ks, st, h => by
    have hk : pre ++ trimPrefix pre k = k := by
      obtain ⟨t, rfl⟩ := h k (by simp)
      unfold trimPrefix
      rw [if_pos (List.isPrefixOf_iff_prefix.mpr ⟨t, rfl⟩), List.drop_left]
    have ih := deleteAll_direct I pre ks (I.step st (.delete k)).1 fun x hx => h x (List.mem_cons_of_mem _ hx)
    rw [List.map_cons, List.map_cons, deleteAll, hk]
    simp only [Impl.run, Impl.final, List.forall_mem_cons]
    rcases hs : I.step st (.delete k) with ⟨st', r⟩
    rw [hs] at ih
    cases r with
    | error => simp
    | ok => simpa using ih
    | blob b => simpa using ih
    | keys b => simpa using ih

end Verif.Storage
