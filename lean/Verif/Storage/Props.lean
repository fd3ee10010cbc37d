import Verif.Storage.Lemmas

/-! Property theorems C01–C06. -/

namespace Verif.Storage

/-! ## C01 -/

/-- C01: every history on the in-memory storage is a history of a map. -/
theorem C01_mem_is_map (ops : List Op) : Conforms AbsStore.empty (memStorage.run memStorage.init ops) :=
  memSim.conforms ops (fun _ _ => trivial) _ _ memSim.init

/-- C01: after any history, loading a key returns the blob of its last save not followed by a delete or clear. -/
theorem C01_mem_load_last (ops : List Op) (k : Key) :
    (memStorage.step (memStorage.final memStorage.init ops) (.load k)).2 = .blob (absFinal AbsStore.empty ops k) :=
  memSim.resp _ _ (.load k) (memSim.final ops (fun _ _ => trivial) _ _ memSim.init) trivial

example : memStorage.run memStorage.init [.save [1] [7], .save [1, 2] [8], .save [1] [9], .delete [1, 2], .load [1],
    .load [1, 2], .list [1]] =
    [(.save [1] [7], .ok), (.save [1, 2] [8], .ok), (.save [1] [9], .ok), (.delete [1, 2], .ok),
     (.load [1], .blob (some [9])), (.load [1, 2], .blob none), (.list [1], .keys [[1]])] := by decide +kernel

/-! ## C02 -/

/-- The map a caller expects to see: a save stores the content its buffer has at the time of the call;
allocating and writing buffers does not matter. -/
def expected (s : AbsStore) (w : MemWorld) : COp → AbsStore
  | .save k r => absStep s (.save k (w.buf r))
  | .delete k => absStep s (.delete k)
  | .clear => absStep s .clear
  | .alloc _ => s
  | .write _ _ => s
  | .load _ => s

/-- Every load of the run returns what the caller expects. -/
def Isolated (s : AbsStore) (w : MemWorld) : List COp → Prop
  | [] => True
  | o :: os => (∀ k, o = .load k → (w.step o).2 = some (s k)) ∧ Isolated (expected s w o) (w.step o).1 os

/-- The storage's buffers are never reachable by the caller. -/
structure MemInv (w : MemWorld) (s : AbsStore) : Prop where
  held_lt : ∀ r ∈ w.held, r < w.heap.length
  sound : ∀ k r, w.data.get k = some r → r < w.heap.length ∧ r ∉ w.held
  view : ∀ k, (w.data.get k).map w.buf = s k

theorem buf_append (w : MemWorld) (b : Blob) (r : Nat) (h : r < w.heap.length) (d : AMap Key Nat) (hd : List Nat) :
    (MemWorld.mk (w.heap ++ [b]) d hd).buf r = w.buf r := by
  simp [MemWorld.buf, List.getElem?_append_left h]

theorem buf_last (w : MemWorld) (b : Blob) (d : AMap Key Nat) (hd : List Nat) :
    (MemWorld.mk (w.heap ++ [b]) d hd).buf w.heap.length = b := by
  simp [MemWorld.buf]

theorem MemInv.step {w : MemWorld} {s : AbsStore} (h : MemInv w s) (o : COp) : MemInv (w.step o).1 (expected s w o) := by
  have hview : ∀ (b : Blob) (hd : List Nat) (k : Key),
      (w.data.get k).map (MemWorld.mk (w.heap ++ [b]) w.data hd).buf = s k := by
    intro b hd k
    rw [← h.view k]
    cases hg : w.data.get k with
    | none => rfl
    | some r => simp only [Option.map_some]; rw [buf_append w b r (h.sound k r hg).1]
  have hgrow : ∀ b, MemInv ⟨w.heap ++ [b], w.data, w.heap.length :: w.held⟩ s := by
    intro b
    refine ⟨?_, ?_, hview b _⟩
    · intro r hr
      simp only [List.mem_cons] at hr
      simp only [List.length_append, List.length_singleton]
      rcases hr with rfl | hr
      · omega
      · have := h.held_lt r hr; omega
    · intro k r hg
      obtain ⟨h1, h2⟩ := h.sound k r hg
      refine ⟨by simp; omega, ?_⟩
      simp only [List.mem_cons, not_or]
      exact ⟨by omega, h2⟩
  cases o with
  | alloc b => exact hgrow b
  | write r b =>
    simp only [MemWorld.step, expected]
    split
    · rename_i hr
      refine ⟨by simpa using h.held_lt, by simpa using h.sound, fun k => ?_⟩
      rw [← h.view k]
      cases hg : w.data.get k with
      | none => rfl
      | some r' =>
        have : r ≠ r' := by rintro rfl; exact (h.sound k r hg).2 hr
        simp [MemWorld.buf, this]
    · exact h
  | save k r =>
    simp only [MemWorld.step, expected]
    refine ⟨?_, ?_, ?_⟩
    · intro x hx
      have := h.held_lt x hx
      simp only [List.length_append, List.length_singleton]
      omega
    · intro x y hg
      rw [AMap.get_set] at hg
      split at hg
      · obtain rfl := Option.some.inj hg
        refine ⟨by simp, fun hh => ?_⟩
        have := h.held_lt _ hh
        omega
      · obtain ⟨h1, h2⟩ := h.sound x y hg
        exact ⟨by simp; omega, h2⟩
    · intro x
      rw [AMap.get_set]
      simp only [absStep]
      split
      · simp only [Option.map_some]; rw [buf_last]
      · have := hview (w.buf r) w.held x
        rw [← this]
        rfl
  | load k =>
    simp only [MemWorld.step, expected]
    split
    · exact h
    · exact hgrow _
  | delete k =>
    simp only [MemWorld.step, expected]
    refine ⟨h.held_lt, ?_, ?_⟩
    · intro x r hg
      rw [AMap.get_del] at hg
      split at hg
      · simp at hg
      · exact h.sound x r hg
    · intro x
      rw [AMap.get_del]
      simp only [absStep]
      split
      · rfl
      · exact h.view x
  | clear =>
    exact ⟨h.held_lt, fun k r hg => by simp [MemWorld.step] at hg, fun k => rfl⟩

/-- C02: whatever the caller writes into buffers it passed in or got back, every load returns the content of the
last save at the time of that save. -/
theorem C02_mem_isolated (ops : List COp) : Isolated AbsStore.empty MemWorld.empty ops := by
  have key : ∀ (ops : List COp) (w : MemWorld) (s : AbsStore), MemInv w s → Isolated s w ops := by
    intro ops
    induction ops with
    | nil => intros; trivial
    | cons o os ih =>
      intro w s h
      refine ⟨?_, ih _ _ (h.step o)⟩
      rintro k rfl
      rw [← h.view k]
      simp only [MemWorld.step]
      cases w.data.get k <;> rfl
  exact key ops _ _ ⟨by simp [MemWorld.empty], by simp [MemWorld.empty], fun _ => rfl⟩

/-- The caller overwrites both the buffer it saved (0) and the buffer it got back (2); the next load is unaffected. -/
example :
    let w1 := (MemWorld.empty.step (.alloc [1])).1
    let w2 := (w1.step (.save [9] 0)).1
    let w3 := (w2.step (.write 0 [5])).1
    let w4 := (w3.step (.load [9])).1
    let w5 := (w4.step (.write 2 [6])).1
    (w3.step (.load [9])).2 = some (some [1]) ∧ w5.buf 0 = [5] ∧ w5.buf 2 = [6] ∧
      (w5.step (.load [9])).2 = some (some [1]) := by decide +kernel

/-! ## C03 -/

/-- C03 (partial): on keys outside the reserved prefix and blobs that are not empty and not shaped like the internal
marker, every history on the disk storage is a history of a map, for every split threshold.
Missing: exactly these exclusions, each of which is a real violation (below). -/
theorem C03_disk_is_map_partial (limit : Nat) (hl : 0 < limit) (ops : List Op) (h : ∀ o ∈ ops, goodOp o) :
    Conforms AbsStore.empty ((badgerStorage limit).run [] ops) :=
  (badgerSim limit hl).conforms ops h _ _ (BR.empty limit)

/-- C03 (partial): what a load after any history returns. -/
theorem C03_disk_load_last_partial (limit : Nat) (hl : 0 < limit) (ops : List Op) (h : ∀ o ∈ ops, goodOp o) (k : Key)
    (hk : goodKey k) :
    ((badgerStorage limit).step ((badgerStorage limit).final [] ops) (.load k)).2 =
      .blob (absFinal AbsStore.empty ops k) :=
  dbLoad_eq hl ((badgerSim limit hl).final ops h _ _ (BR.empty limit)) hk

/-- C03 (partial): in-memory and disk storage are interchangeable on such histories: loads agree. -/
theorem C03_disk_agrees_with_mem_partial (limit : Nat) (hl : 0 < limit) (ops : List Op) (h : ∀ o ∈ ops, goodOp o)
    (k : Key) (hk : goodKey k) :
    ((badgerStorage limit).step ((badgerStorage limit).final [] ops) (.load k)).2 =
      (memStorage.step (memStorage.final memStorage.init ops) (.load k)).2 := by
  rw [C03_disk_load_last_partial limit hl ops h k hk, C01_mem_load_last]

/-- C03 is violated by an empty blob: it is saved but loads as not found. -/
theorem C03_empty_blob_violated (limit : Nat) (k : Key) :
    ¬ Conforms AbsStore.empty ((badgerStorage limit).run [] [.save k [], .load k]) := by
  intro h
  have h2 : RespOK (absStep AbsStore.empty (.save k [])) (.load k) (dbLoad2 (dbSave limit [] k []) (dbSave limit [] k []) k) :=
    h.2.1
  have h3 : dbSave limit [] k [] = [(k, [])] := by simp [dbSave, wipeParts, AMap.set, AMap.del]
  rw [h3] at h2
  simp [RespOK, dbLoad2, AMap.get_cons, absStep] at h2

/-- C03 is violated by a blob shaped like the internal marker: it loads as an error. -/
theorem C03_marker_blob_violated :
    ¬ Conforms AbsStore.empty ((badgerStorage 1000).run [] [.save [107] (marker 1 5 5), .load [107]]) := by
  intro h
  have h2 : RespOK (absStep AbsStore.empty (.save [107] (marker 1 5 5))) (.load [107])
    (dbLoad2 (dbSave 1000 [] [107] (marker 1 5 5)) (dbSave 1000 [] [107] (marker 1 5 5)) [107]) := h.2.1
  have h3 : dbLoad2 (dbSave 1000 [] [107] (marker 1 5 5)) (dbSave 1000 [] [107] (marker 1 5 5)) [107] = .error := by
    decide +kernel
  rw [h3] at h2
  simp [RespOK] at h2

/-- C03 is violated by keys under the reserved prefix: saving one key changes another. -/
theorem C03_reserved_key_violated :
    ¬ Conforms AbsStore.empty ((badgerStorage 2).run [] [.save [97] [1, 2, 3], .save (partKey [97] 0) [9], .load [97]]) := by
  intro h
  have h2 := h.2.2.1
  revert h2
  have h3 : ((badgerStorage 2).step ((badgerStorage 2).step ((badgerStorage 2).step []
    (.save [97] [1, 2, 3])).1 (.save (partKey [97] 0) [9])).1 (.load [97])).2 = .blob (some [9, 3, 0]) := by
    decide +kernel
  simp only [RespOK]
  rw [h3]
  have h4 : ¬ ([97] : Key) = partKey [97] 0 := by decide +kernel
  simp [absStep, h4]

example : goodOp (.save [112, 114, 101] [1, 2, 3, 4, 5]) := by
  refine ⟨fun ⟨t, ht⟩ => ?_, by simp, not_looks (by decide)⟩
  simp [splitPrefix] at ht

/-- A five byte blob with threshold two is split into three parts and comes back. -/
example : (badgerStorage 2).run [] [.save [97] [1, 2, 3, 4, 5], .load [97], .save [97] [6], .load [97], .list []] =
    [(.save [97] [1, 2, 3, 4, 5], .ok), (.load [97], .blob (some [1, 2, 3, 4, 5])), (.save [97] [6], .ok),
     (.load [97], .blob (some [6])), (.list [], .keys [[97]])] := by decide +kernel

/-! ## C04 -/

/-- C04 (partial, same exclusions as C03): after any history every physical record is either the record of a live key or
a part, in range, of a live key whose blob exceeds the threshold; nothing is orphaned. -/
theorem C04_no_orphans_partial (limit : Nat) (hl : 0 < limit) (ops : List Op) (h : ∀ o ∈ ops, goodOp o) (x : Key)
    (hx : x ∈ ((badgerStorage limit).final [] ops : DB).keys) :
    (absFinal AbsStore.empty ops x).isSome ∨
    ∃ k b i, x = partKey k i ∧ absFinal AbsStore.empty ops k = some b ∧ limit < b.length ∧ i < numParts limit b.length := by
  have R : BR limit ((badgerStorage limit).final [] ops) (absFinal AbsStore.empty ops) :=
    (badgerSim limit hl).final ops h _ _ (BR.empty limit)
  rw [AMap.mem_keys] at hx
  rcases R.owned x hx with hg | ⟨k, i, b, h1, h2, h3, h4⟩
  · refine .inl ?_
    rw [Option.isSome_iff_ne_none]
    intro h0
    have := R.absent x hg h0
    rw [this] at hx
    simp at hx
  · exact .inr ⟨k, b, i, h1, h2, h3, h4⟩

/-- C04 (partial): the records of a live key: one record within the threshold, or parts that are not empty, within the
threshold, and concatenate to the blob. -/
theorem C04_parts_partial (limit : Nat) (hl : 0 < limit) (ops : List Op) (h : ∀ o ∈ ops, goodOp o) (k : Key) (b : Blob)
    (hb : absFinal AbsStore.empty ops k = some b) :
    (b.length ≤ limit ∧ ((badgerStorage limit).final [] ops : DB).get k = some b) ∨
    ∃ ps : List Blob, ps.flatten = b ∧ 2 ≤ ps.length ∧ (∀ p ∈ ps, p ≠ [] ∧ p.length ≤ limit) ∧
      ∀ i (hi : i < ps.length), ((badgerStorage limit).final [] ops : DB).get (partKey k i) = some ps[i] := by
  have R : BR limit ((badgerStorage limit).final [] ops) (absFinal AbsStore.empty ops) :=
    (badgerSim limit hl).final ops h _ _ (BR.empty limit)
  obtain ⟨-, -, hst⟩ := R.stored k b hb
  unfold Stored at hst
  split at hst
  · exact .inl ⟨‹_›, hst⟩
  · rename_i hlen
    have hlt : limit < b.length := by omega
    have hpos := numParts_pos hl hlt
    refine .inr ⟨(List.range (numParts limit b.length)).map (piece (numParts limit b.length) b), ?_, by simpa using hpos,
      ?_, ?_⟩
    · rw [flatten_pieces, partOff_all (by omega), List.take_length]
    · intro p hp
      obtain ⟨i, hi, rfl⟩ := List.mem_map.mp hp
      rw [List.mem_range] at hi
      have hlp := length_piece (b := b) (by omega : 0 < numParts limit b.length) hi
      obtain ⟨h1, h2⟩ := partSize_bounds hl hlt i
      refine ⟨?_, by omega⟩
      intro h0
      rw [h0] at hlp
      simp at hlp
      omega
    · intro i hi
      simp only [List.length_map, List.length_range] at hi
      simp only [List.getElem_map, List.getElem_range]
      exact hst.2 i hi

/-- C04 is violated by keys under the reserved prefix: a live key is missing from the list. -/
theorem C04_hidden_key_violated :
    ∃ k b, b ≠ [] ∧ ¬ LooksMarker b ∧
      ((badgerStorage 100).step ((badgerStorage 100).final [] [.save k b]) (.list [])).2 = .keys [] ∧
      ((badgerStorage 100).step ((badgerStorage 100).final [] [.save k b]) (.load k)).2 = .blob (some b) := by
  refine ⟨splitPrefix ++ [120], [1], by simp, not_looks (by decide), by decide +kernel, by decide +kernel⟩

example : ((badgerStorage 2).final [] [.save [97] [1, 2, 3, 4, 5], .save [98] [1, 2, 3], .save [97] [6], .delete [98]] : DB) =
    [([97], [6])] := by decide +kernel

/-! ## C05 -/

/-- A history of calls on two wrappers over one backing storage; `false` is the first wrapper. -/
def run2 (I : Impl) (p q : List UInt8) (st : I.σ) : List (Bool × Op) → List (Bool × Op × Resp)
  | [] => []
  | (w, o) :: os =>
    let r := keyPrefixStep I (if w then q else p) st o
    (w, o, r.2) :: run2 I p q r.1 os

/-- The calls made through one of the wrappers. -/
def only (w : Bool) (h : List (Bool × Op × Resp)) : List (Op × Resp) :=
  (h.filter fun e => e.1 == w).map fun e => e.2

theorem only_self (w : Bool) (o : Op) (r : Resp) (h : List (Bool × Op × Resp)) :
    only w ((w, o, r) :: h) = (o, r) :: only w h := by simp [only]

theorem only_other {w w' : Bool} (hw : (w' == w) = false) (o : Op) (r : Resp) (h : List (Bool × Op × Resp)) :
    only w ((w', o, r) :: h) = only w h := by simp [only, hw]

theorem disjoint_of_sep_free {p q : List UInt8} (hp : (59 : UInt8) ∉ p) (hq : (59 : UInt8) ∉ q) (hne : p ≠ q) :
    Disjoint (p ++ [59]) (q ++ [59]) := by
  have key : ∀ (p q a b : List UInt8), (59 : UInt8) ∉ p → (59 : UInt8) ∉ q → p ++ 59 :: a = q ++ 59 :: b → p = q := by
    intro p
    induction p with
    | nil =>
      intro q a b _ hq h
      cases q with
      | nil => rfl
      | cons x q => simp at h; exact absurd h.1 (by rintro rfl; simp at hq)
    | cons x p ih =>
      intro q a b hp hq h
      cases q with
      | nil => simp at h; exact absurd h.1.symm (by rintro rfl; simp at hp)
      | cons y q =>
        simp only [List.cons_append, List.cons.injEq] at h
        simp only [List.mem_cons, not_or] at hp hq
        rw [h.1, ih q a b hp.2 hq.2 h.2]
  intro a b h
  simp only [List.append_assoc, List.singleton_append] at h
  exact hne (key p q a b hp hq h)

/-- The conditions under which wrapped operations are faithful on the backing storage. -/
structure Backed (good : Op → Prop) (p : List UInt8) (goodHere : Op → Prop) : Prop where
  save : ∀ k b, goodHere (.save k b) → good (.save (p ++ [59] ++ k) b)
  load : ∀ k, good (.load (p ++ [59] ++ k))
  delete : ∀ k, good (.delete (p ++ [59] ++ k))
  list : ∀ x, good (.list x)

/-- C05, for any backing storage that behaves as a map: two wrappers with different separator-free prefixes each
behave as a map of their own, however their calls (including `Clear`) are interleaved. -/
theorem C05_prefix_isolated {I : Impl} {good goodHere : Op → Prop} (S : Sim I good) (p q : List UInt8) (hp0 : p ≠ [])
    (hq0 : q ≠ []) (hp : (59 : UInt8) ∉ p) (hq : (59 : UInt8) ∉ q) (hne : p ≠ q) (Bp : Backed good p goodHere)
    (Bq : Backed good q goodHere) (ops : List (Bool × Op)) (hops : ∀ e ∈ ops, goodHere e.2) :
    Conforms AbsStore.empty (only false (run2 I p q I.init ops)) ∧
    Conforms AbsStore.empty (only true (run2 I p q I.init ops)) := by
  have hd := disjoint_of_sep_free hp hq hne
  have conf_congr : ∀ (h : List (Op × Resp)) (s s' : AbsStore), (∀ k, s k = s' k) → Conforms s h → Conforms s' h := by
    intro h s s' he hc
    have : s = s' := funext he
    rwa [← this]
  have key : ∀ (ops : List (Bool × Op)), (∀ e ∈ ops, goodHere e.2) → ∀ st s, S.R st s →
      Conforms (viewOf (p ++ [59]) s) (only false (run2 I p q st ops)) ∧
      Conforms (viewOf (q ++ [59]) s) (only true (run2 I p q st ops)) := by
    intro ops
    induction ops with
    | nil => intros; exact ⟨trivial, trivial⟩
    | cons e os ih =>
      obtain ⟨w, o⟩ := e
      intro hg st s R
      have hgo : goodHere o := hg (w, o) (by simp)
      have hgs : ∀ e ∈ os, goodHere e.2 := fun e he => hg e (by simp [he])
      cases w with
      | false =>
        have hstep : keyPrefixStep I p st o = prefixStep I (p ++ [59]) st o := by simp [keyPrefixStep, hp0]
        obtain ⟨h1, s', R', h2, h3⟩ := prefixStep_ok S (p ++ [59]) o (fun k b he => Bp.save k b (he ▸ hgo))
          Bp.load Bp.delete Bp.list st s R
        obtain ⟨i1, i2⟩ := ih hgs _ s' R'
        have hrun : run2 I p q st ((false, o) :: os) = (false, o, (prefixStep I (p ++ [59]) st o).2) ::
            run2 I p q (prefixStep I (p ++ [59]) st o).1 os := by
          simp only [run2, Bool.false_eq_true, ↓reduceIte, hstep]
        rw [hrun, only_self, only_other (w := true) (w' := false) rfl]
        refine ⟨⟨h1, conf_congr _ _ _ h2 i1⟩, conf_congr _ _ _ (fun k => ?_) i2⟩
        exact h3 _ fun k' he => hd k' k he.symm
      | true =>
        have hstep : keyPrefixStep I q st o = prefixStep I (q ++ [59]) st o := by simp [keyPrefixStep, hq0]
        obtain ⟨h1, s', R', h2, h3⟩ := prefixStep_ok S (q ++ [59]) o (fun k b he => Bq.save k b (he ▸ hgo))
          Bq.load Bq.delete Bq.list st s R
        obtain ⟨i1, i2⟩ := ih hgs _ s' R'
        have hrun : run2 I p q st ((true, o) :: os) = (true, o, (prefixStep I (q ++ [59]) st o).2) ::
            run2 I p q (prefixStep I (q ++ [59]) st o).1 os := by
          simp only [run2, ↓reduceIte, hstep]
        rw [hrun, only_self, only_other (w := false) (w' := true) rfl]
        refine ⟨conf_congr _ _ _ (fun k => ?_) i1, ⟨h1, conf_congr _ _ _ h2 i2⟩⟩
        exact h3 _ fun k' he => hd k k' he
  exact key ops hops _ _ S.init

/-- C05 over the in-memory storage: no conditions on keys or blobs. -/
theorem C05_prefix_isolated_mem (p q : List UInt8) (hp0 : p ≠ []) (hq0 : q ≠ []) (hp : (59 : UInt8) ∉ p)
    (hq : (59 : UInt8) ∉ q) (hne : p ≠ q) (ops : List (Bool × Op)) :
    Conforms AbsStore.empty (only false (run2 memStorage p q [] ops)) ∧
    Conforms AbsStore.empty (only true (run2 memStorage p q [] ops)) :=
  C05_prefix_isolated (goodHere := fun _ => True) memSim p q hp0 hq0 hp hq hne
    ⟨fun _ _ _ => trivial, fun _ => trivial, fun _ => trivial, fun _ => trivial⟩
    ⟨fun _ _ _ => trivial, fun _ => trivial, fun _ => trivial, fun _ => trivial⟩ ops (fun _ _ => trivial)

theorem goodKey_prefixed {p : List UInt8} (hp : ¬ splitPrefix <+: p) (k : Key) : goodKey (p ++ [59] ++ k) := by
  intro h
  have h2 : p ++ [59] <+: p ++ [59] ++ k := List.prefix_append _ _
  rcases List.prefix_or_prefix_of_prefix h h2 with h3 | h3
  · rcases List.prefix_concat_iff.mp h3 with h4 | h4
    · have : (59 : UInt8) ∈ splitPrefix := by rw [h4]; simp
      revert this; decide
    · exact hp h4
  · have : (59 : UInt8) ∈ splitPrefix := h3.subset (by simp)
    revert this; decide

/-- C05 over the disk storage: with a prefix in front, every key is outside the reserved range, so the only condition
left is on blobs (not empty, not shaped like the internal marker). -/
theorem C05_prefix_isolated_disk (limit : Nat) (hl : 0 < limit) (p q : List UInt8) (hp0 : p ≠ []) (hq0 : q ≠ [])
    (hp : (59 : UInt8) ∉ p) (hq : (59 : UInt8) ∉ q) (hne : p ≠ q) (hp1 : ¬ splitPrefix <+: p) (hq1 : ¬ splitPrefix <+: q)
    (ops : List (Bool × Op)) (hops : ∀ e ∈ ops, ∀ k b, e.2 = .save k b → goodBlob b) :
    Conforms AbsStore.empty (only false (run2 (badgerStorage limit) p q [] ops)) ∧
    Conforms AbsStore.empty (only true (run2 (badgerStorage limit) p q [] ops)) :=
  C05_prefix_isolated (goodHere := fun o => ∀ k b, o = .save k b → goodBlob b) (badgerSim limit hl) p q hp0 hq0 hp hq hne
    ⟨fun k b h => ⟨goodKey_prefixed hp1 k, h k b rfl⟩, goodKey_prefixed hp1, goodKey_prefixed hp1, fun _ => trivial⟩
    ⟨fun k b h => ⟨goodKey_prefixed hq1 k, h k b rfl⟩, goodKey_prefixed hq1, goodKey_prefixed hq1, fun _ => trivial⟩
    ops hops

/-- The separator condition of C05 is needed: with prefixes "a" and "a;b" a save through one shows up in the other. -/
theorem C05_separator_condition_needed :
    ¬ Conforms AbsStore.empty (only false (run2 memStorage [97] [97, 59, 98] []
      [(true, .save [120] [1]), (false, .load [98, 59, 120])])) := by
  intro h
  have h3 : only false (run2 memStorage [97] [97, 59, 98] [] [(true, .save [120] [1]), (false, .load [98, 59, 120])]) =
      [(.load [98, 59, 120], .blob (some [1]))] := by decide +kernel
  rw [h3] at h
  simp [Conforms, RespOK, AbsStore.empty] at h

/-- Calls through a wrapper with the empty prefix (`true`) mixed with calls on the storage itself. -/
def runBoth (I : Impl) (st : I.σ) : List (Bool × Op) → List (Op × Resp)
  | [] => []
  | (w, o) :: os =>
    let r := if w then keyPrefixStep I [] st o else I.step st o
    (o, r.2) :: runBoth I r.1 os

/-- The wrapper with the empty prefix is the storage itself: calls through either act on one and the same map. -/
theorem C05_empty_prefix {I : Impl} {good : Op → Prop} (S : Sim I good) (ops : List (Bool × Op)) (hops : ∀ e ∈ ops, good e.2)
    (st : I.σ) (s : AbsStore) (R : S.R st s) : Conforms s (runBoth I st ops) := by
  induction ops generalizing st s with
  | nil => trivial
  | cons e ops ih =>
    obtain ⟨w, o⟩ := e
    have hg := hops (w, o) (by simp)
    have he : (if w = true then keyPrefixStep I [] st o else I.step st o) = I.step st o := by
      cases w <;> simp [keyPrefixStep]
    simp only [runBoth, he]
    exact ⟨S.resp st s o R hg, ih (fun e h => hops e (List.mem_cons_of_mem _ h)) _ _ (S.step st s o R hg)⟩

/-- Clearing a wrapper deletes the keys listed under its prefix, and reports success exactly when every one of these
deletions succeeds, whatever the storage below does. -/
theorem C05_clear_reported (I : Impl) (p : List UInt8) (hp : p ≠ []) (st : I.σ) (ks : List Key)
    (hl : (I.step st (.list (p ++ [59]))).2 = .keys ks) (hk : ∀ k ∈ ks, p ++ [59] <+: k) :
    let st' := (I.step st (.list (p ++ [59]))).1
    ((keyPrefixStep I p st .clear).2 = .ok ↔ ∀ e ∈ I.run st' (ks.map .delete), e.2 ≠ .error) ∧
    ((keyPrefixStep I p st .clear).2 = .ok → (keyPrefixStep I p st .clear).1 = I.final st' (ks.map .delete)) := by
  have he : keyPrefixStep I p st .clear =
      deleteAll I (p ++ [59]) (I.step st (.list (p ++ [59]))).1 (ks.map (trimPrefix (p ++ [59]))) := by
    unfold keyPrefixStep
    rw [if_neg hp]
    simp only [prefixStep, List.append_nil]
    rcases hs : I.step st (.list (p ++ [59])) with ⟨st', r⟩
    rw [hs] at hl
    simp only at hl
    rw [hl]
  rw [he]
  exact deleteAll_direct I (p ++ [59]) ks _ hk

/-- A storage whose deletions of "p;b" fail: clearing "p" fails, clearing "q" does not. -/
example :
    let I : Impl := ⟨DB, [], fun db o => if o = .delete [112, 59, 98] then (db, .error) else memStep db o⟩
    let st := I.final [] [.save [112, 59, 97] [1], .save [112, 59, 98] [2], .save [113, 59, 97] [3]]
    (keyPrefixStep I [112] st .clear).2 = .error ∧ (keyPrefixStep I [113] st .clear).2 = .ok := by decide +kernel

/-- "pre" and "post" over one storage: clearing one leaves the other. -/
example : run2 memStorage [112, 114, 101] [112, 111, 115, 116] []
    [(false, .save [1] [7]), (true, .save [1] [8]), (false, .clear), (false, .load [1]), (true, .load [1]), (true, .list [])] =
    [(false, .save [1] [7], .ok), (true, .save [1] [8], .ok), (false, .clear, .ok), (false, .load [1], .blob none),
     (true, .load [1], .blob (some [8])), (true, .list [], .keys [[1]])] := by decide +kernel

/-! ## C06 -/

/-- C06 (partial): between the two transactions of a load any history of other calls may commit.  If the value at the
start is absent or not split, the load returns it; if it is split, the load returns the value at the end provided
that value has the same length.  Missing: values of different split lengths, and deletion in between (violations below). -/
theorem C06_load_atomic_partial (limit : Nat) (hl : 0 < limit) (before between : List Op)
    (h1 : ∀ o ∈ before, goodOp o) (h2 : ∀ o ∈ between, goodOp o) (k : Key) (hk : goodKey k) :
    let db := (badgerStorage limit).final [] before
    let db' := (badgerStorage limit).final db between
    let v := absFinal AbsStore.empty before k
    let v' := absFinal AbsStore.empty (before ++ between) k
    ((∀ b, v = some b → b.length ≤ limit) → dbLoad2 db db' k = .blob v) ∧
    (v.map List.length = v'.map List.length → dbLoad2 db db' k = .blob v ∨ dbLoad2 db db' k = .blob v') := by
  intro db db' v v'
  have R : BR limit db (absFinal AbsStore.empty before) := (badgerSim limit hl).final before h1 _ _ (BR.empty limit)
  have R' : BR limit db' (absFinal (absFinal AbsStore.empty before) between) := (badgerSim limit hl).final between h2 _ _ R
  have happ : ∀ (l m : List Op) (s : AbsStore), absFinal s (l ++ m) = absFinal (absFinal s l) m := by
    intro l
    induction l with
    | nil => intros; rfl
    | cons o l ih => intro m s; exact ih m _
  have hv' : v' = absFinal (absFinal AbsStore.empty before) between k := by rw [← happ]
  have hunsplit : (∀ b, v = some b → b.length ≤ limit) → dbLoad2 db db' k = .blob v := by
    intro hb
    have hself := dbLoad_eq hl R hk
    show dbLoad2 db db' k = .blob (absFinal AbsStore.empty before k)
    rw [← hself]
    unfold dbLoad2
    cases hs : absFinal AbsStore.empty before k with
    | none => rw [R.absent k hk hs]
    | some b =>
      obtain ⟨_, hgb, hst⟩ := R.stored k b hs
      unfold Stored at hst
      rw [if_pos (hb b hs)] at hst
      rw [hst]
      cases b with
      | nil => rfl
      | cons x b => simp [parse_none hgb.2]
  refine ⟨hunsplit, fun hlen => ?_⟩
  cases hs : absFinal AbsStore.empty before k with
  | none => exact .inl (hunsplit (by intro b hb; rw [show v = none from hs] at hb; simp at hb))
  | some b =>
    have hvb : v = some b := hs
    by_cases hbl : b.length ≤ limit
    · exact .inl (hunsplit (by intro b' hb'; rw [hvb] at hb'; obtain rfl := Option.some.inj hb'; exact hbl))
    · right
      rw [hvb] at hlen
      cases hs' : absFinal (absFinal AbsStore.empty before) between k with
      | none => rw [hv', hs'] at hlen; simp at hlen
      | some b' =>
        have hvb' : v' = some b' := by rw [hv', hs']
        rw [hvb'] at hlen
        simp only [Option.map_some, Option.some.injEq] at hlen
        obtain ⟨_, _, hst⟩ := R.stored k b hs
        obtain ⟨_, _, hst'⟩ := R'.stored k b' hs'
        unfold Stored at hst hst'
        rw [if_neg hbl] at hst
        rw [if_neg (by omega)] at hst'
        rw [hvb']
        unfold dbLoad2
        rw [hst.1]
        have hne := marker_ne_nil (numParts limit b.length) b.length b.length
        have hpm := parseMarker_marker (numParts limit b.length) b.length b.length
        cases hm : marker (numParts limit b.length) b.length b.length with
        | nil => exact absurd hm hne
        | cons x m =>
          rw [hm] at hpm
          simp only [hpm]
          rw [hlen, readParts_stored hl (by omega) hst'.2]

/-- C06 is violated: a load overlapping one save returns three bytes that were never the value. -/
theorem C06_torn_read_violated :
    ∃ (limit : Nat) (k : Key) (a b x : Blob), 0 < limit ∧ goodKey k ∧ goodBlob a ∧ goodBlob b ∧
      dbLoad2 (dbSave limit [] k a) (dbSave limit (dbSave limit [] k a) k b) k = .blob (some x) ∧ x ≠ a ∧ x ≠ b := by
  refine ⟨2, [107], [1, 2, 3], [4, 5, 6, 7], [4, 5, 6], by omega, ?_, ⟨by simp, not_looks (by decide)⟩,
    ⟨by simp, not_looks (by decide)⟩, by decide +kernel, by decide, by decide⟩
  rintro ⟨t, ht⟩
  simp [splitPrefix] at ht

/-- C06 is violated: a load overlapping a delete fails with an error although the key had a value and then had none. -/
theorem C06_delete_error_violated :
    ∃ (limit : Nat) (k : Key) (a : Blob), 0 < limit ∧ goodKey k ∧ goodBlob a ∧
      dbLoad2 (dbSave limit [] k a) (dbDelete (dbSave limit [] k a) k) k = .error := by
  refine ⟨2, [107], [1, 2, 3], by omega, ?_, ⟨by simp, not_looks (by decide)⟩, by decide +kernel⟩
  rintro ⟨t, ht⟩
  simp [splitPrefix] at ht

end Verif.Storage
