import Verif.Budget.Lemmas

/-!
C153: the database can be opened with every permitted budget, accepts everything that is stored, and keeps to the budget.
-/

namespace Verif.Budget

open Verif.Storage (Key Blob DB Op numParts partSize partKey marker parseMarker dbSave splitPrefix goodKey badgerStorage)

theorem table_ge (m : Nat) : 8 * mb ≤ memTable m := by
  unfold memTable clamp
  exact Nat.mul_le_mul_right _ (by omega)

theorem batch_ge (m : Nat) : 1258291 ≤ maxBatchSize (memTable m) := by
  have := table_ge m
  unfold maxBatchSize mb at *
  omega

theorem count_ge (m : Nat) : 13107 ≤ maxBatchCount (memTable m) := by
  have := batch_ge m
  unfold maxBatchCount
  omega

/-- C153. The options are accepted. -/
theorem C153_opens (m : Nat) : Opens (memTable m) (logFile splitLimit) := by
  refine ⟨by unfold logFile; omega, by unfold logFile splitLimit; omega, ?_⟩
  have := batch_ge m
  unfold threshold
  omega

/-- C153. Whatever has been stored, deleted and cleared before, the transaction of a save is accepted by the database, and does what C03 and C04 are about. -/
theorem C153_accepted (m : Nat) (ops : List Op) (ho : ∀ o ∈ ops, Usual o) (k : Key) (b : Blob) (h : Usual (.save k b)) :
    let db : DB := (badgerStorage splitLimit).final [] ops
    Accepted (memTable m) (logFile splitLimit) (saveActs splitLimit db k b) ∧ (saveActs splitLimit db k b).foldl Act.apply db = dbSave splitLimit db k b := by
  intro db
  refine ⟨?_, saveActs_apply ..⟩
  have hf : Few db := few_final ops [] (fun x v n y z _ hg => by simp at hg) ho
  obtain ⟨h0, hk, hfree, hgood, -, hlen⟩ := h
  obtain ⟨wl, wm⟩ := wipeActs_mem hf hgood
  have hb := batch_ge m
  have hc := count_ge m
  have hlog : splitLimit + 240 = logFile splitLimit := by unfold logFile splitLimit; omega
  have hsl : splitLimit = 1073741568 := rfl
  have pk : ∀ i < 129, partKey k i ≠ [] ∧ (partKey k i).length ≤ k.length + 18 ∧ ¬ ("!badger!".toUTF8.toList <+: partKey k i) := fun i hi =>
    ⟨by simp [partKey, splitPrefix], partKey_len (by omega), free_partKey k i⟩
  have wsize : ((wipeActs db k).map Act.size).sum ≤ 129 * (k.length + 42) := by
    refine Nat.le_trans (sum_le (c := k.length + 42) fun a ha => ?_) (Nat.mul_le_mul_right _ wl)
    obtain ⟨i, hi, rfl⟩ := wm a ha
    have := (pk i hi).2.1
    have := size_le (.del (partKey k i))
    simp only [Act.value, Act.key, List.length_nil] at this
    omega
  have wok : ∀ a ∈ wipeActs db k, EntryOk (logFile splitLimit) a := fun a ha => by
    obtain ⟨i, hi, rfl⟩ := wm a ha
    obtain ⟨p1, p2, p3⟩ := pk i hi
    exact ⟨p1, by simp only [Act.key]; omega, p3, by simp [Act.value]⟩
  unfold saveActs
  split
  · rename_i hs
    refine accepted_of (fun a ha => ?_) ?_ ?_
    · rcases List.mem_append.1 ha with ha | ha
      · exact wok a ha
      · rw [List.mem_singleton] at ha
        subst ha
        exact ⟨h0, by simp only [Act.key]; omega, hfree, by simp only [Act.value]; omega⟩
    · simp only [List.length_append, List.length_cons, List.length_nil]
      omega
    · simp only [List.map_append, List.sum_append, List.map_cons, List.map_nil, List.sum_cons, List.sum_nil]
      have := size_any (.put k b)
      simp only [Act.key] at this
      omega
  · rename_i hs
    have hgt : splitLimit < b.length := by omega
    have hnp := numParts_few hlen
    have hpos := Verif.Storage.numParts_pos (limit := splitLimit) (by omega) hgt
    have pm : ∀ a ∈ partActs k b.length (numParts splitLimit b.length) (numParts splitLimit b.length) 0 b,
        ∃ j v, j < 129 ∧ a = .put (partKey k j) v ∧ 1048576 ≤ v.length ∧ v.length ≤ splitLimit := fun a ha => by
      obtain ⟨j, v, -, j2, e, hv⟩ := partActs_mem ha (by simp [Verif.Storage.partOff])
        (by rw [Nat.zero_add]; exact Nat.le_of_eq (Verif.Storage.partOff_all (by omega)))
      have := partSize_ge (limit := splitLimit) (by omega) hgt j
      have := (Verif.Storage.partSize_bounds (limit := splitLimit) (by omega) hgt j).2
      exact ⟨j, v, by omega, e, by omega, by omega⟩
    have psize : ((partActs k b.length (numParts splitLimit b.length) (numParts splitLimit b.length) 0 b).map Act.size).sum ≤ 129 * (k.length + 42) := by
      refine Nat.le_trans (sum_le (c := k.length + 42) fun a ha => ?_) ?_
      · obtain ⟨j, v, hj, rfl, hv, -⟩ := pm a ha
        have := (pk j hj).2.1
        rw [size_large (by exact hv)]
        simp only [Act.key]
        omega
      · rw [partActs_length]
        exact Nat.mul_le_mul_right _ hnp
    have mlen : (marker (numParts splitLimit b.length) b.length b.length).length ≤ 60 := by
      have a1 := itoa_len (d := 3) (n := numParts splitLimit b.length) (by omega)
      have a2 := itoa_len (d := 11) (n := b.length) (by omega)
      unfold marker
      simp only [List.length_append, List.length_cons, splitPrefix, List.length_nil]
      omega
    refine accepted_of (fun a ha => ?_) ?_ ?_
    · rcases List.mem_append.1 ha with ha | ha
      · exact wok a ha
      · rcases List.mem_append.1 ha with ha | ha
        · obtain ⟨j, v, hj, rfl, -, hv⟩ := pm a ha
          obtain ⟨p1, p2, p3⟩ := pk j hj
          exact ⟨p1, by simp only [Act.key]; omega, p3, by simp only [Act.value]; omega⟩
        · rw [List.mem_singleton] at ha
          subst ha
          exact ⟨h0, by simp only [Act.key]; omega, hfree, by simp only [Act.value]; omega⟩
    · simp only [List.length_append, List.length_cons, List.length_nil, partActs_length]
      omega
    · simp only [List.map_append, List.sum_append, List.map_cons, List.map_nil, List.sum_cons, List.sum_nil]
      have : Act.size (.put k (marker (numParts splitLimit b.length) b.length b.length)) ≤ k.length + 84 := by
        have := size_le (.put k (marker (numParts splitLimit b.length) b.length b.length))
        simp only [Act.key, Act.value] at this
        omega
      omega

/-- C153. The memory used is within the budget. Partial: only from 64 MB on; below it is at most 53 MB. -/
theorem C153_memory_partial (m : Nat) : (64 ≤ m → memory m ≤ m * mb) ∧ (m < 64 → memory m ≤ 53 * mb) := by
  unfold memory memTables memTable blockCache indexCache clamp mb
  constructor <;> intro h <;> omega

/-- C153. With every permitted budget the memory used is at most 384 MB, and at most 34 times the budget. -/
theorem C153_memory_bound (m : Nat) (h : permitted m = true) : memory m ≤ 384 * 1048576 ∧ memory m ≤ 34 * (m * 1048576) ∧ m * 1048576 ≤ 10737418240 := by
  have : 1 ≤ m ∧ m ≤ 10240 := by
    simp only [permitted, Bool.not_eq_true', Bool.or_eq_false_iff, decide_eq_false_iff_not] at h
    omega
  unfold memory memTables memTable blockCache indexCache clamp mb
  omega

/-- C153. A budget that is refused is no budget or more than 10 GB. -/
theorem C153_refused (m : Nat) (h : permitted m = false) : m = 0 ∨ 10737418240 < m * 1048576 := by
  simp only [permitted, Bool.not_eq_false', Bool.or_eq_true, decide_eq_true_eq] at h
  omega

example : permitted 1 = true ∧ permitted 10240 = true ∧ permitted 0 = false ∧ permitted 10241 = false := by decide

/-- A permitted budget that is not kept. -/
theorem C153_memory_violated : ∃ m, permitted m = true ∧ m * mb < memory m ∧ memory m = 34 * mb := ⟨1, by decide, by decide, by decide⟩

/-- The default budget. -/
example : permitted 200 = true ∧ memory 200 = 175 * mb := by decide

example : Usual (.save [112, 59, 120] [1, 2, 3]) := by
  refine ⟨by simp, by simp, ?_, ?_, by decide, by simp⟩
  · have : "!badger!".toUTF8.toList = [33, 98, 97, 100, 103, 101, 114, 33] := by decide +kernel
    rw [this]; decide
  · decide

end Verif.Budget
