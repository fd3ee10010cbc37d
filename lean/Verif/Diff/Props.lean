import Verif.Diff.Lemmas
import Verif.Module.Props

/-!
C125 and C126: the line operations of the difference library; C33 and C39 with this library.
-/

namespace Verif.Diff

open Verif.Module (Op Tag Covers Marked bitmap)

/-! ### C125 -/

/-- C125: the operations go through both texts line by line, from the first to the last; lines that count as equal are equal, insertions take no old lines
and removals no new ones. -/
theorem C125_edit_script (a b : List Line) : Covers a b 0 0 (opCodes a b) := opCodes_covers a b

example : opCodes [[1], [2], [3], [4]] [[1], [3], [5], [4], [6]] =
    [⟨.equal, 0, 1, 0, 1⟩, ⟨.delete, 1, 2, 1, 1⟩, ⟨.equal, 2, 3, 1, 2⟩, ⟨.insert, 3, 3, 2, 3⟩, ⟨.equal, 3, 4, 3, 4⟩, ⟨.insert, 4, 4, 4, 5⟩] := by decide +kernel

/-- C125: what the operations leave of both texts is the same. -/
theorem C125_rebuild (a b : List Line) : (opCodes a b).flatMap (fun c => if c.tag = .equal then slice a c.i1 c.i2 else slice b c.j1 c.j2) = b ∧
    (opCodes a b).flatMap (fun c => if c.tag = .equal then slice b c.j1 c.j2 else slice a c.i1 c.i2) = a := by
  have key : ∀ {i j : Nat} {cs : List Op} {i' j' : Nat}, Seg a b i j cs i' j' →
      cs.flatMap (fun c => if c.tag = .equal then slice a c.i1 c.i2 else slice b c.j1 c.j2) = slice b j j' ∧
      cs.flatMap (fun c => if c.tag = .equal then slice b c.j1 c.j2 else slice a c.i1 c.i2) = slice a i i' := by
    intro i j cs i' j' h
    induction h with
    | nil => simp [slice]
    | step e1 e2 hf hs ih =>
      subst e1 e2
      have hle := seg_le hs
      rw [List.flatMap_cons, List.flatMap_cons, ih.1, ih.2, ← slice_append_slice b hf.j hle.2.1, ← slice_append_slice a hf.i hle.1]
      split
      · rename_i ht
        rw [hf.equal ht]
        exact ⟨rfl, rfl⟩
      · exact ⟨rfl, rfl⟩
  have := key (covers_seg (opCodes_covers a b))
  simpa [slice] using this

/-! ### C126 -/

/-- C126: in a block that is listed as changed no line is on both sides, if the new text has fewer than 200 lines. Missing: longer texts, see
`C126_violated`. -/
theorem C126_apart_partial (a b : List Line) (hb : b.length < 200) : ∀ c ∈ opCodes a b, c.tag ≠ .equal → Apart a b c := by
  intro c hc ht i j x h1 h2 h3 h4 ha hx
  have hp := opCodes_gap a b c hc ht i j x h1 h2 h3 h4 ha hx
  unfold popular at hp
  simp only [Bool.and_eq_true, decide_eq_true_eq] at hp
  omega

/-- C126: in texts of any length, a line that is on both sides of such a block is more often in the new text than one in a hundred lines. -/
theorem C126_popular_partial (a b : List Line) : ∀ c ∈ opCodes a b, c.tag ≠ .equal → ∀ (i j : Nat) (x : Line), c.i1 ≤ i → i < c.i2 → c.j1 ≤ j → j < c.j2 →
    a[i]? = some x → b[j]? = some x → b.length < 100 * b.count x := by
  intro c hc ht i j x h1 h2 h3 h4 ha hx
  have hp := opCodes_gap a b c hc ht i j x h1 h2 h3 h4 ha hx
  unfold popular at hp
  simp only [Bool.and_eq_true, decide_eq_true_eq] at hp
  omega

/-- C126 fails for long texts: without its first line, a text of 200 equal lines is listed as changed altogether. -/
theorem C126_violated : ∃ (a b : List Line), a = [2] :: b ∧ opCodes a b = [⟨.replace, 0, 201, 0, 200⟩] ∧ ¬ Apart a b ⟨.replace, 0, 201, 0, 200⟩ := by
  refine ⟨[2] :: List.replicate 200 [1], List.replicate 200 [1], rfl, by decide +kernel, ?_⟩
  intro h
  exact h 1 0 [1] (by decide) (by decide) (by decide) (by decide) (by decide) (by decide)

example : opCodes ([2] :: List.replicate 20 [1]) (List.replicate 20 [1]) = [⟨.delete, 0, 1, 0, 0⟩, ⟨.equal, 1, 21, 0, 20⟩] := by decide +kernel

/-! ### C33 -/

/-- C33: the difference of two values turns the old value into the new one: every changed line is listed, at its place. Missing: values that have been
replaced by a hash, see `C33_hash_violated`. -/
theorem C33_lines_partial (quote : Bytes → Bytes) (v w : Bytes) (hne : v ≠ w) (h1 : ¬ Compare.hashPrefix <+: v) (h2 : ¬ Compare.hashPrefix <+: w) :
    applyDiff v (diffText quote v w) = some w := by
  have e1 : Compare.hashPrefix.isPrefixOf v = false := by
    cases hc : Compare.hashPrefix.isPrefixOf v
    · rfl
    · exact absurd (List.isPrefixOf_iff_prefix.mp hc) h1
  have e2 : Compare.hashPrefix.isPrefixOf w = false := by
    cases hc : Compare.hashPrefix.isPrefixOf w
    · rfl
    · exact absurd (List.isPrefixOf_iff_prefix.mp hc) h2
  unfold diffText Compare.diffValues
  rw [if_neg hne, e1, e2]
  simp only [Bool.and_self, Bool.false_eq_true, if_false]
  rw [if_pos (unified_ne hne)]
  exact apply_unified 2 v w

/-- C33: so the old value and the text determine the new value. -/
theorem C33_text_determines (quote : Bytes → Bytes) (v w w' : Bytes) (h : v ≠ w) (h' : v ≠ w') (h1 : ¬ Compare.hashPrefix <+: v) (h2 : ¬ Compare.hashPrefix <+: w)
    (h3 : ¬ Compare.hashPrefix <+: w') (he : diffText quote v w = diffText quote v w') : w = w' := by
  have e1 := C33_lines_partial quote v w h h1 h2
  have e2 := C33_lines_partial quote v w' h' h1 h3
  rw [he, e2] at e1
  exact (Option.some.inj e1).symm

example : diffText id [97, 10, 98, 10, 99] [97, 10, 100, 10, 99, 10] =
    [64, 64, 32, 45, 49, 44, 51, 32, 43, 49, 44, 52, 32, 64, 64, 10, 32, 97, 10, 45, 98, 10, 43, 100, 10, 32, 99, 10, 43, 10] := by decide +kernel

/-- C33 fails for values that are too long: the text for two different values can be the same on both sides. -/
theorem C33_hash_violated (quote : Bytes → Bytes) : ∃ v w : Bytes, v ≠ w ∧ ∃ side, diffText quote v w = side ++ Compare.notEq ++ side := by
  refine ⟨Compare.hashPrefix ++ [97, 48, 48, 48, 48], Compare.hashPrefix ++ [98, 48, 48, 48, 48], by decide, Compare.tooLarge ++ [48, 48, 48, 48] ++ [62], ?_⟩
  unfold diffText Compare.diffValues
  rw [if_neg (by decide), if_pos (by decide)]
  have e1 : Compare.suffix4 (Compare.hashPrefix ++ [97, 48, 48, 48, 48]) = [48, 48, 48, 48] := by decide
  have e2 : Compare.suffix4 (Compare.hashPrefix ++ [98, 48, 48, 48, 48]) = [48, 48, 48, 48] := by decide
  rw [e1, e2]
  simp only [List.append_assoc]

/-! ### C39 -/

/-- C39 with the library: the lines of both definitions that are not marked are the same, in the same order. -/
theorem C39_unmarked_same (old new : List Line) : unmarked old (bitmap old new (opCodes old new) false 0) = unmarked new (bitmap old new (opCodes old new) true 0) := by
  have hc := opCodes_covers old new
  have hk : ∀ (i j : Nat), Verif.Module.Kept (opCodes old new) i j → _ := fun i j => Verif.Module.C39_sound old new _ hc i j
  have hm1 := fun i => Verif.Module.bitmap_marked old new (opCodes old new) false 0 i
  have hm2 := fun i => Verif.Module.bitmap_marked old new (opCodes old new) true 0 i
  have hl1 := Verif.Module.bitmap_length old new (opCodes old new) false 0
  have hl2 := Verif.Module.bitmap_length old new (opCodes old new) true 0
  simp only [Bool.false_eq_true, if_false] at hl1 hm1
  simp only [if_true] at hl2 hm2
  generalize hA : bitmap old new (opCodes old new) false 0 = A at *
  generalize hB : bitmap old new (opCodes old new) true 0 = B at *
  have hb := (Verif.Module.covers_old hc).2.2.1
  have ht := Verif.Module.covers_tags hc
  have := unmarked_covers (A := A) (B := B) hl1 hl2 hc ?_
  · simpa using this
  · intro c hcm
    have hcb := hb c hcm
    obtain ⟨t1, t2, t3⟩ := ht c hcm
    constructor
    · intro he
      have hlen := (t1 he).1
      constructor
      · intro k k1 k2
        have := (hk k (c.j1 + (k - c.i1)) ⟨c, hcm, he, k1, k2, by omega, by omega⟩).1
        obtain ⟨v, hv⟩ : ∃ v, A[k]? = some v := ⟨_, List.getElem?_eq_getElem (by omega)⟩
        cases v
        · exact hv
        · exact absurd hv this
      · intro k k1 k2
        have := (hk (c.i1 + (k - c.j1)) k ⟨c, hcm, he, by omega, by omega, k1, by omega⟩).2
        obtain ⟨v, hv⟩ : ∃ v, B[k]? = some v := ⟨_, List.getElem?_eq_getElem (by omega)⟩
        cases v
        · exact hv
        · exact absurd hv this
    · intro he
      constructor
      · intro k k1 k2
        refine (hm1 k).mpr ⟨by omega, c, hcm, he, ?_⟩
        have : c.tag ≠ .insert := fun h => by have := t2 h; omega
        simp only [Bool.false_eq_true, if_false, this]
        exact ⟨k1, k2⟩
      · intro k k1 k2
        refine (hm2 k).mpr ⟨by omega, c, hcm, he, ?_⟩
        simp only [if_true]
        have : c.tag ≠ .delete := fun h => by have := t3 h; omega
        split
        · omega
        · exact ⟨k1, k2⟩

example : bitmap [[1], [2], [3]] [[1], [3], [4]] (opCodes [[1], [2], [3]] [[1], [3], [4]]) false 0 = [false, true, false] := by decide +kernel

end Verif.Diff
