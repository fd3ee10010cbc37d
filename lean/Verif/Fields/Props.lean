import Verif.Fields.Lemmas
import Verif.Capture.Model

/-! Property theorems C102–C104: recorded field values. -/

namespace Verif.Fields

open Verif.Wire (Val Field)
open Verif.Result (Bytes FMap leafAt WF ValueOnLeaves)

/-- Texts of numbers in the examples: the bits in decimal; hashes: the length in decimal. -/
def demo : Lib := ⟨fun b => itoaBytes b.toNat, fun b => itoaBytes b.toNat, fun a b => itoaBytes a.toNat ++ 43 :: itoaBytes b.toNat,
  fun s => itoaBytes s.length⟩

/-! ### C102 -/

/-- Of every message: the values recorded are exactly those of the fields that are not internal; of several fields with one name the last one counts. -/
theorem C102_last (c : Lib) (fs : List Field) (p : List Bytes) (s : Bytes) :
    leafAt p (record c fs) = some s ↔ At c Last [] fs p s := leafAt_iff c p [] fs s

/-- With distinct names at every level, all fields that are not internal are recorded, each with its text (or the hash of its text) under its path, and
nothing else. Missing: fields with the same name, see `C102_same_name_violated`. -/
theorem C102_exact_partial (c : Lib) (fs : List Field) (hd : Distinct fs) (p : List Bytes) (s : Bytes) :
    leafAt p (record c fs) = some s ↔ At c Any [] fs p s := by
  rw [← at_any p hd]
  exact leafAt_iff c p [] fs s

/-- The recorded tree has distinct names at every level, and values only where there are no children (assumed in C18–C21). -/
theorem C102_wellformed (c : Lib) (fs : List Field) : WF (record c fs) ∧ ValueOnLeaves (record c fs) :=
  wf_collectAll c [] fs trivial trivial

/-- The map {1: "a", "1": "b"} with keys of type `any`: only one entry is recorded. -/
theorem C102_same_name_violated : ∃ (c : Lib) (fs : List Field) (p : List Bytes) (s : Bytes),
    At c Any [] fs p s ∧ leafAt p (record c fs) ≠ some s := by
  refine ⟨demo, [.node [109] [77] [.leaf [49] stringText (.str [97]), .leaf [49] stringText (.str [98])]], [[109], [49]], [97], ?_, by decide +kernel⟩
  refine .inner (n := [109]) (t := [77]) (cs := [.leaf [49] stringText (.str [97]), .leaf [49] stringText (.str [98])]) ⟨?_, List.mem_singleton.mpr rfl⟩ ?_
  · rw [← capture_iff]; decide +kernel
  · refine .leaf (n := [49]) (t := stringText) (v := .str [97]) ⟨?_, List.mem_cons_self⟩ ((kept_iff ..).mpr (by decide +kernel))
    rw [← capture_iff]; decide +kernel

/-- A struct with a number, a `reflect.Value` and a long slice. -/
def sample : List Field :=
  [.node [115] [83] [.leaf [97] [105] (.int32 (-5)), .node [118] reflectValue [.leaf nameTyp [42] .nil, .leaf nameFlag reflectFlag (.uint64 3)],
    .leaf [108] [91] (.int64Slice (List.replicate 100 7)), .node [109] [77] []]]

example : leafAt [[115], [97]] (record demo sample) = some [45, 53] ∧
    leafAt [[115], [118]] (record demo sample) = some [] ∧
    leafAt [[115], [108]] (record demo sample) = some (Compare.hashPrefix ++ [50, 48, 49]) ∧
    leafAt [[115], [109]] (record demo sample) = some nilText := by decide +kernel

theorem sample_distinct : Distinct sample := by
  refine .mk (by decide) ?_
  intro n t cs h
  obtain ⟨-, -, rfl⟩ := Field.node.inj (List.mem_singleton.mp h)
  refine .mk (by decide) ?_
  intro n t cs h
  simp only [List.mem_cons, List.not_mem_nil, or_false, reduceCtorEq, false_or, Field.node.injEq] at h
  rcases h with ⟨-, -, rfl⟩ | ⟨-, -, rfl⟩
  · exact .mk (by decide) (by simp)
  · exact .mk (by decide) (by simp)

/-! ### C103 -/

/-- Messages with the same fields in different orders, at any level, are recorded alike. For distinct names at every level. -/
theorem C103_order_partial (c : Lib) (fs gs : List Field) (hd : Distinct fs) (h : Shuffled fs gs) : Equal (record c fs) (record c gs) := by
  intro p
  have key : ∀ s, leafAt p (record c fs) = some s ↔ leafAt p (record c gs) = some s := by
    intro s
    rw [C102_exact_partial c fs hd, C102_exact_partial c gs (shuffled_distinct hd h)]
    exact ⟨at_shuffled h, at_shuffled (shuffled_symm h)⟩
  cases ha : leafAt p (record c fs) with
  | none =>
    cases hb : leafAt p (record c gs) with
    | none => rfl
    | some s => rw [(key s).mpr hb] at ha; cases ha
  | some s => exact ((key s).mp ha).symm

example : ∃ gs, Shuffled sample gs ∧ gs ≠ sample := by
  refine ⟨[.node [115] [83] [.node [118] reflectValue [.leaf nameTyp [42] .nil, .leaf nameFlag reflectFlag (.uint64 3)], .leaf [97] [105] (.int32 (-5)),
    .leaf [108] [91] (.int64Slice (List.replicate 100 7)), .node [109] [77] []]], .node .swap .nil, ?_⟩
  intro h
  have := (Field.node.inj (List.singleton_inj.mp h)).2.2
  simp at this

/-- The map {1: "a", "1": "b"} again: what is recorded depends on the order in which Go visits it. -/
theorem C103_order_violated : ∃ (c : Lib) (fs gs : List Field), Shuffled fs gs ∧ ¬ Equal (record c fs) (record c gs) := by
  refine ⟨demo, [.node [109] [77] [.leaf [49] stringText (.str [97]), .leaf [49] stringText (.str [98])]],
    [.node [109] [77] [.leaf [49] stringText (.str [98]), .leaf [49] stringText (.str [97])]], .node .swap .nil, ?_⟩
  intro h
  exact absurd (h [[109], [49]]) (by decide +kernel)

/-! ### C104 -/

/-- Two messages that are recorded alike have the same value at every path at which both have a leaf of the same type and kind. Assumed: numbers are not NaN,
slices of strings contain words, the hash does not collide on these two texts and neither text looks like a hash. -/
theorem C104_distinguishes_partial (c : Lib) (hc : LibOK c) (fs gs : List Field) (hf : Distinct fs) (hg : Distinct gs)
    (heq : Equal (record c fs) (record c gs)) (p : List Bytes) (t : Bytes) (v w : Val) (hv : Holds [] fs p t v) (hw : Holds [] gs p t w)
    (hk : kind v = kind w) (pv : Plain v) (pw : Plain w) (hh : c.hash (sprint c v) = c.hash (sprint c w) → sprint c v = sprint c w)
    (nv : ¬ "vsha1-".toUTF8.toList <+: sprint c v) (nw : ¬ "vsha1-".toUTF8.toList <+: sprint c w) : v = w := by
  have h1 := (C102_exact_partial c fs hf p _).mpr (holds_at hv)
  have h2 := (C102_exact_partial c gs hg p _).mpr (holds_at hw)
  rw [heq p, h2] at h1
  have h3 : stored c t (sprint c v) = stored c t (sprint c w) := (Option.some.inj h1).symm
  have e : "vsha1-".toUTF8.toList = Compare.hashPrefix := by decide +kernel
  rw [e] at nv nw
  refine sprint_inj hc hk pv pw ?_
  unfold stored at h3
  split at h3 <;> split at h3
  · exact hh (List.append_cancel_left h3)
  · exact absurd ⟨_, h3⟩ nw
  · exact absurd ⟨_, h3.symm⟩ nv
  · exact h3

/-- A field of one message that the other does not have at this path as a leaf or empty container is noticed. -/
theorem C104_missing (c : Lib) (fs gs : List Field) (hf : Distinct fs) (hg : Distinct gs) (heq : Equal (record c fs) (record c gs))
    (p : List Bytes) (s : Bytes) (hv : At c Any [] fs p s) : At c Any [] gs p s := by
  rw [← C102_exact_partial c gs hg, ← heq p, C102_exact_partial c fs hf]
  exact hv

theorem demo_ok : LibOK demo where
  inj32 := fun a b _ _ h => UInt32.toNat_inj.mp (itoaBytes_injective h)
  inj64 := fun a b _ _ h => UInt64.toNat_inj.mp (itoaBytes_injective h)
  injc := by
    intro a b a' b' _ _ _ _ h
    have nodash : ∀ n : Nat, (43 : UInt8) ∉ itoaBytes n := by
      intro n hn
      have := itoaBytes_digit n 43 hn
      simp at this
    have h1 := congrArg (List.takeWhile (fun x : UInt8 => x ≠ 43)) h
    have h2 := congrArg (List.dropWhile (fun x : UInt8 => x ≠ 43)) h
    have tw : ∀ (n : Nat) (r : Bytes), (itoaBytes n ++ 43 :: r).takeWhile (fun x : UInt8 => x ≠ 43) = itoaBytes n := by
      intro n r
      rw [List.takeWhile_append_of_pos]
      · simp
      · intro x hx; simp only [ne_eq, decide_eq_true_eq]; rintro rfl; exact nodash n hx
    have dw : ∀ (n : Nat) (r : Bytes), (itoaBytes n ++ 43 :: r).dropWhile (fun x : UInt8 => x ≠ 43) = 43 :: r := by
      intro n r
      rw [List.dropWhile_append_of_pos]
      · simp
      · intro x hx; simp only [ne_eq, decide_eq_true_eq]; rintro rfl; exact nodash n hx
    simp only [demo, tw, dw] at h1 h2
    exact ⟨UInt64.toNat_inj.mp (itoaBytes_injective h1), UInt64.toNat_inj.mp (itoaBytes_injective (List.cons.inj h2).2)⟩
  word32 := fun a => word_itoa _
  word64 := fun a => word_itoa _

/-- The number -5 of the sample. -/
example : Holds [] sample [[115], [97]] [105] (.int32 (-5)) ∧ Plain (.int32 (-5)) ∧ LibOK demo :=
  ⟨.inner (n := [115]) (t := [83]) ⟨by rw [← capture_iff]; decide +kernel, List.mem_singleton.mpr rfl⟩
    (.leaf ⟨by rw [← capture_iff]; decide +kernel, List.mem_cons_self⟩), trivial, demo_ok⟩

/-- The empty heap. -/
def noHeap : Capture.Heap := ⟨fun _ => .invalid, fun _ => [], fun _ => [], fun _ => []⟩

/-- Slices of strings: `[]string{"a b"}` and `[]string{"a", "b"}` are recorded alike, for every library and every configuration with room for them. -/
theorem C104_strings_violated : ∃ v w : Capture.V, v ≠ w ∧ ∀ (c : Lib) (cfg : Capture.Cfg), 3 ≤ cfg.len → 1 ≤ cfg.depth → ∀ fuel, 0 < fuel →
    ∃ a b, Capture.capture cfg noHeap fuel [120] v = some a ∧ Capture.capture cfg noHeap fuel [120] w = some b ∧
      record c [a.erase] = record c [b.erase] := by
  refine ⟨.prims (91 :: 93 :: stringText) (some 8) (.strs [[97, 32, 98]]), .prims (91 :: 93 :: stringText) (some 8) (.strs [[97], [98]]), by simp, ?_⟩
  intro c cfg h1 h2 fuel h3
  obtain ⟨n, rfl⟩ : ∃ n, fuel = n + 1 := ⟨fuel - 1, by omega⟩
  obtain ⟨d, hd⟩ : ∃ d, cfg.depth = d + 1 := ⟨cfg.depth - 1, by omega⟩
  obtain ⟨l, hl⟩ : ∃ l, cfg.len = l + 3 := ⟨cfg.len - 3, by omega⟩
  refine ⟨.leaf [120] (91 :: 93 :: stringText) (.strSlice [[97, 32, 98]]), .leaf [120] (91 :: 93 :: stringText) (.strSlice [[97], [98]]), ?_, ?_, ?_⟩
  · simp [Capture.capture, hd, Capture.stream, Capture.body, Capture.visit, Capture.V.ptrAddr, Capture.unwrap, Capture.unwrapped, Capture.V.refAddr,
      Capture.content, Capture.Prims.val, hl, Wire.limitString]
  · simp [Capture.capture, hd, Capture.stream, Capture.body, Capture.visit, Capture.V.ptrAddr, Capture.unwrap, Capture.unwrapped, Capture.V.refAddr,
      Capture.content, Capture.Prims.val, hl, Wire.limitString]
  · simp [Wire.WField.erase, record, collectAll, collect, sprint, sliceText, spaced]

/-- A nil map and an empty map are recorded alike. -/
theorem C104_empty_violated : ∃ v w : Capture.V, v ≠ w ∧ ∀ (c : Lib) (cfg : Capture.Cfg), 1 ≤ cfg.depth → ∀ fuel, 0 < fuel →
    ∃ a b, Capture.capture cfg noHeap fuel [120] v = some a ∧ Capture.capture cfg noHeap fuel [120] w = some b ∧
      record c [a.erase] = record c [b.erase] := by
  refine ⟨.nilRef [77], .map [77] 8 0, by simp, ?_⟩
  intro c cfg h2 fuel h3
  obtain ⟨n, rfl⟩ : ∃ n, fuel = n + 1 := ⟨fuel - 1, by omega⟩
  obtain ⟨d, hd⟩ : ∃ d, cfg.depth = d + 1 := ⟨cfg.depth - 1, by omega⟩
  refine ⟨.leaf [120] [77] .nil, .node [120] [77] .map [], ?_, ?_, ?_⟩
  · simp [Capture.capture, hd, Capture.stream, Capture.body, Capture.visit, Capture.V.ptrAddr, Capture.unwrap, Capture.unwrapped, Capture.V.refAddr,
      Capture.content]
  · simp [Capture.capture, hd, Capture.stream, Capture.body, Capture.visit, Capture.V.ptrAddr, Capture.unwrap, Capture.unwrapped, Capture.V.refAddr,
      Capture.content, Capture.mapItems, noHeap, Capture.each, Capture.nodeOf]
  · simp [Wire.WField.erase, record, collectAll, collect, sprint]

/-- A slice with one empty string and an empty slice are recorded alike. -/
example : record demo [.leaf [120] [91] (.strSlice [[]])] = record demo [.leaf [120] [91] (.strSlice [])] := by decide +kernel

end Verif.Fields
