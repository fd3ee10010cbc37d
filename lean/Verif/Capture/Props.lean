import Verif.Capture.Lemmas
import Verif.Capture.FullLemmas
import Verif.Capture.KeyLemmas
import Verif.Wire.Props

/-! Theorems about the state capture: C09, C13, C14, C16. -/

namespace Verif.Capture
open Verif Verif.Wire

/-! ### An example -/

/-- The heap behind the example value. -/
def exHeap : Heap where
  deref := fun _ => .scalar [105] (.int64 7)
  elems := fun _ => [.str [115] [1, 2, 3], .nilPtr [112]]
  entries := fun _ => []
  sorted := fun _ => []

/-- `struct{ n int; p *int; s []byte; x any }` with a slice `[]any{"…", nil}` in `x`. -/
def exValue : V :=
  .struct [83] [([110], .scalar [105] (.int64 5)), ([112], .ptr [112] 16 0), ([115], .prims [98] (some 24) (.bytes [255])),
    ([120], .iface (.slice [120] 40 1))]

def exCfg : Cfg := ⟨10, 100, fun b => b.all (· < 128)⟩

/-- All parts of the example with their paths, and what they unwrap to. -/
def exParts : List (Bytes × V × V) :=
  [([118], exValue, exValue),
   ([118, 46, 110], .scalar [105] (.int64 5), .scalar [105] (.int64 5)),
   ([118, 46, 112], .ptr [112] 16 0, .scalar [105] (.int64 7)),
   ([118, 46, 115], .prims [98] (some 24) (.bytes [255]), .prims [98] (some 24) (.bytes [255])),
   ([118, 46, 120], .iface (.slice [120] 40 1), .slice [120] 40 1),
   ([118, 46, 120, 46, 91, 48, 93], .str [115] [1, 2, 3], .str [115] [1, 2, 3]),
   ([118, 46, 120, 46, 91, 49, 93], .nilPtr [112], .nilPtr [112])]

theorem itoa0 : itoaBytes 0 = [48] := by decide +kernel
theorem itoa1 : itoaBytes 1 = [49] := by decide +kernel

theorem exParts_unwraps : ∀ x ∈ exParts, Unwraps exHeap x.2.1 x.2.2 := by
  intro x hx
  simp only [exParts, List.mem_cons, List.not_mem_nil, or_false] at hx
  rcases hx with rfl | rfl | rfl | rfl | rfl | rfl | rfl <;> exact ⟨3, rfl⟩

theorem exParts_step : ∀ x ∈ exParts, ∀ y ∈ items exCfg exHeap x.2.2, ∃ w, (valuePath x.1 y.1, y.2, w) ∈ exParts := by
  intro x hx y hy
  simp only [exParts, List.mem_cons, List.not_mem_nil, or_false] at hx
  rcases hx with rfl | rfl | rfl | rfl | rfl | rfl | rfl
  · simp only [items, exValue, List.mem_cons, List.not_mem_nil, or_false] at hy
    rcases hy with rfl | rfl | rfl | rfl <;> exact ⟨_, by simp [exParts, valuePath]; rfl⟩
  · simp [items] at hy
  · simp [items] at hy
  · simp [items] at hy
  · simp [items, numbered, exHeap, exCfg, itoa0, itoa1, List.range_succ] at hy
    rcases hy with rfl | rfl <;> exact ⟨_, by simp [exParts, valuePath]; rfl⟩
  · simp [items] at hy
  · simp [items] at hy

theorem exAt {p : Bytes} {v : V} (h : At exCfg exHeap [118] exValue p v) : ∃ w, (p, v, w) ∈ exParts := by
  induction h with
  | root => exact ⟨exValue, by simp [exParts]⟩
  | item _ hu hm ih =>
    obtain ⟨w', hw'⟩ := ih
    rw [unwraps_det hu (exParts_unwraps _ hw')] at hm
    exact exParts_step _ hw' _ hm

theorem exFits : Fits exCfg exHeap [118] exValue := by
  intro p v hat
  obtain ⟨w, hw⟩ := exAt hat
  have hun := exParts_unwraps _ hw
  simp only [exParts, List.mem_cons, List.not_mem_nil, or_false, Prod.mk.injEq] at hw
  refine ⟨?_, ?_, ?_⟩
  · rcases hw with h | h | h | h | h | h | h <;> rw [h.1] <;> decide
  · rcases hw with h | h | h | h | h | h | h <;> rw [h.2.1] <;> decide
  · intro w' hw'
    rw [unwraps_det hw' hun]
    rcases hw with h | h | h | h | h | h | h <;> rw [h.2.2] <;> simp [exValue, V.typ, maxUint32]

/-! ## C09 -/

theorem prims_ok {c : Cfg} (p : Prims) (hc : c.len + 30 ≤ maxUint32) (h : ∀ l, p = .strs l → ∀ s ∈ l, s.length < 2 ^ 64) :
    (p.val c).OK c.len := by
  cases p with
  | bytes l =>
    simp only [Prims.val]
    split
    · simp only [Val.OK]
      rw [C15_short_unchanged _ _ (by simp)]
      simp; omega
    · simp only [Val.OK, List.length_take]; omega
  | strs l =>
    simp only [Prims.val, Val.OK, List.length_map, List.length_take]
    refine ⟨by omega, by omega, ?_⟩
    intro s hs
    obtain ⟨t, ht, rfl⟩ := List.mem_map.mp hs
    have := limitString_length c.len t (h l rfl t (List.mem_of_mem_take ht))
    omega
  | _ => simp only [Prims.val, Val.OK, List.length_take]; omega

/-- The capture of a snapshot that fits is within the protocol limits. -/
theorem capture_ok {c : Cfg} {h : Heap} {fuel : Nat} {name : Bytes} {v : V} {w : WField}
    (hc : c.len + 30 ≤ maxUint32) (hf : Fits c h name v) (e : capture c h fuel name v = some w) : w.OK c.len := by
  have hname : ∀ {parent n : Bytes} {u : V}, At c h name v (valuePath parent n) u → n.length ≤ maxUint32 := by
    intro parent n u hat
    have := (hf _ _ hat).1
    unfold valuePath at this
    split at this
    · omega
    · simp only [List.length_append] at this; omega
  refine capture_ind (P := fun _ _ w => w.OK c.len) ?_ ?_ ?_ e
  · intro _ parent n t x u u' a hu hu' _ _ ht
    refine .leaf (hname hu) ?_ ?_
    · rcases ht with rfl | ⟨w, hw, rfl⟩
      · exact (hf _ _ hu).2.1
      · exact ((hf _ _ hu).2.2 w hw).1
    · have := (hf _ _ hu').1
      simp only [marker, Val.OK, List.length_append, List.length_cons, List.length_nil]
      omega
  · intro _ parent n u w v' hu hw hv
    have hw' := (hf _ _ hu).2.2 w hw
    refine .leaf (hname hu) hw'.1 ?_
    rcases hv with rfl | rfl | rfl
    · trivial
    · simp [maxDepth, Val.OK, maxUint32]
    · cases w with
      | scalar t s => cases s <;> trivial
      | str t s =>
        have := limitString_length c.len s hw'.2
        simp only [leafVal, Val.OK]; omega
      | prims t a p =>
        refine prims_ok p hc ?_
        rintro l rfl
        exact hw'.2
      | func t a => simp [leafVal, funcText, Val.OK, maxUint32]
      | chan t a => simp [leafVal, chanText, Val.OK, maxUint32]
      | other t s =>
        have := limitString_length c.len s hw'.2
        simp only [leafVal, Val.OK]; omega
      | _ => trivial
  · intro _ parent n u w k cs hu hw hk hlen hcs
    have hw' := (hf _ _ hu).2.2 w hw
    refine .node (hname hu) hw'.1 ?_ ?_ hcs
    · intro hs; rw [hlen]; exact items_length hk hs
    · rw [hlen]
      by_cases hs : k = .struct
      · subst hs
        cases w <;> simp [kindOf] at hk
        exact hw'.2
      · have := items_length (c := c) (h := h) hk hs
        omega

theorem captureAll_ok {c : Cfg} {h : Heap} {fuel : Nat} (hc : c.len + 30 ≤ maxUint32) : ∀ {snaps ws},
    (∀ s ∈ snaps, Fits c h s.1 s.2) → captureAll c h fuel snaps = some ws →
    ws.map some = snaps.map (fun s => capture c h fuel s.1 s.2) ∧ ∀ w ∈ ws, w.OK c.len
  | [], ws, _, e => by
    simp only [captureAll, Option.some.injEq] at e
    subst e; simp
  | s :: ss, ws, hf, e => by
    simp only [captureAll] at e
    cases h1 : capture c h fuel s.1 s.2 with
    | none => simp [h1] at e
    | some w =>
      cases h2 : captureAll c h fuel ss with
      | none => simp [h1, h2] at e
      | some ws' =>
        simp only [h1, h2, Option.some.injEq] at e
        subst e
        have ih := captureAll_ok hc (fun s hs => hf s (List.mem_cons_of_mem _ hs)) h2
        refine ⟨by rw [List.map_cons, List.map_cons, ih.1, h1], ?_⟩
        intro x hx
        rcases List.mem_cons.mp hx with rfl | hx
        · exact capture_ok hc (hf s (by simp)) h1
        · exact ih.2 x hx

/-- C09 (partial): with the same length limit on both sides, every message the client builds from a program state is
decoded by the server to the captured fields of all snapshots not called "nil", whatever the shape of the values.  Missing: names, paths and type names of
4 GiB and more, and texts of 2^64 bytes (`Fits`); a capture that does not return (C13). -/
theorem C09_accepted_partial (c : Cfg) (h : Heap) (fuel : Nat) (id : UInt32) (time : BitVec 64) (stack : List Frame)
    (snaps : List (Bytes × V)) (m : MsgState WField) (rest : Bytes) (hc : c.len + 30 ≤ maxUint32)
    (hstack : stackOK stack) (hn : snaps.length ≤ maxUint32) (hf : ∀ s ∈ snaps, Fits c h s.1 s.2)
    (e : snapshot c h fuel id time stack snaps = some m) :
    (decodeState c.len (encState m ++ rest)).out = some (m.erase, rest) ∧
      m.id = id ∧ m.time = time ∧ m.stack = stack ∧
      m.fields.map some = (snaps.filter fun s => s.1 ≠ [110, 105, 108]).map fun s => capture c h fuel s.1 s.2 := by
  suffices hs : m.OK c.len ∧ m.id = id ∧ m.time = time ∧ m.stack = stack ∧
      m.fields.map some = (snaps.filter fun s => s.1 ≠ [110, 105, 108]).map fun s => capture c h fuel s.1 s.2 from
    ⟨C08_state_roundtrip c.len m rest hs.1, hs.2⟩
  unfold snapshot at e
  cases h1 : captureAll c h fuel (snaps.filter fun s => s.1 ≠ nilName) with
  | none => rw [h1] at e; simp at e
  | some ws =>
    simp only [h1, Option.map_some, Option.some.injEq] at e
    subst e
    have := captureAll_ok hc (fun s hs => hf s (List.mem_of_mem_filter hs)) h1
    refine ⟨⟨hstack, ?_, this.2⟩, rfl, rfl, rfl, this.1⟩
    show ws.length ≤ _
    have hl := congrArg List.length this.1
    simp only [List.length_map] at hl
    rw [hl]
    exact le_trans (List.length_filter_le _ _) hn

/-- C09 fails for texts of 4 GiB: the client writes the message of a panic whatever its length, the server rejects all of it. -/
theorem C09_text_violated : ∀ (m : MsgPanic), maxUint32 < m.message.length → m.message.length < 2 ^ 64 → ∀ rest : Bytes,
    (decodePanic (encPanic m ++ rest)).out = none := by
  intro m h h64 rest
  unfold decodePanic encPanic
  simp only [List.append_assoc]
  rw [out_bind_some (out_readVarint_write _ _), out_bind_some (out_readInt64_write _ _), out_bind]
  have hs : (readString (writeString m.message ++ rest)).out = none := by
    unfold readString writeString
    have hn : (UInt64.ofNat m.message.length).toNat = m.message.length := by
      rw [UInt64.toNat_ofNat']
      exact Nat.mod_eq_of_lt h64
    rw [List.append_assoc, out_bind_some (out_readVarint_write _ _)]
    rw [hn]
    have h1 : ¬ UInt64.ofNat m.message.length = 0 := by
      intro e
      rw [e] at hn
      unfold maxUint32 at h
      simp at hn
      omega
    simp only [h1, gt_iff_lt, h, ↓reduceIte]
    rfl
  rw [hs]
  rfl

example : ∃ m : MsgPanic, maxUint32 < m.message.length ∧ m.message.length < 2 ^ 64 :=
  ⟨⟨3, 9, List.replicate (2 ^ 32) 97⟩, by simp only [List.length_replicate]; decide, by simp only [List.length_replicate]; decide⟩

/-- The example value is captured and the message is decoded. -/
example : ∃ m, snapshot exCfg exHeap 5 3 9 [] [([118], exValue), (nilName, .invalid)] = some m ∧
    (decodeState exCfg.len (encState m)).out = some (m.erase, []) := by
  refine ⟨_, rfl, ?_⟩
  have := C09_accepted_partial exCfg exHeap 5 3 9 [] [([118], exValue)] _ [] (by decide) ⟨by decide, by simp⟩ (by decide)
    (by intro s hs; simp only [List.mem_singleton] at hs; subst hs; exact exFits) rfl
  simpa using this.1

/-! ## C13 -/

/-- C13: captured containers are nested at most as deep as the recursion limit allows, and no slice or map has more
members than the length limit. -/
theorem C13_depth_and_length (c : Cfg) (h : Heap) (fuel : Nat) (name : Bytes) (v : V) (w : WField)
    (e : capture c h fuel name v = some w) : Shape c.len c.depth w := by
  refine capture_ind (P := fun r _ w => Shape c.len r w) ?_ ?_ ?_ e
  · intros; exact .leaf
  · intros; exact .leaf
  · intro _ _ _ _ w k cs _ _ hk hlen hcs
    refine .node ?_ hcs
    intro hs; rw [hlen]; exact items_length hk hs

/-- C13 (partial): every text that is sent is within the length limit, or is cut at the limit and followed by the note, or
is one of the markers.  Missing: the marker of a cycle contains a path of any length, and names have no limit
(`C13_cycle_text_violated`, `C13_names_violated`). -/
theorem C13_texts_partial (c : Cfg) (h : Heap) (fuel : Nat) (name : Bytes) (v : V) (w : WField)
    (e : capture c h fuel name v = some w) : Leaves (LeafLimited c.len) w := by
  refine capture_ind (P := fun _ _ w => Leaves (LeafLimited c.len) w) ?_ ?_ ?_ e
  · intro _ _ _ _ x _ _ _ _ _ _ _ _
    exact .leaf (.inr (.inr ⟨x, rfl⟩))
  · intro _ _ _ u w v' _ _ hv
    refine .leaf ?_
    rcases hv with rfl | rfl | rfl
    · trivial
    · exact .inr (.inl (by simp [fixedTexts]))
    · cases w with
      | scalar t s => cases s <;> trivial
      | str t s => exact .inl (limited_limitString _ _)
      | prims t a p =>
        cases p with
        | bytes l =>
          simp only [leafVal, Prims.val]
          split
          · exact .inl (limited_limitString _ _)
          · simp [LeafLimited]
        | strs l =>
          refine ⟨by simp, ?_⟩
          intro s hs
          obtain ⟨t, _, rfl⟩ := List.mem_map.mp hs
          exact limited_limitString _ _
        | _ => simp [leafVal, Prims.val, LeafLimited]
      | func t a => exact .inr (.inl (by simp [fixedTexts]))
      | chan t a => exact .inr (.inl (by simp [fixedTexts]))
      | other t s => exact .inl (limited_limitString _ _)
      | _ => trivial
  · intro _ _ _ _ _ _ _ _ _ _ _ hcs
    exact .node hcs

/-- C13 (partial): a capture returns whenever following pointers and interfaces from each part of the value ends, for any
heap, cyclic or not; and the result does not depend on how long one waits.  Missing: a pointer or interface that leads to
itself without a struct, slice or map in between (`C13_terminates_violated`). -/
theorem C13_returns_partial (c : Cfg) (h : Heap) (name : Bytes) (v : V)
    (hg : ∀ p u, At c h name v p u → ∃ w, Unwraps h u w) :
    ∃ w fuel, ∀ n, fuel ≤ n → capture c h n name v = some w := by
  obtain ⟨n, x, hx⟩ := stream_returns hg c.depth name v none [] .root
  refine ⟨x.1, n, ?_⟩
  intro m hm
  simp [capture, stream_mono hm hx]

/-- Cyclic heaps are included: a list node that points to itself. -/
def loopHeap : Heap where
  deref := fun _ => .struct [78] [([118], .scalar [105] (.int64 1)), ([110], .ptr [112] 8 0)]
  elems := fun _ => []
  entries := fun _ => []
  sorted := fun _ => []

theorem loopAt {p : Bytes} {u : V} (hat : At exCfg loopHeap [120] (.ptr [112] 8 0) p u) :
    u = .ptr [112] 8 0 ∨ u = .scalar [105] (.int64 1) := by
  induction hat with
  | root => exact .inl rfl
  | item _ hu hm ih =>
    rcases ih with rfl | rfl
    · rw [unwraps_det hu ⟨2, rfl⟩] at hm
      simp only [items, loopHeap, List.mem_cons, Prod.mk.injEq, List.not_mem_nil, or_false] at hm
      rcases hm with h | h
      · exact .inr h.2
      · exact .inl h.2
    · rw [unwraps_det hu ⟨1, rfl⟩] at hm
      simp [items] at hm

example : ∃ w fuel, ∀ n, fuel ≤ n → capture exCfg loopHeap n [120] (.ptr [112] 8 0) = some w := by
  refine C13_returns_partial _ _ _ _ ?_
  intro p u hat
  rcases loopAt hat with rfl | rfl
  · exact ⟨_, 2, rfl⟩
  · exact ⟨_, 1, rfl⟩

example : capture exCfg loopHeap 2 [120] (.ptr [112] 8 0) = some (.node [120] [78] .struct
    [.leaf [118] [105] (.int64 1), .leaf [110] [112] (.str (cycleText [120]))]) := rfl

/-- C13 does not hold in full: `var x any; x = &x` (or `type P *P`) is unwrapped forever, with any limits. -/
theorem C13_terminates_violated : ∃ (h : Heap) (v : V), ∀ (c : Cfg) (fuel : Nat) (name : Bytes),
    capture c h fuel name v = none := by
  refine ⟨⟨fun _ => .iface (.ptr [112] 8 0), fun _ => [], fun _ => [], fun _ => []⟩, .iface (.ptr [112] 8 0), ?_⟩
  have hun : ∀ n, unwrap ⟨fun _ => .iface (.ptr [112] 8 0), fun _ => [], fun _ => [], fun _ => []⟩ n
      (.iface (.ptr [112] 8 0)) = none ∧
      unwrap ⟨fun _ => .iface (.ptr [112] 8 0), fun _ => [], fun _ => [], fun _ => []⟩ n (.ptr [112] 8 0) = none := by
    intro n
    induction n with
    | zero => exact ⟨rfl, rfl⟩
    | succ n ih => exact ⟨ih.2, ih.1⟩
  intro c fuel name
  unfold capture
  cases c.depth <;> simp [stream, body, visit, V.ptrAddr, hun]

/-- C13 does not hold in full: the text of a map key is sent in full as the name of the entry. -/
theorem C13_names_violated : ∃ (c : Cfg) (h : Heap) (fuel : Nat) (name : Bytes) (v : V) (w : WField),
    name.length ≤ c.len ∧ capture c h fuel name v = some w ∧ ¬ Names (fun n => n.length ≤ c.len + 30) w := by
  refine ⟨⟨5, 2, fun _ => true⟩, ⟨fun _ => .invalid, fun _ => [], fun _ => [(List.replicate 40 97, .scalar [105] (.int64 1))],
    fun _ => []⟩, 2, [109], .map [77] 8 0, _, by decide, rfl, ?_⟩
  intro hn
  cases hn with
  | node _ hcs =>
    have := hcs _ (List.mem_singleton.mpr rfl)
    cases this with
    | leaf h => revert h; decide

/-- C13 does not hold in full: a cycle marker contains a path, which can be longer than the limit. -/
theorem C13_cycle_text_violated : ∃ (c : Cfg) (h : Heap) (fuel : Nat) (name : Bytes) (v : V) (w : WField),
    capture c h fuel name v = some w ∧ ¬ Leaves (fun x => ∀ s, x = .str s → s.length ≤ c.len + 30) w := by
  refine ⟨⟨5, 2, fun _ => true⟩, ⟨fun _ => .struct [83] [(List.replicate 40 97, .func [102] 16), ([98], .func [102] 16)],
    fun _ => [], fun _ => [], fun _ => []⟩, 2, [120], .ptr [112] 8 0, _, rfl, ?_⟩
  intro hn
  cases hn with
  | node hcs =>
    have := hcs _ (List.mem_cons_of_mem _ (List.mem_singleton.mpr rfl))
    cases this with
    | leaf h => have := h _ rfl; revert this; decide

/-- One struct with two interface fields that lead back to it. -/
def twinHeap : Heap where
  deref := fun _ => .struct [84] [([97], .iface (.ptr [112] 8 0)), ([98], .iface (.ptr [112] 8 0))]
  elems := fun _ => []
  entries := fun _ => []
  sorted := fun _ => []

theorem twin_stream (c : Cfg) (fuel : Nat) : ∀ (r : Nat) (name : Bytes) (vis : Visited) (parent : Bytes),
    ∃ w, stream c twinHeap (fuel + 3) r name (.iface (.ptr [112] 8 0)) vis parent = some (w, vis) ∧
      2 ^ r ≤ fieldCount w := by
  intro r
  have hkeep : ∀ vis : Visited, keep vis vis = vis := by intro vis; cases vis <;> rfl
  induction r with
  | zero =>
    intro name vis parent
    refine ⟨.leaf name [84] maxDepth, ?_, by simp [fieldCount]⟩
    simp [stream, body, visit, V.ptrAddr, unwrap, twinHeap, unwrapped, V.typ, hkeep]
  | succ r ih =>
    intro name vis parent
    obtain ⟨w1, e1, h1⟩ := ih [97] vis (valuePath parent name)
    obtain ⟨w2, e2, h2⟩ := ih [98] vis (valuePath parent name)
    refine ⟨.node name [84] .struct [w1, w2], ?_, ?_⟩
    · have hu : unwrap twinHeap (fuel + 3) (.iface (.ptr [112] 8 0)) =
          some (.struct [84] [([97], .iface (.ptr [112] 8 0)), ([98], .iface (.ptr [112] 8 0))]) := rfl
      simp [stream, body, visit, V.ptrAddr, hu, unwrapped, V.refAddr, content, each, e1, e2, nodeOf, hkeep]
    · simp only [fieldCount, fieldCount.sum]; rw [Nat.pow_succ]; omega

/-- The bound on the size is not useful in practice: pointers behind interfaces are not remembered, so a heap with one
small object is captured as at least 2^limit fields (the default limit is 100). -/
theorem C13_one_object_doubles (c : Cfg) (fuel : Nat) (name : Bytes) :
    ∃ w, capture c twinHeap (fuel + 3) name (.iface (.ptr [112] 8 0)) = some w ∧ 2 ^ c.depth ≤ fieldCount w := by
  obtain ⟨w, e, h⟩ := twin_stream c fuel c.depth name none []
  exact ⟨w, by simp [capture, e], h⟩

/-! ## C14 -/

theorem marker_text (x : Bytes) : marker x = .str (cycleText x) := rfl

theorem cycleText_injective {x y : Bytes} (h : cycleText x = cycleText y) : x = y := by
  simpa [cycleText] using h

theorem fixed_not_cycle : ∀ s ∈ fixedTexts, ∀ x, s ≠ cycleText x := by
  intro s hs x h
  simp only [fixedTexts, List.mem_cons, List.not_mem_nil, or_false] at hs
  rcases hs with rfl | rfl | rfl <;> simp [cycleText] at h

/-- C14 (partial): a cycle marker at some place names a part of the same snapshot that has the same address as the value
it replaces.  Missing: the named part need not enclose the value, so the value need not contain itself
(`C14_sharing_violated`, `C14_empty_slices_violated`); and a text of the program can look like a marker. -/
theorem C14_marker_same_address_partial (c : Cfg) (h : Heap) (fuel : Nat) (name : Bytes) (v : V) (w : WField)
    (hno : NoFakeMarker c h name v) (e : capture c h fuel name v = some w) : Explained c h name v [] w := by
  refine capture_ind (P := fun _ parent w => Explained c h name v parent w) ?_ ?_ ?_ e
  · intro _ parent n t x u u' a hu hu' ha ha' _
    refine .leaf ?_
    intro y hy
    rw [marker_text] at hy
    injection hy with hy
    rw [← cycleText_injective hy]
    exact ⟨u, u', a, hu, hu', ha, ha'⟩
  · intro _ parent n u w v' hu hw hv
    refine .leaf ?_
    intro y hy
    exfalso
    rcases hv with rfl | rfl | rfl
    · cases hy
    · injection hy with hy
      exact fixed_not_cycle _ (by simp [fixedTexts]) y hy
    · cases w <;> simp only [leafVal, funcText, chanText, Val.str.injEq, reduceCtorEq] at hy
      · rename_i s; cases s <;> simp [Scalar.val] at hy
      · exact hno _ _ _ _ hu hw rfl y hy
      · rename_i p
        cases p <;> simp only [Prims.val, reduceCtorEq] at hy
        split at hy
        · injection hy with hy
          exact hno _ _ _ _ hu hw rfl y hy
        · cases hy
      · exact fixed_not_cycle _ (by simp [fixedTexts]) y hy
      · exact fixed_not_cycle _ (by simp [fixedTexts]) y hy
      · exact hno _ _ _ _ hu hw rfl y hy
  · intro _ _ _ _ _ _ _ _ _ _ _ hcs
    exact .node hcs

/-- The self-referencing node gets a marker, which is explained. -/
example : Explained exCfg loopHeap [120] (.ptr [112] 8 0) [] (.node [120] [78] .struct
    [.leaf [118] [105] (.int64 1), .leaf [110] [112] (.str (cycleText [120]))]) := by
  refine C14_marker_same_address_partial exCfg loopHeap 2 _ _ _ ?_ rfl
  intro p u w s hat hu hs
  rcases loopAt hat with rfl | rfl
  · rw [unwraps_det hu ⟨2, rfl⟩] at hs; simp [loopHeap, ownText] at hs
  · rw [unwraps_det hu ⟨1, rfl⟩] at hs; simp [ownText] at hs

/-- C14 (partial): if no address is met twice, the value is captured in full, down to the depth limit.  Missing: values
that are not shared and still have the same address (`C14_empty_slices_violated`). -/
theorem C14_full_partial (c : Cfg) (h : Heap) (fuel : Nat) (name : Bytes) (v : V) (w : WField) (addrs : List Nat)
    (hfull : full c h fuel c.depth name v = some (w, addrs)) (hn : addrs.Nodup) : capture c h fuel name v = some w := by
  obtain ⟨vis', e, _⟩ := stream_full c.depth name v w addrs hfull none [] hn (by intro a _; rfl)
  simp [capture, e]

example : ∃ w, full exCfg exHeap 5 exCfg.depth [118] exValue = some (w, [16, 24, 40]) ∧
    capture exCfg exHeap 5 [118] exValue = some w := by
  refine ⟨_, rfl, ?_⟩
  exact C14_full_partial exCfg exHeap 5 [118] exValue _ [16, 24, 40] rfl (by decide)

/-- C14 does not hold in full: in `struct{ a, b *int }` with both fields pointing to the same number, nothing contains
itself, and `b` is replaced by a cycle marker naming `a`. -/
theorem C14_sharing_violated : ∃ (c : Cfg) (h : Heap) (v : V) (fuel : Nat) (name : Bytes) (w : WField),
    Acyclic h ∧ capture c h fuel name v = some w ∧ ¬ Leaves (fun x => ∀ p, x ≠ .str (cycleText p)) w := by
  refine ⟨exCfg, ⟨fun o => if o = 0 then .struct [83] [([97], .ptr [112] 8 1), ([98], .ptr [112] 8 1)] else .scalar [105] (.int64 7),
    fun _ => [], fun _ => [], fun _ => []⟩, .ptr [113] 16 0, 5, [118], _, ?_, rfl, ?_⟩
  · refine ⟨fun o => if o = 0 then 1 else 0, ?_⟩
    intro o o' hr
    rcases hr with hr | hr | hr
    · by_cases ho : o = 0
      · subst ho
        simp only [if_true] at hr ⊢
        cases hr with
        | struct hm hr =>
          simp only [List.mem_cons, List.not_mem_nil, or_false] at hm
          rcases hm with rfl | rfl <;> cases hr <;> simp
      · simp only [ho, if_false] at hr
        cases hr
    · simp at hr
    · simp at hr
  · intro hn
    cases hn with
    | node hcs =>
      have := hcs _ (List.mem_cons_of_mem _ (List.mem_singleton.mpr rfl))
      cases this with
      | leaf h => exact h [118, 46, 97] rfl

/-- C14 does not hold in full: Go gives all empty slices made with `make([]T, 0)` the same address, so in
`struct{ a, b []int }` with two separate empty slices the second is reported as a cycle; there is no pointer in sight. -/
theorem C14_empty_slices_violated : ∃ (c : Cfg) (h : Heap) (v : V) (fuel : Nat) (name : Bytes) (w : WField),
    (∀ o o', ¬ Refs (h.deref o) o') ∧
    capture c h fuel name v = some w ∧ ¬ Leaves (fun x => ∀ p, x ≠ .str (cycleText p)) w := by
  refine ⟨exCfg, ⟨fun _ => .struct [83] [([97], .prims [115] (some 8) (.int64s [])), ([98], .prims [115] (some 8) (.int64s []))],
    fun _ => [], fun _ => [], fun _ => []⟩, .ptr [113] 16 0, 5, [118], _, ?_, rfl, ?_⟩
  · intro o o' hr
    cases hr with
    | struct hm hr =>
      simp only [List.mem_cons, List.not_mem_nil, or_false] at hm
      rcases hm with rfl | rfl <;> cases hr
  · intro hn
    cases hn with
    | node hcs =>
      have := hcs _ (List.mem_cons_of_mem _ (List.mem_singleton.mpr rfl))
      cases this with
      | leaf h => exact h [118, 46, 97] rfl

/-! ## C86 -/

/-- C86 (partial): a value is never expanded inside a value with the same address.  Missing: the addresses of pointers
behind an interface or a pointer are not looked at (`C86_violated`). -/
theorem C86_not_unrolled_partial (c : Cfg) (h : Heap) (fuel : Nat) (name : Bytes) (v : V) (w : WField)
    (e : capture c h fuel name v = some w) : NotUnrolled c h (fun _ => False) v w := by
  unfold capture at e
  cases h1 : stream c h fuel c.depth name v none [] with
  | none => simp [h1] at e
  | some p =>
    simp only [h1, Option.map_some, Option.some.injEq] at e
    rw [← e]
    exact (stream_cut c.depth name v none [] p.1 p.2 _ (fun _ h => h.elim) h1).1

example : NotUnrolled exCfg loopHeap (fun _ => False) (.ptr [112] 8 0) (.node [120] [78] .struct
    [.leaf [118] [105] (.int64 1), .leaf [110] [112] (.str (cycleText [120]))]) :=
  C86_not_unrolled_partial exCfg loopHeap 2 [120] _ _ rfl

/-- C86 does not hold in full: a node whose `next` field has an interface type is unrolled to the depth limit: inside the
capture of the object there is a capture of the same object. -/
theorem C86_violated : ∃ (h : Heap) (v : V) (c : Cfg) (fuel : Nat) (name t : Bytes) (cs cs' : List WField),
    (∃ a o, v = .iface (.ptr [112] a o) ∧ h.deref o = .struct t [([110], v)]) ∧
    capture c h fuel name v = some (.node name t .struct cs) ∧ .node [110] t .struct cs' ∈ cs := by
  refine ⟨⟨fun _ => .struct [83] [([110], .iface (.ptr [112] 8 0))], fun _ => [], fun _ => [], fun _ => []⟩,
    .iface (.ptr [112] 8 0), ⟨2, 5, fun _ => true⟩, 3, [120], [83], _, [.leaf [110] [83] maxDepth], ⟨8, 0, rfl, rfl⟩, rfl, ?_⟩
  exact List.mem_singleton.mpr rfl

/-! ## C16 -/

/-- `less` of `sort.Slice`, astclient.go:375, on entries with their keys. -/
def keyLess (name : Nat → Bytes) {α : Type} (a b : Key × α) : Bool := decide (cmpKey name a.1 b.1 < 0)

/-- C16 (partial): the comparison of keys is a strict total order on the keys of one type, as `sort.Slice` needs.
Missing: NaN, and different types with the same name. -/
theorem C16_order_partial (name : Nat → Bytes) (types : Nat → KeyTy) (hname : ∀ i j, name i = name j → i = j) (t : KeyTy)
    (a b d : Key) (ha : HasTy types a t) (hb : HasTy types b t) (hd : HasTy types d t)
    (na : NoNaN a) (nb : NoNaN b) (nd : NoNaN d) :
    ¬ cmpKey name a a < 0 ∧ (cmpKey name a b < 0 → ¬ cmpKey name b a < 0) ∧
    (cmpKey name a b < 0 → cmpKey name b d < 0 → cmpKey name a d < 0) ∧
    (a ≠ b → cmpKey name a b < 0 ∨ cmpKey name b a < 0) := by
  have sw := cmpKey_swap (name := name) a b
  refine ⟨?_, ?_, cmpKey_trans hname ha hb hd na nb nd, ?_⟩
  · have := (cmpKey_zero hname ha ha na na).mpr rfl
    omega
  · omega
  · intro hne
    have : ¬ cmpKey name a b = 0 := fun h => hne ((cmpKey_zero hname ha hb na nb).mp h)
    omega

example : cmpKey (fun i => [UInt8.ofNat i]) (.pair (.iface 2 (.int 5)) (.pair (.float (some 3)) .unit))
    (.pair (.iface 2 (.int 5)) (.pair (.float (some 4)) .unit)) < 0 := by decide

/-- C16 (partial): the entries sent for a map are the same for any two iteration orders of the same map: above the limit
they are even sent in the same order.  Missing: NaN keys and keys of different types with the same name
(`C16_nan_violated`, `C16_type_names_violated`); and pointers and channels are ordered by address
(`C16_addresses_violated`). -/
theorem C16_same_entries_partial (c : Cfg) (h1 h2 : Heap) (obj : Nat) (name : Nat → Bytes) (types : Nat → KeyTy)
    (t : KeyTy) (hname : ∀ i j, name i = name j → i = j) (l1 l2 s1 s2 : List (Key × (Bytes × V)))
    (hperm : l1.Perm l2) (hdistinct : (l1.map (·.1)).Nodup)
    (hty : ∀ e ∈ l1, HasTy types e.1 t ∧ NoNaN e.1)
    (he1 : h1.entries obj = l1.map (·.2)) (he2 : h2.entries obj = l2.map (·.2))
    (hs1 : h1.sorted obj = s1.map (·.2)) (hs2 : h2.sorted obj = s2.map (·.2))
    (hp1 : s1.Perm l1) (hp2 : s2.Perm l2)
    (ho1 : SortedBy (keyLess name) s1) (ho2 : SortedBy (keyLess name) s2) :
    (mapItems c h1 obj).Perm (mapItems c h2 obj) ∧
      (c.len < l1.length → mapItems c h1 obj = mapItems c h2 obj ∧ (mapItems c h1 obj).length = c.len) ∧
      (l1.length ≤ c.len → mapItems c h1 obj = h1.entries obj) := by
  have hnd : l1.Nodup := List.Nodup.of_map _ hdistinct
  have hinj : ∀ a ∈ l1, ∀ b ∈ l1, a ≠ b → a.1 ≠ b.1 := by
    intro a ha b hb hne hk
    exact hne (List.inj_on_of_nodup_map hdistinct ha hb hk)
  have hss : s1 = s2 := by
    refine sorted_unique (less := keyLess name) (hp1.trans (hperm.trans hp2.symm)) (hp1.nodup_iff.mpr hnd) ?_ ?_ ho1 ho2
    · intro a ha b hb hne
      have ha' := hp1.mem_iff.mp ha
      have hb' := hp1.mem_iff.mp hb
      have := (C16_order_partial name types hname t a.1 b.1 b.1 (hty a ha').1 (hty b hb').1 (hty b hb').1 (hty a ha').2
        (hty b hb').2 (hty b hb').2).2.2.2 (hinj a ha' b hb' hne)
      simpa [keyLess] using this
    · intro a b hab
      have sw := cmpKey_swap (name := name) a.1 b.1
      simp only [keyLess, decide_eq_true_eq, decide_eq_false_iff_not] at hab ⊢
      omega
  have hlen1 : (h1.entries obj).length = l1.length := by rw [he1]; simp
  have hlen2 : (h2.entries obj).length = l1.length := by rw [he2, List.length_map, hperm.length_eq]
  rw [mapItems_eq, mapItems_eq, hlen1, hlen2]
  by_cases hle : l1.length ≤ c.len
  · rw [if_neg (by omega), if_neg (by omega), he1, he2]
    exact ⟨hperm.map _, fun h => absurd h (by omega), fun _ => rfl⟩
  · rw [if_pos (by omega), if_pos (by omega), hs1, hs2, hss]
    refine ⟨List.Perm.refl _, fun _ => ⟨rfl, ?_⟩, fun h => absurd h hle⟩
    rw [List.length_take, List.length_map, hp2.length_eq, ← hperm.length_eq]
    omega

/-- A map with three entries, limit two, in two iteration orders. -/
example : let e := fun (i : Int) => ((Key.int i, (([UInt8.ofNat i.toNat] : Bytes), V.scalar [105] (.int64 7))) : Key × (Bytes × V))
    let h := fun l => (⟨fun _ => .invalid, fun _ => [], fun _ => l, fun _ => [(e 1).2, (e 2).2, (e 3).2]⟩ : Heap)
    mapItems ⟨5, 2, fun _ => true⟩ (h [(e 3).2, (e 1).2, (e 2).2]) 0 =
      mapItems ⟨5, 2, fun _ => true⟩ (h [(e 2).2, (e 3).2, (e 1).2]) 0 := by
  intro e h
  refine ((C16_same_entries_partial ⟨5, 2, fun _ => true⟩ _ _ 0 (fun i => [UInt8.ofNat 0] ++ List.replicate i 0) (fun _ => .int) .int
    ?_ [e 3, e 1, e 2] [e 2, e 3, e 1] [e 1, e 2, e 3] [e 1, e 2, e 3] ?_ ?_ ?_ rfl rfl rfl rfl ?_ ?_ ?_ ?_).2.1 (by decide)).1
  · intro i j hij
    have := congrArg List.length hij
    simpa using this
  · exact (List.perm_append_comm (l₁ := [e 3, e 1]) (l₂ := [e 2])).trans (List.Perm.refl _)
  · simp [e]
  · intro x hx
    simp only [List.mem_cons, List.not_mem_nil, or_false] at hx
    rcases hx with rfl | rfl | rfl <;> exact ⟨.int, .int⟩
  · exact (List.perm_append_comm (l₁ := [e 1, e 2]) (l₂ := [e 3]))
  · exact (List.perm_append_comm (l₁ := [e 1]) (l₂ := [e 2, e 3]))
  · simp [SortedBy, keyLess, e, cmpKey, cmpLt]
  · simp [SortedBy, keyLess, e, cmpKey, cmpLt]

/-- What is sent of a map with the keys in iteration order `l` (with up to twelve keys, where the algorithm of
`sort.Slice` is insertion sort). -/
def sentKeys (name : Nat → Bytes) (limit : Nat) (l : List Key) : List Key :=
  if l.length ≤ limit then l else (goInsertionSort (fun a b => decide (cmpKey name a b < 0)) l).take limit

/-- C16 does not hold in full: a NaN key compares equal to everything and blocks the sorting. -/
theorem C16_nan_violated : ∃ (limit : Nat) (l1 l2 : List Key), l1.Perm l2 ∧ l1.Nodup ∧
    (∀ k ∈ l1, HasTy (fun _ => .float) k .float) ∧
    ¬ (sentKeys (fun _ => []) limit l1).Perm (sentKeys (fun _ => []) limit l2) := by
  refine ⟨1, [.float (some 2), .float none, .float (some 1)], [.float (some 1), .float none, .float (some 2)],
    by decide, by decide, ?_, by decide⟩
  intro k hk
  simp only [List.mem_cons, List.not_mem_nil, or_false] at hk
  rcases hk with rfl | rfl | rfl <;> exact .float

/-- C16 does not hold in full: keys of type `any` holding values of two types with the same name (`a/x.T` and `b/x.T` are
both "x.T") compare equal and stay in iteration order. -/
theorem C16_type_names_violated : ∃ (limit : Nat) (name : Nat → Bytes) (l1 l2 : List Key), l1.Perm l2 ∧ l1.Nodup ∧
    (∀ k ∈ l1, HasTy (fun _ => .int) k .iface ∧ NoNaN k) ∧
    ¬ (sentKeys name limit l1).Perm (sentKeys name limit l2) := by
  refine ⟨1, fun _ => [120, 46, 84], [.iface 0 (.int 1), .iface 1 (.int 1)], [.iface 1 (.int 1), .iface 0 (.int 1)],
    by decide, by decide, ?_, by decide⟩
  intro k hk
  simp only [List.mem_cons, List.not_mem_nil, or_false] at hk
  rcases hk with rfl | rfl <;> exact ⟨.iface .int, .iface .int⟩

/-- C16 does not hold across runs: with pointer keys the selection follows the addresses.  The same two entries, with the
two objects placed at swapped addresses. -/
theorem C16_addresses_violated : ∃ (limit : Nat) (l : List (Key × Nat)) (move : Nat → Nat), (∀ a, move (move a) = a) ∧
    let sent := fun l : List (Key × Nat) => ((goInsertionSort (keyLess fun _ => []) l).take limit).map (·.2)
    let moved := l.map fun e => match e.1 with | .ptr a => (Key.ptr (move a), e.2) | k => (k, e.2)
    sent l ≠ sent moved := by
  refine ⟨1, [(.ptr 8, 100), (.ptr 16, 200)], fun a => if a = 8 then 16 else if a = 16 then 8 else a, ?_, by decide⟩
  intro a
  by_cases h1 : a = 8
  · simp [h1]
  · by_cases h2 : a = 16
    · simp [h2]
    · simp [h1, h2]

end Verif.Capture
