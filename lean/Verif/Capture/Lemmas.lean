import Verif.Capture.Spec
import Verif.Wire.Props

namespace Verif.Capture
open Verif Verif.Wire

/-! ### The unwrapping loop -/

/-- Values at which the unwrapping loop stops. -/
def V.flat : V → Bool
  | .iface _ | .ptr _ _ _ => false
  | _ => true

theorem unwrap_flat {h : Heap} : ∀ {n v w}, unwrap h n v = some w → w.flat = true
  | 0, _, _, e => by simp [unwrap] at e
  | n + 1, v, w, e => by
    cases v <;> simp only [unwrap] at e <;> first
      | (injection e with e; subst e; rfl)
      | exact unwrap_flat e

theorem unwrap_succ {h : Heap} : ∀ {n v w}, unwrap h n v = some w → unwrap h (n + 1) v = some w
  | 0, _, _, e => by simp [unwrap] at e
  | n + 1, v, w, e => by
    cases v <;> simp only [unwrap] at e ⊢ <;> first
      | exact e
      | exact unwrap_succ (n := n) e

theorem unwrap_mono {h : Heap} {n v w} (e : unwrap h n v = some w) : ∀ {m}, n ≤ m → unwrap h m v = some w := by
  intro m hm
  induction hm with
  | refl => exact e
  | step _ ih => exact unwrap_succ ih

theorem unwraps_det {h : Heap} {v w w' : V} (a : Unwraps h v w) (b : Unwraps h v w') : w = w' := by
  obtain ⟨n, hn⟩ := a
  obtain ⟨m, hm⟩ := b
  have h1 := unwrap_mono hn (Nat.le_max_left n m)
  have h2 := unwrap_mono hm (Nat.le_max_right n m)
  rw [h1] at h2
  exact Option.some.inj h2

/-! ### The parts of a value -/

theorem ptrOf_eq (v : V) : ptrOf v = v.ptrAddr.toList := by cases v <;> rfl
theorem refOf_eq (v : V) : refOf v = v.refAddr.toList := by
  cases v <;> first | rfl | (rename_i a _; cases a <;> rfl)
theorem hasAddr_ptr {h : Heap} {v : V} {a : Nat} (e : v.ptrAddr = some a) : HasAddr h v a := by
  left; rw [ptrOf_eq, e]; simp
theorem hasAddr_ref {h : Heap} {v w : V} {a : Nat} (hu : Unwraps h v w) (e : w.refAddr = some a) : HasAddr h v a := by
  right; exact ⟨w, hu, by rw [refOf_eq, e]; simp⟩
theorem numberVal_eq (s : Scalar) : numberVal s = s.val := by
  cases s <;> first | rfl | (rename_i b; cases b <;> rfl)

theorem indexed_eq (c : Cfg) (es : List V) : indexed c es = numbered c.len es := by
  unfold indexed numbered
  apply List.ext_getElem?
  intro i
  rw [List.getElem?_map, List.getElem?_zipIdx]
  have key : ∀ n, n ≤ es.length → (List.range n).filterMap (fun i => es[i]?.map fun e => ([91] ++ itoaBytes i ++ [93], e)) =
      (es.take n).zipIdx.map fun e => (indexName e.2, e.1) := by
    intro n
    induction n with
    | zero => intro _; simp
    | succ n ih =>
      intro hn
      rw [List.range_succ, List.filterMap_append, ih (by omega), List.take_succ_eq_append_getElem (by omega),
        List.zipIdx_append]
      simp [indexName, List.getElem?_eq_getElem (show n < es.length by omega)]
      rw [Nat.min_eq_left (by omega)]
  rw [key (min c.len es.length) (by omega), List.getElem?_map, List.getElem?_zipIdx]
  have : es.take (min c.len es.length) = es.take c.len := by
    by_cases h : c.len ≤ es.length
    · rw [Nat.min_eq_left h]
    · rw [Nat.min_eq_right (by omega), List.take_length, List.take_of_length_le (by omega)]
  rw [this]

theorem mapItems_eq (c : Cfg) (h : Heap) (obj : Nat) :
    mapItems c h obj = if c.len < (h.entries obj).length then (h.sorted obj).take c.len else h.entries obj := by
  unfold mapItems
  by_cases hl : (h.entries obj).length ≤ c.len
  · rw [if_pos hl, if_neg (by omega)]
  · rw [if_neg hl, if_pos (by omega)]

theorem elemsVal_eq (c : Cfg) (p : Prims) : elemsVal c.len c.utf8 p = p.val c := by
  cases p with
  | bytes l =>
    simp only [elemsVal, Prims.val]
    rw [C15_short_unchanged c.len (l.take c.len) (by simp)]
    cases c.utf8 (l.take c.len) <;> rfl
  | strs l => simp [elemsVal, Prims.val, List.map_take]
  | _ => rfl

/-! ### The switch -/

/-- The container kind of an unwrapped value. -/
def kindOf : V → Option CKind
  | .array _ _ | .slice _ _ _ => some .slice
  | .map _ _ _ => some .map
  | .struct _ _ => some .struct
  | _ => none

/-- The value of the leaf for an unwrapped value that is not a container. -/
def leafVal (c : Cfg) : V → Val
  | .scalar _ s => s.val
  | .str _ s => .str (limitString c.len s)
  | .prims _ _ p => p.val c
  | .func _ _ => funcText
  | .chan _ _ => chanText
  | .other _ s => .str (limitString c.len s)
  | _ => .nil

theorem content_eq (c : Cfg) (h : Heap) (f : Stream) (name path : Bytes) (vis : Visited) (w : V) (hw : w.flat = true) :
    content c h f name path vis w = match kindOf w with
      | some k => nodeOf name w.typ k (each f path (items c h w) vis)
      | none => some (.leaf name w.typ (leafVal c w), vis) := by
  cases w <;> first | rfl | (simp [V.flat] at hw; done) | simp only [content, kindOf, items, indexed_eq, mapItems_eq, V.typ]

/-- `nil` pointers and interfaces and invalid values. -/
def V.absent : V → Bool
  | .nilPtr _ | .invalid => true
  | _ => false

theorem unwrapped_eq (c : Cfg) (h : Heap) (f : Option Stream) (name path : Bytes) (vis : Visited) (w : V) :
    unwrapped c h f name path vis w =
      if w.absent then some (.leaf name w.typ .nil, vis)
      else match f with
        | none => some (.leaf name w.typ maxDepth, vis)
        | some f =>
          match visit vis w.refAddr path with
          | .inl n => some (.leaf name w.typ (marker n), vis)
          | .inr vis => content c h f name path vis w := by
  cases w <;> rfl

theorem each_length {f : Stream} {path : Bytes} : ∀ {es vis ws vis'}, each f path es vis = some (ws, vis') →
    ws.length = es.length
  | [], vis, ws, vis', e => by
    simp only [each, Option.some.injEq, Prod.mk.injEq] at e
    rw [← e.1]; rfl
  | x :: es, vis, ws, vis', e => by
    simp only [each] at e
    cases h1 : f x.1 x.2 vis path with
    | none => simp [h1] at e
    | some p =>
      simp only [h1] at e
      cases h2 : each f path es p.2 with
      | none => simp [h2] at e
      | some q =>
        simp only [h2, Option.some.injEq, Prod.mk.injEq] at e
        rw [← e.1]
        simp [each_length (vis' := q.2) h2]

theorem each_ind {f : Stream} {path : Bytes} {I : Visited → Prop} {Q : WField → Prop} :
    ∀ {es vis ws vis'}, each f path es vis = some (ws, vis') →
    (∀ e ∈ es, ∀ vis w vis', I vis → f e.1 e.2 vis path = some (w, vis') → I vis' ∧ Q w) → I vis →
    I vis' ∧ ∀ w ∈ ws, Q w
  | [], vis, ws, vis', e, _, hi => by
    simp only [each, Option.some.injEq, Prod.mk.injEq] at e
    rw [← e.1, ← e.2]
    exact ⟨hi, by simp⟩
  | x :: es, vis, ws, vis', e, hf, hi => by
    simp only [each] at e
    cases h1 : f x.1 x.2 vis path with
    | none => simp [h1] at e
    | some p =>
      simp only [h1] at e
      cases h2 : each f path es p.2 with
      | none => simp [h2] at e
      | some q =>
        simp only [h2, Option.some.injEq, Prod.mk.injEq] at e
        have a := hf x (by simp) vis p.1 p.2 hi h1
        have b := each_ind (I := I) (Q := Q) (ws := q.1) (vis' := q.2) h2 (fun e he => hf e (by simp [he])) a.1
        rw [← e.1, ← e.2]
        refine ⟨b.1, ?_⟩
        intro w hw
        rcases List.mem_cons.mp hw with hw | hw
        · rw [hw]; exact a.2
        · exact b.2 w hw

/-! ### The general induction over a capture -/

section Induction
variable {c : Cfg} {h : Heap} {fuel : Nat} {name0 : Bytes} {v0 : V}

/-- Every recorded address belongs to the part of the snapshot recorded for it. -/
def Inv (c : Cfg) (h : Heap) (name0 : Bytes) (v0 : V) (vis : Visited) : Prop :=
  ∀ a p, (vis.getD []).get a = some p → ∃ u, At c h name0 v0 p u ∧ HasAddr h u a

theorem inv_none : Inv c h name0 v0 none := by intro a p e; simp [AMap.get] at e

theorem inv_set {vis : Visited} (hi : Inv c h name0 v0 vis) {a : Nat} {p : Bytes} {u : V}
    (hu : At c h name0 v0 p u) (ha : HasAddr h u a) : Inv c h name0 v0 (some ((vis.getD []).set a p)) := by
  intro b q e
  simp only [Option.getD_some, AMap.get_set] at e
  by_cases hb : b = a
  · simp only [hb, if_true, Option.some.injEq] at e
    subst e; subst hb; exact ⟨u, hu, ha⟩
  · simp only [hb, if_false] at e
    exact hi b q e

theorem inv_visit {vis vis' : Visited} (hi : Inv c h name0 v0 vis) {o : Option Nat} {p : Bytes} {u : V}
    (hu : At c h name0 v0 p u) (ha : ∀ a, o = some a → HasAddr h u a) (e : visit vis o p = .inr vis') :
    Inv c h name0 v0 vis' := by
  unfold visit at e
  cases o with
  | none => simp only [Sum.inr.injEq] at e; rw [← e]; exact hi
  | some a =>
    simp only at e
    cases h1 : (vis.getD []).get a with
    | some n => simp [h1] at e
    | none =>
      simp only [h1, Sum.inr.injEq] at e
      rw [← e]
      exact inv_set hi hu (ha a rfl)

theorem visit_inl {vis : Visited} {o : Option Nat} {p n : Bytes} (e : visit vis o p = .inl n) :
    ∃ a, o = some a ∧ (vis.getD []).get a = some n := by
  unfold visit at e
  cases o with
  | none => simp at e
  | some a =>
    simp only at e
    cases h1 : (vis.getD []).get a with
    | some m => simp only [h1, Sum.inl.injEq] at e; exact ⟨a, rfl, by rw [← e]; exact h1⟩
    | none => simp [h1] at e

theorem inv_keep {vis vis' : Visited} (hi : Inv c h name0 v0 vis') : Inv c h name0 v0 (keep vis vis') := by
  cases vis with
  | none => exact inv_none
  | some m => exact hi

/-- Induction over a capture: `P r parent field` is shown for markers, other leaves and containers. -/
theorem stream_ind {P : Nat → Bytes → WField → Prop}
    (hmark : ∀ r parent n t x u u' a, At c h name0 v0 (valuePath parent n) u → At c h name0 v0 x u' → HasAddr h u a →
      HasAddr h u' a → (t = u.typ ∨ ∃ w, Unwraps h u w ∧ t = w.typ) → P r parent (.leaf n t (marker x)))
    (hleaf : ∀ r parent n u w v, At c h name0 v0 (valuePath parent n) u → Unwraps h u w →
      (v = .nil ∨ v = maxDepth ∨ v = leafVal c w) → P r parent (.leaf n w.typ v))
    (hnode : ∀ r parent n u w k cs, At c h name0 v0 (valuePath parent n) u → Unwraps h u w → kindOf w = some k →
      cs.length = (items c h w).length → (∀ x ∈ cs, P r (valuePath parent n) x) → P (r + 1) parent (.node n w.typ k cs)) :
    ∀ r name v vis parent w vis', At c h name0 v0 (valuePath parent name) v → Inv c h name0 v0 vis →
      stream c h fuel r name v vis parent = some (w, vis') → Inv c h name0 v0 vis' ∧ P r parent w := by
  intro r
  induction r with
  | zero =>
    intro name v vis parent w vis' hat hi e
    simp only [stream, body] at e
    cases h1 : visit vis v.ptrAddr (valuePath parent name) with
    | inl n =>
      simp only [h1, Option.some.injEq, Prod.mk.injEq] at e
      obtain ⟨a, ha, hn⟩ := visit_inl h1
      obtain ⟨u', hu', ha'⟩ := hi a n hn
      rw [← e.1, ← e.2]
      exact ⟨hi, hmark _ _ _ _ _ v u' a hat hu' (hasAddr_ptr ha) ha' (.inl rfl)⟩
    | inr vis1 =>
      simp only [h1] at e
      have hi1 := inv_visit hi hat (fun a ha => hasAddr_ptr ha) h1
      cases h2 : unwrap h fuel v with
      | none => simp [h2] at e
      | some u =>
        simp only [h2, unwrapped_eq] at e
        by_cases hab : u.absent = true
        · simp only [hab, if_true, Option.some.injEq, Prod.mk.injEq] at e
          rw [← e.1, ← e.2]
          exact ⟨inv_keep hi1, hleaf _ _ _ v u _ hat ⟨_, h2⟩ (.inl rfl)⟩
        · simp only [hab, Bool.false_eq_true, if_false, Option.some.injEq, Prod.mk.injEq] at e
          rw [← e.1, ← e.2]
          exact ⟨inv_keep hi1, hleaf _ _ _ v u _ hat ⟨_, h2⟩ (.inr (.inl rfl))⟩
  | succ r ih =>
    intro name v vis parent w vis' hat hi e
    simp only [stream, body] at e
    cases h1 : visit vis v.ptrAddr (valuePath parent name) with
    | inl n =>
      simp only [h1, Option.some.injEq, Prod.mk.injEq] at e
      obtain ⟨a, ha, hn⟩ := visit_inl h1
      obtain ⟨u', hu', ha'⟩ := hi a n hn
      rw [← e.1, ← e.2]
      exact ⟨hi, hmark _ _ _ _ _ v u' a hat hu' (hasAddr_ptr ha) ha' (.inl rfl)⟩
    | inr vis1 =>
      simp only [h1] at e
      have hi1 := inv_visit hi hat (fun a ha => hasAddr_ptr ha) h1
      cases h2 : unwrap h fuel v with
      | none => simp [h2] at e
      | some u =>
        simp only [h2, unwrapped_eq] at e
        by_cases hab : u.absent = true
        · simp only [hab, if_true, Option.some.injEq, Prod.mk.injEq] at e
          rw [← e.1, ← e.2]
          exact ⟨inv_keep hi1, hleaf _ _ _ v u _ hat ⟨_, h2⟩ (.inl rfl)⟩
        · simp only [hab, Bool.false_eq_true, if_false] at e
          cases h3 : visit vis1 u.refAddr (valuePath parent name) with
          | inl n =>
            simp only [h3, Option.some.injEq, Prod.mk.injEq] at e
            obtain ⟨a, ha, hn⟩ := visit_inl h3
            obtain ⟨u', hu', ha'⟩ := hi1 a n hn
            rw [← e.1, ← e.2]
            exact ⟨inv_keep hi1, hmark _ _ _ _ _ v u' a hat hu' (hasAddr_ref ⟨_, h2⟩ ha) ha' (.inr ⟨u, ⟨_, h2⟩, rfl⟩)⟩
          | inr vis2 =>
            simp only [h3, content_eq _ _ _ _ _ _ u (unwrap_flat h2)] at e
            have hi2 := inv_visit hi1 hat (fun a ha => hasAddr_ref ⟨_, h2⟩ ha) h3
            cases hk : kindOf u with
            | none =>
              simp only [hk, Option.some.injEq, Prod.mk.injEq] at e
              rw [← e.1, ← e.2]
              exact ⟨inv_keep hi2, hleaf _ _ _ v u _ hat ⟨_, h2⟩ (.inr (.inr rfl))⟩
            | some k =>
              simp only [hk] at e
              cases h4 : each (stream c h fuel r) (valuePath parent name) (items c h u) vis2 with
              | none => simp [h4, nodeOf] at e
              | some q =>
                simp only [h4, nodeOf, Option.some.injEq, Prod.mk.injEq] at e
                have hall := each_ind (I := Inv c h name0 v0) (Q := P r (valuePath parent name)) (ws := q.1) (vis' := q.2)
                  h4 (fun x hx vis w vis' hv hs => ih x.1 x.2 vis _ w vis' (.item hat ⟨_, h2⟩ hx) hv hs) hi2
                rw [← e.1, ← e.2]
                exact ⟨inv_keep hall.1, hnode _ _ _ v u k _ hat ⟨_, h2⟩ hk (each_length (vis' := q.2) h4) hall.2⟩

/-- The same for a whole snapshot. -/
theorem capture_ind {P : Nat → Bytes → WField → Prop}
    (hmark : ∀ r parent n t x u u' a, At c h name0 v0 (valuePath parent n) u → At c h name0 v0 x u' → HasAddr h u a →
      HasAddr h u' a → (t = u.typ ∨ ∃ w, Unwraps h u w ∧ t = w.typ) → P r parent (.leaf n t (marker x)))
    (hleaf : ∀ r parent n u w v, At c h name0 v0 (valuePath parent n) u → Unwraps h u w →
      (v = .nil ∨ v = maxDepth ∨ v = leafVal c w) → P r parent (.leaf n w.typ v))
    (hnode : ∀ r parent n u w k cs, At c h name0 v0 (valuePath parent n) u → Unwraps h u w → kindOf w = some k →
      cs.length = (items c h w).length → (∀ x ∈ cs, P r (valuePath parent n) x) → P (r + 1) parent (.node n w.typ k cs))
    {w : WField} (e : capture c h fuel name0 v0 = some w) : P c.depth [] w := by
  unfold capture at e
  cases h1 : stream c h fuel c.depth name0 v0 none [] with
  | none => simp [h1] at e
  | some p =>
    simp only [h1, Option.map_some, Option.some.injEq] at e
    have := stream_ind (P := P) hmark hleaf hnode c.depth name0 v0 none [] p.1 p.2 .root inv_none h1
    rw [← e]; exact this.2

end Induction

/-! ### No unrolling -/

/-- Known addresses stay known. -/
def Grows (vis vis' : Visited) : Prop := ∀ a, (vis.getD []).get a ≠ none → (vis'.getD []).get a ≠ none

theorem grows_keep {vis vis' : Visited} (hg : Grows vis vis') : Grows vis (keep vis vis') := by
  cases vis with
  | none => intro a ha; exact absurd rfl ha
  | some m => exact hg

theorem visit_grows {vis vis' : Visited} {o : Option Nat} {p : Bytes} (e : visit vis o p = .inr vis') :
    Grows vis vis' ∧ ∀ a, o = some a → (vis.getD []).get a = none ∧ (vis'.getD []).get a ≠ none := by
  unfold visit at e
  cases o with
  | none =>
    simp only [Sum.inr.injEq] at e
    subst e
    exact ⟨fun _ h => h, by simp⟩
  | some a =>
    simp only at e
    cases h1 : (vis.getD []).get a with
    | some n => simp [h1] at e
    | none =>
      simp only [h1, Sum.inr.injEq] at e
      subst e
      refine ⟨?_, ?_⟩
      · intro b hb
        simp only [Option.getD_some, AMap.get_set]
        split
        · simp
        · exact hb
      · intro b hb
        injection hb with hb
        subst hb
        exact ⟨h1, by simp [AMap.get_set]⟩

theorem each_cut {f : Stream} {path : Bytes} {R : V → WField → Prop} {known : Nat → Prop}
    (hf : ∀ n v vis w vis', (∀ a, known a → (vis.getD []).get a ≠ none) → f n v vis path = some (w, vis') →
      R v w ∧ Grows vis vis') :
    ∀ {es vis ws vis'}, (∀ a, known a → (vis.getD []).get a ≠ none) → each f path es vis = some (ws, vis') →
      (∀ (i : Nat) (e : Bytes × V) (x : WField), es[i]? = some e → ws[i]? = some x → R e.2 x) ∧ Grows vis vis'
  | [], vis, ws, vis', _, e => by
    simp only [each, Option.some.injEq, Prod.mk.injEq] at e
    rw [← e.2]
    exact ⟨by simp, fun _ h => h⟩
  | y :: es, vis, ws, vis', hk, e => by
    simp only [each] at e
    cases h1 : f y.1 y.2 vis path with
    | none => simp [h1] at e
    | some p =>
      simp only [h1] at e
      cases h2 : each f path es p.2 with
      | none => simp [h2] at e
      | some q =>
        simp only [h2, Option.some.injEq, Prod.mk.injEq] at e
        have a := hf y.1 y.2 vis p.1 p.2 hk h1
        have b := each_cut hf (ws := q.1) (vis' := q.2) (fun x hx => a.2 x (hk x hx)) h2
        rw [← e.1, ← e.2]
        refine ⟨?_, fun x hx => b.2 x (a.2 x hx)⟩
        intro i e x hi hx
        cases i with
        | zero =>
          simp only [List.getElem?_cons_zero, Option.some.injEq] at hi hx
          rw [← hi, ← hx]; exact a.1
        | succ i =>
          simp only [List.getElem?_cons_succ] at hi hx
          exact b.1 i e x hi hx

theorem stream_cut {c : Cfg} {h : Heap} {fuel : Nat} : ∀ r name v vis parent w vis' (known : Nat → Prop),
    (∀ a, known a → (vis.getD []).get a ≠ none) → stream c h fuel r name v vis parent = some (w, vis') →
    NotUnrolled c h known v w ∧ Grows vis vis' := by
  intro r
  induction r with
  | zero =>
    intro name v vis parent w vis' known hkn e
    simp only [stream, body] at e
    cases h1 : visit vis v.ptrAddr (valuePath parent name) with
    | inl n =>
      simp only [h1, Option.some.injEq, Prod.mk.injEq] at e
      rw [← e.1, ← e.2]
      exact ⟨.leaf, fun _ h => h⟩
    | inr vis1 =>
      simp only [h1] at e
      have hg1 := visit_grows h1
      cases h2 : unwrap h fuel v with
      | none => simp [h2] at e
      | some u =>
        simp only [h2, unwrapped_eq] at e
        by_cases hab : u.absent = true
        · simp only [hab, if_true, Option.some.injEq, Prod.mk.injEq] at e
          rw [← e.1, ← e.2]
          exact ⟨.leaf, grows_keep hg1.1⟩
        · simp only [hab, Bool.false_eq_true, if_false, Option.some.injEq, Prod.mk.injEq] at e
          rw [← e.1, ← e.2]
          exact ⟨.leaf, grows_keep hg1.1⟩
  | succ r ih =>
    intro name v vis parent w vis' known hkn e
    simp only [stream, body] at e
    cases h1 : visit vis v.ptrAddr (valuePath parent name) with
    | inl n =>
      simp only [h1, Option.some.injEq, Prod.mk.injEq] at e
      rw [← e.1, ← e.2]
      exact ⟨.leaf, fun _ h => h⟩
    | inr vis1 =>
      simp only [h1] at e
      have hg1 := visit_grows h1
      cases h2 : unwrap h fuel v with
      | none => simp [h2] at e
      | some u =>
        simp only [h2, unwrapped_eq] at e
        by_cases hab : u.absent = true
        · simp only [hab, if_true, Option.some.injEq, Prod.mk.injEq] at e
          rw [← e.1, ← e.2]
          exact ⟨.leaf, grows_keep hg1.1⟩
        · simp only [hab, Bool.false_eq_true, if_false] at e
          cases h3 : visit vis1 u.refAddr (valuePath parent name) with
          | inl n =>
            simp only [h3, Option.some.injEq, Prod.mk.injEq] at e
            rw [← e.1, ← e.2]
            exact ⟨.leaf, grows_keep hg1.1⟩
          | inr vis2 =>
            have hg2 := visit_grows h3
            have hg12 : Grows vis vis2 := fun a ha => hg2.1 a (hg1.1 a ha)
            simp only [h3, content_eq _ _ _ _ _ _ u (unwrap_flat h2)] at e
            cases hk : kindOf u with
            | none =>
              simp only [hk, Option.some.injEq, Prod.mk.injEq] at e
              rw [← e.1, ← e.2]
              exact ⟨.leaf, grows_keep hg12⟩
            | some k =>
              simp only [hk] at e
              cases h4 : each (stream c h fuel r) (valuePath parent name) (items c h u) vis2 with
              | none => simp [h4, nodeOf] at e
              | some q =>
                simp only [h4, nodeOf, Option.some.injEq, Prod.mk.injEq] at e
                have haddr : ∀ a, HasAddr h v a → (vis.getD []).get a = none ∧ (vis2.getD []).get a ≠ none := by
                  intro a ha
                  rcases ha with ha | ⟨u', hu', ha⟩
                  · rw [ptrOf_eq, Option.mem_toList] at ha
                    have := hg1.2 a ha
                    exact ⟨this.1, hg2.1 a this.2⟩
                  · rw [unwraps_det hu' ⟨_, h2⟩, refOf_eq, Option.mem_toList] at ha
                    have := hg2.2 a ha
                    refine ⟨?_, this.2⟩
                    by_contra hne
                    exact hg1.1 a hne this.1
                have hall := each_cut (R := NotUnrolled c h (fun a => known a ∨ HasAddr h v a))
                  (known := fun a => known a ∨ HasAddr h v a) (ws := q.1) (vis' := q.2)
                  (fun n v vis w vis' hkn e => ih n v vis _ w vis' _ hkn e)
                  (by
                    intro a ha
                    rcases ha with ha | ha
                    · exact hg12 a (hkn a ha)
                    · exact (haddr a ha).2) h4
                rw [← e.1, ← e.2]
                refine ⟨.node ⟨_, h2⟩ ?_ (each_length (vis' := q.2) h4) hall.1, grows_keep fun a ha => hall.2 a (hg12 a ha)⟩
                intro a ha hka
                exact hkn a hka (haddr a ha).1

/-! ### Lengths -/

theorem items_length {c : Cfg} {h : Heap} {w : V} {k : CKind} (hk : kindOf w = some k) (hs : k ≠ .struct) :
    (items c h w).length ≤ c.len := by
  cases w <;> simp only [kindOf, Option.some.injEq, reduceCtorEq] at hk <;> subst hk
  · rw [show items c h (.array _ _) = numbered c.len _ from rfl, ← indexed_eq]; simp [indexed]
  · rw [show items c h (.slice _ _ _) = numbered c.len _ from rfl, ← indexed_eq]; simp [indexed]
  · simp only [items]
    split
    · simp
    · omega
  · exact absurd rfl hs

theorem limited_limitString (L : Nat) (s : Bytes) : Limited L (limitString L s) := by
  unfold limitString
  split
  · exact .inr ⟨s.take L, s.length - L, by simp; omega, rfl⟩
  · exact .inl (by omega)

theorem digits10_length : ∀ (k n : Nat), n < 10 ^ (k + 1) → (digits10 n).length ≤ k + 1
  | 0, n, h => by rw [digits10, if_pos (by simpa using h)]; simp
  | k + 1, n, h => by
    rw [digits10]
    split
    · simp
    · simp only [List.length_append, List.length_cons, List.length_nil]
      have := digits10_length k (n / 10) (by rw [Nat.div_lt_iff_lt_mul (by omega)]; rw [Nat.pow_succ] at h; exact h)
      omega

theorem limitString_length (L : Nat) (s : Bytes) (hs : s.length < 2 ^ 64) :
    (limitString L s).length ≤ L + 30 := by
  unfold limitString
  split
  · have : (itoaBytes (s.length - L)).length ≤ 20 := by
      simp only [itoaBytes, List.length_map]
      exact digits10_length 19 _ (by omega)
    simp only [List.length_append, List.length_take, List.length_cons, List.length_nil]
    omega
  · omega

/-! ### Enough rounds -/

theorem each_mono {f g : Stream} {path : Bytes} (hfg : ∀ n v vis p x, f n v vis p = some x → g n v vis p = some x) :
    ∀ {es vis x}, each f path es vis = some x → each g path es vis = some x
  | [], _, _, e => e
  | y :: es, vis, x, e => by
    simp only [each] at e ⊢
    cases h1 : f y.1 y.2 vis path with
    | none => simp [h1] at e
    | some p =>
      rw [hfg _ _ _ _ _ h1]
      simp only [h1] at e ⊢
      cases h2 : each f path es p.2 with
      | none => simp [h2] at e
      | some q => rw [each_mono hfg h2]; simpa [h2] using e

theorem body_mono {c : Cfg} {h : Heap} {m n : Nat} (hmn : m ≤ n) {f g : Option Stream}
    (hfg : (f = none ∧ g = none) ∨ ∃ f' g', f = some f' ∧ g = some g' ∧
      ∀ n v vis p x, f' n v vis p = some x → g' n v vis p = some x)
    {name v vis parent x} (e : body c h m f name v vis parent = some x) : body c h n g name v vis parent = some x := by
  simp only [body] at e ⊢
  cases h1 : visit vis v.ptrAddr (valuePath parent name) with
  | inl a => simpa [h1] using e
  | inr vis1 =>
    simp only [h1] at e ⊢
    cases h2 : unwrap h m v with
    | none => simp [h2] at e
    | some u =>
      rw [unwrap_mono h2 hmn]
      simp only [h2, unwrapped_eq] at e ⊢
      by_cases hab : u.absent = true
      · simpa [hab] using e
      · simp only [hab, Bool.false_eq_true, if_false] at e ⊢
        rcases hfg with ⟨rfl, rfl⟩ | ⟨f', g', rfl, rfl, hfg⟩
        · exact e
        · simp only at e ⊢
          cases h3 : visit vis1 u.refAddr (valuePath parent name) with
          | inl a => simpa [h3] using e
          | inr vis2 =>
            simp only [h3, content_eq _ _ _ _ _ _ u (unwrap_flat h2)] at e ⊢
            cases hk : kindOf u with
            | none => simpa [hk] using e
            | some k =>
              simp only [hk] at e ⊢
              cases h4 : each f' (valuePath parent name) (items c h u) vis2 with
              | none => simp [h4, nodeOf] at e
              | some q => rw [each_mono hfg h4]; simpa [h4] using e

theorem stream_mono {c : Cfg} {h : Heap} {m n : Nat} (hmn : m ≤ n) : ∀ {r name v vis parent x},
    stream c h m r name v vis parent = some x → stream c h n r name v vis parent = some x
  | 0, _, _, _, _, _, e => body_mono hmn (.inl ⟨rfl, rfl⟩) e
  | _ + 1, _, _, _, _, _, e =>
    body_mono hmn (.inr ⟨_, _, rfl, rfl, fun _ _ _ _ _ hx => stream_mono hmn hx⟩) e

/-- The captures of several values need finitely many rounds. -/
theorem each_returns {c : Cfg} {h : Heap} {r : Nat} {path : Bytes} : ∀ (es : List (Bytes × V)) (vis : Visited),
    (∀ e ∈ es, ∀ vis, ∃ n x, stream c h n r e.1 e.2 vis path = some x) →
    ∃ n x, each (stream c h n r) path es vis = some x
  | [], vis, _ => ⟨0, ([], vis), rfl⟩
  | y :: es, vis, hall => by
    obtain ⟨n, x, hx⟩ := hall y (by simp) vis
    obtain ⟨m, z, hz⟩ := each_returns es x.2 (fun e he => hall e (by simp [he]))
    refine ⟨max n m, (x.1 :: z.1, z.2), ?_⟩
    simp only [each, stream_mono (Nat.le_max_left n m) hx,
      each_mono (fun _ _ _ _ _ h => stream_mono (Nat.le_max_right n m) h) hz]

theorem stream_returns {c : Cfg} {h : Heap} {name0 : Bytes} {v0 : V}
    (hg : ∀ p v, At c h name0 v0 p v → ∃ w, Unwraps h v w) :
    ∀ r name v vis parent, At c h name0 v0 (valuePath parent name) v →
      ∃ n x, stream c h n r name v vis parent = some x := by
  intro r
  induction r with
  | zero =>
    intro name v vis parent hat
    obtain ⟨u, n, hn⟩ := hg _ _ hat
    refine ⟨n, ?_⟩
    simp only [stream, body]
    cases h1 : visit vis v.ptrAddr (valuePath parent name) with
    | inl a => exact ⟨_, rfl⟩
    | inr vis1 =>
      simp only [hn, unwrapped_eq]
      by_cases hab : u.absent = true <;> simp only [hab, Bool.false_eq_true, if_false, if_true] <;> exact ⟨_, rfl⟩
  | succ r ih =>
    intro name v vis parent hat
    obtain ⟨u, n, hn⟩ := hg _ _ hat
    cases h1 : visit vis v.ptrAddr (valuePath parent name) with
    | inl a => exact ⟨n, _, by simp only [stream, body, h1]; rfl⟩
    | inr vis1 =>
      by_cases hab : u.absent = true
      · exact ⟨n, _, by simp only [stream, body, h1, hn, unwrapped_eq, hab, if_true]; rfl⟩
      · cases h3 : visit vis1 u.refAddr (valuePath parent name) with
        | inl a =>
          exact ⟨n, _, by simp only [stream, body, h1, hn, unwrapped_eq, hab, Bool.false_eq_true, if_false, h3]; rfl⟩
        | inr vis2 =>
          cases hk : kindOf u with
          | none =>
            exact ⟨n, _, by
              simp only [stream, body, h1, hn, unwrapped_eq, hab, Bool.false_eq_true, if_false, h3,
                content_eq _ _ _ _ _ _ u (unwrap_flat hn), hk]; rfl⟩
          | some k =>
            obtain ⟨m, x, hx⟩ := each_returns (c := c) (h := h) (r := r) (path := valuePath parent name) (items c h u) vis2
              (fun e he vis => ih e.1 e.2 vis _ (.item hat ⟨n, hn⟩ he))
            refine ⟨max n m, (.node name u.typ k x.1, keep vis x.2), ?_⟩
            have hx' := each_mono (fun _ _ _ _ _ h => stream_mono (Nat.le_max_right n m) h) hx
            simp only [stream, body, h1, unwrap_mono hn (Nat.le_max_left n m), unwrapped_eq, hab, Bool.false_eq_true, if_false, h3,
                content_eq _ _ _ _ _ _ u (unwrap_flat hn), hk, hx', nodeOf]

end Verif.Capture
