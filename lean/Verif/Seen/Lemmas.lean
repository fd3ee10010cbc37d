import Verif.Seen.Spec
import Verif.Capture.Props
import Verif.Fields.Props

/-! Captured trees, and what is recorded of them. -/

namespace Verif.Seen

open Verif.Wire (WField Field Val limitString)
open Verif.Result (Bytes)
open Verif.Capture (Cfg Heap V Unwraps HasAddr items kindOf leafVal marker maxDepth stream each full Visited visit unwrap valuePath)
open Verif.Fields (Lib Kept sprint At Any Internal nameOf typeOf Distinct)

/-- The tree is a capture of the value; with notes only if `mark` is true. -/
inductive Drawn (c : Cfg) (h : Heap) (mark : Bool) : Nat → Bytes → V → WField → Prop
  | note {r n v t x a} : mark = true → HasAddr h v a → TypeIs true h v t → Drawn c h mark r n v (.leaf n t (marker x))
  | absent {r n v w} : Unwraps h v w → w.absent = true → Drawn c h mark r n v (.leaf n w.typ .nil)
  | deep {n v w} : Unwraps h v w → w.absent = false → Drawn c h mark 0 n v (.leaf n w.typ maxDepth)
  | own {r n v w} : Unwraps h v w → w.absent = false → kindOf w = none → Drawn c h mark (r + 1) n v (.leaf n w.typ (leafVal c w))
  | node {r n v w k cs} : Unwraps h v w → kindOf w = some k → cs.length = (items c h w).length →
      (∀ (i : Nat) (e : Bytes × V) (f : WField), (items c h w)[i]? = some e → cs[i]? = some f → Drawn c h mark r e.1 e.2 f) → Drawn c h mark (r + 1) n v (.node n w.typ k cs)

theorem each_pairs {f : Capture.Stream} {path : Bytes} {R : Bytes × V → WField → Prop} (hf : ∀ n v vis p w vis', f n v vis p = some (w, vis') → R (n, v) w) :
    ∀ {es vis ws vis'}, each f path es vis = some (ws, vis') → ws.length = es.length ∧ ∀ (i : Nat) e w, es[i]? = some e → ws[i]? = some w → R e w
  | [], vis, ws, vis', e => by
    simp only [each, Option.some.injEq, Prod.mk.injEq] at e
    rw [← e.1]
    simp
  | x :: es, vis, ws, vis', e => by
    simp only [each] at e
    cases h1 : f x.1 x.2 vis path with
    | none => simp [h1] at e
    | some a =>
      obtain ⟨w, vis1⟩ := a
      cases h2 : each f path es vis1 with
      | none => simp [h1, h2] at e
      | some b =>
        obtain ⟨ws', vis2⟩ := b
        simp only [h1, h2, Option.some.injEq, Prod.mk.injEq] at e
        obtain ⟨hl, hr⟩ := each_pairs hf h2
        rw [← e.1]
        refine ⟨by simp [hl], fun i y w' hy hw => ?_⟩
        cases i with
        | zero =>
          simp only [List.getElem?_cons_zero, Option.some.injEq] at hy hw
          subst hy hw
          exact hf _ _ _ _ _ _ h1
        | succ i => exact hr i y w' (by simpa using hy) (by simpa using hw)

theorem visit_addr {vis : Visited} {o : Option Nat} {p n : Bytes} (e : visit vis o p = .inl n) : ∃ a, o = some a := by
  cases o with
  | none => simp [visit] at e
  | some a => exact ⟨a, rfl⟩

/-- Every capture is one with notes. -/
theorem stream_drawn {c : Cfg} {h : Heap} {fuel : Nat} : ∀ r name v vis parent w vis', stream c h fuel r name v vis parent = some (w, vis') → Drawn c h true r name v w := by
  intro r
  induction r with
  | zero =>
    intro name v vis parent w vis' e
    simp only [stream, Capture.body] at e
    cases h1 : visit vis v.ptrAddr (valuePath parent name) with
    | inl n =>
      simp only [h1, Option.some.injEq, Prod.mk.injEq] at e
      rw [← e.1]
      obtain ⟨a, ha⟩ := visit_addr h1
      exact .note rfl (Capture.hasAddr_ptr ha) (.inr ⟨rfl, rfl⟩)
    | inr vis1 =>
      simp only [h1] at e
      cases h2 : unwrap h fuel v with
      | none => simp [h2] at e
      | some u =>
        simp only [h2, Capture.unwrapped_eq] at e
        by_cases hab : u.absent = true
        · simp only [hab, if_true, Option.some.injEq, Prod.mk.injEq] at e
          rw [← e.1]
          exact .absent ⟨_, h2⟩ hab
        · simp only [hab, Bool.false_eq_true, if_false, Option.some.injEq, Prod.mk.injEq] at e
          rw [← e.1]
          exact .deep ⟨_, h2⟩ (by simpa using hab)
  | succ r ih =>
    intro name v vis parent w vis' e
    simp only [stream, Capture.body] at e
    cases h1 : visit vis v.ptrAddr (valuePath parent name) with
    | inl n =>
      simp only [h1, Option.some.injEq, Prod.mk.injEq] at e
      rw [← e.1]
      obtain ⟨a, ha⟩ := visit_addr h1
      exact .note rfl (Capture.hasAddr_ptr ha) (.inr ⟨rfl, rfl⟩)
    | inr vis1 =>
      simp only [h1] at e
      cases h2 : unwrap h fuel v with
      | none => simp [h2] at e
      | some u =>
        simp only [h2, Capture.unwrapped_eq] at e
        by_cases hab : u.absent = true
        · simp only [hab, if_true, Option.some.injEq, Prod.mk.injEq] at e
          rw [← e.1]
          exact .absent ⟨_, h2⟩ hab
        · simp only [hab, Bool.false_eq_true, if_false] at e
          cases h3 : visit vis1 u.refAddr (valuePath parent name) with
          | inl n =>
            simp only [h3, Option.some.injEq, Prod.mk.injEq] at e
            rw [← e.1]
            obtain ⟨a, ha⟩ := visit_addr h3
            exact .note rfl (Capture.hasAddr_ref ⟨_, h2⟩ ha) (.inl ⟨u, ⟨_, h2⟩, rfl⟩)
          | inr vis2 =>
            simp only [h3, Capture.content_eq _ _ _ _ _ _ u (Capture.unwrap_flat h2)] at e
            cases hk : kindOf u with
            | none =>
              simp only [hk, Option.some.injEq, Prod.mk.injEq] at e
              rw [← e.1]
              exact .own ⟨_, h2⟩ (by simpa using hab) hk
            | some k =>
              simp only [hk] at e
              cases h4 : each (stream c h fuel r) (valuePath parent name) (items c h u) vis2 with
              | none => simp [h4, Capture.nodeOf] at e
              | some q =>
                simp only [h4, Capture.nodeOf, Option.some.injEq, Prod.mk.injEq] at e
                rw [← e.1]
                obtain ⟨hl, hr⟩ := each_pairs (R := fun e w => Drawn c h true r e.1 e.2 w) (fun n v vis p w vis' he => ih n v vis p w vis' he) h4
                exact .node ⟨_, h2⟩ hk hl hr

theorem mapM_pairs {α β : Type} {f : α → Option β} : ∀ {es : List α} {l : List β}, es.mapM f = some l →
    l.length = es.length ∧ ∀ (i : Nat) e b, es[i]? = some e → l[i]? = some b → f e = some b
  | [], l, e => by
    simp only [List.mapM_nil, pure, Option.some.injEq] at e
    subst e
    simp
  | x :: es, l, e => by
    rw [List.mapM_cons] at e
    cases h1 : f x with
    | none => simp [h1] at e
    | some b =>
      cases h2 : es.mapM f with
      | none => simp [h1, h2] at e
      | some q =>
        simp only [h1, h2, bind, Option.bind, pure, Option.some.injEq] at e
        obtain ⟨hl, hr⟩ := mapM_pairs h2
        rw [← e]
        refine ⟨by simp [hl], fun i y w' hy hw => ?_⟩
        cases i with
        | zero =>
          simp only [List.getElem?_cons_zero, Option.some.injEq] at hy hw
          subst hy hw
          exact h1
        | succ i => exact hr i y w' (by simpa using hy) (by simpa using hw)

/-- The unfolding without looking at addresses is a capture without notes. -/
theorem full_drawn {c : Cfg} {h : Heap} {fuel : Nat} : ∀ r name v w as, full c h fuel r name v = some (w, as) → Drawn c h false r name v w := by
  intro r
  induction r with
  | zero =>
    intro name v w as e
    rw [Capture.full_zero] at e
    cases hu : unwrap h fuel v with
    | none => simp [hu] at e
    | some u =>
      simp only [hu, Option.bind_some] at e
      by_cases hab : u.absent = true
      · simp only [hab, if_true, Option.some.injEq, Prod.mk.injEq] at e
        rw [← e.1]
        exact .absent ⟨_, hu⟩ hab
      · simp only [hab, Bool.false_eq_true, if_false, Option.some.injEq, Prod.mk.injEq] at e
        rw [← e.1]
        exact .deep ⟨_, hu⟩ (by simpa using hab)
  | succ r ih =>
    intro name v w as e
    rw [Capture.full_succ] at e
    cases hu : unwrap h fuel v with
    | none => simp [hu] at e
    | some u =>
      simp only [hu, Option.bind_some] at e
      by_cases hab : u.absent = true
      · simp only [hab, if_true, Option.some.injEq, Prod.mk.injEq] at e
        rw [← e.1]
        exact .absent ⟨_, hu⟩ hab
      · simp only [hab, Bool.false_eq_true, if_false] at e
        cases hk : kindOf u with
        | none =>
          simp only [hk, Capture.unwrap_flat hu, if_true, Option.some.injEq, Prod.mk.injEq] at e
          rw [← e.1]
          exact .own ⟨_, hu⟩ (by simpa using hab) hk
        | some k =>
          simp only [hk] at e
          cases h4 : (items c h u).mapM fun e => full c h fuel r e.1 e.2 with
          | none => simp [h4] at e
          | some q =>
            simp only [h4, Option.map_some, Option.some.injEq, Prod.mk.injEq] at e
            rw [← e.1]
            obtain ⟨hl, hr⟩ := mapM_pairs h4
            refine .node ⟨_, hu⟩ hk (by simp [hl]) fun i x f hx hf => ?_
            rw [List.getElem?_map] at hf
            cases hq : q[i]? with
            | none => simp [hq] at hf
            | some b =>
              simp only [hq, Option.map_some, Option.some.injEq] at hf
              rw [← hf]
              exact ih _ _ b.1 b.2 (hr i x b hx hq)

/-! ### Texts and names -/

theorem absent_iff {w : V} : Absent w ↔ w.absent = true := by cases w <;> simp [Absent, V.absent]

theorem container_iff {w : V} : Container w ↔ (kindOf w).isSome = true := by cases w <;> simp [Container, kindOf]

theorem text_iff {lib : Lib} {c : Cfg} {w : V} (hf : w.flat = true) (ha : w.absent = false) (hk : kindOf w = none) : textOf lib c w = some (sprint lib (leafVal c w)) := by
  cases w <;> first
    | (simp [V.flat] at hf; done)
    | (simp [V.absent] at ha; done)
    | (simp [kindOf] at hk; done)
    | simp only [textOf, leafVal, Capture.numberVal_eq, Capture.elemsVal_eq, sprint, Capture.funcText, Capture.chanText, Option.some.injEq]
  all_goals decide +kernel

theorem flat_of {h : Heap} {v w : V} (hu : Unwraps h v w) : w.flat = true := Capture.unwrap_flat hu.choose_spec

theorem text_some {lib : Lib} {c : Cfg} {h : Heap} {v w : V} {t : Bytes} (hu : Unwraps h v w) (ht : textOf lib c w = some t) :
    w.absent = false ∧ kindOf w = none ∧ t = sprint lib (leafVal c w) := by
  have h1 : w.absent = false := by cases w <;> simp_all [textOf, V.absent]
  have h2 : kindOf w = none := by cases w <;> simp_all [textOf, kindOf]
  rw [text_iff (flat_of hu) h1 h2] at ht
  exact ⟨h1, h2, (Option.some.inj ht).symm⟩

theorem hidden_iff (parent : Bytes) (f : Field) : Internal parent f ↔ Hidden parent (nameOf f) (typeOf f) := Iff.rfl

theorem sprint_depth (lib : Lib) : sprint lib maxDepth = "<max-depth>".toUTF8.toList := by
  simp only [sprint, maxDepth]
  decide +kernel

theorem sprint_nil (lib : Lib) : sprint lib .nil = "<nil>".toUTF8.toList := Fields.nilText_eq.symm

theorem sprint_marker (lib : Lib) (x : Bytes) : sprint lib (marker x) = Capture.cycleText x := rfl

theorem drawn_name {c : Cfg} {h : Heap} {mark : Bool} {r n v w} (d : Drawn c h mark r n v w) : nameOf w.erase = n := by
  cases d <;> simp [WField.erase, nameOf]

theorem drawn_type {c : Cfg} {h : Heap} {mark : Bool} {r n v w} (d : Drawn c h mark r n v w) : TypeIs mark h v (typeOf w.erase) := by
  cases d with
  | note hm _ ht => subst hm; simpa [WField.erase, typeOf] using ht
  | absent hu _ => exact .inl ⟨_, hu, by simp [WField.erase, typeOf]⟩
  | deep hu _ => exact .inl ⟨_, hu, by simp [WField.erase, typeOf]⟩
  | own hu _ _ => exact .inl ⟨_, hu, by simp [WField.erase, typeOf]⟩
  | node hu _ _ _ => exact .inl ⟨_, hu, by simp [WField.erase, typeOf]⟩

/-- What is recorded of some fields is recorded of one of them. -/
theorem at_single {lib : Lib} {parent : Bytes} {fs : List Field} {p : List Bytes} {s : Bytes} : At lib Any parent fs p s ↔ ∃ f ∈ fs, At lib Any parent [f] p s := by
  have key : ∀ f, Any parent fs f ↔ f ∈ fs ∧ Any parent [f] f := fun f => by simp [Any, and_comm]
  constructor
  · intro h
    cases h with
    | leaf h1 h2 => exact ⟨_, ((key _).mp h1).1, .leaf ((key _).mp h1).2 h2⟩
    | void h1 h2 => exact ⟨_, ((key _).mp h1).1, .void ((key _).mp h1).2 h2⟩
    | hollow h1 h2 h3 => exact ⟨_, ((key _).mp h1).1, .hollow ((key _).mp h1).2 h2 h3⟩
    | inner h1 h2 => exact ⟨_, ((key _).mp h1).1, .inner ((key _).mp h1).2 h2⟩
  · rintro ⟨f, hf, h⟩
    have key' : ∀ g, Any parent [f] g → Any parent fs g := fun g hg => ⟨hg.1, by rw [List.mem_singleton.mp hg.2]; exact hf⟩
    cases h with
    | leaf h1 h2 => exact .leaf (key' _ h1) h2
    | void h1 h2 => exact .void (key' _ h1) h2
    | hollow h1 h2 h3 => exact .hollow (key' _ h1) h2 h3
    | inner h1 h2 => exact .inner (key' _ h1) h2

theorem mem_pair {α β : Type} {l : List α} {m : List β} (hl : m.length = l.length) : (∀ b ∈ m, ∃ (i : Nat) (a : α), l[i]? = some a ∧ m[i]? = some b) ∧ ∀ a ∈ l, ∃ (i : Nat) (b : β), l[i]? = some a ∧ m[i]? = some b := by
  constructor
  · intro b hb
    obtain ⟨i, hi, rfl⟩ := List.getElem_of_mem hb
    exact ⟨i, l[i]'(by omega), List.getElem?_eq_getElem _, List.getElem?_eq_getElem _⟩
  · intro a ha
    obtain ⟨i, hi, rfl⟩ := List.getElem_of_mem ha
    exact ⟨i, m[i]'(by omega), List.getElem?_eq_getElem _, List.getElem?_eq_getElem _⟩

/-- What is recorded of a capture is shown by the value. -/
theorem at_shows {lib : Lib} {c : Cfg} {h : Heap} {mark : Bool} : ∀ r parent n v w p s, Drawn c h mark r n v w → At lib Any parent [w.erase] p s → Shows lib c h mark r parent n v p s := by
  intro r
  induction r with
  | zero =>
    intro parent n v w p s d a
    cases d with
    | note hm ha ht =>
      rw [WField.erase] at a
      cases a with
      | leaf h1 h2 =>
        obtain ⟨g1, g2⟩ := h1
        cases List.mem_singleton.mp g2
        exact .note hm ha ht g1 h2
      | void h1 => simp [Any] at h1
      | hollow h1 => simp [Any] at h1
      | inner h1 => simp [Any] at h1
    | absent hu hab =>
      rw [WField.erase] at a
      cases a with
      | leaf h1 h2 =>
        obtain ⟨g1, g2⟩ := h1
        cases List.mem_singleton.mp g2
        rw [sprint_nil] at h2
        exact .absent hu (absent_iff.mpr hab) g1 h2
      | void h1 => simp [Any] at h1
      | hollow h1 => simp [Any] at h1
      | inner h1 => simp [Any] at h1
    | deep hu hab =>
      rw [WField.erase] at a
      cases a with
      | leaf h1 h2 =>
        obtain ⟨g1, g2⟩ := h1
        cases List.mem_singleton.mp g2
        rw [sprint_depth] at h2
        exact .deep hu (by rw [absent_iff]; simp [hab]) g1 h2
      | void h1 => simp [Any] at h1
      | hollow h1 => simp [Any] at h1
      | inner h1 => simp [Any] at h1
  | succ r ih =>
    intro parent n v w p s d a
    cases d with
    | note hm ha ht =>
      rw [WField.erase] at a
      cases a with
      | leaf h1 h2 =>
        obtain ⟨g1, g2⟩ := h1
        cases List.mem_singleton.mp g2
        exact .note hm ha ht g1 h2
      | void h1 => simp [Any] at h1
      | hollow h1 => simp [Any] at h1
      | inner h1 => simp [Any] at h1
    | absent hu hab =>
      rw [WField.erase] at a
      cases a with
      | leaf h1 h2 =>
        obtain ⟨g1, g2⟩ := h1
        cases List.mem_singleton.mp g2
        rw [sprint_nil] at h2
        exact .absent hu (absent_iff.mpr hab) g1 h2
      | void h1 => simp [Any] at h1
      | hollow h1 => simp [Any] at h1
      | inner h1 => simp [Any] at h1
    | own hu hab hk =>
      rw [WField.erase] at a
      cases a with
      | leaf h1 h2 =>
        obtain ⟨g1, g2⟩ := h1
        cases List.mem_singleton.mp g2
        exact .own hu (text_iff (flat_of hu) hab hk) g1 h2
      | void h1 => simp [Any] at h1
      | hollow h1 => simp [Any] at h1
      | inner h1 => simp [Any] at h1
    | @node _ _ _ u k cs hu hk hl hcs =>
      rw [WField.erase] at a
      have hc : Container u := container_iff.mpr (by simp [hk])
      cases a with
      | leaf h1 h2 => simp [Any] at h1
      | void h1 h2 =>
        obtain ⟨g1, g2⟩ := h1
        simp only [List.mem_singleton, Field.node.injEq] at g2
        obtain ⟨rfl, rfl, g3⟩ := g2
        have : items c h u = [] := List.length_eq_zero_iff.mp (by rw [← hl, List.length_eq_zero_iff]; exact List.map_eq_nil_iff.mp g3.symm)
        exact .void hu hc this g1 h2
      | hollow h1 h2 h3 =>
        obtain ⟨g1, g2⟩ := h1
        simp only [List.mem_singleton, Field.node.injEq] at g2
        obtain ⟨rfl, rfl, rfl⟩ := g2
        refine .hollow hu hc (fun he => h2 ?_) (fun e he => ?_) g1
        · rw [he, List.length_nil, List.length_eq_zero_iff] at hl
          rw [hl]; rfl
        · obtain ⟨i, f, k1, k2⟩ := (mem_pair hl).2 e he
          have hd := hcs i e f k1 k2
          have := h3 f.erase (List.mem_map_of_mem (List.mem_of_getElem? k2))
          rw [hidden_iff, drawn_name hd] at this
          exact ⟨_, drawn_type hd, this⟩
      | inner h1 h2 =>
        obtain ⟨g1, g2⟩ := h1
        simp only [List.mem_singleton, Field.node.injEq] at g2
        obtain ⟨rfl, rfl, rfl⟩ := g2
        obtain ⟨f', hf', hat⟩ := at_single.mp h2
        obtain ⟨f, hf, rfl⟩ := List.mem_map.mp hf'
        obtain ⟨i, e, k1, k2⟩ := (mem_pair hl).1 f hf
        exact .part hu g1 (List.mem_of_getElem? k1) (ih _ _ _ _ _ _ (hcs i e f k1 k2) hat)

/-- Without notes it is all that is shown. -/
theorem shows_at {lib : Lib} {c : Cfg} {h : Heap} : ∀ r parent n v w p s, Drawn c h false r n v w → Shows lib c h false r parent n v p s → At lib Any parent [w.erase] p s := by
  intro r
  induction r with
  | zero =>
    intro parent n v w p s d sh
    cases d with
    | note hm => cases hm
    | absent hu hab =>
      cases sh with
      | note hm => cases hm
      | absent hu' ha hh hk =>
        cases Capture.unwraps_det hu hu'
        rw [← sprint_nil lib] at hk
        exact .leaf ⟨hh, List.mem_singleton.mpr (by simp [WField.erase])⟩ hk
      | deep hu' ha =>
        cases Capture.unwraps_det hu hu'
        exact absurd (absent_iff.mpr hab) ha
    | deep hu hab =>
      cases sh with
      | note hm => cases hm
      | absent hu' ha =>
        cases Capture.unwraps_det hu hu'
        rw [absent_iff, hab] at ha
        cases ha
      | deep hu' ha hh hk =>
        cases Capture.unwraps_det hu hu'
        rw [← sprint_depth lib] at hk
        exact .leaf ⟨hh, List.mem_singleton.mpr (by simp [WField.erase])⟩ hk
  | succ r ih =>
    intro parent n v w p s d sh
    cases d with
    | note hm => cases hm
    | @absent _ _ _ u hu hab =>
      cases sh with
      | note hm => cases hm
      | absent hu' ha hh hk =>
        cases Capture.unwraps_det hu hu'
        rw [← sprint_nil lib] at hk
        exact .leaf ⟨hh, List.mem_singleton.mpr (by simp [WField.erase])⟩ hk
      | own hu' ht =>
        cases Capture.unwraps_det hu hu'
        rw [(text_some hu ht).1] at hab
        cases hab
      | void hu' hc =>
        cases Capture.unwraps_det hu hu'
        cases u <;> simp [Container, V.absent] at hc hab
      | hollow hu' hc =>
        cases Capture.unwraps_det hu hu'
        cases u <;> simp [Container, V.absent] at hc hab
      | part hu' _ hm =>
        cases Capture.unwraps_det hu hu'
        cases u <;> simp [items, V.absent] at hm hab
    | @own _ _ _ u hu hab hk =>
      cases sh with
      | note hm => cases hm
      | absent hu' ha =>
        cases Capture.unwraps_det hu hu'
        rw [absent_iff, hab] at ha
        cases ha
      | own hu' ht hh hkp =>
        cases Capture.unwraps_det hu hu'
        rw [(text_some hu ht).2.2] at hkp
        exact .leaf ⟨hh, List.mem_singleton.mpr (by simp [WField.erase])⟩ hkp
      | void hu' hc =>
        cases Capture.unwraps_det hu hu'
        rw [container_iff, hk] at hc
        cases hc
      | hollow hu' hc =>
        cases Capture.unwraps_det hu hu'
        rw [container_iff, hk] at hc
        cases hc
      | part hu' _ hm =>
        cases Capture.unwraps_det hu hu'
        cases u <;> simp [items, kindOf] at hm hk
    | @node _ _ _ u k cs hu hk hl hcs =>
      have hself : ∀ q, q = Field.node n u.typ (cs.map WField.erase) → q ∈ [(WField.node n u.typ k cs).erase] := fun q hq => by
        rw [hq, List.mem_singleton, WField.erase]
      cases sh with
      | note hm => cases hm
      | absent hu' ha =>
        cases Capture.unwraps_det hu hu'
        cases u <;> simp [Absent, kindOf] at ha hk
      | own hu' ht =>
        cases Capture.unwraps_det hu hu'
        rw [(text_some hu ht).2.1] at hk
        cases hk
      | void hu' _ he hh hkp =>
        cases Capture.unwraps_det hu hu'
        rw [he, List.length_nil, List.length_eq_zero_iff] at hl
        subst hl
        exact .void ⟨hh, hself _ rfl⟩ hkp
      | hollow hu' _ hne hall hh =>
        cases Capture.unwraps_det hu hu'
        refine .hollow ⟨hh, hself _ rfl⟩ (fun he => hne ?_) fun f' hf' => ?_
        · rw [List.map_eq_nil_iff] at he
          rw [he, List.length_nil] at hl
          exact List.length_eq_zero_iff.mp hl.symm
        · obtain ⟨f, hf, rfl⟩ := List.mem_map.mp hf'
          obtain ⟨i, e, k1, k2⟩ := (mem_pair hl).1 f hf
          have hd := hcs i e f k1 k2
          obtain ⟨t, ht, hhid⟩ := hall e (List.mem_of_getElem? k1)
          rw [hidden_iff, drawn_name hd]
          rcases drawn_type hd with ⟨w1, hw1, e1⟩ | ⟨hm, _⟩
          · rcases ht with ⟨w2, hw2, e2⟩ | ⟨hm, _⟩
            · rw [e1, Capture.unwraps_det hw1 hw2, ← e2]
              exact hhid
            · cases hm
          · cases hm
      | part hu' hh hm hs =>
        cases Capture.unwraps_det hu hu'
        obtain ⟨i, f, k1, k2⟩ := (mem_pair hl).2 _ hm
        exact .inner ⟨hh, hself _ rfl⟩ (at_single.mpr ⟨f.erase, List.mem_map_of_mem (List.mem_of_getElem? k2), ih _ _ _ _ _ _ (hcs i _ f k1 k2) hs⟩)

/-- Names that are distinct in the program are distinct in the message. -/
theorem drawn_distinct {c : Cfg} {h : Heap} {mark : Bool} : ∀ r n v w, Drawn c h mark r n v w → Apart c h r v → ∀ n' t cs, w.erase = .node n' t cs → Distinct cs := by
  intro r
  induction r with
  | zero => intro n v w d _ n' t cs e; cases d <;> simp [WField.erase] at e
  | succ r ih =>
    intro n v w d ha n' t cs e
    cases d with
    | @node _ _ _ u k cs' hu hk hl hcs =>
      simp only [WField.erase, Field.node.injEq] at e
      obtain ⟨_, _, rfl⟩ := e
      obtain ⟨h1, h2⟩ := ha u hu
      refine .mk ?_ fun n'' t' cs'' hm => ?_
      · have : (cs'.map WField.erase).map nameOf = (items c h u).map (·.1) := by
          refine List.ext_getElem? fun i => ?_
          simp only [List.getElem?_map, Option.map_map]
          cases hi : (items c h u)[i]? with
          | none =>
            rw [List.getElem?_eq_none_iff] at hi
            rw [List.getElem?_eq_none (by omega)]
            rfl
          | some e =>
            cases hj : cs'[i]? with
            | none =>
              rw [List.getElem?_eq_none_iff] at hj
              have := (List.getElem?_eq_some_iff.mp hi).1
              omega
            | some f =>
              simp only [Option.map_some, Function.comp_apply, Option.some.injEq]
              exact drawn_name (hcs i e f hi hj)
        rw [this]
        exact h1
      · obtain ⟨f, hf, he⟩ := List.mem_map.mp hm
        obtain ⟨i, e, k1, k2⟩ := (mem_pair hl).1 f hf
        exact ih _ _ _ (hcs i e f k1 k2) (h2 e (List.mem_of_getElem? k1)) _ _ _ he
    | _ => simp [WField.erase] at e

end Verif.Seen
