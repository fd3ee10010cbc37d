import Verif.Capture.Lemmas

namespace Verif.Capture
open Verif Verif.Wire

theorem full_zero (c : Cfg) (h : Heap) (fuel : Nat) (name : Bytes) (v : V) :
    full c h fuel 0 name v = (unwrap h fuel v).bind fun w =>
      if w.absent then some (.leaf name w.typ .nil, v.ptrAddr.toList)
      else some (.leaf name w.typ maxDepth, v.ptrAddr.toList) := by
  rw [full, ptrOf_eq]
  cases unwrap h fuel v with
  | none => rfl
  | some w => cases w <;> rfl

theorem full_succ (c : Cfg) (h : Heap) (fuel r : Nat) (name : Bytes) (v : V) :
    full c h fuel (r + 1) name v = (unwrap h fuel v).bind fun w =>
      if w.absent then some (.leaf name w.typ .nil, v.ptrAddr.toList)
      else match kindOf w with
        | none => if w.flat then some (.leaf name w.typ (leafVal c w), v.ptrAddr.toList ++ w.refAddr.toList)
            else none
        | some k => ((items c h w).mapM fun e => full c h fuel r e.1 e.2).map fun l =>
            (.node name w.typ k (l.map (·.1)), v.ptrAddr.toList ++ w.refAddr.toList ++ l.flatMap (·.2)) := by
  rw [full, ptrOf_eq]
  cases hu : unwrap h fuel v with
  | none => rfl
  | some w =>
    have := unwrap_flat hu
    cases w <;> first
      | rfl
      | (simp [V.flat] at this; done)
      | (simp only [Option.bind_some, fullOf, refOf_eq, numberVal_eq, elemsVal_eq]; rfl)

/-- Addresses outside the list are known as before. -/
def Ext (vis : Visited) (as : List Nat) (vis' : Visited) : Prop :=
  ∀ a, a ∉ as → (vis'.getD []).get a = (vis.getD []).get a

theorem visit_fresh {vis : Visited} {o : Option Nat} {p : Bytes}
    (hf : ∀ a ∈ o.toList, (vis.getD []).get a = none) :
    ∃ vis', visit vis o p = .inr vis' ∧ Ext vis o.toList vis' := by
  cases o with
  | none => exact ⟨vis, rfl, fun _ _ => rfl⟩
  | some a =>
    refine ⟨some ((vis.getD []).set a p), ?_, ?_⟩
    · simp only [visit, hf a (by simp)]
    · intro b hb
      simp only [Option.getD_some, AMap.get_set]
      rw [if_neg (by simpa using hb)]

theorem ext_trans {x y z : Visited} {s t : List Nat} (h1 : Ext x s y) (h2 : Ext y t z) : Ext x (s ++ t) z := by
  intro a ha
  simp only [List.mem_append, not_or] at ha
  rw [h2 a ha.2, h1 a ha.1]

theorem ext_keep {x y : Visited} {s : List Nat} (h : Ext x s y) : Ext x s (keep x y) := by
  cases x with
  | none => intro a _; rfl
  | some m => exact h

theorem each_full {c : Cfg} {h : Heap} {fuel r : Nat} {path : Bytes}
    (ih : ∀ name v w as, full c h fuel r name v = some (w, as) → ∀ vis parent, as.Nodup →
      (∀ a ∈ as, (vis.getD []).get a = none) →
      ∃ vis', stream c h fuel r name v vis parent = some (w, vis') ∧ Ext vis as vis') :
    ∀ (es : List (Bytes × V)) l, (es.mapM fun e => full c h fuel r e.1 e.2) = some l →
      ∀ vis, (l.flatMap (·.2)).Nodup → (∀ a ∈ l.flatMap (·.2), (vis.getD []).get a = none) →
      ∃ vis', each (stream c h fuel r) path es vis = some (l.map (·.1), vis') ∧ Ext vis (l.flatMap (·.2)) vis'
  | [], l, e, vis, _, _ => by
    simp only [List.mapM_nil, pure, Option.some.injEq] at e
    subst e
    exact ⟨vis, rfl, fun _ _ => rfl⟩
  | x :: es, l, e, vis, hn, hf => by
    rw [List.mapM_cons] at e
    cases h1 : full c h fuel r x.1 x.2 with
    | none => simp [h1] at e
    | some p =>
      cases h2 : es.mapM fun e => full c h fuel r e.1 e.2 with
      | none => simp [h1, h2] at e
      | some q =>
        simp only [h1, h2, bind, Option.bind, pure, Option.some.injEq] at e
        subst e
        simp only [List.flatMap_cons] at hn hf
        obtain ⟨v1, e1, x1⟩ := ih x.1 x.2 p.1 p.2 h1 vis path (List.nodup_append.mp hn).1
          (fun a ha => hf a (List.mem_append_left _ ha))
        obtain ⟨v2, e2, x2⟩ := each_full (path := path) ih es q h2 v1 (List.nodup_append.mp hn).2.1 (by
          intro a ha
          rw [x1 a (fun hb => (List.nodup_append.mp hn).2.2 a hb a ha rfl)]
          exact hf a (List.mem_append_right _ ha))
        refine ⟨v2, ?_, ?_⟩
        · simp only [each, e1, e2, List.map_cons]
        · exact ext_trans x1 x2

/-- Without repeated addresses the capture is the full one. -/
theorem stream_full {c : Cfg} {h : Heap} {fuel : Nat} : ∀ r name v w as, full c h fuel r name v = some (w, as) →
    ∀ vis parent, as.Nodup → (∀ a ∈ as, (vis.getD []).get a = none) →
      ∃ vis', stream c h fuel r name v vis parent = some (w, vis') ∧ Ext vis as vis' := by
  intro r
  induction r with
  | zero =>
    intro name v w as e vis parent hn hf
    rw [full_zero] at e
    cases hu : unwrap h fuel v with
    | none => simp [hu] at e
    | some u =>
      simp only [hu, Option.bind_some] at e
      have has : as = v.ptrAddr.toList := by
        split at e <;> simp only [Option.some.injEq, Prod.mk.injEq] at e <;> exact e.2.symm
      subst has
      obtain ⟨v1, e1, x1⟩ := visit_fresh (p := valuePath parent name) hf
      refine ⟨keep vis v1, ?_, ext_keep x1⟩
      simp only [stream, body, e1, hu, unwrapped_eq]
      split at e <;> simp only [Option.some.injEq, Prod.mk.injEq] at e <;> simp_all
  | succ r ih =>
    intro name v w as e vis parent hn hf
    rw [full_succ] at e
    cases hu : unwrap h fuel v with
    | none => simp [hu] at e
    | some u =>
      simp only [hu, Option.bind_some] at e
      by_cases hab : u.absent = true
      · simp only [hab, if_true, Option.some.injEq, Prod.mk.injEq] at e
        obtain ⟨e1, e2⟩ := e
        subst e1; subst e2
        obtain ⟨v1, e1, x1⟩ := visit_fresh (p := valuePath parent name) hf
        exact ⟨keep vis v1, by simp only [stream, body, e1, hu, unwrapped_eq, hab, if_true], ext_keep x1⟩
      · simp only [hab, Bool.false_eq_true, if_false] at e
        cases hk : kindOf u with
        | none =>
          simp only [hk, unwrap_flat hu, if_true, Option.some.injEq, Prod.mk.injEq] at e
          obtain ⟨e1, e2⟩ := e
          subst e1; subst e2
          obtain ⟨v1, e1, x1⟩ := visit_fresh (vis := vis) (o := v.ptrAddr) (p := valuePath parent name)
            (fun a ha => hf a (List.mem_append_left _ ha))
          obtain ⟨v2, e2, x2⟩ := visit_fresh (vis := v1) (o := u.refAddr) (p := valuePath parent name) (by
            intro a ha
            rw [x1 a (fun hb => (List.nodup_append.mp hn).2.2 a hb a ha rfl)]
            exact hf a (List.mem_append_right _ ha))
          refine ⟨keep vis v2, ?_, ext_keep (ext_trans x1 x2)⟩
          simp only [stream, body, e1, hu, unwrapped_eq, hab, Bool.false_eq_true, if_false, e2,
            content_eq _ _ _ _ _ _ u (unwrap_flat hu), hk]
        | some k =>
          simp only [hk] at e
          cases hm : (items c h u).mapM fun e => full c h fuel r e.1 e.2 with
          | none => simp [hm] at e
          | some l =>
            simp only [hm, Option.map_some, Option.some.injEq, Prod.mk.injEq] at e
            obtain ⟨e1, e2⟩ := e
            subst e1; subst e2
            have hn1 := List.nodup_append.mp hn
            have hn2 := List.nodup_append.mp hn1.1
            obtain ⟨v1, e1, x1⟩ := visit_fresh (vis := vis) (o := v.ptrAddr) (p := valuePath parent name)
              (fun a ha => hf a (List.mem_append_left _ (List.mem_append_left _ ha)))
            obtain ⟨v2, e2, x2⟩ := visit_fresh (vis := v1) (o := u.refAddr) (p := valuePath parent name) (by
              intro a ha
              rw [x1 a (fun hb => hn2.2.2 a hb a ha rfl)]
              exact hf a (List.mem_append_left _ (List.mem_append_right _ ha)))
            have x12 := ext_trans x1 x2
            obtain ⟨v3, e3, x3⟩ := each_full (path := valuePath parent name) ih (items c h u) l hm v2 hn1.2.1 (by
              intro a ha
              rw [x12 a (fun hb => hn1.2.2 a hb a ha rfl)]
              exact hf a (List.mem_append_right _ ha))
            refine ⟨keep vis v3, ?_, ext_keep (ext_trans x12 x3)⟩
            simp only [stream, body, e1, hu, unwrapped_eq, hab, Bool.false_eq_true, if_false, e2,
              content_eq _ _ _ _ _ _ u (unwrap_flat hu), hk, e3, nodeOf]

end Verif.Capture
