import Verif.Nodes.Spec
import Verif.Static.Props

/-! Lemmas for `Verif.Nodes.Props`. -/

namespace Verif.Nodes

open Verif.Static (Bytes identStr Fn Graph nodeOf Upward Affected Reportable)

variable {N : Type} [DecidableEq N]

omit [DecidableEq N] in
theorem mainOrInit_iff (p : Program N) (x : N) : mainOrInit (p.info x) (p.kind x) = true ↔ Entry p x := by
  unfold Entry
  cases hk : p.kind x with
  | declared pkg recv name =>
    simp only [mainOrInit, Bool.and_eq_true, Bool.or_eq_true, beq_iff_eq, List.isEmpty_iff, initName, mainName, Kind.declared.injEq]
    constructor
    · rintro ⟨⟨h1, h2⟩, h3⟩
      exact ⟨pkg, name, ⟨rfl, h1, rfl⟩, h2, by tauto⟩
    · rintro ⟨_, _, ⟨_, h1, rfl⟩, h2, h3⟩
      exact ⟨⟨h1, h2⟩, by tauto⟩
  | _ => simp [mainOrInit]

omit [DecidableEq N] in
theorem reportable_iff (p : Program N) (x : N) : Reportable (p.graph.fn x) ↔ Watchable p x := by
  unfold Reportable Program.graph
  dsimp only
  constructor
  · rintro ⟨h1, h2, h3, h4, h5, h6⟩
    refine ⟨?_, fun e => ?_, h3, h4, h5⟩
    · cases hk : p.kind x with
      | declared pkg recv name => exact ⟨_, _, _, rfl⟩
      | _ => rw [hk] at h1 h6; simp [hasPkg, ident] at h1 h6
    · rw [(mainOrInit_iff p x).mpr e] at h2; cases h2
  · rintro ⟨⟨pkg, recv, name, hk⟩, h2, h3, h4, h5⟩
    refine ⟨by rw [hk]; rfl, ?_, h3, h4, h5, by rw [hk]; rfl⟩
    cases h : mainOrInit (p.info x) (p.kind x)
    · rfl
    · exact absurd ((mainOrInit_iff p x).mp h) h2

omit [DecidableEq N] in
theorem upward_iff (p : Program N) (f x : N) : Upward p.graph.callers (fun y => (p.graph.fn y).mainOrInit) f x ↔ Leads p f x := by
  constructor
  · intro h
    induction h with
    | start => exact .self
    | caller _ hr hc ih =>
      exact .call ih (fun e => by have := (mainOrInit_iff p _).mpr e; exact absurd (this.symm.trans hr) (by decide)) hc
  · intro h
    induction h with
    | self => exact .start
    | call _ hr hc ih =>
      refine .caller ih ?_ hc
      cases hm : mainOrInit (p.info _) (p.kind _)
      · exact hm
      · exact absurd ((mainOrInit_iff p _).mp hm) hr

/-- The identifier of a proper declaration tells it from all other functions. -/
theorem ident_inj {k k' : Kind} (hk : k.Proper) (r : k.Regular) (r' : k'.Regular) (h : (ident k).1 = (ident k').1) : k = k' := by
  cases k with
  | declared pkg recv name =>
    obtain ⟨a, b, c, d⟩ := r
    cases k' with
    | declared pkg' recv' name' =>
      obtain ⟨a', b', c', d'⟩ := r'
      obtain ⟨e1, e2, e3⟩ := Static.C44_unique _ _ _ _ _ _ b b' c c' h
      rw [e1, e2, e3]
    | applied recv' name' => exact absurd (Static.C44_unique _ _ _ _ _ _ b (by simp) c r' h).1 a
    | literal pkg' name' =>
      obtain ⟨b', c', d'⟩ := r'
      obtain ⟨_, _, e⟩ := Static.C44_unique pkg recv name pkg' [] name' b b' c c' h
      exact absurd (e ▸ d') d
    | initialiser pkg' =>
      obtain ⟨_, e2, e3⟩ := Static.C44_unique pkg recv name pkg' [] initName b r' c (by decide) h
      exact absurd e3 (hk.2 e2)
    | wrapper name' => exact absurd (Static.C44_unique pkg recv name [] [] name' b (by simp) c r' h).1 a
  | _ => exact hk.elim

omit [DecidableEq N] in
theorem unique {p : Program N} (hv : p.Valid) {f x : N} (hf : f ∈ p.nodes) (hx : x ∈ p.nodes) (hp : (p.kind f).Proper) (h : (p.graph.fn x).ident = (p.graph.fn f).ident) : x = f :=
  (hv.once f hf x hx hp (ident_inj hp (hv.regular f hf) (hv.regular x hx) h.symm)).symm

omit [DecidableEq N] in
theorem leads_mem {p : Program N} (hv : p.Valid) {f x : N} (hf : f ∈ p.nodes) (h : Leads p f x) : x ∈ p.nodes := by
  induction h with
  | self => exact hf
  | call _ _ hc ih => exact hv.closed _ ih _ hc

end Verif.Nodes
