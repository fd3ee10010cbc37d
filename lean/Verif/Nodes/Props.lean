import Verif.Nodes.Lemmas
import Verif.Whole.Props

/-! # C163: changed functions are found in the call graph -/

namespace Verif.Nodes

open Verif.Static (Bytes identStr Fn Graph nodeOf Search callerWorker recordAll exportEdges)

variable {N : Type} [DecidableEq N]

omit [DecidableEq N] in
/-- C163 (found): whatever the order in which the map of nodes is gone through, a changed function is taken for its own node. Missing: `init` functions. -/
theorem C163_found_partial {p : Program N} (hv : p.Valid) {f : N} (hf : f ∈ p.nodes) (hp : (p.kind f).Proper) : nodeOf p.graph (ident (p.kind f)).1 = some f := by
  cases h : nodeOf p.graph (ident (p.kind f)).1 with
  | none => exact absurd rfl (Static.nodeOf_none h f hf)
  | some x => rw [unique hv hf (Static.nodeOf_mem h).1 hp (Static.nodeOf_mem h).2]

/-- C163 (callers): for changed functions with a name of their own the callers reported are exactly the functions of the project that can be watched and from which calls lead to the change, through
literals, wrappers and type arguments or not; each with exactly the changes it leads to. Missing: `init` functions, see `C163_init_violated`. -/
theorem C163_callers_partial {p : Program N} (hv : p.Valid) (changes : List N) (hch : ∀ f ∈ changes, f ∈ p.nodes ∧ (p.kind f).Proper) (steps : Nat) (evs : Bytes → List (Bytes × N × Bytes))
    (events : List (Bytes × N × Bytes)) (hw : ∀ f ∈ changes, callerWorker p.graph steps (ident (p.kind f)).1 = .done (evs (ident (p.kind f)).1))
    (he : events.Perm ((changes.map fun f => (ident (p.kind f)).1).flatMap evs)) (x : N) (hx : x ∈ p.nodes) (hp : (p.kind x).Proper) :
    ((recordAll events).get (ident (p.kind x)).1 = none ↔ ¬ (Watchable p x ∧ ∃ f ∈ changes, x ≠ f ∧ Leads p f x)) ∧
    ∀ e, (recordAll events).get (ident (p.kind x)).1 = some e → e.node = x ∧ ∀ f ∈ changes, (ident (p.kind f)).1 ∈ e.targets ↔ x ≠ f ∧ Leads p f x := by
  have hid : ∀ ch ∈ changes.map (fun f => (ident (p.kind f)).1), ∀ a ∈ p.graph.nodes, ∀ b ∈ p.graph.nodes, (p.graph.fn a).ident = ch → (p.graph.fn b).ident = ch → a = b := by
    intro ch hc a ha b hb h1 h2
    obtain ⟨f, hf, rfl⟩ := List.mem_map.mp hc
    rw [unique hv (hch f hf).1 ha (hch f hf).2 h1, unique hv (hch f hf).1 hb (hch f hf).2 h2]
  have aff : ∀ f ∈ changes, ∀ y, Static.Affected p.graph (ident (p.kind f)).1 y ↔ y ≠ f ∧ Leads p f y ∧ Watchable p y := by
    intro f hf y
    constructor
    · rintro ⟨s, h1, h2, h3, h4, h5⟩
      rw [unique hv (hch f hf).1 h1 (hch f hf).2 h2] at h3 h4
      exact ⟨h3, (upward_iff p f y).mp h4, (reportable_iff p y).mp h5⟩
    · rintro ⟨h3, h4, h5⟩
      exact ⟨f, (hch f hf).1, rfl, h3, (upward_iff p f y).mpr h4, (reportable_iff p y).mpr h5⟩
  obtain ⟨k1, k2⟩ := Static.C42_callers_partial p.graph (changes.map fun f => (ident (p.kind f)).1) steps evs events (fun ch h => .inl (hid ch h))
    (fun ch hc => by obtain ⟨f, hf, rfl⟩ := List.mem_map.mp hc; exact hw f hf) he (ident (p.kind x)).1
  have same : ∀ f ∈ changes, ∀ y, Leads p f y → (p.graph.fn y).ident = (ident (p.kind x)).1 → y = x := fun f hf y hl h => unique hv hx (leads_mem hv (hch f hf).1 hl) hp h
  constructor
  · rw [k1]
    constructor
    · rintro h ⟨hw', f, hf, hne, hl⟩
      exact h _ (List.mem_map_of_mem hf) x ((aff f hf x).mpr ⟨hne, hl, hw'⟩) rfl
    · rintro h ch hc y hy e
      obtain ⟨f, hf, rfl⟩ := List.mem_map.mp hc
      obtain ⟨h1, h2, h3⟩ := (aff f hf y).mp hy
      have := same f hf y h2 e
      subst this
      exact h ⟨h3, f, hf, h1, h2⟩
  · intro e hge
    obtain ⟨_, ⟨m1, ch, hc, m2⟩, m3⟩ := k2 e hge
    have hex : e.node = x := by
      obtain ⟨f, hf, rfl⟩ := List.mem_map.mp hc
      exact same f hf _ ((aff f hf _).mp m2).2.1 m1
    have hwx : Watchable p x := by
      obtain ⟨f, hf, rfl⟩ := List.mem_map.mp hc
      exact hex ▸ ((aff f hf _).mp m2).2.2
    refine ⟨hex, fun f hf => ?_⟩
    rw [m3]
    constructor
    · rintro ⟨_, y, hy, e'⟩
      obtain ⟨h1, h2, h3⟩ := (aff f hf y).mp hy
      have := same f hf y h2 e'
      subst this
      exact ⟨h1, h2⟩
    · rintro ⟨h1, h2⟩
      exact ⟨List.mem_map_of_mem hf, x, (aff f hf x).mpr ⟨h1, h2, hwx⟩, rfl⟩

/-- C163 (generic): a function that calls a generic function with type arguments is reported for changes of that function. -/
theorem C163_generic {p : Program N} (hv : p.Valid) {f w x : N} (hf : f ∈ p.nodes) (hp : (p.kind f).Proper) (hk : ∃ recv name, p.kind w = .applied recv name) (c1 : some w ∈ p.callers f)
    (c2 : some x ∈ p.callers w) (hx : Watchable p x) (hne : x ≠ f) (he : ¬ Entry p f) (steps : Nat) (out : List (Bytes × N × Bytes)) (hw : callerWorker p.graph steps (ident (p.kind f)).1 = .done out) :
    ((ident (p.kind x)).1, x, (ident (p.kind f)).1) ∈ out := by
  rw [Static.callerWorker_done hw]
  obtain ⟨recv, name, hk⟩ := hk
  refine ⟨f, C163_found_partial hv hf hp, (upward_iff p f x).mpr (.call (.call .self he c1) ?_ c2), hne, (reportable_iff p x).mpr hx, rfl, rfl⟩
  rintro ⟨_, _, h, _⟩
  rw [hk] at h
  cases h

/-- C163 (init): nothing is ever reported for a changed `init` function, whichever of the nodes is taken for it. -/
theorem C163_init {p : Program N} (hv : p.Valid) (hs : Started p) (pkg : Bytes) (hpkg : 58 ∉ pkg ∧ pkg ≠ []) (steps : Nat) (out : List (Bytes × N × Bytes))
    (hw : callerWorker p.graph steps (identStr pkg [] [105, 110, 105, 116]) = .done out) : out = [] := by
  rw [List.eq_nil_iff_forall_not_mem]
  intro e he
  obtain ⟨s, h1, h2, h3, h4, _⟩ := (Static.callerWorker_done hw e).mp he
  obtain ⟨k1, k2⟩ := Static.nodeOf_mem h1
  have hk : ∃ pkg, p.kind s = .declared pkg [] [105, 110, 105, 116] ∨ p.kind s = .initialiser pkg := by
    have r := hv.regular s k1
    have k2 : (ident (p.kind s)).1 = identStr pkg [] initName := k2
    cases hks : p.kind s with
    | declared pkg' recv name =>
      rw [hks] at r k2
      obtain ⟨_, e2, e3⟩ := Static.C44_unique pkg' recv name pkg [] initName r.2.1 hpkg.1 r.2.2.1 (by decide) k2
      exact ⟨pkg', .inl (by rw [e2, e3]; rfl)⟩
    | applied recv name =>
      rw [hks] at r k2
      exact absurd (Static.C44_unique [] recv name pkg [] initName (by simp) hpkg.1 r (by decide) k2).1.symm hpkg.2
    | literal pkg' name =>
      rw [hks] at r k2
      obtain ⟨_, _, e⟩ := Static.C44_unique pkg' [] name pkg [] initName r.1 hpkg.1 r.2.1 (by decide) k2
      exact absurd (e ▸ r.2.2) (by decide)
    | initialiser pkg' => exact ⟨pkg', .inr rfl⟩
    | wrapper name =>
      rw [hks] at r k2
      exact absurd (Static.C44_unique [] [] name pkg [] initName (by simp) hpkg.1 r (by decide) k2).1.symm hpkg.2
  have hl := (upward_iff p s e.2.1).mp h2
  have key : ∀ y, Leads p s y → y ∈ p.nodes ∧ (y = s ∨ ∃ pkg, p.kind y = .initialiser pkg) := by
    intro y hy
    refine ⟨leads_mem hv k1 hy, ?_⟩
    induction hy with
    | self => exact .inl rfl
    | @call a b hab _ hc ih =>
      refine .inr (hs a (leads_mem hv k1 hab) ?_ b hc)
      rcases ih with rfl | ⟨q, hq⟩
      · exact hk
      · exact ⟨q, .inr hq⟩
  rcases (key _ hl).2 with h | ⟨q, h⟩
  · exact h3 h
  · obtain ⟨_, _, _, h'⟩ := ((reportable_iff p _).mp h4).declared
    rw [h] at h'
    cases h'

omit [DecidableEq N] in
/-- The condition on identifiers of changed functions in C134, C135, C145 and C146 holds. -/
theorem proper_unique {p : Program N} (hv : p.Valid) {f : N} (hf : f ∈ p.nodes) (hp : (p.kind f).Proper) : Reach.Unique p.graph (ident (p.kind f)).1 :=
  fun _ ha _ hb h1 h2 => (unique hv hf ha hp h1).trans (unique hv hf hb hp h2).symm

open Verif.Whole (Project Written Taken) in
open Verif.Total (Ctx Test Faithful Orderly) in
open Verif.Report (Input metrics through) in
open Verif.Verdict (Outcome Ids Survives) in
/-- C163 (report): for changed functions with a name of their own, C145 holds without a condition on identifiers: if the report has neither differences nor regressions, no test from which calls lead to
a changed function is affected by the update. Missing: `init` functions, and what C145 asks for besides. -/
theorem C163_report_partial {M : Type} [DecidableEq M] (x : Ctx) (hx : Faithful x) (ts : List Test) (ho : ∀ t ∈ ts, Orderly x t) (hid : Ids ts) : ∃ f0, ∀ fuel, f0 ≤ fuel → ∀ limit, 0 < limit →
    ∀ (P : Project N M) (p : Program N) (of : M → Option N) (taken : Taken) (i : Input), P.g = p.graph → p.Valid →
      (∀ ch ∈ P.changes, ∃ f ∈ p.nodes, ∃ pkg recv name, p.kind f = .declared pkg recv name ∧ name ≠ [95] ∧ (recv = [] → name ≠ [105, 110, 105, 116]) ∧ ch = identStr pkg recv name) →
      Reach.Repeated P.g P.gt of → Written P (Outcome x fuel limit) ts taken i → ∀ m, (m = metrics i ∨ ∃ js, Survives js (metrics i) ∧ m = through js (metrics i)) →
        m.diff = 0 → (∀ d ∈ m.details, d.regression = false) → ∀ t, Whole.Leads P of t → ∃ T ∈ ts, T.ident = (P.gt.fn t).ident ∧ Whole.Unaffected x T := by
  obtain ⟨f0, h0⟩ := Whole.C145_clean_partial (N := N) (M := M) x hx ts ho hid
  refine ⟨f0, fun fuel hf limit hl P p of taken i hg hv hch hr hw m hm => (h0 fuel hf limit hl P of taken i hr ?_ hw m hm).2⟩
  intro ch hc
  obtain ⟨f, hf, pkg, recv, name, hk, h1, h2, rfl⟩ := hch ch hc
  have := proper_unique hv hf (by rw [hk]; exact ⟨h1, h2⟩)
  rw [hk] at this
  rw [hg]
  exact this

/-- "a" and "b" as paths of packages, "Map" and "Use" as names. -/
private def pa : Bytes := [97]
private def pb : Bytes := [98]
private def mapName : Bytes := [77, 97, 112]
private def useName : Bytes := [85, 115, 101]

private def own : Info := ⟨true, false, some true, false, false, false⟩
private def foreign : Info := { own with inProject := false }

/-- 0: the generic function `a.Map`, 1: its wrapper for some type arguments, 2: `b.Use` of the project, which calls it in a literal, 3: that literal, 4: the initialiser of `b`. -/
private def sample : Program Nat :=
  ⟨[4, 0, 3, 1, 2], fun x => match x with | 0 => .declared pa [] mapName | 1 => .applied [] mapName | 2 => .declared pb [] useName | 3 => .literal pb (useName ++ [36, 49]) | _ => .initialiser pb,
    fun x => if x = 0 then foreign else own, fun x => match x with | 0 => [some 1] | 1 => [some 3] | 3 => [some 2] | _ => []⟩

example : callerWorker sample.graph 5 (identStr pa [] mapName) = .done [(identStr pb [] useName, 2, identStr pa [] mapName)] := by decide +kernel

example : sample.Valid ∧ (sample.kind 0).Proper ∧ Leads sample 0 2 ∧ Watchable sample 2 := by
  refine ⟨⟨?_, ?_, ?_⟩, ?_, ?_, ⟨_, _, _, rfl⟩, ?_, rfl, rfl, rfl⟩
  · intro x hx
    simp only [sample, List.mem_cons, List.not_mem_nil, or_false] at hx
    rcases hx with rfl | rfl | rfl | rfl | rfl <;> simp [sample, Kind.Regular, pa, pb, mapName, useName]
  · intro x hx y hy
    simp only [sample, List.mem_cons, List.not_mem_nil, or_false] at hx hy
    rcases hx with rfl | rfl | rfl | rfl | rfl <;> rcases hy with rfl | rfl | rfl | rfl | rfl <;> simp [sample, Kind.Proper, pa, pb]
  · intro x hx y
    simp only [sample, List.mem_cons, List.not_mem_nil, or_false] at hx
    rcases hx with rfl | rfl | rfl | rfl | rfl <;> simp [sample] <;> rintro rfl <;> simp
  · simp [sample, Kind.Proper, mapName]
  · have ne : ∀ x, ¬ Entry sample x := fun x ⟨_, _, _, h, _⟩ => by
      simp only [sample] at h
      split at h <;> cases h
    exact .call (.call (.call .self (ne 0) (y := 1) (by simp [sample])) (ne 1) (y := 3) (by simp [sample])) (ne 3) (by simp [sample])
  · rw [← mainOrInit_iff]
    simp [sample, mainOrInit, own]

/-- 0: the changed function `a.init`, 1 and 2: the initialisers of `a` and of the package `b` of the project, which imports it; 3: `b.Use`. -/
private def importing (nodes : List Nat) : Program Nat :=
  ⟨nodes, fun x => match x with | 0 => .declared pa [] initName | 1 => .initialiser pa | 2 => .initialiser pb | _ => .declared pb [] useName, fun x => if x < 2 then { foreign with plain := true } else own,
    fun x => match x with | 0 => [some 1] | 1 => [some 2] | _ => []⟩

/-- A changed `init` function runs before all tests of a project that imports its package, but no function of the project is reported for it; and it depends on the order of a map whether it or
the initialiser of its package is taken for it. -/
theorem C163_init_violated : nodeOf (importing [0, 1, 2, 3]).graph (identStr pa [] initName) = some 1 ∧ nodeOf (importing [1, 0, 2, 3]).graph (identStr pa [] initName) = some 0 ∧
    Static.Calls (importing [0, 1, 2, 3]).callers 0 2 ∧ callerWorker (importing [0, 1, 2, 3]).graph 4 (identStr pa [] initName) = .done [] ∧
    callerWorker (importing [1, 0, 2, 3]).graph 4 (identStr pa [] initName) = .done [] :=
  ⟨by decide +kernel, by decide +kernel, .caller (.caller .start (y := 1) (by simp [importing])) (by simp [importing]), by decide +kernel, by decide +kernel⟩

/-- 0 and 1: generic functions `a.Map` and `b.Map`, 2 and 3: their wrappers, 4: `b.Use`, which calls `a.Map`. -/
private def twoMaps : Program Nat :=
  ⟨[0, 1, 2, 3, 4], fun x => match x with | 0 => .declared pa [] mapName | 1 => .declared pb [] mapName | 4 => .declared pb [] useName | _ => .applied [] mapName, fun _ => own, fun _ => []⟩

private def twoCallees (x : Nat) : List (Option Nat) := match x with | 2 => [some 0] | 3 => [some 1] | 4 => [some 2] | _ => []

/-- The wrappers of generic functions of one name share an identifier without package, so the exported calls of all but one are lost: `b.Use` calls `a.Map`, but what is exported leads from it to `b.Map`
only. -/
theorem C163_edges_violated : (some 2 ∈ twoCallees 4 ∧ some 0 ∈ twoCallees 2) ∧ (exportEdges twoMaps.graph twoCallees).get (identStr pb [] useName) = some [identStr [] [] mapName] ∧
    (exportEdges twoMaps.graph twoCallees).get (identStr [] [] mapName) = some [identStr pb [] mapName] := by decide +kernel

end Verif.Nodes
