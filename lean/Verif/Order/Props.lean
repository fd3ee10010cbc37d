import Verif.Order.Lemmas

/-! Property C170. -/

namespace Verif.Order
open Verif Verif.Module

/-- If every module is requested once, two analyses of the same requests, with maps iterated in any two orders and the requests in any two orders, analyse the same modules
in the same versions and report the same functions, provided that no other module comes up in two versions. Missing: modules that do. -/
theorem C170_order_partial {F : Type} (env env' : Env F) (trans : Bool) (reqs reqs' : List Change) (n n' : Nat) (s s' : AState F) (he : SameEnv env env')
    (hr : reqs.Perm reqs') (hn : (reqs.map (·.name)).Nodup) (hs : Single env trans reqs) (h : analyze env trans reqs n = .done s)
    (h' : analyze env' trans reqs' n' = .done s') : SameResult s s' := by
  have hn' : (reqs'.map (·.name)).Nodup := (hr.map _).nodup_iff.1 hn
  have hs' : Single env' trans reqs' := fun c d hc hd hcd => hs c d (wanted_same he.symm hr.symm hc) (wanted_same he.symm hr.symm hd) hcd
  have hseen : ∀ c, c ∈ s.seen ↔ c ∈ s'.seen := fun c =>
    ⟨fun hc => wanted_analysed hn' hs' h' (wanted_same he hr (analyze_wanted h c hc)),
      fun hc => wanted_analysed hn hs h (wanted_same he.symm hr.symm (analyze_wanted h' c hc))⟩
  refine ⟨hseen, fun m => ?_⟩
  by_cases hm : m ∈ s.seen.map (·.name)
  · obtain ⟨c, hc, rfl⟩ := List.mem_map.1 hm
    obtain ⟨fs, od, nd, hl, hd⟩ := (C38_complete_partial env trans reqs n s h).2 c hc (List.nodup_iff_count_le_one.1 hn _)
    obtain ⟨fs', od', nd', hl', hd'⟩ := (C38_complete_partial env' trans reqs' n' s' h').2 c ((hseen c).1 hc) (List.nodup_iff_count_le_one.1 hn' _)
    rw [hd, hd']
    exact (he.some c _ _ _ _ _ _ hl hl').1
  · have hm' : m ∉ s'.seen.map (·.name) := fun hx => by
      obtain ⟨c, hc, rfl⟩ := List.mem_map.1 hx
      exact hm (List.mem_map.2 ⟨c, (hseen c).2 hc, rfl⟩)
    have : ∀ (e : Env F) (r : List Change) (k : Nat) (t : AState F), analyze e trans r k = .done t → m ∉ t.seen.map (·.name) → (t.data.get m).getD [] = [] := by
      intro e r k t ht hmt
      cases hg : t.data.get m with
      | none => rfl
      | some fs =>
        by_cases hf : fs = []
        · simp [hf]
        · exact absurd (C38_names e trans r k t ht m fs hg hf) hmt
    rw [this env reqs n s h hm, this env' reqs' n' s' h' hm']

/-- Without the dependencies of dependencies the order never matters. -/
theorem C170_direct {F : Type} (env env' : Env F) (reqs reqs' : List Change) (n n' : Nat) (s s' : AState F) (he : SameEnv env env')
    (hr : reqs.Perm reqs') (hn : (reqs.map (·.name)).Nodup) (h : analyze env false reqs n = .done s) (h' : analyze env' false reqs' n' = .done s') : SameResult s s' := by
  refine C170_order_partial env env' false reqs reqs' n n' s s' he hr hn ?_ h h'
  have : ∀ c, Wanted env false reqs c → c ∈ reqs := by
    intro c hc
    cases hc with
    | request h => exact h
    | follow _ _ ht => cases ht
  exact fun c d hc hd hcd => List.inj_on_of_nodup_map hn (this c hc) (this d hd) hcd

/-- A module `m` is updated. It requires `a` and `b`, whose new versions require `x` in versions 2 and 3. -/
def out (deps : AMap Bytes Bytes) : Env Nat :=
  ⟨fun c => some (if c.name = [97] then ([], [], [([120], [50])]) else if c.name = [98] then ([], [], [([120], [51])])
    else if c.name = [120] then (if c.new = [50] then [2] else [3], [], []) else ([], [], deps)), [([97], [49]), ([98], [49]), ([120], [49])]⟩

/-- C170 fails: whether version 2 or version 3 of `x` is compared depends on the order of the map with `a` and `b`. -/
theorem C170_order_violated : ∃ (env env' : Env Nat) (reqs : List Change) (s s' : AState Nat), SameEnv env env' ∧ (reqs.map (·.name)).Nodup ∧
    analyze env true reqs 4 = .done s ∧ analyze env' true reqs 4 = .done s' ∧ s.data.get [120] = some [2] ∧ s'.data.get [120] = some [3] := by
  refine ⟨out [([97], [50]), ([98], [50])], out [([98], [50]), ([97], [50])], [⟨[109], [49], [50], false⟩], _, _, ⟨fun _ => rfl, fun c => ?_, ?_⟩, by decide, rfl, rfl,
    by decide, by decide⟩
  · simp [out]
  · intro c fs od nd fs' od' nd' h1 h2
    simp only [out, Option.some.injEq] at h1 h2
    by_cases ha : c.name = [97]
    · simp only [ha, if_true, Prod.mk.injEq] at h1 h2
      obtain ⟨rfl, rfl, rfl⟩ := h1
      obtain ⟨rfl, rfl, rfl⟩ := h2
      exact ⟨.refl _, fun _ => rfl, .refl _⟩
    · simp only [ha, if_false] at h1 h2
      by_cases hb : c.name = [98]
      · simp only [hb, if_true, Prod.mk.injEq] at h1 h2
        obtain ⟨rfl, rfl, rfl⟩ := h1
        obtain ⟨rfl, rfl, rfl⟩ := h2
        exact ⟨.refl _, fun _ => rfl, .refl _⟩
      · simp only [hb, if_false] at h1 h2
        by_cases hx : c.name = [120]
        · simp only [hx, if_true, Prod.mk.injEq] at h1 h2
          obtain ⟨rfl, rfl, rfl⟩ := h1
          obtain ⟨rfl, rfl, rfl⟩ := h2
          exact ⟨.refl _, fun _ => rfl, .refl _⟩
        · simp only [hx, if_false, Prod.mk.injEq] at h1 h2
          obtain ⟨rfl, rfl, rfl⟩ := h1
          obtain ⟨rfl, rfl, rfl⟩ := h2
          exact ⟨.refl _, fun _ => rfl, .swap _ _ _⟩

/-- C170 fails for a module that is requested twice, in two versions: the first one is compared. -/
theorem C170_requests_violated : ∃ (env : Env Nat) (reqs reqs' : List Change) (s s' : AState Nat), reqs.Perm reqs' ∧
    analyze env false reqs 1 = .done s ∧ analyze env false reqs' 1 = .done s' ∧ s.seen.map (·.new) = [[50]] ∧ s'.seen.map (·.new) = [[51]] :=
  ⟨⟨fun _ => some ([], [], []), []⟩, [⟨[97], [49], [50], false⟩, ⟨[97], [49], [51], false⟩], [⟨[97], [49], [51], false⟩, ⟨[97], [49], [50], false⟩], _, _, .swap _ _ _, rfl, rfl,
    by decide, by decide⟩

/-! ### A case -/

/-- Two modules with one dependency in common, and functions in two orders. -/
def demo (flip : Bool) : Env Nat :=
  ⟨fun c => some (if c.name = [120] then ([], [], []) else (if flip then [2, 1] else [1, 2], [], if flip then [([120], [50]), ([97], [50])] else [([97], [50]), ([120], [50])])),
    [([97], [49]), ([120], [49])]⟩

example : ∃ s s', analyze (demo false) true [⟨[109], [49], [50], false⟩] 4 = .done s ∧ analyze (demo true) true [⟨[109], [49], [50], false⟩] 4 = .done s' ∧
    s.seen.map (·.name) = [[120], [97], [109]] ∧ s'.seen.map (·.name) = [[97], [120], [109]] ∧ s.data.get [97] = some [1, 2] ∧ s'.data.get [97] = some [2, 1] :=
  ⟨_, _, rfl, rfl, by decide, by decide, by decide, by decide⟩

/-- In this case no module comes up in two versions. -/
example : Single (demo false) true [⟨[109], [49], [50], false⟩] := by
  have key : ∀ c, Wanted (demo false) true [⟨[109], [49], [50], false⟩] c →
      c = ⟨[109], [49], [50], false⟩ ∨ c = ⟨[97], [49], [50], true⟩ ∨ c = ⟨[120], [49], [50], true⟩ := by
    intro x hx
    cases hx with
    | request h => exact .inl (by simpa using h)
    | @follow c _ fs od nd _ hl _ hf _ =>
      have hnd : ∀ q ∈ nd, q = ([97], [50]) ∨ q = ([120], [50]) := by
        simp only [demo, Option.some.injEq] at hl
        split at hl <;> (simp only [Prod.mk.injEq] at hl; obtain ⟨-, -, rfl⟩ := hl; simp)
      obtain ⟨h1, -, h3, -, h5⟩ := hf
      obtain ⟨name, prior, new, ind⟩ := x
      simp only at h1 h3 h5
      rcases hnd _ h1 with h | h
      · obtain ⟨rfl, rfl⟩ := Prod.mk.inj h
        have : prior = [49] := by simpa [demo, AMap.get] using h3.symm
        subst this; subst h5
        exact .inr (.inl rfl)
      · obtain ⟨rfl, rfl⟩ := Prod.mk.inj h
        have : prior = [49] := by simpa [demo, AMap.get] using h3.symm
        subst this; subst h5
        exact .inr (.inr rfl)
  intro c d hc hd h
  rcases key c hc with rfl | rfl | rfl <;> rcases key d hd with rfl | rfl | rfl <;> simp_all

end Verif.Order
