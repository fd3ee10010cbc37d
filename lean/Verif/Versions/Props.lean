import Verif.Versions.Lemmas

/-! C167: the versions compared are those that the update changes in the build. -/

namespace Verif.Versions

open Module (Change compareSem)

/-! ### Examples: modules `a`, `b`, `c` and `d` -/

def a : Bytes := [97]
def b : Bytes := [98]
def c : Bytes := [99]
def d : Bytes := [100]
/-- `v1.1.0` and so on. -/
def v1 : Bytes := [118, 49, 46, 49, 46, 48]
def v2 : Bytes := [118, 49, 46, 50, 46, 48]
def v3 : Bytes := [118, 49, 46, 51, 46, 48]

def raise (n : Bytes) : Change := ⟨n, v1, v2, false⟩

/-- `a` v1.2.0 requires `c` v1.2.0, which requires `d` v1.2.0. -/
def gPlain : Graph := table [((a, v1), [(c, v1)]), ((a, v2), [(c, v2)]), ((c, v1), [(d, v1)]), ((c, v2), [(d, v2)])]
def mPlain : AMap Bytes Bytes := [(a, v1), (c, v1), (d, v1)]

theorem plain_tidy : Tidy gPlain mPlain := tidy_of mPlain (by decide) (by decide) (by decide) (by decide)
theorem plain_one : OneEach gPlain := table_one (by decide)
theorem plain_upgrade : Upgrade mPlain [raise a] := ⟨by decide, by decide, by decide⟩

theorem touched_in {g : Graph} {main : AMap Bytes Bytes} {reqs : List Change} (S : List (Bytes × Bytes)) (h1 : ∀ r ∈ reqs, (r.name, r.new) ∈ S) (h2 : ∀ e ∈ S, ∀ e' ∈ g e.1 e.2, e' ∈ S) {n v : Bytes}
    (h : Touched g main reqs n v) : (n, v) ∈ S := by
  induction h with
  | request h => exact h1 _ h
  | dep _ _ hd _ ih => exact h2 _ ih _ (AMap.mem_of_get hd)

theorem plain_touched {n v : Bytes} (h : Touched gPlain mPlain [raise a] n v) : (n, v) ∈ [(a, v2), (c, v2), (d, v2)] := touched_in _ (by decide) (by decide) h

/-! ### The theorems -/

/-- If no module is new and each is touched in one version, every change in the build is analysed with the right versions. What is missing: see the violations. -/
theorem C167_complete_partial {F : Type} (g : Graph) (repl : Bytes → Option Bytes) (funcs : Change → List F) (main : AMap Bytes Bytes) (reqs : List Change) (rounds : Nat) (s : Module.AState F)
    (hg : OneEach g) (ht : Tidy g main) (hu : Upgrade main reqs) (hn : NoneNew g main reqs) (ho : OneVersion g main reqs) (ha : Apart g main (update main reqs))
    (h : Module.analyze (envOf g funcs main) true reqs rounds = .done s) (n v w : Bytes) (hc : Changes g repl main (update main reqs) n v w) :
    ∃ c ∈ s.seen, c.name = n ∧ c.prior = v ∧ c.new = w := by
  obtain ⟨hv, hw, hne⟩ := hc
  have hvw : v ≠ w := by rintro rfl; exact hne rfl
  obtain ⟨p, hp⟩ := Option.isSome_iff_exists.mp (ht.listed n v hv.1)
  have hsp := ht.selected n p hp
  have hle : compareSem v p = 0 := by
    have h1 := hsp.2 v hv.1
    have h2 := hv.2 p hsp.1
    rw [cmp_swap] at h2
    omega
  obtain rfl : v = p := ha n v p (.inl hv.1) (.inl hsp.1) hle
  have hside : Touched g main reqs n w ∧ main.get n ≠ some w := by
    rcases needs_update hu hn hw.1 with hm | hm
    · exfalso
      obtain ⟨q, hq, hpq⟩ := needs_kept (g := g) hu hp
      have h1 := hsp.2 w hm
      have h2 := cmp_trans hpq (hw.2 q hq)
      rw [cmp_swap] at h2
      exact hvw (ha n v w (.inl hsp.1) (.inr hw.1) (by rw [cmp_swap]; omega))
    · exact hm
  obtain ⟨c, hcs, h1, h2, h3⟩ := touched_seen hg hu hn ho h hside.1 hside.2
  rw [hp] at h2
  exact ⟨c, hcs, h1, (Option.some.inj h2).symm, h3⟩

/-- If besides no touched version is lower than that of the project and no module is replaced, nothing else is analysed. -/
theorem C167_sound_partial {F : Type} (g : Graph) (repl : Bytes → Option Bytes) (funcs : Change → List F) (main : AMap Bytes Bytes) (reqs : List Change) (rounds : Nat) (s : Module.AState F)
    (hg : OneEach g) (ht : Tidy g main) (hu : Upgrade main reqs) (hn : NoneNew g main reqs) (ho : OneVersion g main reqs) (hl : NoneLower g main reqs) (hr : Unreplaced repl main)
    (h : Module.analyze (envOf g funcs main) true reqs rounds = .done s) (c : Change) (hc : c ∈ s.seen) : Changes g repl main (update main reqs) c.name c.prior c.new := by
  obtain ⟨-, hreach, -, -⟩ := Module.C38_once _ _ _ _ _ h
  obtain ⟨h1, h2, h3⟩ := reachable_touched hg hu (hreach c hc)
  have hsp := ht.selected _ _ h2
  have hlt : compareSem c.prior c.new < 0 := by
    rcases hl _ _ _ h1 h2 with e | e
    · exact absurd e.symm h3
    · exact e
  have hnew : main.get c.name ≠ some c.new := by
    intro e
    rw [h2] at e
    exact h3 (Option.some.inj e)
  refine ⟨hsp, ⟨touched_needs hu h1, fun u hu' => ?_⟩, (used_ne hr (by rw [h2]; rfl)).mpr h3⟩
  rcases needs_update hu hn hu' with hm | ⟨hm, hmu⟩
  · exact cmp_trans (hsp.2 u hm) (Int.le_of_lt hlt)
  · rw [ho _ _ _ hm h1 hmu hnew, cmp_self]

theorem plain_none_new : NoneNew gPlain mPlain [raise a] := by
  intro n v h
  have := plain_touched h
  simp only [List.mem_cons, Prod.mk.injEq, List.not_mem_nil, or_false] at this
  rcases this with ⟨rfl, rfl⟩ | ⟨rfl, rfl⟩ | ⟨rfl, rfl⟩ <;> decide

theorem plain_one_version : OneVersion gPlain mPlain [raise a] := by
  intro n v w h h' _ _
  have h := plain_touched h
  have h' := plain_touched h'
  simp only [List.mem_cons, Prod.mk.injEq, List.not_mem_nil, or_false] at h h'
  rcases h with ⟨-, rfl⟩ | ⟨-, rfl⟩ | ⟨-, rfl⟩ <;> rcases h' with ⟨-, rfl⟩ | ⟨-, rfl⟩ | ⟨-, rfl⟩ <;> rfl

/-- Raising `a` raises `c` and, through it, `d`: the three changes, found at three levels. -/
example : ∃ s, Module.analyze (envOf gPlain (fun _ => [0]) mPlain) true [raise a] 4 = .done s ∧ (∀ c ∈ s.seen, Changes gPlain (fun _ => none) mPlain (update mPlain [raise a]) c.name c.prior c.new) ∧
    s.seen.map (fun c => (c.name, c.prior, c.new)) = [(d, v1, v2), (c, v1, v2), (a, v1, v2)] := by
  refine ⟨_, rfl, ?_, by decide⟩
  refine C167_sound_partial gPlain _ (fun _ => [0]) mPlain _ 4 _ plain_one plain_tidy plain_upgrade plain_none_new plain_one_version ?_ (fun _ _ => rfl) rfl
  intro n v p h hp
  have h := plain_touched h
  simp only [List.mem_cons, Prod.mk.injEq, List.not_mem_nil, or_false] at h
  rcases h with ⟨rfl, rfl⟩ | ⟨rfl, rfl⟩ | ⟨rfl, rfl⟩ <;> cases hp <;> decide

example (n v w : Bytes) (h : Changes gPlain (fun _ => none) mPlain (update mPlain [raise a]) n v w) : (n, v, w) ∈ [(d, v1, v2), (c, v1, v2), (a, v1, v2)] := by
  have hs : ∃ s, Module.analyze (envOf gPlain (fun _ => [0]) mPlain) true [raise a] 4 = .done s ∧ s.seen.map (fun c => (c.name, c.prior, c.new)) = [(d, v1, v2), (c, v1, v2), (a, v1, v2)] := ⟨_, rfl, by decide⟩
  obtain ⟨s, hs, he⟩ := hs
  have hap : Apart gPlain mPlain (update mPlain [raise a]) :=
    apart_of [(a, v1), (a, v2), (c, v1), (c, v2), (d, v1), (d, v2)] (by decide) (by decide) (by decide) (by decide)
  obtain ⟨c, hc, rfl, rfl, rfl⟩ := C167_complete_partial gPlain _ (fun _ => [0]) mPlain _ 4 s plain_one plain_tidy plain_upgrade plain_none_new plain_one_version hap hs n v w h
  rw [← he]
  exact List.mem_map.mpr ⟨c, hc, rfl⟩

/-- Then the changed functions that are looked for in the project are exactly those of the changes in the build. -/
theorem C167_functions_partial {F : Type} (g : Graph) (repl : Bytes → Option Bytes) (funcs : Change → List F) (main : AMap Bytes Bytes) (reqs : List Change) (rounds : Nat) (s : Module.AState F)
    (hg : OneEach g) (ht : Tidy g main) (hu : Upgrade main reqs) (hn : NoneNew g main reqs) (ho : OneVersion g main reqs) (hl : NoneLower g main reqs) (hr : Unreplaced repl main)
    (ha : Apart g main (update main reqs)) (h : Module.analyze (envOf g funcs main) true reqs rounds = .done s)
    (hfun : ∀ c c' : Change, c.name = c'.name → c.prior = c'.prior → c.new = c'.new → funcs c = funcs c') (n : Bytes) (f : F) :
    f ∈ (s.data.get n).getD [] ↔ ∃ c : Change, c.name = n ∧ Changes g repl main (update main reqs) n c.prior c.new ∧ f ∈ funcs c := by
  have hdata := (Module.C38_complete_partial _ _ _ _ _ h).2
  have hone : ∀ c : Change, (reqs.map (·.name)).count c.name ≤ 1 := fun c => List.nodup_iff_count_le_one.mp hu.once c.name
  constructor
  · intro hf
    cases hd : s.data.get n with
    | none => rw [hd] at hf; cases hf
    | some fs =>
      rw [hd] at hf
      have hm := Module.C38_names _ _ _ _ _ h n fs hd (by rintro rfl; cases hf)
      obtain ⟨c, hc, rfl⟩ := List.mem_map.mp hm
      refine ⟨c, rfl, C167_sound_partial g repl funcs main reqs rounds s hg ht hu hn ho hl hr h c hc, ?_⟩
      obtain ⟨fs', od, nd, hl', he⟩ := hdata c hc (hone c)
      cases hl'
      rw [hd] at he
      rw [← he]
      exact hf
  · rintro ⟨c, rfl, hch, hf⟩
    obtain ⟨c', hc, h1, h2, h3⟩ := C167_complete_partial g repl funcs main reqs rounds s hg ht hu hn ho ha h c.name c.prior c.new hch
    obtain ⟨fs', od, nd, hl', he⟩ := hdata c' hc (hone c')
    cases hl'
    rw [← h1, he, hfun c' c h1 h2 h3]
    exact hf

example : ∃ s, Module.analyze (envOf gPlain (fun c => c.name) mPlain) true [raise a] 4 = .done s ∧ (100 ∈ (s.data.get d).getD [] ∧ 97 ∉ (s.data.get d).getD []) := ⟨_, rfl, by decide⟩

/-- With a new go.mod file the modules are those whose version differs, and only they are analysed: they are the changes in the build if the file after the update is tidy too. -/
theorem C167_listed_partial {F : Type} (g : Graph) (repl : Bytes → Option Bytes) (funcs : Change → List F) (main : AMap Bytes Bytes) (reqs : List Change) (rounds : Nat) (s : Module.AState F)
    (ht : Tidy g main) (ht' : ∀ n v, (update main reqs).get n = some v → Selected g (update main reqs) n v) (hu : Upgrade main reqs) (ha : Apart g main (update main reqs)) (hr : Unreplaced repl main)
    (h : Module.analyze (envOf g funcs main) false reqs rounds = .done s) (n v w : Bytes) :
    Changes g repl main (update main reqs) n v w ↔ ∃ c ∈ s.seen, c.name = n ∧ c.prior = v ∧ c.new = w := by
  obtain ⟨-, hreach, -, -⟩ := Module.C38_once _ _ _ _ _ h
  have only : ∀ c ∈ s.seen, c ∈ reqs := by
    intro c hc
    cases hreach c hc with
    | request h => exact h
    | follow _ _ h _ => cases h
  constructor
  · rintro ⟨hv, hw, hne⟩
    have hvw : v ≠ w := by rintro rfl; exact hne rfl
    obtain ⟨p, hp⟩ := Option.isSome_iff_exists.mp (ht.listed n v hv.1)
    have hsp := ht.selected n p hp
    obtain rfl : v = p := by
      refine ha n v p (.inl hv.1) (.inl hsp.1) ?_
      have h1 := hsp.2 v hv.1
      have h2 := hv.2 p hsp.1
      rw [cmp_swap] at h2
      omega
    have same : ∀ {q}, (update main reqs).get n = some q → w = q := by
      intro q hq
      have hsq := ht' n q hq
      refine ha n w q (.inr hw.1) (.inr hsq.1) ?_
      have h1 := hsq.2 w hw.1
      have h2 := hw.2 q hsq.1
      rw [cmp_swap] at h2
      omega
    by_cases hm : n ∈ reqs.map (·.name)
    · obtain ⟨c, hc, rfl⟩ := List.mem_map.mp hm
      refine ⟨c, (Module.C38_complete_partial _ _ _ _ _ h).1 c hc (List.nodup_iff_count_le_one.mp hu.once c.name), rfl, ?_, (same (update_request _ _ _ hu.once hc)).symm⟩
      have := hu.prior c hc
      rw [hp] at this
      exact (Option.some.inj this).symm
    · exact absurd (same (by rw [update_other _ _ _ hm]; exact hp)).symm hvw
  · rintro ⟨c, hc, rfl, rfl, rfl⟩
    have hc := only c hc
    refine ⟨ht.selected _ _ (hu.prior c hc), ht' _ _ (update_request _ _ _ hu.once hc), (used_ne hr (by rw [hu.prior c hc]; rfl)).mpr ?_⟩
    intro e
    have := hu.higher c hc
    rw [e, cmp_self] at this
    exact absurd this (by decide)

example : ∃ s, Module.analyze (envOf gPlain (fun _ => [0]) mPlain) false [raise a, raise c, raise d] 1 = .done s ∧ s.seen.length = 3 ∧ Tidy gPlain (update mPlain [raise a, raise c, raise d]) :=
  ⟨_, rfl, rfl, tidy_of [(a, v2), (c, v2), (d, v2)] (by decide) (by decide) (by decide) (by decide)⟩

/-! ### Where they differ -/

/-- `a` v1.2.0 requires `c` v1.2.0 instead of v1.1.0; the project has `c` v1.3.0, and keeps it. -/
def gLower : Graph := table [((a, v1), [(c, v1)]), ((a, v2), [(c, v2)])]
def mLower : AMap Bytes Bytes := [(a, v1), (c, v3)]

/-- The analysis compares `c` v1.3.0 with the lower v1.2.0, which is in no build. -/
theorem C167_lower_violated : ¬ Agrees := by
  intro h
  have ht : Tidy gLower mLower := tidy_of [(a, v1), (c, v3), (c, v1)] (by decide) (by decide) (by decide) (by decide)
  have hs : ∃ s, Module.analyze (envOf gLower (fun _ => [0]) mLower) true [raise a] 3 = .done s ∧ ∃ x ∈ s.seen, x.name = c ∧ x.prior = v3 ∧ x.new = v2 := ⟨_, rfl, by decide⟩
  obtain ⟨s, hs, hc⟩ := hs
  obtain ⟨-, h2, -⟩ := (h Nat gLower (fun _ => none) _ mLower _ _ _ (table_one (by decide)) ht ⟨by decide, by decide, by decide⟩ hs c v3 v2).mpr hc
  have := h2.2 v3 (.main (by decide))
  exact absurd this (by decide)

/-- `a` v1.2.0 requires `c` v1.2.0, and `b` v1.2.0, which requires `c` v1.3.0: the build has v1.3.0. -/
def gTwo : Graph := table [((a, v1), [(b, v1), (c, v1)]), ((b, v1), [(c, v1)]), ((a, v2), [(b, v2), (c, v2)]), ((b, v2), [(c, v3)])]
def mTwo : AMap Bytes Bytes := [(a, v1), (b, v1), (c, v1)]

/-- The analysis compares `c` v1.1.0 with v1.2.0, which is in no build, and not with v1.3.0. -/
theorem C167_two_violated : (∃ s, Module.analyze (envOf gTwo (fun _ => [0]) mTwo) true [raise a] 4 = .done s ∧ (∃ x ∈ s.seen, x.name = c ∧ x.prior = v1 ∧ x.new = v2) ∧ ∀ x ∈ s.seen, x.new ≠ v3) ∧
    Tidy gTwo mTwo ∧ Changes gTwo (fun _ => none) mTwo (update mTwo [raise a]) c v1 v3 := by
  have ht : Tidy gTwo mTwo := tidy_of mTwo (by decide) (by decide) (by decide) (by decide)
  refine ⟨⟨_, rfl, by decide, by decide⟩, ht, ht.selected _ _ (by decide), ⟨?_, fun u hu => ?_⟩, by simp [used, v1, v3]⟩
  · have h1 : Needs gTwo (update mTwo [raise a]) a v2 := .main (by decide)
    have h2 : Needs gTwo (update mTwo [raise a]) b v2 := .dep h1 (by decide)
    exact .dep h2 (by decide)
  · have := needs_in [(a, v2), (b, v1), (b, v2), (c, v1), (c, v2), (c, v3)] (by decide) (by decide) hu
    simp only [List.mem_cons, Prod.mk.injEq, List.not_mem_nil, or_false] at this
    rcases this with ⟨h, -⟩ | ⟨h, -⟩ | ⟨h, -⟩ | ⟨-, rfl⟩ | ⟨-, rfl⟩ | ⟨-, rfl⟩
    · exact absurd h (by decide)
    · exact absurd h (by decide)
    · exact absurd h (by decide)
    all_goals decide

/-- `a` v1.2.0 requires `b`, which the project had not; `b` requires `c` v1.2.0. -/
def gNew : Graph := table [((a, v1), [(c, v1)]), ((a, v2), [(b, v1), (c, v1)]), ((b, v1), [(c, v2)])]
def mNew : AMap Bytes Bytes := [(a, v1), (c, v1)]

/-- The change of `c` is not analysed. -/
theorem C167_new_violated : (∃ s, Module.analyze (envOf gNew (fun _ => [0]) mNew) true [raise a] 3 = .done s ∧ ∀ x ∈ s.seen, x.name = a) ∧
    Tidy gNew mNew ∧ Changes gNew (fun _ => none) mNew (update mNew [raise a]) c v1 v2 := by
  have ht : Tidy gNew mNew := tidy_of mNew (by decide) (by decide) (by decide) (by decide)
  refine ⟨⟨_, rfl, by decide⟩, ht, ht.selected _ _ (by decide), ⟨?_, fun u hu => ?_⟩, by simp [used, v1, v2]⟩
  · have h1 : Needs gNew (update mNew [raise a]) a v2 := .main (by decide)
    have h2 : Needs gNew (update mNew [raise a]) b v1 := .dep h1 (by decide)
    exact .dep h2 (by decide)
  · have := needs_in [(a, v2), (b, v1), (c, v1), (c, v2)] (by decide) (by decide) hu
    simp only [List.mem_cons, Prod.mk.injEq, List.not_mem_nil, or_false] at this
    rcases this with ⟨h, -⟩ | ⟨h, -⟩ | ⟨-, rfl⟩ | ⟨-, rfl⟩
    · exact absurd h (by decide)
    · exact absurd h (by decide)
    all_goals decide

/-- A module that is replaced by a directory does not change at all, and is analysed. -/
theorem C167_replaced_violated : (∃ s, Module.analyze (envOf gPlain (fun _ => [0]) mPlain) true [raise a] 4 = .done s ∧ ∃ x ∈ s.seen, x.name = a) ∧
    ∀ main' v w, ¬ Changes gPlain (fun n => if n = a then some [46] else none) mPlain main' a v w := by
  refine ⟨⟨_, rfl, by decide⟩, ?_⟩
  rintro main' v w ⟨-, -, h⟩
  exact h rfl

/-- `b` v1.2.0, requested too, requires `a` v1.3.0: the tests are run with it, and v1.2.0 is compared. -/
theorem C167_target_violated : ∃ (g : Graph) (main : AMap Bytes Bytes), Tidy g main ∧
    (∃ s, Module.analyze (envOf g (fun _ => [0]) main) true [raise a, raise b] 3 = .done s ∧ ∀ x ∈ s.seen, x.name = a → x.new = v2) ∧ ¬ Selected g (update main [raise a, raise b]) a v2 := by
  refine ⟨table [((b, v2), [(a, v3)])], [(a, v1), (b, v1)], tidy_of [(a, v1), (b, v1)] (by decide) (by decide) (by decide) (by decide), ⟨_, rfl, by decide⟩, ?_⟩
  intro h
  have h1 : Needs (table [((b, v2), [(a, v3)])]) (update [(a, v1), (b, v1)] [raise a, raise b]) b v2 := .main (by decide)
  exact absurd (h.2 v3 (.dep h1 (by decide))) (by decide)

end Verif.Versions
