import Verif.Module.Lemmas

/-!
Theorems for C34–C41.
-/

namespace Verif.Module

/-! ### C34 -/

/-- C34: a change is reported exactly for the requirements of the new file whose module the old file requires in another
version, with both versions. -/
theorem C34_exact (old new : List Req) (c : Change) :
    c ∈ diffMods old new ↔ ∃ r ∈ new, c.name = r.path ∧ c.new = r.version ∧ c.indirect = r.indirect ∧ Requires old r.path c.prior ∧ c.prior ≠ c.new := by
  unfold diffMods
  rw [List.mem_filterMap]
  constructor
  · rintro ⟨r, hr, h⟩
    split at h
    · rename_i v hv
      split at h
      · rename_i hne
        simp only [Option.some.injEq] at h
        subst h
        exact ⟨r, hr, rfl, rfl, rfl, (reqMap_get old _ _).mp hv, hne⟩
      · cases h
    · cases h
  · rintro ⟨r, hr, h1, h2, h3, h4, h5⟩
    refine ⟨r, hr, ?_⟩
    rw [(reqMap_get old _ _).mpr h4]
    simp only
    rw [if_pos (h2 ▸ h5)]
    cases c
    simp_all

open Classical in
/-- C34: there is one change per such requirement, in the order of the new file. -/
theorem C34_once (old new : List Req) :
    (diffMods old new).map (fun c => (c.name, c.new, c.indirect)) =
      (new.filter fun r => ∃ v, Requires old r.path v ∧ v ≠ r.version).map fun r => (r.path, r.version, r.indirect) := by
  induction new with
  | nil => simp [diffMods]
  | cons r new ih =>
      rw [diffMods_cons]
      cases hg : (reqMap old).get r.path with
      | none =>
          have : ¬ ∃ v, Requires old r.path v ∧ v ≠ r.version := by
            rintro ⟨v, hv, _⟩
            rw [(reqMap_get old _ _).mpr hv] at hg
            cases hg
          simp only
          rw [List.filter_cons, if_neg (by simpa using this)]
          exact ih
      | some v =>
          have hv := (reqMap_get old _ _).mp hg
          by_cases hne : v ≠ r.version
          · simp only [changeOf, if_pos hne]
            rw [List.filter_cons, if_pos (by simpa using ⟨v, hv, hne⟩), List.map_cons, ← ih]
            rfl
          · have : ¬ ∃ v, Requires old r.path v ∧ v ≠ r.version := by
              rintro ⟨w, hw, hwne⟩
              rw [(reqMap_get old _ _).mpr hw] at hg
              simp only [Option.some.injEq] at hg
              exact hne (hg ▸ hwne)
            simp only [changeOf, if_neg hne]
            rw [List.filter_cons, if_neg (by simpa using this)]
            exact ih

/-- C34: comparing workspaces reports the changes of the directories in both, and fails only on a file that cannot be
parsed. -/
theorem C34_workspace (old new : Bytes → ModFile) (dirs : List Bytes) :
    (∀ cs, diffWork old new dirs = some cs → ∀ c, c ∈ cs ↔ ∃ d ∈ dirs, ∃ a b, old d = .reqs a ∧ new d = .reqs b ∧ c ∈ diffMods a b) ∧
    (diffWork old new dirs = none → ∃ d ∈ dirs, old d = .broken ∨ new d = .broken) := by
  induction dirs with
  | nil => simp [diffWork]
  | cons d ds ih =>
      obtain ⟨ih1, ih2⟩ := ih
      cases ho : old d with
      | absent =>
          simp only [diffWork, ho, List.mem_cons, exists_eq_or_imp]
          refine ⟨fun cs h c => ?_, fun h => Or.inr (ih2 h)⟩
          rw [ih1 cs h c]; simp
      | broken =>
          cases hn : new d with
          | absent =>
              simp only [diffWork, ho, hn, List.mem_cons, exists_eq_or_imp]
              refine ⟨fun cs h c => ?_, fun h => Or.inl (by simp)⟩
              rw [ih1 cs h c]; simp
          | broken => simp [diffWork, ho, hn]
          | reqs b => simp [diffWork, ho, hn]
      | reqs a =>
          cases hn : new d with
          | absent =>
              simp only [diffWork, ho, hn, List.mem_cons, exists_eq_or_imp]
              refine ⟨fun cs h c => ?_, fun h => Or.inr (ih2 h)⟩
              rw [ih1 cs h c]; simp
          | broken => simp [diffWork, ho, hn]
          | reqs b =>
              simp only [diffWork, ho, hn, List.mem_cons, exists_eq_or_imp]
              constructor
              · intro cs h c
                cases hr : diffWork old new ds with
                | none => rw [hr] at h; cases h
                | some rest =>
                    rw [hr] at h
                    simp only [Option.map_some, Option.some.injEq] at h
                    subst h
                    rw [List.mem_append, ih1 rest hr c]
                    simp
              · intro h
                cases hr : diffWork old new ds with
                | none => exact Or.inr (ih2 hr)
                | some rest => rw [hr] at h; cases h

/-- Two modules, one of them updated. -/
example : diffMods [⟨[97], [49], false⟩, ⟨[98], [50], true⟩] [⟨[98], [51], true⟩, ⟨[97], [49], false⟩, ⟨[99], [49], false⟩] = [⟨[98], [50], [51], true⟩] := by
  decide

/-! ### C35 -/

/-- C35: the version found is empty only if no directive is present; otherwise it is one of the directives and none is
older. -/
theorem C35_oldest (vs : List Bytes) :
    (oldestGo vs = [] ↔ ∀ v ∈ vs, v = []) ∧ (oldestGo vs ≠ [] → oldestGo vs ∈ vs) ∧
      ∀ v ∈ vs, v ≠ [] → compareGo (oldestGo vs) v ≤ 0 := by
  obtain ⟨h1, h2, h3⟩ := oldestGo_spec vs
  exact ⟨h1, h2, fun v hv hne => by rw [compareGo_spec]; exact sgn_le.mpr (h3 v hv hne)⟩

/-- C35: in any order of the directives the result is equally old. -/
theorem C35_order (vs ws : List Bytes) (h : vs.Perm ws) :
    compareGo (oldestGo vs) (oldestGo ws) = 0 ∧ (oldestGo vs = [] ↔ oldestGo ws = []) := by
  obtain ⟨h1, h2, h3⟩ := oldestGo_spec vs
  obtain ⟨k1, k2, k3⟩ := oldestGo_spec ws
  have hnil : oldestGo vs = [] ↔ oldestGo ws = [] := by
    rw [h1, k1]
    exact ⟨fun hh v hv => hh v (h.mem_iff.mpr hv), fun hh v hv => hh v (h.mem_iff.mp hv)⟩
  refine ⟨?_, hnil⟩
  rw [compareGo_spec]
  by_cases he : oldestGo vs = []
  · rw [he, hnil.mp he, sgn_self]
  · have he' : oldestGo ws ≠ [] := fun hh => he (hnil.mpr hh)
    exact sgn_zero.mpr (le_antisymm (h3 _ (h.mem_iff.mpr (k2 he')) he') (k3 _ (h.mem_iff.mp (h2 he)) he))

/-- C35: Go versions are compared by their numbers. -/
theorem C35_numeric (a b : Nat) (c : Option Nat) (a' b' : Nat) (c' : Option Nat) :
    compareGo (goText a b c) (goText a' b' c') = sgn [a, b, c.getD 0] [a', b', c'.getD 0] := by
  rw [compareGo_spec, semKey_go, semKey_go]
  simp only [sgn_cons]
  by_cases h1 : a = a'
  · by_cases h2 : b = b'
    · by_cases h3 : c.getD 0 = c'.getD 0
      · simp only [h1, h2, h3, if_true, sgn_self]
      · simp [h1, h2, h3]
    · simp [h1, h2]
  · simp [h1]

/-- C35, the part that holds: for Go versions made of numbers a module is too old exactly when it is older than 1.13.
Missing: release candidates and other suffixes, see `C35_violated`. -/
theorem C35_minimum_partial (a b : Nat) (c : Option Nat) : belowMin (goText a b c) = true ↔ a < 1 ∨ (a = 1 ∧ b < 13) := by
  have hne : goText a b c ≠ [] := by
    unfold goText
    simp [itoaBytes_ne_nil]
  unfold belowMin
  rw [if_neg hne, decide_eq_true_eq, minGo_text, C35_numeric, sgn_neg]
  simp only [List.cons_lt_cons_iff, Option.getD_none, List.not_lt_nil, and_false, or_false, Nat.not_lt_zero]

/-- C35: a module without any directive is never too old. -/
theorem C35_missing (vs : List Bytes) (h : ∀ v ∈ vs, v = []) : belowMin (oldestGo vs) = false := by
  rw [(oldestGo_spec vs).1.mpr h]
  rfl

/-- C35 fails for release candidates: the directive "1.21rc1" counts as older than the minimum 1.13, and as the older one of
1.21rc1 and 1.13. -/
theorem C35_violated :
    let rc : Bytes := [49, 46, 50, 49, 114, 99, 49]
    belowMin rc = true ∧ oldestGo [rc, minGo] = rc ∧ oldestGo [minGo, rc] = rc := by
  decide +kernel

example : oldestGo [[], goText 1 21 none, goText 1 9 (some 3), []] = goText 1 9 (some 3) := by decide +kernel

/-! ### C36 -/

/-- C36: a path has a version exactly if some go.mod file requires it; the version is one of those required, and none of them
is newer (for `newest`), respectively older. -/
theorem C36_extreme (newest : Bool) (files : List (List Req)) (p : Bytes) :
    ((projectDeps newest (files.map reqMap)).get p = none ↔ ∀ f ∈ files, ∀ v, ¬ Requires f p v) ∧
    ∀ v, (projectDeps newest (files.map reqMap)).get p = some v →
      (∃ f ∈ files, Requires f p v) ∧
      ∀ f ∈ files, ∀ w, Requires f p w → if newest = true then compareSem w v ≤ 0 else compareSem v w ≤ 0 := by
  unfold projectDeps
  rw [get_map]
  have hmem : ∀ v, v ∈ (((files.map reqMap).foldl addDeps []).get p).getD [] ↔ ∃ f ∈ files, Requires f p v := by
    intro v
    rw [files_mem]
    simp only [AMap.get_nil, Option.getD_none, List.not_mem_nil, false_or, List.mem_map, exists_exists_and_eq_and, mem_reqMap]
  have hne := files_ne (files.map reqMap) [] (by simp) p
  generalize ((files.map reqMap).foldl addDeps []).get p = o at hmem hne
  cases o with
  | none =>
      simp only [Option.getD_none, List.not_mem_nil, false_iff, not_exists, not_and] at hmem
      refine ⟨by simp only [Option.map_none, true_iff]; exact fun f hf v hv => hmem v f hf hv, by simp⟩
  | some l =>
      cases l with
      | nil => exact absurd rfl hne
      | cons x l =>
          simp only [Option.getD_some] at hmem
          obtain ⟨h1, h2⟩ := choose_spec newest x l
          constructor
          · simp only [Option.map_some, reduceCtorEq, false_iff, not_forall]
            obtain ⟨f, hf, hv⟩ := (hmem x).mp List.mem_cons_self
            exact ⟨f, hf, x, fun h => h hv⟩
          · intro v hv
            simp only [Option.map_some, Option.some.injEq] at hv
            subst hv
            refine ⟨(hmem _).mp h1, fun f hf w hw => ?_⟩
            have := h2 w ((hmem w).mpr ⟨f, hf, hw⟩)
            rw [compareSem_spec, compareSem_spec]
            cases newest with
            | true => simpa using sgn_le.mpr (by simpa using this)
            | false => simpa using sgn_le.mpr (by simpa using this)

/-- Two workspace modules requiring v1.9.0 and v1.10.0. -/
example : (projectDeps true ([[⟨[97], [118, 49, 46, 57, 46, 48], false⟩], [⟨[97], [118, 49, 46, 49, 48, 46, 48], false⟩]].map reqMap)).get [97] =
    some [118, 49, 46, 49, 48, 46, 48] := by decide +kernel

/-! ### C37 -/

/-- C37: versions are compared by precedence as semver.org defines it. -/
theorem C37_precedence (v w : Bytes) : compareSem v w = sgn (semKey v) (semKey w) := compareSem_spec v w

/-- C37: the comparison is a total preorder. -/
theorem C37_total (u v w : Bytes) :
    compareSem v v = 0 ∧ compareSem w v = - compareSem v w ∧ (compareSem v w = -1 ∨ compareSem v w = 0 ∨ compareSem v w = 1) ∧
      (compareSem u v ≤ 0 → compareSem v w ≤ 0 → compareSem u w ≤ 0) ∧ (compareSem u v < 0 → compareSem v w ≤ 0 → compareSem u w < 0) := by
  simp only [compareSem_spec]
  refine ⟨sgn_self _, sgn_swap _ _, ?_, ?_, ?_⟩
  · unfold sgn
    split
    · exact Or.inl rfl
    · split
      · exact Or.inr (Or.inl rfl)
      · exact Or.inr (Or.inr rfl)
  · rw [sgn_le, sgn_le, sgn_le]; exact le_trans
  · rw [sgn_neg, sgn_le, sgn_neg]; exact lt_of_lt_of_le

/-- C37: valid versions compare as equal only if they differ in nothing but build metadata. -/
theorem C37_equal (v w : Bytes) : compareSem v w = 0 ↔ parse v = parse w := by
  rw [compareSem_spec, sgn_zero, semKey_eq_iff]

/-- C37: every version is read from its text, whatever the build metadata. -/
theorem C37_text (w : Ver) (hw : GoodVer w) (build : List Bytes) (hb : ∀ p ∈ build, p ≠ [] ∧ ∀ b ∈ p, isIdentChar b = true) :
    parse (verText w build) = some w := parse_text hw hb

/-- C37: a prerelease comes before its release. -/
theorem C37_prerelease (w : Ver) (hw : GoodVer w) (hp : w.pre ≠ []) : compareSem (verText w []) (verText { w with pre := [] } []) = -1 := by
  have h2 : GoodVer { w with pre := [] } := ⟨hw.major, hw.minor, hw.patch, by simp⟩
  unfold compareSem
  rw [parse_text hw (by simp), parse_text h2 (by simp)]
  simp only [compareVer_spec hw h2]
  apply sgn_lt
  unfold verKey
  simp only [List.cons_lt_cons_iff, lt_irrefl, false_or, true_and, hp, if_true, if_false]
  cases hc : w.pre with
  | nil => exact absurd hc hp
  | cons d ds => exact List.cons_lt_cons_iff.mpr (Or.inl (identKey_lt d))

/-- v1.0.0-rc.2 < v1.0.0-rc.10 < v1.0.0 < v1.0.10, and v1.0 = v1.0.0 = v1.0.0+x. -/
example :
    let v1 : Bytes := [118, 49, 46, 48, 46, 48]
    compareSem (v1 ++ [45, 114, 99, 46, 50]) (v1 ++ [45, 114, 99, 46, 49, 48]) = -1 ∧ compareSem (v1 ++ [45, 114, 99, 46, 49, 48]) v1 = -1 ∧
      compareSem v1 [118, 49, 46, 48, 46, 49, 48] = -1 ∧ compareSem [118, 49, 46, 48] v1 = 0 ∧ compareSem (v1 ++ [43, 120]) v1 = 0 := by
  decide +kernel

/-! ### C38 -/

/-- C38: the analysis terminates, on any graph of dependencies: after as many levels as the project has dependencies, and one
more, it is never still running. -/
theorem C38_terminates {F : Type} (env : Env F) (trans : Bool) (reqs : List Change) (n : Nat) (hn : env.project.length + 1 ≤ n) :
    analyze env trans reqs n ≠ .cutOff := by
  unfold analyze
  cases hr : requestLoop env trans reqs ⟨[], [], []⟩ with
  | none => simp
  | some s =>
      have hi := (requestLoop_inv reqs _ _ (fun _ hc => hc) init_inv hr).1
      have := remaining_le env s.seen
      exact levels_terminate n s hi (by omega)

/-- C38: it succeeds if all the modules involved can be loaded. -/
theorem C38_succeeds {F : Type} (env : Env F) (trans : Bool) (reqs : List Change) (n : Nat) (hn : env.project.length + 1 ≤ n)
    (hload : ∀ c, Reachable env trans reqs c → (env.load c).isSome) : ∃ s, analyze env trans reqs n = .done s := by
  have h1 := C38_terminates env trans reqs n hn
  have h2 : analyze env trans reqs n ≠ .failed := by
    unfold analyze
    obtain ⟨s, hs⟩ := requestLoop_ok (env := env) (trans := trans) reqs ⟨[], [], []⟩ fun c hc => hload c (.request hc)
    rw [hs]
    exact levels_ok n s (requestLoop_inv reqs _ _ (fun _ hc => hc) init_inv hs).1 hload
  cases h : analyze env trans reqs n with
  | cutOff => exact absurd h h1
  | failed => exact absurd h h2
  | done s => exact ⟨s, rfl⟩

/-- C38: no module is analysed twice; only modules reachable from the requests are; every requested module and every
dependency to follow up of an analysed module is among them, in some version. -/
theorem C38_once {F : Type} (env : Env F) (trans : Bool) (reqs : List Change) (n : Nat) (s : AState F) (h : analyze env trans reqs n = .done s) :
    (s.seen.map (·.name)).Nodup ∧ (∀ c ∈ s.seen, Reachable env trans reqs c) ∧ (∀ c ∈ reqs, c.name ∈ s.seen.map (·.name)) ∧
      (trans = true → ∀ c ∈ s.seen, ∀ fs od nd, env.load c = some (fs, od, nd) → ∀ d, FollowUp env.project od nd d → d.name ∈ s.seen.map (·.name)) := by
  obtain ⟨h1, h2, h3⟩ := analyze_inv h
  refine ⟨h1.nodup, h1.reach, h3, ?_⟩
  intro ht c hc fs od nd hl d hd
  rcases h1.closed ht c hc fs od nd hl d hd with h | h
  · exact h
  · rw [h2] at h; simp at h

/-- C38: the modules reported on are exactly those analysed. -/
theorem C38_names {F : Type} (env : Env F) (trans : Bool) (reqs : List Change) (n : Nat) (s : AState F) (h : analyze env trans reqs n = .done s)
    (name : Bytes) (fs : List F) (hd : s.data.get name = some fs) (hne : fs ≠ []) : name ∈ s.seen.map (·.name) := by
  by_contra hn
  have := (analyze_data h).1.unseen name hn
  rw [hd] at this
  exact hne this

/-- C38, the part that holds: a module that is requested at most once is reported with all its changed functions; if it is
requested, in the versions of that request. Missing: modules requested twice, see `C38_violated`. -/
theorem C38_complete_partial {F : Type} (env : Env F) (trans : Bool) (reqs : List Change) (n : Nat) (s : AState F) (h : analyze env trans reqs n = .done s) :
    (∀ c ∈ reqs, (reqs.map (·.name)).count c.name ≤ 1 → c ∈ s.seen) ∧
    (∀ c ∈ s.seen, (reqs.map (·.name)).count c.name ≤ 1 → ∃ fs od nd, env.load c = some (fs, od, nd) ∧ (s.data.get c.name).getD [] = fs) := by
  obtain ⟨h1, h2⟩ := analyze_data h
  refine ⟨h2, fun c hc hcount => ?_⟩
  have := (analyze_inv h).1.loaded c hc
  cases hl : env.load c with
  | none => rw [hl] at this; cases this
  | some x => exact ⟨x.1, x.2.1, x.2.2, rfl, h1.seen c hc hcount _ _ _ hl⟩

/-- C38 fails for a module requested twice: the second request finds the module visited and replaces its functions by
nothing. -/
theorem C38_violated :
    let c : Change := ⟨[97], [49], [50], false⟩
    let env : Env Nat := ⟨fun _ => some ([7], [], []), []⟩
    (∃ s, analyze env false [c] 1 = .done s ∧ s.data.get [97] = some [7]) ∧
    (∃ s, analyze env false [c, c] 1 = .done s ∧ s.data.get [97] = some []) := by
  refine ⟨⟨_, rfl, by decide⟩, ⟨_, rfl, by decide⟩⟩

/-- C38 fails for a workspace update: two modules of the workspace both update the same dependency, the comparison of the
workspaces reports it twice, and the analysis of what was reported ends without any changed function. -/
theorem C38_workspace_violated :
    let old : Bytes → ModFile := fun _ => .reqs [⟨[97], [49], false⟩]
    let new : Bytes → ModFile := fun _ => .reqs [⟨[97], [50], false⟩]
    let env : Env Nat := ⟨fun _ => some ([7], [], []), []⟩
    ∃ cs, diffWork old new [[120], [121]] = some cs ∧ ∃ s, analyze env true cs 1 = .done s ∧ s.data.get [97] = some [] := by
  refine ⟨_, rfl, _, rfl, by decide⟩

/-- Two modules that depend on each other, and a third they share: each analysed once. -/
example :
    let env : Env Nat := ⟨fun c => some ([c.name.length], [], [([97], [50]), ([98, 98], [50]), ([99, 99, 99], [50])]),
      [([97], [49]), ([98, 98], [49]), ([99, 99, 99], [49])]⟩
    ∃ s, analyze env true [⟨[97], [49], [50], false⟩] 4 = .done s ∧ s.seen.map (·.name) = [[99, 99, 99], [98, 98], [97]] ∧
      s.data.get [99, 99, 99] = some [3] := by
  refine ⟨_, rfl, by decide, by decide⟩

/-! ### C39 -/

/-- C39: one mark per line. -/
theorem C39_length (old new : List Bytes) (ops : List Op) (newFunc : Bool) (radius : Nat) :
    (bitmap old new ops newFunc radius).length = if newFunc = true then new.length else old.length := bitmap_length old new ops newFunc radius

/-- C39: a line of the original that is not kept is marked, for every radius. -/
theorem C39_complete (old new : List Bytes) (ops : List Op) (hc : Covers old new 0 0 ops) (radius i : Nat) (hi : i < old.length)
    (hk : ∀ j, ¬ Kept ops i j) : Marked (bitmap old new ops false radius) i := by
  obtain ⟨_, _, _, h4, _, _⟩ := covers_old hc
  obtain ⟨c, hcm, h1, h2⟩ := h4 i (Nat.zero_le _) hi
  obtain ⟨e1, e2, e3⟩ := covers_tags hc c hcm
  rw [bitmap_marked]
  refine ⟨by simpa using hi, c, hcm, ?_⟩
  have hne : c.tag ≠ .equal := fun he => hk (c.j1 + (i - c.i1)) ⟨c, hcm, he, h1, h2, by omega, by omega⟩
  refine ⟨hne, ?_⟩
  have hni : c.tag ≠ .insert := fun he => by have := e2 he; omega
  simp only [Bool.false_eq_true, if_false, hni]
  exact ⟨h1, h2⟩

/-- C39: the same for the lines of the new definition. -/
theorem C39_complete_new (old new : List Bytes) (ops : List Op) (hc : Covers old new 0 0 ops) (radius j : Nat) (hj : j < new.length)
    (hk : ∀ i, ¬ Kept ops i j) : Marked (bitmap old new ops true radius) j := by
  obtain ⟨_, _, h3, _, h5, _⟩ := covers_old hc
  obtain ⟨c, hcm, h1, h2⟩ := h5 j (Nat.zero_le _) hj
  obtain ⟨e1, e2, e3⟩ := covers_tags hc c hcm
  have hb := h3 c hcm
  rw [bitmap_marked]
  refine ⟨by simpa using hj, c, hcm, ?_⟩
  have hne : c.tag ≠ .equal := fun he => by
    have := (e1 he).1
    exact hk (c.i1 + (j - c.j1)) ⟨c, hcm, he, by omega, by omega, h1, by omega⟩
  refine ⟨hne, ?_⟩
  simp only [if_true]
  split
  · omega
  · exact ⟨h1, h2⟩

/-- C39: at radius zero no kept line is marked. -/
theorem C39_sound (old new : List Bytes) (ops : List Op) (hc : Covers old new 0 0 ops) (i j : Nat) (hk : Kept ops i j) :
    ¬ Marked (bitmap old new ops false 0) i ∧ ¬ Marked (bitmap old new ops true 0) j := by
  obtain ⟨c, hcm, ht, h1, h2, h3, h4⟩ := hk
  obtain ⟨_, _, hb, _, _, hp⟩ := covers_old hc
  obtain ⟨e1, _, _⟩ := covers_tags hc c hcm
  have he := (e1 ht).1
  have hcb := hb c hcm
  constructor
  · rw [bitmap_marked]
    rintro ⟨_, d, hdm, hd1, hd2⟩
    have hdb := hb d hdm
    simp only [Bool.false_eq_true, if_false] at hd2
    rcases pairwise_cases hp hcm hdm with rfl | h | h
    · exact hd1 ht
    · split at hd2 <;> omega
    · split at hd2 <;> omega
  · rw [bitmap_marked]
    rintro ⟨_, d, hdm, hd1, hd2⟩
    have hdb := hb d hdm
    simp only [if_true] at hd2
    rcases pairwise_cases hp hcm hdm with rfl | h | h
    · exact hd1 ht
    · split at hd2 <;> omega
    · split at hd2 <;> omega

/-- C39: at any radius a kept line is marked exactly when it is that near to an insertion: among the `radius` lines before it
or after it. -/
theorem C39_radius (old new : List Bytes) (ops : List Op) (hc : Covers old new 0 0 ops) (radius i j : Nat) (hk : Kept ops i j) :
    Marked (bitmap old new ops false radius) i ↔ ∃ c ∈ ops, c.tag = .insert ∧ c.i1 ≤ i + radius ∧ i < c.i1 + radius := by
  obtain ⟨c, hcm, ht, h1, h2, h3, h4⟩ := hk
  obtain ⟨_, _, hb, _, _, hp⟩ := covers_old hc
  have hcb := hb c hcm
  rw [bitmap_marked]
  simp only [Bool.false_eq_true, if_false]
  constructor
  · rintro ⟨_, d, hdm, hd1, hd2⟩
    have hdb := hb d hdm
    simp only [Bool.false_eq_true, if_false] at hd2
    by_cases hi : d.tag = .insert
    · rw [if_pos hi] at hd2
      exact ⟨d, hdm, hi, hd2⟩
    · rw [if_neg hi] at hd2
      rcases pairwise_cases hp hcm hdm with rfl | h | h
      · exact absurd ht hd1
      · omega
      · omega
  · rintro ⟨d, hdm, hd1, hd2⟩
    refine ⟨by omega, d, hdm, by rw [hd1]; decide, ?_⟩
    simp only [Bool.false_eq_true, if_false, hd1, if_true]
    exact hd2

/-- C39: in the new definition a kept line is marked exactly when inserted lines are that near. -/
theorem C39_radius_new (old new : List Bytes) (ops : List Op) (hc : Covers old new 0 0 ops) (radius i j : Nat) (hk : Kept ops i j) :
    Marked (bitmap old new ops true radius) j ↔
      ∃ c ∈ ops, c.tag = .insert ∧ ∃ k, c.j1 ≤ k ∧ k < c.j2 ∧ k ≤ j + radius ∧ j ≤ k + radius := by
  obtain ⟨c, hcm, ht, h1, h2, h3, h4⟩ := hk
  obtain ⟨_, _, hb, _, _, hp⟩ := covers_old hc
  obtain ⟨e1, _, _⟩ := covers_tags hc c hcm
  have he := (e1 ht).1
  have hcb := hb c hcm
  rw [bitmap_marked]
  simp only [if_true]
  constructor
  · rintro ⟨_, d, hdm, hd1, hd2⟩
    have hdb := hb d hdm
    simp only [if_true] at hd2
    by_cases hi : d.tag = .insert
    · rw [if_pos hi] at hd2
      refine ⟨d, hdm, hi, max d.j1 (j - radius), ?_⟩
      omega
    · rw [if_neg hi] at hd2
      rcases pairwise_cases hp hcm hdm with rfl | h | h
      · exact absurd ht hd1
      · omega
      · omega
  · rintro ⟨d, hdm, hd1, k, hd2⟩
    refine ⟨by omega, d, hdm, by rw [hd1]; decide, ?_⟩
    simp only [if_true, hd1]
    omega

/-- C39: kept lines are equal in both texts and keep their order; nothing is kept twice. -/
theorem C39_kept (old new : List Bytes) (ops : List Op) (hc : Covers old new 0 0 ops) (i j i' j' : Nat) (h : Kept ops i j) (h' : Kept ops i' j') :
    i < old.length ∧ j < new.length ∧ old[i]? = new[j]? ∧ (i < i' ↔ j < j') := by
  obtain ⟨c, hcm, ht, h1, h2, h3, h4⟩ := h
  obtain ⟨d, hdm, kt, k1, k2, k3, k4⟩ := h'
  obtain ⟨_, _, hb, _, _, hp⟩ := covers_old hc
  obtain ⟨e1, _, _⟩ := covers_tags hc c hcm
  obtain ⟨f1, _, _⟩ := covers_tags hc d hdm
  obtain ⟨e2, e3⟩ := e1 ht
  obtain ⟨f2, _⟩ := f1 kt
  have b1 := hb c hcm
  have b2 := hb d hdm
  refine ⟨by omega, by omega, ?_, ?_⟩
  · have := e3 (i - c.i1) (by omega)
    rwa [show c.i1 + (i - c.i1) = i by omega, show c.j1 + (i - c.i1) = j by omega] at this
  · rcases pairwise_cases hp hcm hdm with rfl | h | h
    · omega
    · omega
    · omega

/-- One line replaced, one inserted: with radius 1 the lines around the insertion are marked too. -/
example :
    let old : List Bytes := [[97], [98], [99]]
    let new : List Bytes := [[97], [120], [99], [121]]
    let ops : List Op := [⟨.equal, 0, 1, 0, 1⟩, ⟨.replace, 1, 2, 1, 2⟩, ⟨.equal, 2, 3, 2, 3⟩, ⟨.insert, 3, 3, 3, 4⟩]
    Covers old new 0 0 ops ∧ bitmap old new ops false 0 = [false, true, false] ∧ bitmap old new ops false 1 = [false, true, true] ∧
      bitmap old new ops true 0 = [false, true, false, true] := by
  refine ⟨?_, by decide, by decide, by decide⟩
  refine .op _ rfl rfl (by decide) (by decide) (by decide) (by decide) (by decide) ?_
  refine .op _ rfl rfl (by decide) (by decide) (by decide) (by decide) (by decide) ?_
  refine .op _ rfl rfl (by decide) (by decide) (by decide) (by decide) (by decide) ?_
  refine .op _ rfl rfl (by decide) (by decide) (by decide) (by decide) (by decide) ?_
  exact .done

/-! ### C40 -/

/-- C40: the functions kept are those whose module is not too old, in order; all others are counted. -/
theorem C40_partition (fs : List ModFunc) :
    (filterByGo fs).1.Sublist fs ∧ (filterByGo fs).1.length + (filterByGo fs).2 = fs.length ∧
      (∀ f, f ∈ (filterByGo fs).1 ↔ f ∈ fs ∧ ∀ v, f.goVersion = some v → belowMin v = false) ∧
      (filterByGo fs).2 = fs.countP fun f => f.goVersion.any belowMin := by
  induction fs with
  | nil => simp [filterByGo]
  | cons f fs ih =>
      obtain ⟨h1, h2, h3, h4⟩ := ih
      unfold filterByGo
      cases hv : f.goVersion with
      | none =>
          simp only
          refine ⟨h1.cons_cons _, by simp; omega, ?_, ?_⟩
          · intro g
            simp only [List.mem_cons, h3]
            constructor
            · rintro (rfl | h)
              · exact ⟨Or.inl rfl, by simp [hv]⟩
              · exact ⟨Or.inr h.1, h.2⟩
            · rintro ⟨rfl | h, h'⟩
              · exact Or.inl rfl
              · exact Or.inr ⟨h, h'⟩
          · rw [List.countP_cons, h4, hv]; simp
      | some v =>
          simp only
          cases hb : belowMin v with
          | true =>
              simp only [if_true]
              refine ⟨h1.cons _, by simp; omega, ?_, ?_⟩
              · intro g
                simp only [List.mem_cons, h3]
                constructor
                · exact fun h => ⟨Or.inr h.1, h.2⟩
                · rintro ⟨rfl | h, h'⟩
                  · have := h' v hv; rw [hb] at this; cases this
                  · exact ⟨h, h'⟩
              · rw [List.countP_cons, h4, hv]; simp [hb]
          | false =>
              simp only [Bool.false_eq_true, if_false]
              refine ⟨h1.cons_cons _, by simp; omega, ?_, ?_⟩
              · intro g
                simp only [List.mem_cons, h3]
                constructor
                · rintro (rfl | h)
                  · exact ⟨Or.inl rfl, fun w hw => by rw [hv] at hw; cases hw; exact hb⟩
                  · exact ⟨Or.inr h.1, h.2⟩
                · rintro ⟨rfl | h, h'⟩
                  · exact Or.inl rfl
                  · exact Or.inr ⟨h, h'⟩
              · rw [List.countP_cons, h4, hv]; simp [hb]

example : filterByGo [⟨[97], some (goText 1 12 none)⟩, ⟨[98], some (goText 1 13 none)⟩, ⟨[99], none⟩] =
    ([⟨[98], some (goText 1 13 none)⟩, ⟨[99], none⟩], 1) := by decide +kernel

/-! ### C41 -/

/-- C41: different modules or versions have different directories. -/
theorem C41_distinct (cache p q v w d : Bytes) (h1 : cacheDir cache p v = some d) (h2 : cacheDir cache q w = some d) : p = q ∧ v = w := by
  obtain ⟨e1, _, e3⟩ := cacheDir_folded h1 h2 rfl
  exact ⟨e1, e3 rfl⟩

/-- C41, the part that holds where case does not count: different modules never share a directory, and different versions do
not if they have no capital letters. Missing: versions with capital letters, see `C41_violated`. -/
theorem C41_folded_partial (cache p q v w d e : Bytes) (h1 : cacheDir cache p v = some d) (h2 : cacheDir cache q w = some e) (h : SameFolded d e) :
    p = q ∧ ((∀ b ∈ v, ¬ Capital b) → (∀ b ∈ w, ¬ Capital b) → v = w) := by
  obtain ⟨e1, e2, _⟩ := cacheDir_folded h1 h2 (folded_lower h)
  refine ⟨e1, fun hv hw => ?_⟩
  rwa [map_lower_id fun b hb => not_upper (hv b hb), map_lower_id fun b hb => not_upper (hw b hb)] at e2

/-- C41 fails where case does not count: v1.0.0-RC1 and v1.0.0-rc1 of a module get directories that differ in case only,
because the version is not escaped. -/
theorem C41_violated :
    let v : Bytes := [118, 49, 46, 48, 46, 48, 45, 82, 67, 49]
    let w : Bytes := [118, 49, 46, 48, 46, 48, 45, 114, 99, 49]
    v ≠ w ∧ (parse v).isSome ∧ (parse w).isSome ∧
      ∃ d e, cacheDir [99] [97, 46, 98] v = some d ∧ cacheDir [99] [97, 46, 98] w = some e ∧ SameFolded d e := by
  refine ⟨by decide, by decide +kernel, by decide +kernel, _, _, rfl, rfl, by unfold SameFolded; decide⟩

/-- There is a directory exactly for paths made of letters, digits and `-._~/`; without capital letters it is written as the path. -/
theorem C41_written (cache p v : Bytes) : ((cacheDir cache p v).isSome = true ↔ ∀ b ∈ p, PathByte b) ∧
    ((∀ b ∈ p, PathByte b ∧ ¬ Capital b) → cacheDir cache p v = some (cache ++ "/".toUTF8.toList ++ p ++ "@".toUTF8.toList ++ v)) := by
  have e1 : "/".toUTF8.toList = [47] := by decide +kernel
  have e2 : "@".toUTF8.toList = [64] := by decide +kernel
  constructor
  · unfold cacheDir escapePath
    rw [Option.isSome_map]
    constructor
    · intro h b hb
      split at h
      · rename_i ha
        exact (pathByte_iff b).mpr (List.all_eq_true.mp ha b hb)
      · cases h
    · intro h
      rw [if_pos (List.all_eq_true.mpr fun b hb => (pathByte_iff b).mp (h b hb))]
      rfl
  · intro h
    have hp : p.flatMap (fun b => if isUpper b then [33, lower b] else [b]) = p := by
      have : ∀ q : Bytes, (∀ b ∈ q, isUpper b = false) → q.flatMap (fun b => if isUpper b then [33, lower b] else [b]) = q := by
        intro q hq
        induction q with
        | nil => rfl
        | cons a q ih =>
          rw [List.flatMap_cons, hq a List.mem_cons_self, ih fun b hb => hq b (List.mem_cons_of_mem _ hb)]
          rfl
      exact this p fun b hb => not_upper (h b hb).2
    unfold cacheDir escapePath
    rw [if_pos (List.all_eq_true.mpr fun b hb => (pathByte_iff b).mp (h b hb).1), hp, e1, e2]
    simp

example : (cacheDir [99] [97, 46, 98, 47, 126, 90] [118]).isSome = true ∧ cacheDir [99] [97, 32] [118] = none := by decide

/-- `Azure` and `azure` have different directories even where case does not count. -/
example : (cacheDir [99] [65, 122] [118, 49]).map (·.map lower) ≠ (cacheDir [99] [97, 122] [118, 49]).map (·.map lower) := by decide

end Verif.Module
