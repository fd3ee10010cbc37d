import Verif.Module.VersionLemmas
import Mathlib.Data.List.Induction

namespace Verif.Module

/-! ### Requirements -/

theorem reqMap_snoc (rs : List Req) (r : Req) : reqMap (rs ++ [r]) = AMap.set (reqMap rs) r.path r.version := by simp [reqMap]

theorem requires_snoc (rs : List Req) (r : Req) (p v : Bytes) :
    Requires (rs ++ [r]) p v ↔ (r.path = p ∧ r.version = v) ∨ (r.path ≠ p ∧ Requires rs p v) := by
  constructor
  · rintro ⟨a, x, b, h, hp, hv, hb⟩
    rcases List.eq_nil_or_concat b with rfl | ⟨b', y, rfl⟩
    · have := List.append_inj' h (by simp)
      simp only [List.cons.injEq, and_true] at this
      rw [this.2]
      exact Or.inl ⟨hp, hv⟩
    · rw [List.concat_eq_append, ← List.cons_append, ← List.append_assoc] at h
      have := List.append_inj' h (by simp)
      simp only [List.cons.injEq, and_true] at this
      refine Or.inr ⟨?_, a, x, b', this.1, hp, hv, fun r' hr' => hb r' (by simp [hr'])⟩
      rw [this.2]
      exact hb y (by simp)
  · rintro (⟨hp, hv⟩ | ⟨hp, a, x, b, h, hxp, hxv, hb⟩)
    · exact ⟨rs, r, [], rfl, hp, hv, by simp⟩
    · refine ⟨a, x, b ++ [r], by simp [h], hxp, hxv, ?_⟩
      intro r' hr'
      rcases List.mem_append.mp hr' with h' | h'
      · exact hb r' h'
      · simp only [List.mem_singleton] at h'
        rw [h']; exact hp

theorem reqMap_get (rs : List Req) (p v : Bytes) : (reqMap rs).get p = some v ↔ Requires rs p v := by
  induction rs using List.reverseRecOn with
  | nil =>
      constructor
      · intro h; simp [reqMap, AMap.get_nil] at h
      · rintro ⟨a, x, b, h, _⟩; simp at h
  | append_singleton rs r ih =>
      rw [reqMap_snoc, AMap.get_set, requires_snoc]
      by_cases h : p = r.path
      · simp [h]
      · rw [if_neg h, ih]
        have h' : r.path ≠ p := fun hh => h hh.symm
        simp [h']

theorem reqMap_nodup (rs : List Req) : (reqMap rs).keys.Nodup := by
  induction rs using List.reverseRecOn with
  | nil => simp [reqMap, AMap.keys]
  | append_singleton rs r ih => rw [reqMap_snoc]; exact AMap.nodup_set ih _ _

theorem mem_reqMap (rs : List Req) (p v : Bytes) : (p, v) ∈ reqMap rs ↔ Requires rs p v := by
  rw [← reqMap_get]
  exact ⟨fun h => AMap.get_eq_some_of_mem (reqMap_nodup rs) h, fun h => AMap.mem_of_get h⟩

theorem requires_mem {rs : List Req} {p v : Bytes} (h : Requires rs p v) : ∃ r ∈ rs, r.path = p ∧ r.version = v := by
  obtain ⟨a, x, b, rfl, hp, hv, _⟩ := h
  exact ⟨x, by simp, hp, hv⟩

/-- The change of one requirement whose module the old file requires as `v`. -/
def changeOf (r : Req) (v : Bytes) : Option Change := if v ≠ r.version then some ⟨r.path, v, r.version, r.indirect⟩ else none

theorem diffMods_cons (old : List Req) (r : Req) (new : List Req) :
    diffMods old (r :: new) = (match (reqMap old).get r.path with
      | some v => (changeOf r v).toList ++ diffMods old new
      | none => diffMods old new) := by
  have h : ∀ l, diffMods old l = l.filterMap fun r => ((reqMap old).get r.path).bind (changeOf r) := by
    intro l
    unfold diffMods
    congr 1
    funext r
    cases (reqMap old).get r.path <;> rfl
  rw [h, h, List.filterMap_cons]
  cases (reqMap old).get r.path with
  | none => rfl
  | some v =>
      simp only [Option.bind_some]
      cases changeOf r v <;> rfl

/-! ### Dependencies -/

theorem addDeps_mem (deps : AMap Bytes Bytes) : ∀ (vm : AMap Bytes (List Bytes)) (k v : Bytes),
    v ∈ ((addDeps vm deps).get k).getD [] ↔ v ∈ (vm.get k).getD [] ∨ (k, v) ∈ deps := by
  induction deps with
  | nil => intro vm k v; simp [addDeps]
  | cons kv deps ih =>
      intro vm k v
      have : addDeps vm (kv :: deps) = addDeps (vm.set kv.1 ((vm.get kv.1).getD [] ++ [kv.2])) deps := rfl
      rw [this, ih, AMap.get_set]
      obtain ⟨k', v'⟩ := kv
      by_cases h : k = k'
      · subst h
        simp only [if_true, Option.getD_some, List.mem_append, List.mem_cons, Prod.mk.injEq, true_and]
        tauto
      · simp only [h, if_false, List.mem_cons, Prod.mk.injEq, false_and, false_or]

theorem addDeps_ne (deps : AMap Bytes Bytes) : ∀ (vm : AMap Bytes (List Bytes)), (∀ k, vm.get k ≠ some []) → ∀ k, (addDeps vm deps).get k ≠ some [] := by
  induction deps with
  | nil => intro vm h k; exact h k
  | cons kv deps ih =>
      intro vm h k
      refine ih (vm.set kv.1 ((vm.get kv.1).getD [] ++ [kv.2])) ?_ k
      intro k'
      rw [AMap.get_set]
      split
      · simp
      · exact h k'

theorem files_mem (files : List (AMap Bytes Bytes)) : ∀ (vm : AMap Bytes (List Bytes)) (k v : Bytes),
    v ∈ ((files.foldl addDeps vm).get k).getD [] ↔ v ∈ (vm.get k).getD [] ∨ ∃ f ∈ files, (k, v) ∈ f := by
  induction files with
  | nil => simp
  | cons f files ih =>
      intro vm k v
      rw [List.foldl_cons, ih, addDeps_mem]
      simp only [List.mem_cons, exists_eq_or_imp]
      tauto

theorem files_ne (files : List (AMap Bytes Bytes)) : ∀ (vm : AMap Bytes (List Bytes)), (∀ k, vm.get k ≠ some []) →
    ∀ k, (files.foldl addDeps vm).get k ≠ some [] := by
  induction files with
  | nil => intro vm h k; exact h k
  | cons f files ih => intro vm h k; exact ih _ (addDeps_ne f vm h) k

theorem get_map (m : AMap Bytes (List Bytes)) (f : List Bytes → Bytes) (k : Bytes) :
    AMap.get (K := Bytes) (V := Bytes) (m.map fun kv => (kv.1, f kv.2)) k = (m.get k).map f := by
  induction m with
  | nil => simp [AMap.get_nil]
  | cons e m ih =>
      rw [List.map_cons, AMap.get_cons, AMap.get_cons]
      by_cases h : e.1 = k
      · simp [h]
      · simp only [h, if_false]; exact ih

theorem choose_spec (newest : Bool) (v : Bytes) (vs : List Bytes) :
    choose newest (v :: vs) ∈ v :: vs ∧
      ∀ w ∈ v :: vs, if newest = true then semKey w ≤ semKey (choose newest (v :: vs)) else semKey (choose newest (v :: vs)) ≤ semKey w := by
  simp only [choose]
  induction vs using List.reverseRecOn with
  | nil => cases newest <;> simp
  | append_singleton vs x ih =>
      rw [List.foldl_append]
      generalize hc : vs.foldl (fun c v => if newest = true then (if compareSem v c > 0 then v else c) else if compareSem v c < 0 then v else c) v = c at ih ⊢
      simp only [List.foldl_cons, List.foldl_nil]
      obtain ⟨h1, h2⟩ := ih
      have hmem : c ∈ v :: (vs ++ [x]) := by
        rw [← List.cons_append]; exact List.mem_append_left _ h1
      have hx : x ∈ v :: (vs ++ [x]) := by simp
      have hcases : ∀ w ∈ v :: (vs ++ [x]), w ∈ v :: vs ∨ w = x := by
        intro w hw
        rw [← List.cons_append, List.mem_append, List.mem_singleton] at hw
        exact hw
      rw [compareSem_spec]
      cases newest with
      | true =>
          simp only [if_true] at h2 ⊢
          by_cases h : sgn (semKey x) (semKey c) > 0
          · rw [if_pos h]
            have hlt := sgn_pos.mp h
            refine ⟨hx, fun w hw => ?_⟩
            rcases hcases w hw with hw | rfl
            · exact le_trans (h2 w hw) (le_of_lt hlt)
            · exact le_refl _
          · rw [if_neg h]
            refine ⟨hmem, fun w hw => ?_⟩
            rcases hcases w hw with hw | rfl
            · exact h2 w hw
            · exact not_lt.mp fun hh => h (sgn_pos.mpr hh)
      | false =>
          simp only [Bool.false_eq_true, if_false] at h2 ⊢
          by_cases h : sgn (semKey x) (semKey c) < 0
          · rw [if_pos h]
            have hlt := sgn_neg.mp h
            refine ⟨hx, fun w hw => ?_⟩
            rcases hcases w hw with hw | rfl
            · exact le_trans (le_of_lt hlt) (h2 w hw)
            · exact le_refl _
          · rw [if_neg h]
            refine ⟨hmem, fun w hw => ?_⟩
            rcases hcases w hw with hw | rfl
            · exact h2 w hw
            · exact not_lt.mp fun hh => h (sgn_neg.mpr hh)

/-! ### Go versions -/

theorem compareGo_spec (a b : Bytes) : compareGo a b = sgn (semKey (118 :: a)) (semKey (118 :: b)) := compareSem_spec _ _

theorem oldestGo_snoc (vs : List Bytes) (v : Bytes) : oldestGo (vs ++ [v]) = olderGo (oldestGo vs) v := by simp [oldestGo]

theorem oldestGo_spec (vs : List Bytes) :
    (oldestGo vs = [] ↔ ∀ v ∈ vs, v = []) ∧ (oldestGo vs ≠ [] → oldestGo vs ∈ vs) ∧
      ∀ v ∈ vs, v ≠ [] → semKey (118 :: oldestGo vs) ≤ semKey (118 :: v) := by
  induction vs using List.reverseRecOn with
  | nil => simp [oldestGo]
  | append_singleton vs x ih =>
      rw [oldestGo_snoc]
      generalize oldestGo vs = o at ih ⊢
      obtain ⟨h1, h2, h3⟩ := ih
      unfold olderGo
      by_cases ho : o = []
      · rw [if_pos ho]
        have hall := h1.mp ho
        refine ⟨?_, fun _ => by simp, ?_⟩
        · constructor
          · intro hx v hv
            rcases List.mem_append.mp hv with hv | hv
            · exact hall v hv
            · simp only [List.mem_singleton] at hv; rw [hv]; exact hx
          · intro h; exact h x (by simp)
        · intro v hv hne
          rcases List.mem_append.mp hv with hv | hv
          · exact absurd (hall v hv) hne
          · simp only [List.mem_singleton] at hv; rw [hv]
      · rw [if_neg ho]
        have hnall : ¬ ∀ v ∈ vs ++ [x], v = [] := fun h => ho (h1.mpr fun v hv => h v (List.mem_append_left _ hv))
        by_cases hx : x = []
        · rw [if_pos hx]
          refine ⟨by simp only [ho, false_iff]; exact hnall, fun _ => List.mem_append_left _ (h2 ho), ?_⟩
          intro v hv hne
          rcases List.mem_append.mp hv with hv | hv
          · exact h3 v hv hne
          · simp only [List.mem_singleton] at hv; exact absurd (hv.trans hx) hne
        · rw [if_neg hx, compareGo_spec]
          by_cases h : sgn (semKey (118 :: o)) (semKey (118 :: x)) < 0
          · rw [if_pos h]
            have hlt := sgn_neg.mp h
            refine ⟨by simp only [ho, false_iff]; exact hnall, fun _ => List.mem_append_left _ (h2 ho), ?_⟩
            intro v hv hne
            rcases List.mem_append.mp hv with hv | hv
            · exact h3 v hv hne
            · simp only [List.mem_singleton] at hv; rw [hv]; exact le_of_lt hlt
          · rw [if_neg h]
            have hle := not_lt.mp fun hh => h (sgn_neg.mpr hh)
            refine ⟨by simp only [hx, false_iff]; exact hnall, fun _ => by simp, ?_⟩
            intro v hv hne
            rcases List.mem_append.mp hv with hv | hv
            · exact le_trans hle (h3 v hv hne)
            · simp only [List.mem_singleton] at hv; rw [hv]

theorem minGo_text : minGo = goText 1 13 none := by decide +kernel

/-! ### Analysis -/

section
variable {F : Type} {env : Env F} {trans : Bool} {reqs : List Change}

theorem mem_followUps (project oldDeps newDeps : AMap Bytes Bytes) (d : Change) :
    d ∈ followUps project oldDeps newDeps ↔ FollowUp project oldDeps newDeps d := by
  unfold followUps FollowUp
  rw [List.mem_filterMap]
  constructor
  · rintro ⟨⟨k, v⟩, hkv, h⟩
    simp only at h
    split at h
    · rename_i hne
      split at h
      · rename_i pv hpv
        split at h
        · rename_i hpne
          simp only [Option.some.injEq] at h
          subst h
          exact ⟨hkv, hne, hpv, hpne, rfl⟩
        · cases h
      · cases h
    · cases h
  · rintro ⟨h1, h2, h3, h4, h5⟩
    refine ⟨(d.name, d.new), h1, ?_⟩
    simp only
    rw [if_pos h2, h3]
    simp only
    rw [if_pos h4]
    cases d
    simp_all

theorem analyzeOne_cases {seen seen' : List Change} {mc : Change} {t : Bool} {fs : List F} {calls : List Change}
    (h : analyzeOne env t seen mc = some (fs, calls, seen')) :
    (mc.name ∈ seen.map (·.name) ∧ fs = [] ∧ calls = [] ∧ seen' = seen) ∨
    (mc.name ∉ seen.map (·.name) ∧ seen' = mc :: seen ∧ ∃ od nd, env.load mc = some (fs, od, nd) ∧
      calls = if t = true then followUps env.project od nd else []) := by
  unfold analyzeOne at h
  split at h
  · rename_i hs
    simp only [Option.some.injEq, Prod.mk.injEq] at h
    exact Or.inl ⟨hs, h.1.symm, h.2.1.symm, h.2.2.symm⟩
  · rename_i hs
    split at h
    · cases h
    · rename_i fs' od nd hl
      simp only [Option.some.injEq, Prod.mk.injEq] at h
      obtain ⟨rfl, rfl, rfl⟩ := h
      exact Or.inr ⟨hs, rfl, od, nd, hl, rfl⟩

/-- What holds between steps; `pend` are the calls of the current level still to be made. -/
structure AInv (env : Env F) (trans : Bool) (reqs pend : List Change) (s : AState F) : Prop where
  nodup : (s.seen.map (·.name)).Nodup
  reach : ∀ c ∈ s.seen, Reachable env trans reqs c
  loaded : ∀ c ∈ s.seen, (env.load c).isSome
  pendOk : ∀ c ∈ pend ++ s.next, Reachable env trans reqs c ∧ trans = true ∧ ∃ v, env.project.get c.name = some v
  closed : trans = true → ∀ c ∈ s.seen, ∀ fs od nd, env.load c = some (fs, od, nd) → ∀ d, FollowUp env.project od nd d →
    d.name ∈ s.seen.map (·.name) ∨ d ∈ pend ++ s.next

theorem step_inv {pend seen' : List Change} {mc : Change} {s : AState F} {fs : List F} {calls : List Change} {data' : AMap Bytes (List F)} {t : Bool}
    (ht : t = trans) (hmc : Reachable env trans reqs mc)
    (h1 : (s.seen.map (·.name)).Nodup) (h2 : ∀ c ∈ s.seen, Reachable env trans reqs c) (h3 : ∀ c ∈ s.seen, (env.load c).isSome)
    (h4 : ∀ c ∈ pend ++ s.next, Reachable env trans reqs c ∧ trans = true ∧ ∃ v, env.project.get c.name = some v)
    (h5 : trans = true → ∀ c ∈ s.seen, ∀ fs od nd, env.load c = some (fs, od, nd) → ∀ d, FollowUp env.project od nd d →
      d.name ∈ s.seen.map (·.name) ∨ d = mc ∨ d ∈ pend ++ s.next)
    (h : analyzeOne env t s.seen mc = some (fs, calls, seen')) :
    AInv env trans reqs pend ⟨seen', data', s.next ++ calls⟩ ∧ mc.name ∈ seen'.map (·.name) := by
  subst ht
  rcases analyzeOne_cases h with ⟨hin, rfl, rfl, rfl⟩ | ⟨hnin, rfl, od, nd, hl, rfl⟩
  · refine ⟨⟨h1, h2, h3, by simpa using h4, ?_⟩, hin⟩
    intro htr c hc fs od nd hl d hd
    rcases h5 htr c hc fs od nd hl d hd with h | h | h
    · exact Or.inl h
    · rw [h]; exact Or.inl hin
    · exact Or.inr (by simpa using h)
  · refine ⟨⟨by simpa using ⟨by simpa using hnin, h1⟩, ?_, ?_, ?_, ?_⟩, by simp⟩
    · intro c hc
      rcases List.mem_cons.mp hc with rfl | hc
      · exact hmc
      · exact h2 c hc
    · intro c hc
      rcases List.mem_cons.mp hc with rfl | hc
      · rw [hl]; rfl
      · exact h3 c hc
    · intro c hc
      simp only [← List.append_assoc, List.mem_append] at hc
      rcases hc with hc | hc
      · exact h4 c (List.mem_append.mpr hc)
      · cases t with
        | false => simp at hc
        | true =>
            simp only [if_true] at hc
            have hf := (mem_followUps _ _ _ _).mp hc
            exact ⟨.follow hmc hl rfl hf, rfl, _, hf.2.2.1⟩
    · intro htr c hc fs' od' nd' hl' d hd
      subst htr
      rcases List.mem_cons.mp hc with rfl | hc
      · rw [hl] at hl'
        simp only [Option.some.injEq, Prod.mk.injEq] at hl'
        obtain ⟨_, rfl, rfl⟩ := hl'
        refine Or.inr ?_
        simp only [if_true, ← List.append_assoc, List.mem_append]
        exact Or.inr ((mem_followUps _ _ _ _).mpr hd)
      · rcases h5 rfl c hc fs' od' nd' hl' d hd with h | h | h
        · exact Or.inl (by simpa using Or.inr (by simpa using h))
        · rw [h]; exact Or.inl (by simp)
        · refine Or.inr ?_
          simp only [← List.append_assoc, List.mem_append]
          exact Or.inl (List.mem_append.mp h)

theorem requestLoop_inv : ∀ (mcs : List Change) (s s' : AState F), (∀ c ∈ mcs, c ∈ reqs) → AInv env trans reqs [] s →
    requestLoop env trans mcs s = some s' → AInv env trans reqs [] s' ∧ (∀ c ∈ mcs, c.name ∈ s'.seen.map (·.name)) ∧
      (∀ n ∈ s.seen.map (·.name), n ∈ s'.seen.map (·.name)) := by
  intro mcs
  induction mcs with
  | nil =>
      intro s s' _ hi h
      simp only [requestLoop, Option.some.injEq] at h
      subst h
      exact ⟨hi, by simp, fun n hn => hn⟩
  | cons mc mcs ih =>
      intro s s' hr hi h
      simp only [requestLoop] at h
      split at h
      · cases h
      · rename_i fs calls seen hone
        obtain ⟨i1, i2⟩ := step_inv (pend := []) (s := s) (data' := s.data.set mc.name fs) rfl (.request (hr mc List.mem_cons_self))
          hi.nodup hi.reach hi.loaded hi.pendOk
          (fun ht c hc fs od nd hl d hd => (hi.closed ht c hc fs od nd hl d hd).imp id Or.inr) hone
        obtain ⟨j1, j2, j3⟩ := ih _ _ (fun c hc => hr c (List.mem_cons_of_mem _ hc)) i1 h
        refine ⟨j1, ?_, ?_⟩
        · intro c hc
          rcases List.mem_cons.mp hc with rfl | hc
          · exact j3 _ i2
          · exact j2 c hc
        · intro n hn
          apply j3
          rcases analyzeOne_cases hone with ⟨_, _, _, rfl⟩ | ⟨_, rfl, _⟩
          · exact hn
          · simpa using Or.inr (by simpa using hn)

theorem levelLoop_inv : ∀ (mcs : List Change) (s s' : AState F), AInv env trans reqs mcs s →
    levelLoop env mcs s = some s' → AInv env trans reqs [] s' ∧ (∃ pre, s'.seen = pre ++ s.seen) := by
  intro mcs
  induction mcs with
  | nil =>
      intro s s' hi h
      simp only [levelLoop, Option.some.injEq] at h
      subst h
      exact ⟨hi, [], rfl⟩
  | cons mc mcs ih =>
      intro s s' hi h
      simp only [levelLoop] at h
      split at h
      · cases h
      · rename_i fs calls seen hone
        have hp := hi.pendOk mc (by simp)
        obtain ⟨i1, i2⟩ := step_inv (pend := mcs) (s := s)
          (data' := fs.foldl (fun (d : AMap Bytes (List F)) f => d.set mc.name ((d.get mc.name).getD [] ++ [f])) s.data) hp.2.1.symm hp.1
          hi.nodup hi.reach hi.loaded (fun c hc => hi.pendOk c (by simpa using Or.inr (by simpa using hc)))
          (fun ht c hc fs od nd hl d hd => (hi.closed ht c hc fs od nd hl d hd).imp id (by simp)) hone
        obtain ⟨j1, pre, j2⟩ := ih _ _ i1 h
        refine ⟨j1, ?_⟩
        rcases analyzeOne_cases hone with ⟨_, _, _, rfl⟩ | ⟨_, rfl, _⟩
        · exact ⟨pre, j2⟩
        · exact ⟨pre ++ [mc], by rw [j2]; simp⟩

theorem levels_inv : ∀ (n : Nat) (s s' : AState F), AInv env trans reqs [] s → levels env n s = .done s' →
    AInv env trans reqs [] s' ∧ s'.next = [] ∧ (∃ pre, s'.seen = pre ++ s.seen) := by
  intro n
  induction n with
  | zero =>
      intro s s' hi h
      simp only [levels] at h
      split at h
      · rename_i hn
        cases h
        exact ⟨hi, hn, [], rfl⟩
      · cases h
  | succ n ih =>
      intro s s' hi h
      simp only [levels] at h
      split at h
      · rename_i hn
        cases h
        exact ⟨hi, hn, [], rfl⟩
      · split at h
        · cases h
        · rename_i s1 hl
          have hi' : AInv env trans reqs s.next { s with next := [] } :=
            ⟨hi.nodup, hi.reach, hi.loaded, by simpa using hi.pendOk, by simpa using hi.closed⟩
          obtain ⟨j1, pre, j2⟩ := levelLoop_inv _ _ _ hi' hl
          obtain ⟨k1, k2, pre', k3⟩ := ih _ _ j1 h
          exact ⟨k1, k2, pre' ++ pre, by rw [k3, j2]; simp⟩

theorem init_inv : AInv env trans reqs [] (⟨[], [], []⟩ : AState F) :=
  ⟨by simp, by simp, by simp, by simp, by simp⟩

theorem analyze_inv {n : Nat} {s : AState F} (h : analyze env trans reqs n = .done s) :
    AInv env trans reqs [] s ∧ s.next = [] ∧ ∀ c ∈ reqs, c.name ∈ s.seen.map (·.name) := by
  unfold analyze at h
  split at h
  · cases h
  · rename_i s1 hr
    obtain ⟨i1, i2, _⟩ := requestLoop_inv reqs _ _ (fun _ hc => hc) init_inv hr
    obtain ⟨j1, j2, pre, j3⟩ := levels_inv n _ _ i1 h
    refine ⟨j1, j2, fun c hc => ?_⟩
    rw [j3, List.map_append, List.mem_append]
    exact Or.inr (i2 c hc)

/-! #### Data -/

theorem foldSet_get (k : Bytes) : ∀ (fs : List F) (d : AMap Bytes (List F)) (n : Bytes),
    ((fs.foldl (fun (d : AMap Bytes (List F)) f => d.set k ((d.get k).getD [] ++ [f])) d).get n).getD [] =
      if n = k then (d.get k).getD [] ++ fs else (d.get n).getD [] := by
  intro fs
  induction fs with
  | nil => intro d n; by_cases h : n = k <;> simp [h]
  | cons f fs ih =>
      intro d n
      rw [List.foldl_cons, ih]
      by_cases h : n = k
      · simp [h, AMap.get_set]
      · simp [h, AMap.get_set]

/-- The data of the modules analysed, as far as their names are requested once. -/
structure DInv (env : Env F) (reqs : List Change) (s : AState F) : Prop where
  unseen : ∀ n, n ∉ s.seen.map (·.name) → (s.data.get n).getD [] = []
  seen : ∀ c ∈ s.seen, (reqs.map (·.name)).count c.name ≤ 1 → ∀ fs od nd, env.load c = some (fs, od, nd) → (s.data.get c.name).getD [] = fs

theorem requestLoop_data : ∀ (mcs pre : List Change) (s s' : AState F), reqs = pre ++ mcs →
    (∀ n ∈ s.seen.map (·.name), n ∈ pre.map (·.name)) → (∀ c ∈ pre, (reqs.map (·.name)).count c.name ≤ 1 → c ∈ s.seen) →
    DInv env reqs s → requestLoop env trans mcs s = some s' →
    DInv env reqs s' ∧ (∀ c ∈ reqs, (reqs.map (·.name)).count c.name ≤ 1 → c ∈ s'.seen) := by
  intro mcs
  induction mcs with
  | nil =>
      intro pre s s' hr _ hp hd h
      simp only [requestLoop, Option.some.injEq] at h
      subst h
      simp only [List.append_nil] at hr
      rw [hr] at hd hp ⊢
      exact ⟨hd, hp⟩
  | cons mc mcs ih =>
      intro pre s s' hr hn hp hd h
      simp only [requestLoop] at h
      split at h
      · cases h
      · rename_i fs calls seen hone
        have hr' : reqs = (pre ++ [mc]) ++ mcs := by rw [hr]; simp
        refine ih (pre ++ [mc]) _ s' hr' ?_ ?_ ?_ h
        · intro n hm
          rcases analyzeOne_cases hone with ⟨_, _, _, rfl⟩ | ⟨_, rfl, _⟩
          · have := hn n hm
            rw [List.map_append, List.mem_append]; exact Or.inl this
          · rw [List.map_cons, List.mem_cons] at hm
            rw [List.map_append, List.mem_append]
            rcases hm with hm | hm
            · exact Or.inr (by simp [hm])
            · exact Or.inl (hn n hm)
        · intro c hc hcount
          rcases List.mem_append.mp hc with hc | hc
          · have := hp c hc hcount
            rcases analyzeOne_cases hone with ⟨_, _, _, rfl⟩ | ⟨_, rfl, _⟩
            · exact this
            · exact List.mem_cons_of_mem _ this
          · simp only [List.mem_singleton] at hc
            subst hc
            rcases analyzeOne_cases hone with ⟨hin, _⟩ | ⟨_, rfl, _⟩
            · exfalso
              have hpre := hn _ hin
              rw [hr, List.map_append, List.count_append, List.map_cons, List.count_cons_self] at hcount
              have := List.count_pos_iff.mpr hpre
              omega
            · exact List.mem_cons_self
        · rcases analyzeOne_cases hone with ⟨hin, rfl, _, rfl⟩ | ⟨hnin, rfl, od, nd, hl, _⟩
          · refine ⟨?_, ?_⟩
            · intro n hnn
              have hne : n ≠ mc.name := fun h => hnn (h ▸ hin)
              simp only [AMap.get_set, hne, if_false]
              exact hd.unseen n hnn
            · intro c hc hcount fs' od' nd' hl'
              have hne : c.name ≠ mc.name := by
                intro heq
                have hpre := hn _ hin
                rw [hr, List.map_append, List.count_append, List.map_cons, heq, List.count_cons_self] at hcount
                have := List.count_pos_iff.mpr hpre
                omega
              simp only [AMap.get_set, hne, if_false]
              exact hd.seen c hc hcount fs' od' nd' hl'
          · refine ⟨?_, ?_⟩
            · intro n hnn
              simp only [List.map_cons, List.mem_cons, not_or] at hnn
              simp only [AMap.get_set, hnn.1, if_false]
              exact hd.unseen n hnn.2
            · intro c hc hcount fs' od' nd' hl'
              rcases List.mem_cons.mp hc with rfl | hc
              · rw [hl] at hl'
                simp only [Option.some.injEq, Prod.mk.injEq] at hl'
                simp only [AMap.get_set, if_true, Option.getD_some]
                exact hl'.1
              · have hne : c.name ≠ mc.name := fun heq => hnin (heq ▸ List.mem_map_of_mem hc)
                simp only [AMap.get_set, hne, if_false]
                exact hd.seen c hc hcount fs' od' nd' hl'

theorem levelLoop_data : ∀ (mcs : List Change) (s s' : AState F), DInv env reqs s → levelLoop env mcs s = some s' → DInv env reqs s' := by
  intro mcs
  induction mcs with
  | nil =>
      intro s s' hd h
      simp only [levelLoop, Option.some.injEq] at h
      subst h; exact hd
  | cons mc mcs ih =>
      intro s s' hd h
      simp only [levelLoop] at h
      split at h
      · cases h
      · rename_i fs calls seen hone
        refine ih _ _ ?_ h
        rcases analyzeOne_cases hone with ⟨hin, rfl, _, rfl⟩ | ⟨hnin, rfl, od, nd, hl, _⟩
        · exact ⟨hd.unseen, hd.seen⟩
        · refine ⟨?_, ?_⟩
          · intro n hnn
            simp only [List.map_cons, List.mem_cons, not_or] at hnn
            simp only [foldSet_get, hnn.1, if_false]
            exact hd.unseen n hnn.2
          · intro c hc hcount fs' od' nd' hl'
            rcases List.mem_cons.mp hc with rfl | hc
            · rw [hl] at hl'
              simp only [Option.some.injEq, Prod.mk.injEq] at hl'
              simp only [foldSet_get, if_true, hd.unseen _ hnin, List.nil_append]
              exact hl'.1
            · have hne : c.name ≠ mc.name := fun heq => hnin (heq ▸ List.mem_map_of_mem hc)
              simp only [foldSet_get, hne, if_false]
              exact hd.seen c hc hcount fs' od' nd' hl'

theorem levels_data : ∀ (n : Nat) (s s' : AState F), DInv env reqs s → levels env n s = .done s' → DInv env reqs s' := by
  intro n
  induction n with
  | zero =>
      intro s s' hd h
      simp only [levels] at h
      split at h
      · cases h; exact hd
      · cases h
  | succ n ih =>
      intro s s' hd h
      simp only [levels] at h
      split at h
      · cases h; exact hd
      · split at h
        · cases h
        · rename_i s1 hl
          exact ih _ _ (levelLoop_data (reqs := reqs) _ { s with next := [] } _ ⟨hd.unseen, hd.seen⟩ hl) h

theorem analyze_data {n : Nat} {s : AState F} (h : analyze env trans reqs n = .done s) :
    DInv env reqs s ∧ ∀ c ∈ reqs, (reqs.map (·.name)).count c.name ≤ 1 → c ∈ s.seen := by
  unfold analyze at h
  split at h
  · cases h
  · rename_i s1 hr
    obtain ⟨i1, i2⟩ := requestLoop_data (reqs := reqs) reqs [] _ _ rfl (by simp) (by simp)
      ⟨by simp [AMap.get_nil], by simp⟩ hr
    obtain ⟨i3, _, _⟩ := requestLoop_inv reqs _ _ (fun _ hc => hc) init_inv hr
    obtain ⟨_, _, pre, j3⟩ := levels_inv n _ _ i3 h
    exact ⟨levels_data n _ _ i1 h, fun c hc hcount => by rw [j3]; exact List.mem_append_right _ (i2 c hc hcount)⟩

/-! #### Termination -/

/-- Dependencies of the project not analysed yet. -/
def remaining (env : Env F) (seen : List Change) : Nat := (env.project.filter fun kv => kv.1 ∉ seen.map (·.name)).length

theorem remaining_le (env : Env F) (seen : List Change) : remaining env seen ≤ env.project.length := List.length_filter_le _ _

theorem remaining_mono (env : Env F) (pre seen : List Change) : remaining env (pre ++ seen) ≤ remaining env seen := by
  unfold remaining
  apply List.Sublist.length_le
  apply List.monotone_filter_right
  intro kv
  simp only [decide_eq_true_eq, List.map_append, List.mem_append, not_or]
  exact fun h => h.2

theorem filter_length_lt {α : Type} (p q : α → Bool) (l : List α) (hpq : ∀ x ∈ l, p x = true → q x = true) (x : α) (hx : x ∈ l)
    (hqx : q x = true) (hpx : p x = false) : (l.filter p).length < (l.filter q).length := by
  induction l with
  | nil => simp at hx
  | cons a l ih =>
      have hle : (l.filter p).length ≤ (l.filter q).length := by
        clear ih hx
        induction l with
        | nil => simp
        | cons b l ih =>
            have hb := hpq b (by simp)
            have ih := ih (fun y hy => hpq y (by rcases List.mem_cons.mp hy with rfl | hy; simp; simp [hy]))
            simp only [List.filter_cons]
            by_cases h1 : p b = true
            · simp [h1, hb h1, ih]
            · simp only [h1, Bool.false_eq_true, if_false]
              split <;> simp <;> omega
      simp only [List.filter_cons]
      rcases List.mem_cons.mp hx with rfl | hx
      · rw [hpx, hqx]; simp; omega
      · have ih := ih (fun y hy => hpq y (List.mem_cons_of_mem _ hy)) hx
        have ha := hpq a List.mem_cons_self
        by_cases h1 : p a = true
        · simp [h1, ha h1, ih]
        · simp only [h1, Bool.false_eq_true, if_false]
          split <;> simp <;> omega

theorem remaining_lt {seen : List Change} {mc : Change} (hn : mc.name ∉ seen.map (·.name)) (hp : ∃ v, env.project.get mc.name = some v) :
    remaining env (mc :: seen) < remaining env seen := by
  obtain ⟨v, hv⟩ := hp
  have hmem := AMap.mem_of_get hv
  unfold remaining
  refine filter_length_lt _ _ _ ?_ _ hmem (by simpa using hn) (by simp)
  intro x _ h
  simp only [decide_eq_true_eq, List.map_cons, List.mem_cons, not_or] at h ⊢
  exact h.2

theorem levelLoop_progress : ∀ (mcs : List Change) (s s' : AState F), (∀ c ∈ mcs, ∃ v, env.project.get c.name = some v) →
    levelLoop env mcs s = some s' → s'.next = s.next ∨ remaining env s'.seen < remaining env s.seen := by
  intro mcs
  induction mcs with
  | nil =>
      intro s s' _ h
      simp only [levelLoop, Option.some.injEq] at h
      subst h
      exact Or.inl rfl
  | cons mc mcs ih =>
      intro s s' hp h
      simp only [levelLoop] at h
      split at h
      · cases h
      · rename_i fs calls seen hone
        have hseen : ∃ pre, s'.seen = pre ++ seen := by
          clear ih hp
          have aux : ∀ (l : List Change) (a b : AState F), levelLoop env l a = some b → ∃ pre, b.seen = pre ++ a.seen := by
            intro l
            induction l with
            | nil => intro a b h; simp only [levelLoop, Option.some.injEq] at h; subst h; exact ⟨[], rfl⟩
            | cons x l ih =>
                intro a b h
                simp only [levelLoop] at h
                split at h
                · cases h
                · rename_i _ _ _ ho
                  obtain ⟨pre, hpre⟩ := ih _ _ h
                  rcases analyzeOne_cases ho with ⟨_, _, _, rfl⟩ | ⟨_, rfl, _⟩
                  · exact ⟨pre, hpre⟩
                  · exact ⟨pre ++ [x], by rw [hpre]; simp⟩
          exact aux _ _ _ h
        have ih' := ih _ _ (fun c hc => hp c (List.mem_cons_of_mem _ hc)) h
        rcases analyzeOne_cases hone with ⟨_, _, rfl, rfl⟩ | ⟨hn, rfl, _⟩
        · simpa using ih'
        · right
          obtain ⟨pre, hpre⟩ := hseen
          rw [hpre]
          exact lt_of_le_of_lt (remaining_mono env pre _) (remaining_lt hn (hp mc List.mem_cons_self))

theorem levels_terminate : ∀ (n : Nat) (s : AState F), AInv env trans reqs [] s → remaining env s.seen + 1 ≤ n → levels env n s ≠ .cutOff := by
  intro n
  induction n with
  | zero => intro s _ h; omega
  | succ n ih =>
      intro s hi hn h
      simp only [levels] at h
      split at h
      · cases h
      · split at h
        · cases h
        · rename_i s1 hl
          have hi' : AInv env trans reqs s.next { s with next := [] } :=
            ⟨hi.nodup, hi.reach, hi.loaded, by simpa using hi.pendOk, by simpa using hi.closed⟩
          have hi1 := (levelLoop_inv _ _ _ hi' hl).1
          rcases levelLoop_progress s.next _ _ (fun c hc => (hi.pendOk c (by simpa using hc)).2.2) hl with h1 | h1
          · have hnil : s1.next = [] := h1
            cases n with
            | zero => simp [levels, hnil] at h
            | succ n => simp [levels, hnil] at h
          · exact ih s1 hi1 (by simp only at h1; omega) h

theorem requestLoop_ok : ∀ (mcs : List Change) (s : AState F), (∀ c ∈ mcs, (env.load c).isSome) → ∃ s', requestLoop env trans mcs s = some s' := by
  intro mcs
  induction mcs with
  | nil => intro s _; exact ⟨s, rfl⟩
  | cons mc mcs ih =>
      intro s h
      simp only [requestLoop]
      cases hone : analyzeOne env trans s.seen mc with
      | some r => exact ih _ fun c hc => h c (List.mem_cons_of_mem _ hc)
      | none =>
          exfalso
          unfold analyzeOne at hone
          split at hone
          · cases hone
          · have := h mc List.mem_cons_self
            cases hl : env.load mc with
            | none => rw [hl] at this; cases this
            | some x => rw [hl] at hone; cases hone

theorem levelLoop_ok : ∀ (mcs : List Change) (s : AState F), (∀ c ∈ mcs, (env.load c).isSome) → ∃ s', levelLoop env mcs s = some s' := by
  intro mcs
  induction mcs with
  | nil => intro s _; exact ⟨s, rfl⟩
  | cons mc mcs ih =>
      intro s h
      simp only [levelLoop]
      cases hone : analyzeOne env true s.seen mc with
      | some r => exact ih _ fun c hc => h c (List.mem_cons_of_mem _ hc)
      | none =>
          exfalso
          unfold analyzeOne at hone
          split at hone
          · cases hone
          · have := h mc List.mem_cons_self
            cases hl : env.load mc with
            | none => rw [hl] at this; cases this
            | some x => rw [hl] at hone; cases hone

theorem levels_ok : ∀ (n : Nat) (s : AState F), AInv env trans reqs [] s → (∀ c, Reachable env trans reqs c → (env.load c).isSome) →
    levels env n s ≠ .failed := by
  intro n
  induction n with
  | zero => intro s _ _ h; simp only [levels] at h; split at h <;> cases h
  | succ n ih =>
      intro s hi hload h
      simp only [levels] at h
      split at h
      · cases h
      · have hi' : AInv env trans reqs s.next { s with next := [] } :=
          ⟨hi.nodup, hi.reach, hi.loaded, by simpa using hi.pendOk, by simpa using hi.closed⟩
        obtain ⟨s1, h1⟩ := levelLoop_ok (env := env) s.next { s with next := [] } fun c hc => hload c (hi.pendOk c (by simpa using hc)).1
        rw [h1] at h
        exact ih s1 (levelLoop_inv _ _ _ hi' h1).1 hload h

end

/-! ### Bitmaps -/

theorem mark_length (bm : List Bool) (idx : Int) : (mark bm idx).length = bm.length := by unfold mark; split <;> simp

theorem mark_marked (bm : List Bool) (idx : Int) (i : Nat) : Marked (mark bm idx) i ↔ Marked bm i ∨ ((i : Int) = idx ∧ i < bm.length) := by
  unfold mark Marked
  by_cases h : 0 ≤ idx ∧ idx < bm.length
  · rw [if_pos h, List.getElem?_set]
    by_cases he : idx.toNat = i
    · subst he
      have : idx.toNat < bm.length := by omega
      simp only [this, if_true, and_true, true_iff]
      exact Or.inr (by omega)
    · rw [if_neg he]
      constructor
      · exact Or.inl
      · rintro (h' | ⟨h', _⟩)
        · exact h'
        · omega
  · rw [if_neg h]
    constructor
    · exact Or.inl
    · rintro (h' | ⟨h1, h2⟩)
      · exact h'
      · omega

theorem markRadius_length (bm : List Bool) (idx : Int) (r : Nat) : (markRadius bm idx r).length = bm.length := by
  induction r with
  | zero => exact mark_length _ _
  | succ r ih => simp [markRadius, mark_length, ih]

theorem markRadius_marked (bm : List Bool) (idx : Int) (r i : Nat) :
    Marked (markRadius bm idx r) i ↔ Marked bm i ∨ (idx - r ≤ i ∧ (i : Int) ≤ idx + r ∧ i < bm.length) := by
  induction r with
  | zero => rw [markRadius, mark_marked]; constructor <;> (rintro (h | h); exact Or.inl h; exact Or.inr (by omega))
  | succ r ih =>
      rw [markRadius, mark_marked, mark_marked, ih]
      simp only [mark_length, markRadius_length]
      constructor
      · rintro (((h | h) | h) | h)
        · exact Or.inl h
        all_goals exact Or.inr (by push_cast; omega)
      · rintro (h | h)
        · exact Or.inl (Or.inl (Or.inl h))
        · push_cast at h
          by_cases h1 : (i : Int) = idx + (r + 1)
          · exact Or.inr ⟨h1, h.2.2⟩
          · by_cases h2 : (i : Int) = idx - (r + 1)
            · exact Or.inl (Or.inr ⟨h2, h.2.2⟩)
            · exact Or.inl (Or.inl (Or.inr (by omega)))

theorem markRange_length (bm : List Bool) (lo n : Nat) : (markRange bm lo n).length = bm.length := by
  induction n with
  | zero => rfl
  | succ n ih => simp [markRange, mark_length, ih]

theorem markRange_marked (bm : List Bool) (lo n i : Nat) :
    Marked (markRange bm lo n) i ↔ Marked bm i ∨ (lo ≤ i ∧ i < lo + n ∧ i < bm.length) := by
  induction n with
  | zero => simp only [markRange]; constructor; exact Or.inl; rintro (h | h); exact h; omega
  | succ n ih =>
      rw [markRange, mark_marked, ih, markRange_length]
      constructor
      · rintro ((h | h) | h)
        · exact Or.inl h
        all_goals exact Or.inr (by omega)
      · rintro (h | h)
        · exact Or.inl (Or.inl h)
        · by_cases h1 : i = lo + n
          · exact Or.inr (by omega)
          · exact Or.inl (Or.inr (by omega))

theorem markGap_length (bm : List Bool) (a n : Nat) : (markGap bm a n).length = bm.length := by
  induction n with
  | zero => rfl
  | succ n ih => simp [markGap, mark_length, ih]

theorem markGap_marked (bm : List Bool) (a n i : Nat) :
    Marked (markGap bm a n) i ↔ Marked bm i ∨ (a ≤ i + n ∧ i < a + n ∧ i < bm.length) := by
  induction n with
  | zero => simp only [markGap]; constructor; exact Or.inl; rintro (h | h); exact h; omega
  | succ n ih =>
      rw [markGap, mark_marked, mark_marked, ih]
      simp only [mark_length, markGap_length]
      constructor
      · rintro (((h | h) | h) | h)
        · exact Or.inl h
        all_goals exact Or.inr (by omega)
      · rintro (h | h)
        · exact Or.inl (Or.inl (Or.inl h))
        · by_cases h1 : i = a + n
          · exact Or.inr (by omega)
          · by_cases h2 : (i : Int) = (a : Int) - 1 - n
            · exact Or.inl (Or.inr ⟨h2, h.2.2⟩)
            · exact Or.inl (Or.inl (Or.inr (by omega)))

theorem markRangeRadius_length (bm : List Bool) (radius lo n : Nat) : (markRangeRadius bm radius lo n).length = bm.length := by
  induction n with
  | zero => rfl
  | succ n ih => simp [markRangeRadius, markRadius_length, ih]

theorem markRangeRadius_marked (bm : List Bool) (radius lo n i : Nat) :
    Marked (markRangeRadius bm radius lo n) i ↔ Marked bm i ∨ (0 < n ∧ lo ≤ i + radius ∧ i < lo + n + radius ∧ i < bm.length) := by
  induction n with
  | zero => simp only [markRangeRadius]; constructor; exact Or.inl; rintro (h | h); exact h; omega
  | succ n ih =>
      rw [markRangeRadius, markRadius_marked, ih, markRangeRadius_length]
      constructor
      · rintro ((h | h) | h)
        · exact Or.inl h
        all_goals exact Or.inr (by omega)
      · rintro (h | h)
        · exact Or.inl (Or.inl h)
        · by_cases h1 : lo + n ≤ i + radius
          · exact Or.inr (by omega)
          · exact Or.inl (Or.inr (by omega))

/-- Line `i` is hit by an opcode. -/
def Hit (newFunc : Bool) (radius : Nat) (c : Op) (i : Nat) : Prop :=
  c.tag ≠ .equal ∧
    if newFunc = true then
      if c.tag = .insert then c.j1 < c.j2 ∧ c.j1 ≤ i + radius ∧ i < c.j2 + radius else c.j1 ≤ i ∧ i < c.j2
    else if c.tag = .insert then c.i1 ≤ i + radius ∧ i < c.i1 + radius else c.i1 ≤ i ∧ i < c.i2

theorem markOp_length (newFunc : Bool) (radius : Nat) (bm : List Bool) (c : Op) : (markOp newFunc radius bm c).length = bm.length := by
  unfold markOp
  split
  · rfl
  · split
    · split
      · exact markRangeRadius_length _ _ _ _
      · exact markRange_length _ _ _
    · split
      · exact markGap_length _ _ _
      · exact markRange_length _ _ _

theorem markOp_marked (newFunc : Bool) (radius : Nat) (bm : List Bool) (c : Op) (i : Nat) :
    Marked (markOp newFunc radius bm c) i ↔ Marked bm i ∨ (Hit newFunc radius c i ∧ i < bm.length) := by
  unfold markOp Hit
  by_cases h1 : c.tag = .equal
  · simp [h1]
  · rw [if_neg h1]
    cases newFunc with
    | true =>
        simp only [if_true]
        by_cases h2 : c.tag = .insert
        · rw [if_pos h2, if_pos h2, markRangeRadius_marked]
          constructor
          · rintro (h | h)
            · exact Or.inl h
            · exact Or.inr ⟨⟨h1, by omega⟩, by omega⟩
          · rintro (h | ⟨⟨_, h⟩, h'⟩)
            · exact Or.inl h
            · exact Or.inr (by omega)
        · rw [if_neg h2, if_neg h2, markRange_marked]
          constructor
          · rintro (h | h)
            · exact Or.inl h
            · exact Or.inr ⟨⟨h1, by omega⟩, by omega⟩
          · rintro (h | ⟨⟨_, h⟩, h'⟩)
            · exact Or.inl h
            · exact Or.inr (by omega)
    | false =>
        simp only [Bool.false_eq_true, if_false]
        by_cases h2 : c.tag = .insert
        · rw [if_pos h2, if_pos h2, markGap_marked]
          constructor
          · rintro (h | h)
            · exact Or.inl h
            · exact Or.inr ⟨⟨h1, by omega⟩, by omega⟩
          · rintro (h | ⟨⟨_, h⟩, h'⟩)
            · exact Or.inl h
            · exact Or.inr (by omega)
        · rw [if_neg h2, if_neg h2, markRange_marked]
          constructor
          · rintro (h | h)
            · exact Or.inl h
            · exact Or.inr ⟨⟨h1, by omega⟩, by omega⟩
          · rintro (h | ⟨⟨_, h⟩, h'⟩)
            · exact Or.inl h
            · exact Or.inr (by omega)

theorem foldOps (newFunc : Bool) (radius : Nat) : ∀ (ops : List Op) (bm : List Bool),
    (ops.foldl (markOp newFunc radius) bm).length = bm.length ∧
      ∀ i, Marked (ops.foldl (markOp newFunc radius) bm) i ↔ Marked bm i ∨ (i < bm.length ∧ ∃ c ∈ ops, Hit newFunc radius c i) := by
  intro ops
  induction ops with
  | nil => simp
  | cons c ops ih =>
      intro bm
      rw [List.foldl_cons]
      obtain ⟨h1, h2⟩ := ih (markOp newFunc radius bm c)
      rw [markOp_length] at h1 h2
      refine ⟨h1, fun i => ?_⟩
      rw [h2, markOp_marked]
      simp only [List.mem_cons, exists_eq_or_imp]
      tauto

theorem bitmap_length (old new : List Bytes) (ops : List Op) (newFunc : Bool) (radius : Nat) :
    (bitmap old new ops newFunc radius).length = if newFunc = true then new.length else old.length := by
  unfold bitmap
  rw [(foldOps newFunc radius ops _).1, List.length_replicate]

theorem bitmap_marked (old new : List Bytes) (ops : List Op) (newFunc : Bool) (radius i : Nat) :
    Marked (bitmap old new ops newFunc radius) i ↔
      i < (if newFunc = true then new.length else old.length) ∧ ∃ c ∈ ops, Hit newFunc radius c i := by
  unfold bitmap
  rw [(foldOps newFunc radius ops _).2, List.length_replicate]
  constructor
  · rintro (h | h)
    · unfold Marked at h
      rw [List.getElem?_replicate] at h
      split at h <;> simp at h
    · exact h
  · exact Or.inr

/-- Every line belongs to exactly one opcode. -/
theorem covers_old {old new : List Bytes} {ops : List Op} {i j : Nat} (h : Covers old new i j ops) :
    i ≤ old.length ∧ j ≤ new.length ∧ (∀ c ∈ ops, i ≤ c.i1 ∧ j ≤ c.j1 ∧ c.i1 ≤ c.i2 ∧ c.j1 ≤ c.j2 ∧ c.i2 ≤ old.length ∧ c.j2 ≤ new.length) ∧
      (∀ k, i ≤ k → k < old.length → ∃ c ∈ ops, c.i1 ≤ k ∧ k < c.i2) ∧
      (∀ k, j ≤ k → k < new.length → ∃ c ∈ ops, c.j1 ≤ k ∧ k < c.j2) ∧
      ops.Pairwise (fun a b => a.i2 ≤ b.i1 ∧ a.j2 ≤ b.j1) := by
  induction h with
  | done =>
      refine ⟨le_refl _, le_refl _, by simp, ?_, ?_, List.Pairwise.nil⟩ <;> (intro k h1 h2; omega)
  | @op i j c cs h1 h2 h3 h4 _ _ _ _ ih =>
      obtain ⟨a1, a2, a3, a4, a5, a6⟩ := ih
      refine ⟨by omega, by omega, ?_, ?_, ?_, ?_⟩
      · intro x hx
        rcases List.mem_cons.mp hx with rfl | hx
        · omega
        · have := a3 x hx; omega
      · intro k hk hl
        by_cases h : k < c.i2
        · exact ⟨c, List.mem_cons_self, by omega, h⟩
        · obtain ⟨x, hx, h'⟩ := a4 k (by omega) hl
          exact ⟨x, List.mem_cons_of_mem _ hx, h'⟩
      · intro k hk hl
        by_cases h : k < c.j2
        · exact ⟨c, List.mem_cons_self, by omega, h⟩
        · obtain ⟨x, hx, h'⟩ := a5 k (by omega) hl
          exact ⟨x, List.mem_cons_of_mem _ hx, h'⟩
      · refine List.Pairwise.cons ?_ a6
        intro x hx
        have := a3 x hx
        omega

theorem covers_tags {old new : List Bytes} {ops : List Op} {i j : Nat} (h : Covers old new i j ops) :
    ∀ c ∈ ops, (c.tag = .equal → c.i2 - c.i1 = c.j2 - c.j1 ∧ ∀ k < c.i2 - c.i1, old[c.i1 + k]? = new[c.j1 + k]?) ∧
      (c.tag = .insert → c.i1 = c.i2) ∧ (c.tag = .delete → c.j1 = c.j2) := by
  induction h with
  | done => simp
  | @op i j c cs _ _ _ _ h5 h6 h7 _ ih =>
      intro x hx
      rcases List.mem_cons.mp hx with rfl | hx
      · exact ⟨h5, h6, h7⟩
      · exact ih x hx

theorem pairwise_cases {α : Type} {R : α → α → Prop} {l : List α} (h : l.Pairwise R) {a b : α} (ha : a ∈ l) (hb : b ∈ l) : a = b ∨ R a b ∨ R b a := by
  induction h with
  | nil => simp at ha
  | cons hx _ ih =>
      rcases List.mem_cons.mp ha with rfl | ha' <;> rcases List.mem_cons.mp hb with rfl | hb'
      · exact Or.inl rfl
      · exact Or.inr (Or.inl (hx _ hb'))
      · exact Or.inr (Or.inr (hx _ ha'))
      · exact ih ha' hb'

/-! ### Module cache -/

theorem isPathChar_ne {b : UInt8} (h : isPathChar b = true) : b ≠ 64 ∧ b ≠ 33 := by
  constructor <;> (rintro rfl; revert h; decide)

theorem lower_lower (b : UInt8) : lower (lower b) = lower b := by
  revert b; exact forall_byte (by decide +kernel)

theorem lower_ne (b : UInt8) (h : b ≠ 64) : lower b ≠ 64 := by
  revert b; exact forall_byte (by decide +kernel)

theorem lower_id {b : UInt8} (h : isUpper b = false) : lower b = b := by unfold lower; rw [h]; rfl

theorem isUpper_lower (b : UInt8) : isUpper (lower b) = false := by
  revert b; exact forall_byte (by decide +kernel)

theorem lower_inj_upper {a b : UInt8} (ha : isUpper a = true) (hb : isUpper b = true) (h : lower a = lower b) : a = b := by
  unfold lower at h
  rw [ha, hb] at h
  simpa using h

theorem escape_inj : ∀ {p q : Bytes}, (∀ b ∈ p, isPathChar b = true) → (∀ b ∈ q, isPathChar b = true) →
    (p.flatMap fun b => if isUpper b then [33, lower b] else [b]) = (q.flatMap fun b => if isUpper b then [33, lower b] else [b]) → p = q
  | [], [], _, _, _ => rfl
  | [], b :: q, _, _, h => by
      simp only [List.flatMap_nil, List.flatMap_cons] at h
      split at h <;> simp at h
  | a :: p, [], _, _, h => by
      simp only [List.flatMap_nil, List.flatMap_cons] at h
      split at h <;> simp at h
  | a :: p, b :: q, hp, hq, h => by
      have ha := (isPathChar_ne (hp a List.mem_cons_self)).2
      have hb := (isPathChar_ne (hq b List.mem_cons_self)).2
      have hp' := fun x hx => hp x (List.mem_cons_of_mem _ hx)
      have hq' := fun x hx => hq x (List.mem_cons_of_mem _ hx)
      simp only [List.flatMap_cons] at h
      cases ua : isUpper a <;> cases ub : isUpper b
      · simp only [ua, ub, Bool.false_eq_true, if_false, List.cons_append, List.nil_append, List.cons.injEq] at h
        rw [h.1, escape_inj hp' hq' h.2]
      · simp only [ua, ub, Bool.false_eq_true, if_false, if_true, List.cons_append, List.nil_append, List.cons.injEq] at h
        exact absurd h.1 ha
      · simp only [ua, ub, Bool.false_eq_true, if_false, if_true, List.cons_append, List.nil_append, List.cons.injEq] at h
        exact absurd h.1.symm hb
      · simp only [ua, ub, if_true, List.cons_append, List.nil_append, List.cons.injEq, true_and] at h
        rw [lower_inj_upper ua ub h.1, escape_inj hp' hq' h.2]

theorem escape_ok {p e : Bytes} (h : escapePath p = some e) :
    (∀ b ∈ p, isPathChar b = true) ∧ (p.flatMap fun b => if isUpper b then [33, lower b] else [b]) = e ∧ ∀ b ∈ e, isUpper b = false ∧ b ≠ 64 := by
  unfold escapePath at h
  split at h
  · rename_i hall
    simp only [Option.some.injEq] at h
    rw [List.all_eq_true] at hall
    refine ⟨hall, h, ?_⟩
    subst h
    intro b hb
    obtain ⟨a, ha, hb⟩ := List.mem_flatMap.mp hb
    have hna := (isPathChar_ne (hall a ha)).1
    cases ua : isUpper a with
    | true =>
        simp only [ua, if_true, List.mem_cons, List.not_mem_nil, or_false] at hb
        rcases hb with rfl | rfl
        · decide
        · exact ⟨isUpper_lower a, lower_ne a hna⟩
    | false =>
        simp only [ua, Bool.false_eq_true, if_false, List.mem_singleton] at hb
        subst hb
        exact ⟨ua, hna⟩
  · cases h

theorem split_at {x y : Bytes} : ∀ {a b : Bytes}, (64 : UInt8) ∉ a → (64 : UInt8) ∉ b → a ++ 64 :: x = b ++ 64 :: y → a = b ∧ x = y
  | [], [], _, _, h => by simpa using h
  | [], c :: b, _, hb, h => by
      simp only [List.nil_append, List.cons_append, List.cons.injEq] at h
      exact absurd (by simp [h.1] : (64 : UInt8) ∈ c :: b) hb
  | c :: a, [], ha, _, h => by
      simp only [List.nil_append, List.cons_append, List.cons.injEq] at h
      exact absurd (by simp [h.1] : (64 : UInt8) ∈ c :: a) ha
  | c :: a, d :: b, ha, hb, h => by
      simp only [List.cons_append, List.cons.injEq] at h
      simp only [List.mem_cons, not_or] at ha hb
      obtain ⟨h1, h2⟩ := split_at ha.2 hb.2 h.2
      exact ⟨by rw [h.1, h1], h2⟩

theorem not_upper {b : UInt8} (h : ¬ Capital b) : isUpper b = false := by
  revert h
  exact forall_byte (P := fun b => ¬ Capital b → isUpper b = false) (by decide +kernel) b

theorem sameLetter_lower {a b : UInt8} (h : SameLetter a b) : lower a = lower b := by
  have cap : ∀ x y : UInt8, Capital x → y.toNat = x.toNat + 32 → lower x = lower y := by
    intro x y hx hy
    have e : y = x + 32 := by
      apply UInt8.toNat_inj.mp
      rw [hy, UInt8.toNat_add]
      have : x.toNat ≤ 90 := hx.2
      change _ = (x.toNat + 32) % 256
      omega
    subst e
    clear hy
    revert x
    exact forall_byte (by decide +kernel)
  rcases h with rfl | ⟨h1, h2⟩ | ⟨h1, h2⟩
  · rfl
  · exact cap a b h1 h2
  · exact (cap b a h1 h2).symm

theorem folded_lower {a b : Bytes} (h : SameFolded a b) : a.map lower = b.map lower := by
  induction h with
  | nil => rfl
  | cons h _ ih => rw [List.map_cons, List.map_cons, sameLetter_lower h, ih]

theorem pathByte_iff (b : UInt8) : PathByte b ↔ isPathChar b = true := by
  have e : "-._~/".toUTF8.toList = [45, 46, 95, 126, 47] := by decide +kernel
  unfold PathByte
  rw [e]
  revert b; exact forall_byte (by decide +kernel)

theorem map_lower_id {v : Bytes} (h : ∀ b ∈ v, isUpper b = false) : v.map lower = v := by
  induction v with
  | nil => rfl
  | cons b v ih => rw [List.map_cons, lower_id (h b List.mem_cons_self), ih fun x hx => h x (List.mem_cons_of_mem _ hx)]

theorem cacheDir_folded {cache p q v w d e : Bytes} (h1 : cacheDir cache p v = some d) (h2 : cacheDir cache q w = some e)
    (h : d.map lower = e.map lower) : p = q ∧ v.map lower = w.map lower ∧ (d = e → v = w) := by
  unfold cacheDir at h1 h2
  cases hp : escapePath p with
  | none => rw [hp] at h1; cases h1
  | some x =>
      cases hq : escapePath q with
      | none => rw [hq] at h2; cases h2
      | some y =>
          rw [hp] at h1
          rw [hq] at h2
          simp only [Option.map_some, Option.some.injEq] at h1 h2
          obtain ⟨a1, a2, a3⟩ := escape_ok hp
          obtain ⟨b1, b2, b3⟩ := escape_ok hq
          have h' := h
          rw [← h1, ← h2] at h'
          simp only [List.map_append, List.map_cons] at h'
          have h'' := (List.append_cancel_left h')
          simp only [List.cons.injEq, true_and] at h''
          have hx : x.map lower = x := map_lower_id fun b hb => (a3 b hb).1
          have hy : y.map lower = y := map_lower_id fun b hb => (b3 b hb).1
          have l64 : lower 64 = 64 := by decide
          rw [hx, hy, l64] at h''
          obtain ⟨e1, e2⟩ := split_at (fun hm => (a3 64 hm).2 rfl) (fun hm => (b3 64 hm).2 rfl) h''
          refine ⟨escape_inj a1 b1 (by rw [a2, b2, e1]), e2, ?_⟩
          intro hde
          rw [← h1, ← h2] at hde
          have := List.append_cancel_left hde
          simp only [List.cons.injEq, true_and] at this
          exact (split_at (fun hm => (a3 64 hm).2 rfl) (fun hm => (b3 64 hm).2 rfl) this).2

end Verif.Module
