import Verif.Inject.Spec
import Verif.Pkgs.Props

/-! Lemmas for `Verif.Inject.Props`. -/

namespace Verif.Inject

@[simp] theorem put_self {α : Type} (f : Nat → α) (i : Nat) (a : α) : put f i a i = a := by simp [put]
theorem put_ne {α : Type} (f : Nat → α) {i j : Nat} (a : α) (h : j ≠ i) : put f i a j = f j := by simp [put, h]

/-- An invariant of all steps that are allowed holds after a schedule. -/
theorem runIf_inv {ok : Dir → St → Act → Bool} {d : Dir} (P : St → Prop) (h : ∀ s s' a, P s → ok d s a = true → step d s a = some s' → P s') :
    ∀ (as : List Act) (s s' : St), P s → runIf ok d as s = some s' → P s'
  | [], s, s', hp, e => by
    cases e
    exact hp
  | a :: as, s, s', hp, e => by
    rw [runIf] at e
    split at e
    · rename_i ha
      rw [Option.bind_eq_some_iff] at e
      obtain ⟨s₁, h₁, h₂⟩ := e
      exact runIf_inv P h as s₁ s' (h s s₁ a hp ha h₁) h₂
    · cases e

theorem reread_self : ∀ (files : List Pkgs.File) (seen : List (Option Bytes)), seen = (files.take seen.length).map (·.pkg) → seen.length = files.length → reread files seen = files
  | [], seen, _, _ => rfl
  | f :: files, [], _, h => by simp at h
  | f :: files, v :: seen, e, h => by
    simp only [List.length_cons, List.take_succ_cons, List.map_cons, List.cons.injEq] at e h
    show _ :: reread files seen = _
    rw [reread_self files seen e.2 (by omega), e.1]

/-- What the goroutine of the client has read: what is there, or nothing. -/
def Sound (files : List Pkgs.File) (seen : List (Option Bytes)) : Prop := ∀ (k : Nat) (v : Option Bytes), seen[k]? = some v → ∃ f : Pkgs.File, files[k]? = some f ∧ (v = none ∨ v = f.pkg)

theorem detect_sound {files : List Pkgs.File} {seen : List (Option Bytes)} {p : Bytes} (hs : Sound files seen) (hl : seen.length = files.length) (h : Pkgs.detect (reread files seen) = some p) :
    Pkgs.detect files = some p := by
  rw [Pkgs.C136_exact] at h ⊢
  obtain ⟨⟨hi, hr⟩, ⟨g, hg, hgs⟩, hall⟩ := h
  -- each entry has its counterpart
  have counter : ∀ f ∈ files, ∃ v, { f with pkg := v } ∈ reread files seen ∧ (v = none ∨ v = f.pkg) := by
    intro f hf
    obtain ⟨k, hk⟩ := List.getElem?_of_mem hf
    have hk' : k < seen.length := by rw [hl]; exact (List.getElem?_eq_some_iff.mp hk).1
    obtain ⟨f', hf', hv⟩ := hs k seen[k] (List.getElem?_eq_getElem hk')
    rw [hk] at hf'
    cases hf'
    refine ⟨seen[k], ?_, hv⟩
    refine List.mem_of_getElem? (i := k) ?_
    unfold reread
    rw [List.getElem?_zipWith, hk, List.getElem?_eq_getElem hk']
  have all : ∀ f ∈ files, Pkgs.Source f → f.pkg = some p := by
    intro f hf hfs
    obtain ⟨v, hm, hv⟩ := counter f hf
    have := hall { f with pkg := v } hm hfs
    rcases hv with hv | hv
    · rw [hv] at this
      cases this
    · rw [← hv]
      exact this
  refine ⟨⟨fun f hf h1 h2 => ?_, fun f hf hfs => ?_⟩, ?_, all⟩
  · obtain ⟨v, hm, _⟩ := counter f hf
    exact hi { f with pkg := v } hm h1 h2
  · rw [all f hf hfs]
    simp
  · obtain ⟨k, hk⟩ := List.getElem?_of_mem hg
    unfold reread at hk
    rw [List.getElem?_zipWith] at hk
    cases hf : files[k]? with
    | none => rw [hf] at hk; cases hk
    | some f =>
      cases hv : seen[k]? with
      | none => rw [hf, hv] at hk; cases hk
      | some v =>
        rw [hf, hv] at hk
        cases hk
        exact ⟨f, List.mem_of_getElem? hf, hgs⟩

/-- The steps of workers leave the goroutine of the client and the client alone. -/
theorem step_cl {d : Dir} {s s' : St} {a : Act} (h : step d s a = some s') : (∃ luck, a = .cRead luck) ∨ a = .cDetect ∨ a = .cCut ∨ a = .cWrite ∨ (s'.cl = s.cl ∧ s'.client = s.client) := by
  cases a with
  | cRead luck => exact .inl ⟨luck, rfl⟩
  | cDetect => exact .inr (.inl rfl)
  | cCut => exact .inr (.inr (.inl rfl))
  | cWrite => exact .inr (.inr (.inr (.inl rfl)))
  | wList i =>
    simp only [step] at h
    split at h <;> cases h
    exact .inr (.inr (.inr (.inr ⟨rfl, rfl⟩)))
  | wRead i luck =>
    simp only [step] at h
    split at h
    · split at h <;> cases h
      exact .inr (.inr (.inr (.inr ⟨rfl, rfl⟩)))
    · cases h
  | wClient i luck =>
    simp only [step] at h
    split at h
    · split at h <;> cases h
      exact .inr (.inr (.inr (.inr ⟨rfl, rfl⟩)))
    · cases h
  | wDecide i =>
    simp only [step] at h
    split at h
    · split at h <;> cases h
      exact .inr (.inr (.inr (.inr ⟨rfl, rfl⟩)))
    · cases h
  | wCut i =>
    simp only [step] at h
    split at h <;> cases h
    exact .inr (.inr (.inr (.inr ⟨rfl, rfl⟩)))
  | wWrite i =>
    simp only [step] at h
    split at h <;> cases h
    exact .inr (.inr (.inr (.inr ⟨rfl, rfl⟩)))

/-- In all schedules: what was read is there, a name that was found is right, and the client is there when its goroutine has ended well. -/
def Right (d : Dir) (s : St) : Prop :=
  match s.cl with
  | .reading seen => Sound d.files seen
  | .found p => Pkgs.detect d.files = some p
  | .writing p => Pkgs.detect d.files = some p
  | .ended none => True
  | .ended (some p) => Pkgs.detect d.files = some p ∧ s.client = .there

theorem right_step {d : Dir} {s s' : St} {a : Act} (hr : Right d s) (h : step d s a = some s') : Right d s' := by
  rcases step_cl h with ⟨luck, rfl⟩ | rfl | rfl | rfl | ⟨e1, e2⟩
  · simp only [step] at h
    split at h
    · rename_i seen e
      split at h
      · rename_i f hf
        cases h
        unfold Right at hr ⊢
        rw [e] at hr
        dsimp only at hr ⊢
        intro k v hk
        rw [List.getElem?_append] at hk
        split at hk
        · exact hr k v hk
        · rename_i hlt
          rw [List.getElem?_singleton] at hk
          split at hk
          · cases hk
            have : k = seen.length := by omega
            subst this
            refine ⟨f, hf, ?_⟩
            split
            · exact .inl rfl
            · exact .inr rfl
          · cases hk
      · cases h
    · cases h
  · simp only [step] at h
    split at h
    · rename_i seen e
      split at h
      · rename_i hl
        unfold Right at hr
        rw [e] at hr
        cases hd : Pkgs.detect (reread d.files seen) with
        | none =>
          rw [hd] at h
          cases h
          trivial
        | some p =>
          rw [hd] at h
          cases h
          exact detect_sound hr hl hd
      · cases h
    · cases h
  · simp only [step] at h
    split at h
    · rename_i p e
      cases h
      unfold Right at hr
      rw [e] at hr
      exact hr
    · cases h
  · simp only [step] at h
    split at h
    · rename_i p e
      cases h
      unfold Right at hr
      rw [e] at hr
      exact ⟨hr, rfl⟩
    · cases h
  · unfold Right at hr ⊢
    rw [e1, e2]
    exact hr

theorem right_start (d : Dir) (fns : Nat → Nat) : Right d (start fns) := by
  intro k v hk
  simp at hk

/-- With no file cut meanwhile: while the package is looked for, all files are as they were, and were read so. -/
def Calm (d : Dir) (s : St) : Prop :=
  match s.cl with
  | .reading seen => (∀ i, s.ver i = .orig) ∧ (∀ i, (s.wk i).cut = false) ∧ seen = (d.files.take seen.length).map (·.pkg) ∧ seen.length ≤ d.files.length
  | .found p => Pkgs.detect d.files = some p
  | .writing p => Pkgs.detect d.files = some p
  | .ended r => r = Pkgs.detect d.files

theorem calm_step {d : Dir} {s s' : St} {a : Act} (hr : Calm d s) (hok : clientFirst d s a = true) (h : step d s a = some s') : Calm d s' := by
  have keep : s'.cl = s.cl → (∀ i, s.ver i = .orig → (s.wk i).cut = false → s'.ver i = .orig ∧ (s'.wk i).cut = false) → Calm d s' := by
    intro e hv
    unfold Calm at hr ⊢
    rw [e]
    cases hc : s.cl with
    | reading seen =>
      rw [hc] at hr
      exact ⟨fun i => (hv i (hr.1 i) (hr.2.1 i)).1, fun i => (hv i (hr.1 i) (hr.2.1 i)).2, hr.2.2⟩
    | found p => rw [hc] at hr; exact hr
    | writing p => rw [hc] at hr; exact hr
    | ended r => rw [hc] at hr; exact hr
  cases a with
  | cRead luck =>
    simp only [step] at h
    split at h
    · rename_i seen e
      split at h
      · rename_i f hf
        cases h
        unfold Calm at hr ⊢
        rw [e] at hr
        dsimp only at hr ⊢
        obtain ⟨h1, h2, h3, h4⟩ := hr
        refine ⟨h1, h2, ?_, ?_⟩
        · rw [h1]
          rw [if_neg (by simp), List.length_append, List.length_singleton, List.take_add_one, List.map_append, hf, ← h3]
          rfl
        · have := (List.getElem?_eq_some_iff.mp hf).1
          rw [List.length_append, List.length_singleton]
          omega
      · cases h
    · cases h
  | cDetect =>
    simp only [step] at h
    split at h
    · rename_i seen e
      split at h
      · rename_i hl
        unfold Calm at hr
        rw [e] at hr
        obtain ⟨h1, h2, h3, h4⟩ := hr
        rw [reread_self d.files seen h3 hl] at h
        cases hd : Pkgs.detect d.files with
        | none =>
          rw [hd] at h
          cases h
          exact hd.symm
        | some p =>
          rw [hd] at h
          cases h
          exact hd
      · cases h
    · cases h
  | cCut =>
    simp only [step] at h
    split at h
    · rename_i p e
      cases h
      unfold Calm at hr
      rw [e] at hr
      exact hr
    · cases h
  | cWrite =>
    simp only [step] at h
    split at h
    · rename_i p e
      cases h
      unfold Calm at hr
      rw [e] at hr
      exact hr.symm
    · cases h
  | wList i =>
    simp only [step] at h
    split at h <;> cases h
    refine keep rfl fun j h1 h2 => ⟨h1, ?_⟩
    by_cases e : j = i
    · subst e
      dsimp only
      rw [put_self]
      exact h2
    · dsimp only
      rw [put_ne _ _ e]
      exact h2
  | wRead i luck =>
    simp only [step] at h
    split at h
    · split at h <;> cases h
      refine keep rfl fun j h1 h2 => ⟨h1, ?_⟩
      by_cases e : j = i
      · subst e
        dsimp only
        rw [put_self]
        exact h2
      · dsimp only
        rw [put_ne _ _ e]
        exact h2
    · cases h
  | wClient i luck =>
    simp only [step] at h
    split at h
    · split at h <;> cases h
      refine keep rfl fun j h1 h2 => ⟨h1, ?_⟩
      by_cases e : j = i
      · subst e
        dsimp only
        rw [put_self]
        exact h2
      · dsimp only
        rw [put_ne _ _ e]
        exact h2
    · cases h
  | wDecide i =>
    simp only [step] at h
    split at h
    · split at h <;> cases h
      refine keep rfl fun j h1 h2 => ⟨h1, ?_⟩
      by_cases e : j = i
      · subst e
        dsimp only
        rw [put_self]
      · dsimp only
        rw [put_ne _ _ e]
        exact h2
    · cases h
  | wCut i =>
    simp only [step] at h
    split at h <;> cases h
    simp only [clientFirst] at hok
    unfold Calm at hr ⊢
    dsimp only
    cases hc : s.cl with
    | reading seen => rw [hc] at hok; cases hok
    | found p => rw [hc] at hr; exact hr
    | writing p => rw [hc] at hr; exact hr
    | ended r => rw [hc] at hr; exact hr
  | wWrite i =>
    simp only [step] at h
    split at h
    · rename_i hcut
      cases h
      unfold Calm at hr ⊢
      dsimp only
      cases hc : s.cl with
      | reading seen =>
        rw [hc] at hr
        rw [hr.2.1 i] at hcut
        cases hcut
      | found p => rw [hc] at hr; exact hr
      | writing p => rw [hc] at hr; exact hr
      | ended r => rw [hc] at hr; exact hr
    · cases h

theorem calm_start (d : Dir) (fns : Nat → Nat) : Calm d (start fns) := ⟨fun _ => rfl, fun _ => rfl, rfl, Nat.zero_le _⟩

/-- The reads of a worker in an orderly schedule. -/
structure Clean (s : St) (r : Reads) : Prop where
  there : s.client = .there
  ended : ∃ p, s.cl = .ended (some p)
  listed : r.listed = true
  views : .broken ∉ r.views
  client : r.client = none ∨ r.client = some .there
  whole : ∀ j, s.ver j ≠ .torn

/-- In orderly schedules. -/
structure Orderly (d : Dir) (fns : Nat → Nat) (s : St) : Prop where
  there : ∀ p, s.cl = .ended (some p) → s.client = .there
  reads : ∀ i r, (s.wk i).reads = some r → Clean s r
  infos : ∀ i, ∀ b ∈ (s.wk i).infos, b = d.typed
  count : ∀ i, (s.wk i).todo + (s.wk i).infos.length = fns i
  busy : ∀ i r, (s.wk i).reads = some r → 0 < (s.wk i).todo
  range : ∀ i, d.files.length ≤ i → (s.wk i).reads = none ∧ s.ver i = .orig ∧ (s.wk i).cut = false

theorem Clean.of_same {s s' : St} {r : Reads} (c : Clean s r) (h1 : s'.client = s.client) (h2 : s'.cl = s.cl) (h3 : s'.ver = s.ver) : Clean s' r :=
  ⟨h1 ▸ c.there, h2 ▸ c.ended, c.listed, c.views, c.client, h3 ▸ c.whole⟩

/-- No worker reads before the client is in place. -/
theorem Orderly.quiet {d : Dir} {fns : Nat → Nat} {s : St} (o : Orderly d fns s) (h : ∀ p, s.cl ≠ .ended (some p)) (i : Nat) (r : Reads) : (s.wk i).reads ≠ some r := by
  intro e
  obtain ⟨p, hp⟩ := (o.reads i r e).ended
  exact h p hp

theorem orderly_step {d : Dir} {fns : Nat → Nat} {s s' : St} {a : Act} (o : Orderly d fns s) (hok : orderly d s a = true) (h : step d s a = some s') : Orderly d fns s' := by
  cases a with
  | cRead luck =>
    simp only [step] at h
    split at h
    · rename_i seen e
      split at h
      · cases h
        exact ⟨fun p hp => (by cases hp), fun i r hr => absurd hr (o.quiet (by rw [e]; simp) i r), o.infos, o.count, o.busy, o.range⟩
      · cases h
    · cases h
  | cDetect =>
    simp only [step] at h
    split at h
    · rename_i seen e
      split at h
      · split at h
        · cases h
          exact ⟨fun p hp => (by cases hp), fun i r hr => absurd hr (o.quiet (by rw [e]; simp) i r), o.infos, o.count, o.busy, o.range⟩
        · cases h
          exact ⟨fun p hp => (by cases hp), fun i r hr => absurd hr (o.quiet (by rw [e]; simp) i r), o.infos, o.count, o.busy, o.range⟩
      · cases h
    · cases h
  | cCut =>
    simp only [step] at h
    split at h
    · rename_i p e
      cases h
      exact ⟨fun p hp => (by cases hp), fun i r hr => absurd hr (o.quiet (by rw [e]; simp) i r), o.infos, o.count, o.busy, o.range⟩
    · cases h
  | cWrite =>
    simp only [step] at h
    split at h
    · rename_i p e
      cases h
      exact ⟨fun p hp => rfl, fun i r hr => absurd hr (o.quiet (by rw [e]; simp) i r), o.infos, o.count, o.busy, o.range⟩
    · cases h
  | wList i =>
    simp only [step] at h
    split at h
    · rename_i hc
      cases h
      simp only [Bool.and_eq_true, decide_eq_true_eq] at hc
      obtain ⟨⟨hi, ht⟩, hn⟩ := hc
      simp only [orderly, Bool.and_eq_true] at hok
      obtain ⟨hcl, hver⟩ := hok
      obtain ⟨p, hp⟩ : ∃ p, s.cl = .ended (some p) := by
        cases hc : s.cl with
        | ended r =>
          cases r with
          | none => rw [hc] at hcl; cases hcl
          | some p => exact ⟨p, rfl⟩
        | _ => rw [hc] at hcl; cases hcl
      have cth := o.there p hp
      have whole : ∀ j, s.ver j ≠ .torn := by
        intro j
        by_cases hj : j < d.files.length
        · have := List.all_eq_true.mp hver j (List.mem_range.mpr hj)
          simpa using this
        · rw [(o.range j (by omega)).2.1]
          simp
      refine ⟨o.there, fun j r hr => ?_, fun j => ?_, fun j => ?_, fun j r hr => ?_, fun j hj => ?_⟩
      · by_cases e : j = i
        · subst e
          dsimp only at hr
          rw [put_self] at hr
          cases hr
          exact ⟨cth, ⟨p, hp⟩, by rw [cth]; rfl, by simp, .inl rfl, whole⟩
        · dsimp only at hr
          rw [put_ne _ _ e] at hr
          exact (o.reads j r hr).of_same rfl rfl rfl
      · by_cases e : j = i
        · subst e
          dsimp only
          rw [put_self]
          exact o.infos j
        · dsimp only
          rw [put_ne _ _ e]
          exact o.infos j
      · by_cases e : j = i
        · subst e
          dsimp only
          rw [put_self]
          exact o.count j
        · dsimp only
          rw [put_ne _ _ e]
          exact o.count j
      · by_cases e : j = i
        · subst e
          dsimp only
          rw [put_self]
          exact ht
        · dsimp only at hr ⊢
          rw [put_ne _ _ e] at hr ⊢
          exact o.busy j r hr
      · dsimp only
        rw [put_ne _ _ (by omega : j ≠ i)]
        exact o.range j hj
    · cases h
  | wRead i luck =>
    simp only [step] at h
    split at h
    · rename_i r er
      split at h
      · rename_i f hf
        cases h
        have c := o.reads i r er
        have hi : i < d.files.length := by
          by_contra hc
          have := (o.range i (by omega)).1
          rw [er] at this
          cases this
        refine ⟨o.there, fun j q hq => ?_, fun j => ?_, fun j => ?_, fun j q hq => ?_, fun j hj => ?_⟩
        · by_cases e : j = i
          · subst e
            dsimp only at hq
            rw [put_self] at hq
            cases hq
            refine ⟨c.there, c.ended, c.listed, ?_, c.client, c.whole⟩
            rw [List.mem_append]
            rintro (hm | hm)
            · exact c.views hm
            · rw [List.mem_singleton] at hm
              have := c.whole r.views.length
              unfold viewOf at hm
              split at hm
              · cases hv : s.ver r.views.length <;> simp_all
              · cases hm
          · dsimp only at hq
            rw [put_ne _ _ e] at hq
            exact (o.reads j q hq).of_same rfl rfl rfl
        · by_cases e : j = i
          · subst e
            dsimp only
            rw [put_self]
            exact o.infos j
          · dsimp only
            rw [put_ne _ _ e]
            exact o.infos j
        · by_cases e : j = i
          · subst e
            dsimp only
            rw [put_self]
            exact o.count j
          · dsimp only
            rw [put_ne _ _ e]
            exact o.count j
        · by_cases e : j = i
          · subst e
            dsimp only
            rw [put_self]
            exact o.busy j r er
          · dsimp only at hq ⊢
            rw [put_ne _ _ e] at hq ⊢
            exact o.busy j q hq
        · dsimp only
          rw [put_ne _ _ (by omega : j ≠ i)]
          exact o.range j hj
      · cases h
    · cases h
  | wClient i luck =>
    simp only [step] at h
    split at h
    · rename_i r er
      split at h
      · cases h
        have c := o.reads i r er
        have hi : i < d.files.length := by
          by_contra hc
          have := (o.range i (by omega)).1
          rw [er] at this
          cases this
        refine ⟨o.there, fun j q hq => ?_, fun j => ?_, fun j => ?_, fun j q hq => ?_, fun j hj => ?_⟩
        · by_cases e : j = i
          · subst e
            dsimp only at hq
            rw [put_self] at hq
            cases hq
            refine ⟨c.there, c.ended, c.listed, c.views, .inr ?_, c.whole⟩
            dsimp only
            unfold clientView
            rw [c.listed, c.there]
            rfl
          · dsimp only at hq
            rw [put_ne _ _ e] at hq
            exact (o.reads j q hq).of_same rfl rfl rfl
        · by_cases e : j = i
          · subst e
            dsimp only
            rw [put_self]
            exact o.infos j
          · dsimp only
            rw [put_ne _ _ e]
            exact o.infos j
        · by_cases e : j = i
          · subst e
            dsimp only
            rw [put_self]
            exact o.count j
          · dsimp only
            rw [put_ne _ _ e]
            exact o.count j
        · by_cases e : j = i
          · subst e
            dsimp only
            rw [put_self]
            exact o.busy j r er
          · dsimp only at hq ⊢
            rw [put_ne _ _ e] at hq ⊢
            exact o.busy j q hq
        · dsimp only
          rw [put_ne _ _ (by omega : j ≠ i)]
          exact o.range j hj
      · cases h
    · cases h
  | wDecide i =>
    simp only [step] at h
    split at h
    · rename_i r er
      split at h
      · rename_i hs
        cases h
        have c := o.reads i r er
        have hb := o.busy i r er
        have hi : i < d.files.length := by
          by_contra hc
          have := (o.range i (by omega)).1
          rw [er] at this
          cases this
        have hk : known d r (!(s.wk i).infos.isEmpty) = d.typed := by
          have hcl : r.client = some .there := by
            rcases c.client with h | h
            · rw [h] at hs; cases hs
            · exact h
          have hv : r.views.contains .broken = false := by
            rw [← Bool.not_eq_true, List.contains_iff_mem]
            exact c.views
          unfold known
          rw [hcl, hv]
          simp
        refine ⟨o.there, fun j q hq => ?_, fun j => ?_, fun j => ?_, fun j q hq => ?_, fun j hj => ?_⟩
        · by_cases e : j = i
          · subst e
            dsimp only at hq
            rw [put_self] at hq
            cases hq
          · dsimp only at hq
            rw [put_ne _ _ e] at hq
            exact (o.reads j q hq).of_same rfl rfl rfl
        · by_cases e : j = i
          · subst e
            dsimp only
            rw [put_self]
            intro b hm
            rw [List.mem_append, List.mem_singleton] at hm
            rcases hm with hm | rfl
            · exact o.infos j b hm
            · exact hk
          · dsimp only
            rw [put_ne _ _ e]
            exact o.infos j
        · by_cases e : j = i
          · subst e
            dsimp only
            rw [put_self]
            dsimp only
            rw [List.length_append, List.length_singleton]
            have := o.count j
            omega
          · dsimp only
            rw [put_ne _ _ e]
            exact o.count j
        · by_cases e : j = i
          · subst e
            dsimp only at hq
            rw [put_self] at hq
            cases hq
          · dsimp only at hq ⊢
            rw [put_ne _ _ e] at hq ⊢
            exact o.busy j q hq
        · dsimp only
          rw [put_ne _ _ (by omega : j ≠ i)]
          exact o.range j hj
      · cases h
    · cases h
  | wCut i =>
    simp only [step] at h
    split at h
    · rename_i hc
      cases h
      simp only [Bool.and_eq_true, decide_eq_true_eq] at hc
      simp only [orderly, Bool.and_eq_true] at hok
      have none : ∀ j, (s.wk j).reads = none := by
        intro j
        by_cases hj : j < d.files.length
        · have := List.all_eq_true.mp hok.2 j (List.mem_range.mpr hj)
          simpa using this
        · exact (o.range j (by omega)).1
      refine ⟨o.there, fun j q hq => ?_, fun j => ?_, fun j => ?_, fun j q hq => ?_, fun j hj => ?_⟩
      · by_cases e : j = i
        · subst e
          dsimp only at hq
          rw [put_self] at hq
          dsimp only at hq
          rw [none j] at hq
          cases hq
        · dsimp only at hq
          rw [put_ne _ _ e, none j] at hq
          cases hq
      · by_cases e : j = i
        · subst e
          dsimp only
          rw [put_self]
          exact o.infos j
        · dsimp only
          rw [put_ne _ _ e]
          exact o.infos j
      · by_cases e : j = i
        · subst e
          dsimp only
          rw [put_self]
          exact o.count j
        · dsimp only
          rw [put_ne _ _ e]
          exact o.count j
      · by_cases e : j = i
        · subst e
          dsimp only at hq
          rw [put_self] at hq
          dsimp only at hq
          rw [none j] at hq
          cases hq
        · dsimp only at hq
          rw [put_ne _ _ e, none j] at hq
          cases hq
      · dsimp only
        rw [put_ne _ _ (by omega : j ≠ i), put_ne _ _ (by omega : j ≠ i)]
        exact o.range j hj
    · cases h
  | wWrite i =>
    simp only [step] at h
    split at h
    · rename_i hcut
      cases h
      have hi : i < d.files.length := by
        by_contra hc
        rw [(o.range i (by omega)).2.2] at hcut
        cases hcut
      refine ⟨o.there, fun j q hq => ?_, fun j => ?_, fun j => ?_, fun j q hq => ?_, fun j hj => ?_⟩
      · have hq' : (s.wk j).reads = some q := by
          by_cases e : j = i
          · subst e
            dsimp only at hq
            rw [put_self] at hq
            exact hq
          · dsimp only at hq
            rw [put_ne _ _ e] at hq
            exact hq
        have c := o.reads j q hq'
        refine ⟨c.there, c.ended, c.listed, c.views, c.client, fun k => ?_⟩
        by_cases e : k = i
        · subst e
          dsimp only
          rw [put_self]
          simp
        · dsimp only
          rw [put_ne _ _ e]
          exact c.whole k
      · by_cases e : j = i
        · subst e
          dsimp only
          rw [put_self]
          exact o.infos j
        · dsimp only
          rw [put_ne _ _ e]
          exact o.infos j
      · by_cases e : j = i
        · subst e
          dsimp only
          rw [put_self]
          exact o.count j
        · dsimp only
          rw [put_ne _ _ e]
          exact o.count j
      · by_cases e : j = i
        · subst e
          dsimp only at hq ⊢
          rw [put_self] at hq ⊢
          exact o.busy j q hq
        · dsimp only at hq ⊢
          rw [put_ne _ _ e] at hq ⊢
          exact o.busy j q hq
      · dsimp only
        rw [put_ne _ _ (by omega : j ≠ i), put_ne _ _ (by omega : j ≠ i)]
        exact o.range j hj
    · cases h

theorem orderly_start (d : Dir) (fns : Nat → Nat) : Orderly d fns (start fns) :=
  ⟨fun p h => (by cases h), fun i r h => (by cases h), fun i b hb => (by cases hb), fun i => rfl, fun i r h => (by cases h), fun i _ => ⟨rfl, rfl, rfl⟩⟩

/-- In all schedules: the answers are counted, and none is positive in a package that does not pass the check. -/
structure Counted (d : Dir) (fns : Nat → Nat) (s : St) : Prop where
  count : ∀ i, (s.wk i).todo + (s.wk i).infos.length = fns i
  busy : ∀ i r, (s.wk i).reads = some r → 0 < (s.wk i).todo
  untyped : ∀ i, d.typed = false → true ∉ (s.wk i).infos

/-- One worker changes. -/
theorem Counted.put {d : Dir} {fns : Nat → Nat} {s s' : St} {i : Nat} {w : Worker} (o : Counted d fns s) (h : s'.wk = Inject.put s.wk i w) (h1 : w.todo + w.infos.length = fns i)
    (h2 : ∀ r, w.reads = some r → 0 < w.todo) (h3 : d.typed = false → true ∉ w.infos) : Counted d fns s' := by
  refine ⟨fun j => ?_, fun j r => ?_, fun j => ?_⟩ <;> rw [h] <;> by_cases e : j = i
  · subst e; rw [put_self]; exact h1
  · rw [put_ne _ _ e]; exact o.count j
  · subst e; rw [put_self]; exact h2 r
  · rw [put_ne _ _ e]; exact o.busy j r
  · subst e; rw [put_self]; exact h3
  · rw [put_ne _ _ e]; exact o.untyped j

theorem counted_step {d : Dir} {fns : Nat → Nat} {s s' : St} {a : Act} (o : Counted d fns s) (h : step d s a = some s') : Counted d fns s' := by
  have same : s'.wk = s.wk → Counted d fns s' := fun e => ⟨e ▸ o.count, e ▸ o.busy, e ▸ o.untyped⟩
  cases a with
  | cRead luck =>
    simp only [step] at h
    split at h
    · split at h <;> cases h
      exact same rfl
    · cases h
  | cDetect =>
    simp only [step] at h
    split at h
    · split at h
      · split at h <;> cases h <;> exact same rfl
      · cases h
    · cases h
  | cCut =>
    simp only [step] at h
    split at h <;> cases h
    exact same rfl
  | cWrite =>
    simp only [step] at h
    split at h <;> cases h
    exact same rfl
  | wList i =>
    simp only [step] at h
    split at h
    · rename_i hc
      cases h
      simp only [Bool.and_eq_true, decide_eq_true_eq] at hc
      exact o.put (i := i) rfl (o.count i) (fun _ _ => hc.1.2) (o.untyped i)
    · cases h
  | wRead i luck =>
    simp only [step] at h
    split at h
    · rename_i r er
      split at h <;> cases h
      exact o.put (i := i) rfl (o.count i) (fun _ _ => o.busy i r er) (o.untyped i)
    · cases h
  | wClient i luck =>
    simp only [step] at h
    split at h
    · rename_i r er
      split at h <;> cases h
      exact o.put (i := i) rfl (o.count i) (fun _ _ => o.busy i r er) (o.untyped i)
    · cases h
  | wDecide i =>
    simp only [step] at h
    split at h
    · rename_i r er
      split at h <;> cases h
      have hb := o.busy i r er
      have hc := o.count i
      refine o.put (i := i) rfl ?_ (fun _ h => by cases h) ?_
      · dsimp only
        rw [List.length_append, List.length_singleton]
        omega
      · intro ht
        dsimp only
        rw [List.mem_append, List.mem_singleton]
        rintro (hm | hm)
        · exact o.untyped i ht hm
        · unfold known at hm
          rw [ht] at hm
          cases hm
    · cases h
  | wCut i =>
    simp only [step] at h
    split at h <;> cases h
    exact o.put (i := i) rfl (o.count i) (o.busy i) (o.untyped i)
  | wWrite i =>
    simp only [step] at h
    split at h <;> cases h
    exact o.put (i := i) rfl (o.count i) (o.busy i) (o.untyped i)

theorem counted_start (d : Dir) (fns : Nat → Nat) : Counted d fns (start fns) :=
  ⟨fun i => rfl, fun i r h => (by cases h), fun i _ hb => (by cases hb)⟩

end Verif.Inject
