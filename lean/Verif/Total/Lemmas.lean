import Verif.Total.Spec
import Verif.Pipeline.Props
import Verif.Storage.Props
import Verif.Report.Lemmas

namespace Verif.Total

open Verif.Result (Bytes StackFrame TestResult ETest)
open Verif.Storage (Impl Blob keyPrefixStep prefixStep Sim AbsStore viewOf Op Resp RespOK absStep Backed prefixStep_ok disjoint_of_sep_free)
open Verif.Pipeline (Run monitored saved SameAs saved_ok monitored_wf)
open Verif.Compare (TestReport Loaded compareLoop compareTest)

/-! ### The storage -/

/-- Saved blobs are encodings. -/
def Enc (x : Ctx) : Op → Prop
  | .save _ b => ∃ e, b = x.enc e
  | _ => True

/-- The two views of a store. -/
abbrev preView (s : AbsStore) : AbsStore := viewOf (prePrefix ++ [59]) s
abbrev postView (s : AbsStore) : AbsStore := viewOf (postPrefix ++ [59]) s

section
variable {I : Impl} {good : Op → Prop} (S : Sim I good) (x : Ctx)

theorem save_ok {p : Bytes} (hp : p ≠ []) (B : Backed good p (Enc x)) {st : I.σ} {s : AbsStore} (R : S.R st s) (ident : Bytes) (r : TestResult) :
    ∃ st' s', saveResult I x p st ident r = some st' ∧ S.R st' s' ∧
      (∀ k, viewOf (p ++ [59]) s' k = if k = ident then some (marshal x r) else viewOf (p ++ [59]) s k) ∧
      ∀ y, (∀ k, y ≠ p ++ [59] ++ k) → s' y = s y := by
  obtain ⟨h1, s', h2, h3, h4⟩ := prefixStep_ok S (p ++ [59]) (.save ident (marshal x r)) (fun k b e => B.save k b (by
    cases e
    exact ⟨_, rfl⟩)) B.load B.delete B.list st s R
  have e : keyPrefixStep I p st (.save ident (marshal x r)) = ((prefixStep I (p ++ [59]) st (.save ident (marshal x r))).1, .ok) := by
    unfold keyPrefixStep
    rw [if_neg hp]
    exact Prod.ext rfl h1
  refine ⟨(prefixStep I (p ++ [59]) st (.save ident (marshal x r))).1, s', ?_, h2, h3, h4⟩
  unfold saveResult
  rw [e]

theorem load_ok {p : Bytes} (hp : p ≠ []) (B : Backed good p (Enc x)) {st : I.σ} {s : AbsStore} (R : S.R st s) (fuel : Nat) (ident : Bytes) :
    loadResult I x fuel p st ident = readBlob x fuel (viewOf (p ++ [59]) s ident) := by
  obtain ⟨h1, _⟩ := prefixStep_ok S (p ++ [59]) (.load ident) (fun k b e => by cases e) B.load B.delete B.list st s R
  unfold loadResult keyPrefixStep
  rw [if_neg hp]
  have : (prefixStep I (p ++ [59]) st (.load ident)).2 = .blob (viewOf (p ++ [59]) s ident) := h1
  rw [this]

theorem keys_ok {p : Bytes} (hp : p ≠ []) (B : Backed good p (Enc x)) {st : I.σ} {s : AbsStore} (R : S.R st s) :
    ∃ ks, sortedKeys I p st = some ks ∧ ks.Nodup ∧ ks.Pairwise (· ≤ ·) ∧ ∀ k, k ∈ ks ↔ (viewOf (p ++ [59]) s k).isSome := by
  obtain ⟨⟨ks, h1, h2, h3⟩, _⟩ := prefixStep_ok S (p ++ [59]) (.list []) (fun k b e => by cases e) B.load B.delete B.list st s R
  refine ⟨Report.sortBy Report.le ks, ?_, ?_, Report.sortBy_le ks, ?_⟩
  · unfold sortedKeys keyPrefixStep
    rw [if_neg hp, h1]
  · exact (Report.sortBy_perm _ _).nodup_iff.mpr h2
  · intro k
    rw [(Report.sortBy_perm _ _).mem_iff, h3]
    simp

/-! ### Phases -/

/-- A phase that saves one blob for each test in one of the views, if nothing but that view changes. -/
theorem phase_ok {ts : List Test} {f : I.σ → Test → Option I.σ} {p : Bytes} {q : Bytes} (blob : Test → Blob) (J : AbsStore → Prop)
    (hf : ∀ st s t, S.R st s → J (viewOf q s) → t ∈ ts → ∃ st' s', f st t = some st' ∧ S.R st' s' ∧
      (∀ k, viewOf p s' k = if k = t.ident then some (blob t) else viewOf p s k) ∧ viewOf q s' = viewOf q s) :
    ∀ (l : List Test), (∀ t ∈ l, t ∈ ts) → (l.map (·.ident)).Nodup → ∀ st s, S.R st s → J (viewOf q s) →
      ∃ st' s', phase f st l = some st' ∧ S.R st' s' ∧ (∀ t ∈ l, viewOf p s' t.ident = some (blob t)) ∧
        (∀ k, (∀ t ∈ l, k ≠ t.ident) → viewOf p s' k = viewOf p s k) ∧ viewOf q s' = viewOf q s
  | [], _, _, st, s, R, hJ => ⟨st, s, rfl, R, by simp, fun _ _ => rfl, rfl⟩
  | t :: l, hl, hn, st, s, R, hJ => by
      obtain ⟨st1, s1, h1, R1, v1, w1⟩ := hf st s t R hJ (hl t (by simp))
      rw [List.map_cons, List.nodup_cons] at hn
      obtain ⟨st2, s2, h2, R2, v2, u2, w2⟩ := phase_ok blob J hf l (fun t ht => hl t (by simp [ht])) hn.2 st1 s1 R1 (by rw [w1]; exact hJ)
      refine ⟨st2, s2, ?_, R2, ?_, ?_, w2.trans w1⟩
      · unfold phase
        rw [h1, Option.bind_some, h2]
      · intro t' ht'
        rcases List.mem_cons.mp ht' with rfl | ht'
        · rw [u2 _ (fun t'' ht'' e => hn.1 (List.mem_map.mpr ⟨t'', ht'', e.symm⟩)), v1, if_pos rfl]
        · exact v2 t' ht'
      · intro k hk
        rw [u2 k (fun t'' ht'' => hk t'' (by simp [ht''])), v1, if_neg (hk t (by simp))]

end

theorem disj : ∀ a b, prePrefix ++ [59] ++ a ≠ postPrefix ++ [59] ++ b := disjoint_of_sep_free (by decide) (by decide) (by decide)

/-! ### One test -/

/-- The result before the update. -/
def base (x : Ctx) (t : Test) : TestResult := monitored x.c x.H none false (t.ident, t.name) t.r1 t.r2

/-- The result after the update, with the loaded baseline. -/
def later (x : Ctx) (t : Test) (B : TestResult) : TestResult := monitored x.c x.H (some B.callers) x.force (t.ident, t.name) t.r3 t.r4

theorem unmarshal_marshal {x : Ctx} (hx : Faithful x) (fuel : Nat) (r : TestResult) : unmarshal x fuel (marshal x r) = saved x.H x.sk fuel r := by
  unfold unmarshal marshal saved
  rw [hx.back, Option.bind_some]

/-- What a test comes to: its loaded results. -/
structure Comes (x : Ctx) (f0 : Nat) (t : Test) (B P : TestResult) : Prop where
  pre : ∀ fuel, f0 ≤ fuel → saved x.H x.sk fuel (base x t) = some B
  post : ∀ fuel, f0 ≤ fuel → saved x.H x.sk fuel (later x t B) = some P
  ident : B.testIdent = t.ident ∧ P.testIdent = t.ident
  name : B.testName = t.name ∧ P.testName = t.name
  kept : (compareTest x.dv x.H x.mult B P).diff = 0 ↔ Kept x t

theorem Comes.mono {x : Ctx} {f0 f1 : Nat} {t : Test} {B P : TestResult} (h : Comes x f0 t B P) (hf : f0 ≤ f1) : Comes x f1 t B P :=
  ⟨fun fuel hl => h.pre fuel (by omega), fun fuel hl => h.post fuel (by omega), h.ident, h.name, h.kept⟩

theorem Comes.alone {x : Ctx} {f0 : Nat} {t : Test} {B P : TestResult} (h : Comes x f0 t B P) (fuel : Nat) (hf : f0 ≤ fuel) :
    alone x fuel t = some (compareTest x.dv x.H x.mult B P) := by
  unfold Total.alone Pipeline.analysedStored
  have h1 := h.pre fuel hf
  have h2 := h.post fuel hf
  unfold base at h1
  unfold later at h2
  rw [h1, Option.bind_some, h2, Option.map_some]

theorem monitored_names (c : Fields.Lib) (H : Bytes → Bytes) (st : Option Pipeline.Frames) (force : Bool) (name : Bytes × Bytes) (a b : Run) :
    (monitored c H st force name a b).testIdent = name.1 ∧ (monitored c H st force name a b).testName = name.2 := by
  unfold monitored
  split
  · exact ⟨rfl, rfl⟩
  · exact ⟨rfl, rfl⟩

theorem comes {x : Ctx} {t : Test} (h : Orderly x t) : ∃ f0 B P, Comes x f0 t B P := by
  obtain ⟨B, f1, hB, hsB⟩ := saved_ok h.store1 (monitored_wf x.c x.H none false (t.ident, t.name) t.r1 t.r2)
  obtain ⟨P, f2, hP, hsP⟩ := saved_ok (h.store2 f1 B (hB f1 (Nat.le_refl _))) (monitored_wf x.c x.H (some B.callers) x.force (t.ident, t.name) t.r3 t.r4)
  have nB := monitored_names x.c x.H none false (t.ident, t.name) t.r1 t.r2
  have nP := monitored_names x.c x.H (some B.callers) x.force (t.ident, t.name) t.r3 t.r4
  obtain ⟨f3, rep, h3, h4⟩ := Pipeline.C131_stored_partial x.c x.H x.sk x.dv x.mult x.force (t.ident, t.name) t.r1 t.r2 t.r3 t.r4 h.keyed h.first h.second h.after
    h.named1 h.named3 h.store1 h.store2
  refine ⟨max f1 f2, B, P, fun fuel hf => hB fuel (by omega), fun fuel hf => hP fuel (by omega), ⟨hsB.ident.trans nB.1, hsP.ident.trans nP.1⟩,
    ⟨hsB.name.trans nB.2, hsP.name.trans nP.2⟩, ?_⟩
  have e := h3 (max f3 (max f1 f2)) (by omega)
  unfold Pipeline.analysedStored at e
  rw [hB _ (by omega), Option.bind_some, hP _ (by omega), Option.map_some, Option.some.injEq] at e
  rw [e, h4]
  exact ⟨fun h => ⟨h.1, h.2.1, h.2.2⟩, fun h => ⟨h.values, h.project, h.modul⟩⟩

/-- For all tests with the same fuel. -/
theorem comes_all {x : Ctx} : ∀ {ts : List Test}, (∀ t ∈ ts, Orderly x t) → ∃ f0, ∀ t ∈ ts, ∃ B P, Comes x f0 t B P
  | [], _ => ⟨0, by simp⟩
  | t :: ts, h => by
      obtain ⟨f0, B, P, h0⟩ := comes (h t (by simp))
      obtain ⟨f1, h1⟩ := comes_all (ts := ts) fun t ht => h t (by simp [ht])
      refine ⟨max f0 f1, fun t' ht' => ?_⟩
      rcases List.mem_cons.mp ht' with rfl | ht'
      · exact ⟨B, P, h0.mono (by omega)⟩
      · obtain ⟨B', P', h'⟩ := h1 t' ht'
        exact ⟨B', P', h'.mono (by omega)⟩

/-! ### The comparison -/

theorem loop_ok {x : Ctx} {f0 fuel : Nat} (hf : f0 ≤ fuel) {pre post : Bytes → Loaded} :
    ∀ (l : List Test), (∀ t ∈ l, ∃ B P, Comes x f0 t B P ∧ pre t.ident = .found B ∧ post t.ident = .found P) →
      ∃ reports, compareLoop x.dv x.H x.mult pre post (l.map (·.ident)) = some ((reports.map (·.same)).sum, (reports.map (·.diff)).sum, reports) ∧
        List.Forall₂ (fun t rep => alone x fuel t = some rep ∧ rep.original.testIdent = t.ident ∧ rep.original.testName = t.name ∧
          rep.postUpdate.testIdent = t.ident ∧ rep.postUpdate.testName = t.name ∧ (rep.diff = 0 ↔ Kept x t)) l reports
  | [], _ => ⟨[], rfl, .nil⟩
  | t :: l, h => by
      obtain ⟨B, P, h1, h2, h3⟩ := h t (by simp)
      obtain ⟨reports, h4, h5⟩ := loop_ok hf l fun t ht => h t (by simp [ht])
      refine ⟨compareTest x.dv x.H x.mult B P :: reports, ?_, .cons ⟨h1.alone fuel hf, h1.ident.1, h1.name.1, h1.ident.2, h1.name.2, h1.kept⟩ h5⟩
      rw [List.map_cons, compareLoop, h2]
      dsimp only
      rw [h3]
      dsimp only
      rw [h4, Option.map_some]
      rfl

/-- A list of tests in the order of their identifiers. -/
def bySort (ts : List Test) : List Test := Report.sortBy (fun a b => Report.le a.ident b.ident) ts

theorem bySort_perm (ts : List Test) : (bySort ts).Perm ts := Report.sortBy_perm _ _

theorem bySort_le (ts : List Test) : ((bySort ts).map (·.ident)).Pairwise (· ≤ ·) := by
  rw [List.pairwise_map]
  have := Report.sortBy_sorted (f := fun a b : Test => Report.le a.ident b.ident) (fun a b => Report.le_total' _ _) (fun a b c => Report.le_trans' _ _ _) ts
  exact this.imp fun h => by simpa [Report.le] using h

theorem bySort_lt {ts : List Test} (hn : (ts.map (·.ident)).Nodup) : (bySort ts).Pairwise fun a b => a.ident < b.ident := by
  have h1 := bySort_le ts
  have h2 : ((bySort ts).map (·.ident)).Nodup := ((bySort_perm ts).map _).nodup_iff.mpr hn
  have := Report.strict_of h1 h2
  unfold Report.Strict at this
  rwa [List.pairwise_map] at this

/-- The sorted keys are the sorted identifiers. -/
theorem keys_eq {ts : List Test} (hn : (ts.map (·.ident)).Nodup) {ks : List Bytes} (h1 : ks.Nodup) (h2 : ks.Pairwise (· ≤ ·))
    (h3 : ∀ k, k ∈ ks ↔ ∃ t ∈ ts, t.ident = k) : ks = (bySort ts).map (·.ident) := by
  have hs := bySort_le ts
  have hp : ks.Perm ((bySort ts).map (·.ident)) := by
    refine (List.perm_ext_iff_of_nodup h1 (((bySort_perm ts).map _).nodup_iff.mpr hn)).mpr fun k => ?_
    rw [h3, ((bySort_perm ts).map _).mem_iff, List.mem_map]
  refine hp.eq_of_pairwise (fun a b _ _ hab hba => List.le_antisymm hab hba) h2 hs

section
variable {I : Impl} {good : Op → Prop} (S : Sim I good) {x : Ctx} (hx : Faithful x)
  (Bp : Backed good prePrefix (Enc x)) (Bq : Backed good postPrefix (Enc x))
include hx Bp Bq

/-- What is in the store for a test after an update. -/
def Holds (x : Ctx) (f0 : Nat) (s : AbsStore) (t : Test) : Prop :=
  ∃ B P, Comes x f0 t B P ∧ preView s t.ident = some (marshal x (base x t)) ∧ postView s t.ident = some (marshal x (later x t B))

/-- Both phases. -/
theorem run_ok {f0 : Nat} {ts : List Test} (hc : ∀ t ∈ ts, ∃ B P, Comes x f0 t B P) (hn : (ts.map (·.ident)).Nodup) {fuel : Nat} (hf : f0 ≤ fuel)
    {before after : List Test} (hb : before.Perm ts) (ha : after.Perm ts) {st : I.σ} {s : AbsStore} (R : S.R st s) :
    ∃ st' s', runUpdate I x fuel st before after = some st' ∧ S.R st' s' ∧ (∀ t ∈ ts, Holds x f0 s' t) ∧
      ∀ k, (∀ t ∈ ts, k ≠ t.ident) → preView s' k = preView s k ∧ postView s' k = postView s k := by
  obtain ⟨st1, s1, h1, R1, v1, u1, w1⟩ := phase_ok (ts := ts) S (f := beforeTest I x) (p := prePrefix ++ [59]) (q := postPrefix ++ [59])
    (fun t => marshal x (base x t)) (fun _ => True) (by
      intro st s t R _ _
      obtain ⟨st', s', e1, e2, e3, e4⟩ := save_ok S x (by decide) Bp R t.ident (base x t)
      refine ⟨st', s', e1, e2, e3, ?_⟩
      funext k
      exact e4 _ fun k' e => disj k' k e.symm) before (fun t ht => hb.mem_iff.mp ht) ((hb.map _).nodup_iff.mpr hn) st s R trivial
  have hpre : ∀ t ∈ ts, preView s1 t.ident = some (marshal x (base x t)) := fun t ht => v1 t (hb.mem_iff.mpr ht)
  have hch : ∀ t, ∃ B, t ∈ ts → ∃ P, Comes x f0 t B P := by
    intro t
    by_cases ht : t ∈ ts
    · obtain ⟨B, P, h⟩ := hc t ht
      exact ⟨B, fun _ => ⟨P, h⟩⟩
    · exact ⟨base x t, fun h => absurd h ht⟩
  choose B hB using hch
  obtain ⟨st2, s2, h2, R2, v2, u2, w2⟩ := phase_ok (ts := ts) S (f := afterTest I x fuel) (p := postPrefix ++ [59]) (q := prePrefix ++ [59])
    (fun t => marshal x (later x t (B t))) (fun v => ∀ t ∈ ts, v t.ident = some (marshal x (base x t))) (by
      intro st s t R hJ ht
      obtain ⟨P, hP⟩ := hB t ht
      obtain ⟨st', s', e1, e2, e3, e4⟩ := save_ok S x (by decide) Bq R t.ident (later x t (B t))
      refine ⟨st', s', ?_, e2, e3, ?_⟩
      · unfold afterTest
        rw [load_ok S x (by decide) Bp R fuel t.ident, hJ t ht]
        unfold readBlob
        dsimp only
        rw [unmarshal_marshal hx, hP.pre fuel hf]
        exact e1
      · funext k
        exact e4 _ fun k' e => disj k k' e) after (fun t ht => ha.mem_iff.mp ht) ((ha.map _).nodup_iff.mpr hn) st1 s1 R1 hpre
  refine ⟨st2, s2, ?_, R2, ?_, ?_⟩
  · unfold runUpdate
    rw [h1, Option.bind_some, h2]
  · intro t ht
    obtain ⟨P, hP⟩ := hB t ht
    refine ⟨B t, P, hP, ?_, v2 t (ha.mem_iff.mpr ht)⟩
    rw [preView, w2]
    exact hpre t ht
  · intro k hk
    refine ⟨?_, ?_⟩
    · rw [preView, w2]
      exact u1 k fun t ht => hk t (hb.mem_iff.mp ht)
    · rw [postView, u2 k fun t ht => hk t (ha.mem_iff.mp ht), w1]

/-- The comparison of what is stored. -/
theorem compare_ok {f0 : Nat} {ts : List Test} (hn : (ts.map (·.ident)).Nodup) {fuel : Nat} (hf : f0 ≤ fuel) {st : I.σ} {s : AbsStore} (R : S.R st s)
    (hs : ∀ t ∈ ts, Holds x f0 s t) (ho : ∀ k, (∀ t ∈ ts, k ≠ t.ident) → postView s k = none) :
    ∃ same diff reports, compareStored I x fuel st = some (same, diff, reports) ∧ Reports x fuel ts same diff reports := by
  obtain ⟨k1, e1, _⟩ := keys_ok S x (by decide) Bp R
  obtain ⟨ks, e2, n2, l2, m2⟩ := keys_ok S x (by decide) Bq R
  have hks : ks = (bySort ts).map (·.ident) := by
    refine keys_eq hn n2 l2 fun k => ?_
    rw [m2]
    constructor
    · intro h
      by_contra hno
      have := ho k fun t ht e => hno ⟨t, ht, e.symm⟩
      rw [postView] at this
      rw [this] at h
      cases h
    · rintro ⟨t, ht, rfl⟩
      obtain ⟨B, P, _, _, h⟩ := hs t ht
      rw [postView] at h
      rw [h]
      rfl
  obtain ⟨reports, h1, h2⟩ := loop_ok (x := x) hf (pre := loadResult I x fuel prePrefix st) (post := loadResult I x fuel postPrefix st) (bySort ts) (by
    intro t ht
    obtain ⟨B, P, hc, hb, hp⟩ := hs t ((bySort_perm ts).mem_iff.mp ht)
    unfold preView at hb
    unfold postView at hp
    refine ⟨B, P, hc, ?_, ?_⟩
    · rw [load_ok S x (by decide) Bp R fuel t.ident, hb]
      unfold readBlob
      dsimp only
      rw [unmarshal_marshal hx, hc.pre fuel hf]
    · rw [load_ok S x (by decide) Bq R fuel t.ident, hp]
      unfold readBlob
      dsimp only
      rw [unmarshal_marshal hx, hc.post fuel hf])
  refine ⟨_, _, reports, ?_, ⟨⟨bySort ts, bySort_perm ts, bySort_lt hn, h2⟩, rfl, rfl⟩⟩
  unfold compareStored
  rw [e1, Option.bind_some, e2, Option.bind_some, hks, h1]

end

theorem sum_zero : ∀ {l : List Nat}, l.sum = 0 ↔ ∀ n ∈ l, n = 0
  | [] => by simp
  | n :: l => by rw [List.sum_cons]; simp [sum_zero (l := l)]

theorem Reports.clean {x : Ctx} {fuel : Nat} {ts : List Test} {same diff : Nat} {reports : List TestReport} (h : Reports x fuel ts same diff reports) :
    diff = 0 ↔ ∀ t ∈ ts, Kept x t := by
  obtain ⟨sorted, hp, _, hf⟩ := h.each
  have : (∀ t ∈ sorted, Kept x t) ↔ ∀ n ∈ reports.map (·.diff), n = 0 := by
    clear hp h
    rename_i hs
    clear hs
    induction hf with
    | nil => simp
    | cons h hl ih => rw [List.map_cons, List.forall_mem_cons, List.forall_mem_cons, ih, h.2.2.2.2.2]
  rw [h.diff, sum_zero, ← this]
  exact ⟨fun h t ht => h t (hp.mem_iff.mpr ht), fun h t ht => h t (hp.mem_iff.mp ht)⟩

theorem pre_backed {x : Ctx} (hx : Faithful x) : Backed Storage.goodOp prePrefix (Enc x) ∧ Backed Storage.goodOp postPrefix (Enc x) := by
  have hb : ∀ k b, Enc x (.save k b) → Storage.goodBlob b := by
    rintro k b ⟨e, rfl⟩
    obtain ⟨h, t, he, hl⟩ := hx.maps e
    rw [he]
    refine ⟨by simp, ?_⟩
    apply Storage.not_looks
    intro hp
    replace hp := List.isPrefixOf_iff_prefix.mpr hp
    simp only [Storage.splitPrefix, List.isPrefixOf, Bool.and_eq_true, beq_iff_eq] at hp
    rw [← hp.1] at hl
    exact absurd hl (by decide)
  have h1 : ¬ Storage.splitPrefix <+: prePrefix := by decide
  have h2 : ¬ Storage.splitPrefix <+: postPrefix := by decide
  exact ⟨⟨fun k b h => ⟨Storage.goodKey_prefixed h1 k, hb k b h⟩, Storage.goodKey_prefixed h1, Storage.goodKey_prefixed h1, fun _ => trivial⟩,
    ⟨fun k b h => ⟨Storage.goodKey_prefixed h2 k, hb k b h⟩, Storage.goodKey_prefixed h2, Storage.goodKey_prefixed h2, fun _ => trivial⟩⟩

theorem mem_backed (x : Ctx) (p : Bytes) : Backed (fun _ => True) p (Enc x) := ⟨fun _ _ _ => trivial, fun _ => trivial, fun _ => trivial, fun _ => trivial⟩

end Verif.Total
