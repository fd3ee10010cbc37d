import Verif.Verdict.Spec
import Verif.Sched.Props
import Verif.Report.Props

namespace Verif.Verdict

open Verif.Result (Bytes dotted TestResult CallFrame)
open Verif.Total (Ctx Test Kept Orderly Reports alone)
open Verif.Pipeline (Shown After SameAs monitored)
open Verif.Compare (TestReport compareTest Mapped)

/-! ### One test -/

/-- A report of one test is right. -/
structure Right (x : Ctx) (t : Test) (rep : TestReport) : Prop where
  before : rep.original.failure = true ↔ FailedBefore t
  after : rep.postUpdate.failure = true ↔ FailsAfter x t
  hits : rep.original.changesHit = t.r1.reached.toFinset.card
  listed : ∀ f n, (∃ text, Listed rep.fieldChanges f n text) ↔ ∃ path i p v w, dotted p = n ∧ Changes x t f path i p v w
  text : ∀ f n text, Listed rep.fieldChanges f n text → ∃ path i p v w, dotted p = n ∧ Changes x t f path i p v w ∧ text = x.dv v w
  keys : (AMap.keys rep.fieldChanges).Nodup
  inner : ∀ e ∈ rep.fieldChanges, (AMap.keys e.2).Nodup
  times : (AMap.keys rep.timeChanges).Nodup

theorem fieldLoop_nodup {dv : Bytes → Bytes → Bytes} {pre post : AMap Bytes Bytes} : ∀ (ns : List Bytes) (o : Compare.FieldOut), (AMap.keys o.changes).Nodup →
    (AMap.keys (Compare.fieldLoop dv pre post ns o).changes).Nodup
  | [], _, h => h
  | n :: ns, o, h => by
      unfold Compare.fieldLoop
      dsimp only
      split
      · exact fieldLoop_nodup ns _ h
      · split
        · exact fieldLoop_nodup ns _ h
        · exact fieldLoop_nodup ns _ (AMap.nodup_set h _ _)

theorem caller_nodup {dv : Bytes → Bytes → Bytes} {key : CallFrame → Bytes} {mult : Nat} {posts : List CallFrame} : ∀ (fs : List CallFrame) (s : Compare.CallerState),
    (AMap.keys s.out.changes).Nodup → (AMap.keys (fs.foldl (Compare.frameStep dv key mult posts) s).out.changes).Nodup
  | [], _, h => h
  | f :: fs, s, h => by
      rw [List.foldl_cons]
      refine caller_nodup fs _ ?_
      unfold Compare.frameStep
      dsimp only
      split
      · exact h
      · exact fieldLoop_nodup _ _ h

theorem changes_nodup (dv : Bytes → Bytes → Bytes) (H : Bytes → Bytes) (mult : Nat) {B P : TestResult} (hB : Mapped B) :
    (AMap.keys (compareTest dv H mult B P).fieldChanges).Nodup ∧ ∀ e ∈ (compareTest dv H mult B P).fieldChanges, (AMap.keys e.2).Nodup := by
  constructor
  · have h := hB.callers
    unfold AMap.keys at h ⊢
    unfold compareTest
    dsimp only
    have hs : (((B.callers.map fun kv => (kv.1, (Compare.callerOut dv H mult P kv).out.changes)).filter fun kv => kv.2 ≠ []).map (·.1)).Sublist
        ((B.callers.map fun kv => (kv.1, (Compare.callerOut dv H mult P kv).out.changes)).map (·.1)) := List.filter_sublist.map _
    refine hs.nodup ?_
    rw [List.map_map]
    exact h
  · intro e he
    unfold compareTest at he
    dsimp only at he
    obtain ⟨kv, _, rfl⟩ := List.mem_map.mp (List.mem_filter.mp he).1
    exact caller_nodup _ _ List.nodup_nil

theorem times_nodup (dv : Bytes → Bytes → Bytes) (H : Bytes → Bytes) (mult : Nat) {B P : TestResult} (hB : Mapped B) :
    (AMap.keys (compareTest dv H mult B P).timeChanges).Nodup := by
  have h := hB.callers
  unfold AMap.keys at h ⊢
  unfold compareTest
  dsimp only
  have hs : (((B.callers.map fun kv => (kv.1, (Compare.callerOut dv H mult P kv).most)).filter fun kv => kv.2.diff ≠ 0).map (·.1)).Sublist
      ((B.callers.map fun kv => (kv.1, (Compare.callerOut dv H mult P kv).most)).map (·.1)) := List.filter_sublist.map _
  refine hs.nodup ?_
  rw [List.map_map]
  exact h

theorem dedup_card (l : List Nat) : l.dedup.length = l.toFinset.card := by
  rw [List.card_toFinset]

theorem right {x : Ctx} {t : Test} (h : Orderly x t) : ∃ f0, ∀ fuel, f0 ≤ fuel → ∃ rep, alone x fuel t = some rep ∧ Right x t rep := by
  obtain ⟨B, P, f0, h1, hB, hP, mB, mP, sB, sP⟩ := Pipeline.stored_ok (dv := x.dv) (mult := x.mult) (name := (t.ident, t.name)) h.keyed h.first h.second h.after
    h.store1 h.store2
  refine ⟨f0, fun fuel hf => ⟨_, h1 fuel hf, ?_, ?_, ?_, fun f n => ?_, fun f n text => ?_, (changes_nodup _ _ _ mB).1, (changes_nodup _ _ _ mB).2, times_nodup _ _ _ mB⟩⟩
  · show B.failure = true ↔ _
    rw [sB.failure]
    show (t.r1.failed || t.r2.failed) = true ↔ _
    rw [Bool.or_eq_true]
    rfl
  · show P.failure = true ↔ _
    rw [sP.failure]
    unfold Pipeline.postOf monitored FailsAfter
    cases hx : x.force
    · show t.r3.failed = true ↔ _
      simp
    · show (t.r3.failed || t.r4.failed) = true ↔ _
      simp
  · show B.changesHit = _
    rw [sB.hits, ← dedup_card]
    rfl
  · have := (Pipeline.listed_of x.dv x.mult hB hP h.named1 h.named3 mB f n).1
    unfold Changes Listed
    rw [← this]
    exact ⟨fun ⟨a, b, c⟩ => ⟨b, a, c⟩, fun ⟨a, b, c⟩ => ⟨b, a, c⟩⟩
  · rintro ⟨ch, h2, h3⟩
    obtain ⟨path, i, p, v, w, e1, e2, e3, e4, e5, e6⟩ := (Pipeline.listed_of x.dv x.mult hB hP h.named1 h.named3 mB f n).2 ch text h2 h3
    exact ⟨path, i, p, v, w, e1, ⟨e2, e3, e4, e5⟩, e6⟩

theorem right_all {x : Ctx} : ∀ {ts : List Test}, (∀ t ∈ ts, Orderly x t) → ∃ f0, ∀ fuel, f0 ≤ fuel → ∀ t ∈ ts, ∃ rep, alone x fuel t = some rep ∧ Right x t rep
  | [], _ => ⟨0, by simp⟩
  | t :: ts, h => by
      obtain ⟨f0, h0⟩ := right (h t (by simp))
      obtain ⟨f1, h1⟩ := right_all (ts := ts) fun t ht => h t (by simp [ht])
      refine ⟨max f0 f1, fun fuel hf t' ht' => ?_⟩
      rcases List.mem_cons.mp ht' with rfl | ht'
      · exact h0 fuel (by omega)
      · exact h1 fuel (by omega) t' ht'

/-! ### Trimming -/

theorem get_mapped {V W : Type} (g : V → W) (k : Bytes) : ∀ (m : AMap Bytes V), AMap.get (m.map fun (e : Bytes × V) => (e.1, g e.2)) k = (AMap.get m k).map g
  | [] => rfl
  | e :: m => by
      rw [List.map_cons, AMap.get_cons, AMap.get_cons, get_mapped g k m]
      dsimp only
      split <;> rfl

theorem listed_trim (m : AMap Bytes (AMap Bytes Bytes)) (f n text : Bytes) :
    Listed (Report.trimFields m) f n text ↔ ∃ s, Listed m f n s ∧ text = Engine.trim s := by
  have e : Report.trimFields m = m.map fun (e : Bytes × AMap Bytes Bytes) => (e.1, e.2.map fun (e : Bytes × Bytes) => (e.1, Engine.trim e.2)) := rfl
  unfold Listed
  rw [e]
  constructor
  · rintro ⟨ch, h1, h2⟩
    rw [get_mapped] at h1
    obtain ⟨ch0, h3, rfl⟩ := Option.map_eq_some_iff.mp h1
    rw [get_mapped] at h2
    obtain ⟨s, h4, rfl⟩ := Option.map_eq_some_iff.mp h2
    exact ⟨s, ⟨ch0, h3, h4⟩, rfl⟩
  · rintro ⟨s, ⟨ch, h1, h2⟩, rfl⟩
    refine ⟨ch.map fun (e : Bytes × Bytes) => (e.1, Engine.trim e.2), ?_, ?_⟩
    · rw [get_mapped, h1]; rfl
    · rw [get_mapped, h2]; rfl

theorem trim_keys (m : AMap Bytes (AMap Bytes Bytes)) : AMap.keys (Report.trimFields m) = AMap.keys m := by
  unfold AMap.keys Report.trimFields
  rw [List.map_map]
  rfl

theorem trim_inner {m : AMap Bytes (AMap Bytes Bytes)} (h : ∀ e ∈ m, (AMap.keys e.2).Nodup) : ∀ e ∈ Report.trimFields m, (AMap.keys e.2).Nodup := by
  intro e he
  obtain ⟨e0, h0, rfl⟩ := List.mem_map.mp he
  have := h e0 h0
  unfold AMap.keys at this ⊢
  dsimp only
  rw [List.map_map]
  exact this

/-! ### The entries -/

/-- What is known of an entry besides what it says. -/
structure Entry (x : Ctx) (t : Test) (d : Report.Detail) : Prop where
  told : Says x t d
  keys : (AMap.keys d.fields).Nodup
  inner : ∀ e ∈ d.fields, (AMap.keys e.2).Nodup

theorem entry_of {x : Ctx} {t : Test} {rep : TestReport} (hr : Right x t rep) (hi : rep.original.testIdent = t.ident) (hn : rep.original.testName = t.name)
    (hk : rep.diff = 0 ↔ Kept x t) : Entry x t (Report.detail { toTest rep with fields := Report.trimFields (toTest rep).fields }) where
  told :=
    { ident := hi
      name := hn
      baseline := hr.before
      regression := by
        show (!rep.original.failure && rep.postUpdate.failure) = true ↔ _
        unfold Regressed
        rw [← hr.before, ← hr.after]
        cases rep.original.failure <;> cases rep.postUpdate.failure <;> simp
      diff := hk
      hits := hr.hits
      listed := fun f n => by
        rw [← hr.listed f n]
        show (∃ text, Listed (Report.trimFields rep.fieldChanges) f n text) ↔ _
        constructor
        · rintro ⟨text, h⟩
          obtain ⟨s, h, _⟩ := (listed_trim _ f n text).mp h
          exact ⟨s, h⟩
        · rintro ⟨s, h⟩
          exact ⟨_, (listed_trim _ f n _).mpr ⟨s, h, rfl⟩⟩
      text := fun f n text h => by
        obtain ⟨s, h, e⟩ := (listed_trim rep.fieldChanges f n text).mp h
        obtain ⟨path, i, p, v, w, e1, e2, e3⟩ := hr.text f n s h
        exact ⟨path, i, p, v, w, e1, e2, by rw [e, e3]⟩ }
  keys := by
    show (AMap.keys (Report.trimFields rep.fieldChanges)).Nodup
    rw [trim_keys]
    exact hr.keys
  inner := trim_inner hr.inner

theorem results_idents {x : Ctx} {fuel : Nat} {ts : List Test} {same diff : Nat} {reports : List TestReport} (h : Reports x fuel ts same diff reports) :
    ((reports.map toTest).map (·.ident)).Nodup := by
  obtain ⟨sorted, hp, hs, hf⟩ := h.each
  have hid : List.Forall₂ (fun t u => u.ident = t.ident) sorted (reports.map toTest) := by
    rw [List.forall₂_map_right_iff]
    exact hf.imp fun _ _ h => h.2.1
  have e : (reports.map toTest).map (·.ident) = sorted.map (·.ident) := by
    clear hf hs hp h
    generalize reports.map toTest = us at hid
    induction hid with
    | nil => rfl
    | cons a _ ih => rw [List.map_cons, List.map_cons, a, ih]
  rw [e, List.Nodup, List.pairwise_map]
  refine hs.imp fun {a b} hab heq => ?_
  rw [heq] at hab
  exact List.lt_irrefl _ hab

theorem results_times {x : Ctx} {fuel : Nat} {ts : List Test} {same diff : Nat} {reports : List TestReport} (h : Reports x fuel ts same diff reports)
    (hr : ∀ t ∈ ts, ∃ rep, alone x fuel t = some rep ∧ Right x t rep) : ∀ u ∈ reports.map toTest, (AMap.keys u.times).Nodup := by
  intro u hu
  obtain ⟨rep, hm, rfl⟩ := List.mem_map.mp hu
  obtain ⟨sorted, hp, hs, hf⟩ := h.each
  obtain ⟨t, ht, hrep⟩ : ∃ t ∈ sorted, alone x fuel t = some rep := by
    clear hs hp h hu
    induction hf with
    | nil => cases hm
    | cons a _ ih =>
        rcases List.mem_cons.mp hm with rfl | hm
        · exact ⟨_, by simp, a.1⟩
        · obtain ⟨t, ht, h⟩ := ih hm
          exact ⟨t, by simp [ht], h⟩
  obtain ⟨rep', h1, h2⟩ := hr t (hp.mem_iff.mp ht)
  rw [hrep] at h1
  cases h1
  have := h2.times
  unfold AMap.keys at this ⊢
  unfold toTest
  dsimp only
  rw [List.map_map]
  exact this

/-- The tests as the report has them. -/
theorem results_of {x : Ctx} {fuel : Nat} {ts : List Test} {same diff : Nat} {reports : List TestReport} (h : Reports x fuel ts same diff reports)
    (hr : ∀ t ∈ ts, ∃ rep, alone x fuel t = some rep ∧ Right x t rep) :
    ∃ sorted, sorted.Perm ts ∧ sorted.Pairwise (fun a b => a.ident < b.ident) ∧
      List.Forall₂ (fun t u => Entry x t (Report.detail u) ∧ (u.before = true ↔ FailedBefore t) ∧ (u.after = true ↔ FailsAfter x t)) sorted (Report.results (reports.map toTest)) := by
  obtain ⟨sorted, hp, hs, hf⟩ := h.each
  refine ⟨sorted, hp, hs, ?_⟩
  have hid : List.Forall₂ (fun t u => u.ident = t.ident) sorted (reports.map toTest) := by
    rw [List.forall₂_map_right_iff]
    exact hf.imp fun _ _ h => h.2.1
  have hle : (reports.map toTest).Pairwise fun a b => Report.le a.ident b.ident = true := by
    have e : (reports.map toTest).map (·.ident) = sorted.map (·.ident) := by
      clear hf hs hp h hr
      generalize reports.map toTest = us at hid
      induction hid with
      | nil => rfl
      | cons a _ ih => rw [List.map_cons, List.map_cons, a, ih]
    have h2 : ((reports.map toTest).map (·.ident)).Pairwise fun a b => Report.le a b = true := by
      rw [e, List.pairwise_map]
      refine hs.imp fun {a b} hab => ?_
      unfold Report.le
      exact decide_eq_true (List.le_of_lt hab)
    rwa [List.pairwise_map] at h2
  unfold Report.results
  rw [Report.sortBy_id hle, List.map_map, List.forall₂_map_right_iff]
  have hall : ∀ t ∈ sorted, ∃ rep, alone x fuel t = some rep ∧ Right x t rep := fun t ht => hr t (hp.mem_iff.mp ht)
  clear hid hle hp hs h hr
  induction hf with
  | nil => exact .nil
  | @cons t rep l l' a _ ih =>
      obtain ⟨rep', h1, h2⟩ := hall t (by simp)
      rw [a.1] at h1
      cases h1
      exact .cons ⟨entry_of h2 a.2.1 a.2.2.1 a.2.2.2.2.2, h2.before, h2.after⟩ (ih fun t ht => hall t (by simp [ht]))

/-! ### JSON -/

theorem viaFloat_zero (n : Nat) : Report.viaFloat n = 0 ↔ n = 0 := by
  unfold Report.viaFloat
  by_cases h : n ≤ 2 ^ 53
  · rw [if_pos h]
  · rw [if_neg h]
    have h1 : 2 ^ (n.log2 - 52) ≤ n := by
      have : 2 ^ n.log2 ≤ n := Nat.log2_self_le (by omega)
      exact (Nat.pow_le_pow_right (by decide) (by omega)).trans this
    have h2 : 0 < 2 ^ (n.log2 - 52) := Nat.pow_pos (by decide)
    have h3 : 0 < n / 2 ^ (n.log2 - 52) := Nat.div_pos h1 h2
    dsimp only
    have h4 : (n / 2 ^ (n.log2 - 52) + 1) * 2 ^ (n.log2 - 52) ≠ 0 := (Nat.mul_pos (by omega) h2).ne'
    have h5 : n / 2 ^ (n.log2 - 52) * 2 ^ (n.log2 - 52) ≠ 0 := (Nat.mul_pos h3 h2).ne'
    constructor
    · intro h6
      split at h6
      · exact absurd h6 h4
      · exact absurd h6 h5
    · intro h6
      exact absurd (h6 ▸ Nat.zero_le _ : n ≤ 2 ^ 53) h

theorem fold_get {V : Type} (js : Bytes → Bytes) (f : V → V) (k : Bytes) : ∀ (l acc : AMap Bytes V), (∀ e ∈ l, js e.1 = e.1) → (AMap.keys l).Nodup →
    AMap.get (l.foldl (fun m e => AMap.set m (js e.1) (f e.2)) acc) k = match AMap.get l k with
      | some v => some (f v)
      | none => AMap.get acc k
  | [], acc, _, _ => rfl
  | e :: l, acc, hj, hn => by
      have hn' : e.1 ∉ AMap.keys l ∧ (AMap.keys l).Nodup := List.nodup_cons.mp hn
      rw [List.foldl_cons, fold_get js f k l _ (fun e he => hj e (by simp [he])) hn'.2, AMap.get_cons, hj e (by simp), AMap.get_set]
      by_cases h : e.1 = k
      · subst h
        have h0 : AMap.get l e.1 = none := by
          have := mt (AMap.mem_keys l e.1).mpr hn'.1
          simpa using this
        rw [h0]
        simp
      · have h' : ¬ k = e.1 := fun h' => h h'.symm
        cases hg : AMap.get l k <;> simp [h, h']

theorem get_perm {V : Type} {l l' : AMap Bytes V} (h : List.Perm l l') (hn : (AMap.keys l).Nodup) (k : Bytes) : AMap.get l k = AMap.get l' k := by
  have hn' : (AMap.keys l').Nodup := (List.Perm.map (fun e : Bytes × V => e.1) h).nodup_iff.mp hn
  cases h1 : AMap.get l k with
  | some v => exact (AMap.get_eq_some_of_mem hn' (h.mem_iff.mp (AMap.mem_of_get h1))).symm
  | none =>
      cases h2 : AMap.get l' k with
      | none => rfl
      | some v => rw [AMap.get_eq_some_of_mem hn (h.mem_iff.mpr (AMap.mem_of_get h2))] at h1; cases h1

theorem through_get {V : Type} (js : Bytes → Bytes) (f : V → V) {m : AMap Bytes V} (hj : ∀ e ∈ m, js e.1 = e.1) (hn : (AMap.keys m).Nodup) (k : Bytes) :
    AMap.get (Report.mapThrough js f m) k = (AMap.get m k).map f := by
  have hp := Report.sortBy_perm (fun a b : Bytes × V => Report.le a.1 b.1) m
  have hn' : (AMap.keys (K := Bytes) (V := V) (Report.sortBy (fun a b : Bytes × V => Report.le a.1 b.1) m)).Nodup := (List.Perm.map (fun e : Bytes × V => e.1) hp).nodup_iff.mpr hn
  unfold Report.mapThrough
  rw [fold_get js f k _ [] (fun e he => hj e (hp.mem_iff.mp he)) hn', get_perm hp hn']
  cases AMap.get m k <;> rfl

theorem listed_through {js : Bytes → Bytes} {m : AMap Bytes (AMap Bytes Bytes)} (hj : ∀ e ∈ m, js e.1 = e.1 ∧ ∀ e' ∈ e.2, js e'.1 = e'.1 ∧ js e'.2 = e'.2)
    (hn : (AMap.keys m).Nodup) (hi : ∀ e ∈ m, (AMap.keys e.2).Nodup) (f n text : Bytes) :
    Listed (Report.mapThrough js (Report.mapThrough js js) m) f n text ↔ Listed m f n text := by
  unfold Listed
  rw [through_get js _ (fun e he => (hj e he).1) hn]
  constructor
  · rintro ⟨ch, h1, h2⟩
    obtain ⟨ch0, h3, rfl⟩ := Option.map_eq_some_iff.mp h1
    have hm := AMap.mem_of_get h3
    rw [through_get js _ (fun e he => ((hj _ hm).2 e he).1) (hi _ hm)] at h2
    obtain ⟨s, h4, rfl⟩ := Option.map_eq_some_iff.mp h2
    rw [((hj _ hm).2 _ (AMap.mem_of_get h4)).2]
    exact ⟨ch0, h3, h4⟩
  · rintro ⟨ch, h1, h2⟩
    have hm := AMap.mem_of_get h1
    refine ⟨_, by rw [h1]; rfl, ?_⟩
    rw [through_get js _ (fun e he => ((hj _ hm).2 e he).1) (hi _ hm), h2, Option.map_some, ((hj _ hm).2 _ (AMap.mem_of_get h2)).2]

theorem card_small {l : List Nat} (h : ∀ n ∈ l, n < 2 ^ 32) : l.toFinset.card ≤ 2 ^ 53 := by
  have : l.toFinset ⊆ Finset.range (2 ^ 32) := by
    intro n hn
    rw [Finset.mem_range]
    exact h n (List.mem_toFinset.mp hn)
  have := Finset.card_le_card this
  rw [Finset.card_range] at this
  omega

theorem says_through {x : Ctx} {t : Test} {js : Bytes → Bytes} {d : Report.Detail} (h : Entry x t d) (hid : ∀ n ∈ t.r1.reached, n < 2 ^ 32)
    (hj : js d.ident = d.ident ∧ js d.name = d.name ∧ ∀ e ∈ d.fields, js e.1 = e.1 ∧ ∀ e' ∈ e.2, js e'.1 = e'.1 ∧ js e'.2 = e'.2) :
    Says x t ⟨js d.ident, js d.name, d.baseline, d.regression, Report.viaFloat d.diff, Report.viaFloat d.hits,
      Report.mapThrough js (Report.mapThrough js js) d.fields⟩ where
  ident := hj.1.trans h.told.ident
  name := hj.2.1.trans h.told.name
  baseline := h.told.baseline
  regression := h.told.regression
  diff := (viaFloat_zero _).trans h.told.diff
  hits := by
    show Report.viaFloat d.hits = _
    rw [h.told.hits, Report.viaFloat_id (card_small hid)]
  listed := fun f n => by
    rw [← h.told.listed f n]
    exact exists_congr fun text => listed_through hj.2.2 h.keys h.inner f n text
  text := fun f n text ht => h.told.text f n text ((listed_through hj.2.2 h.keys h.inner f n text).mp ht)

/-! ### The table -/

theorem lift_perm {α β : Type} {R : α → β → Prop} {l : List α} {m m' : List β} (h : List.Forall₂ R l m) (hp : m'.Perm m) : ∃ l', l'.Perm l ∧ List.Forall₂ R l' m' := by
  induction hp generalizing l with
  | nil => exact ⟨l, .refl _, h⟩
  | cons b _ ih =>
      cases h with
      | @cons a _ l0 _ hab hl =>
          obtain ⟨l', h1, h2⟩ := ih hl
          exact ⟨a :: l', h1.cons a, .cons hab h2⟩
  | swap b c m =>
      cases h with
      | @cons a _ l0 _ hab hl =>
          cases hl with
          | @cons a' _ l1 _ hab' hl' => exact ⟨a' :: a :: l1, .swap a a' l1, .cons hab' (.cons hab hl')⟩
  | trans _ _ ih1 ih2 =>
      obtain ⟨l1, h1, h2⟩ := ih2 h
      obtain ⟨l2, h3, h4⟩ := ih1 h2
      exact ⟨l2, h3.trans h1, h4⟩

theorem row_of {x : Ctx} {t : Test} {u : Report.Test} (h : Entry x t (Report.detail u) ∧ (u.before = true ↔ FailedBefore t) ∧ (u.after = true ↔ FailsAfter x t)) :
    (∀ r, Report.risky u = some r → Suspect x t ∧ RowSays x t r.key) ∧ (Report.risky u = none → ¬ Suspect x t) := by
  obtain ⟨he, hb, ha⟩ := h
  have hreg : (!u.before && u.after) = true ↔ Regressed x t := he.told.regression
  have hd : u.diff = 0 ↔ Kept x t := he.told.diff
  unfold Report.risky
  dsimp only
  constructor
  · intro r hr
    split at hr
    · rename_i hc
      cases hr
      refine ⟨?_, he.told.name, ?_, ?_, hd⟩
      · unfold Suspect
        rw [← hreg, ← hd]
        rcases Bool.or_eq_true _ _ ▸ hc with h | h
        · exact .inl h
        · exact .inr (by have := of_decide_eq_true h; omega)
      · dsimp only
        rw [← hreg]
        cases u.before <;> cases u.after <;> simp
      · dsimp only
        rw [← hb]
        cases u.before <;> cases u.after <;> simp
    · cases hr
  · intro hr
    split at hr
    · cases hr
    · rename_i hc
      unfold Suspect
      rw [← hreg, ← hd]
      intro hs
      apply hc
      rw [Bool.or_eq_true]
      rcases hs with h | h
      · exact .inl h
      · exact .inr (decide_eq_true (by omega))

/-- Which tests have rows. -/
theorem rows_of {x : Ctx} {ts : List Test} {us : List Report.Test}
    (h : List.Forall₂ (fun t u => Entry x t (Report.detail u) ∧ (u.before = true ↔ FailedBefore t) ∧ (u.after = true ↔ FailsAfter x t)) ts us) :
    ∃ risky calm, (risky ++ calm).Perm ts ∧ List.Forall₂ (fun t k => Suspect x t ∧ RowSays x t k) risky ((Report.rows us).map (·.key)) ∧ ∀ t ∈ calm, ¬ Suspect x t := by
  unfold Report.rows
  induction h with
  | nil => exact ⟨[], [], .refl _, .nil, by simp⟩
  | @cons t u ts us h0 _ ih =>
      obtain ⟨risky, calm, h1, h2, h3⟩ := ih
      obtain ⟨hs, hn⟩ := row_of h0
      cases hr : Report.risky u with
      | some r =>
          refine ⟨t :: risky, calm, h1.cons t, ?_, h3⟩
          rw [List.filterMap_cons, hr]
          exact .cons (hs r hr) h2
      | none =>
          refine ⟨risky, t :: calm, List.perm_middle.trans (h1.cons t), ?_, ?_⟩
          · rw [List.filterMap_cons, hr]
            exact h2
          · intro t' ht'
            rcases List.mem_cons.mp ht' with rfl | ht'
            · exact hn hr
            · exact h3 t' ht'

theorem table_of {x : Ctx} {ts : List Test} {us : List Report.Test} {srt : List Report.Key → List Nat} (hs : Report.IsSort srt)
    (h : List.Forall₂ (fun t u => Entry x t (Report.detail u) ∧ (u.before = true ↔ FailedBefore t) ∧ (u.after = true ↔ FailsAfter x t)) ts us) :
    Table x ts ((Report.table srt us).map (·.key)) := by
  obtain ⟨risky, calm, h1, h2, h3⟩ := rows_of h
  obtain ⟨omitted, h4, h5⟩ := Report.C65_riskiest_partial srt hs us
  obtain ⟨_, _, h6⟩ := Report.C65_rows srt hs us
  obtain ⟨l, h7, h8⟩ := lift_perm h2 (h4.map (·.key))
  rw [List.map_append] at h8 h5
  obtain ⟨shown, left, e, hsh, hle⟩ : ∃ shown left, l = shown ++ left ∧ List.Forall₂ (fun t k => Suspect x t ∧ RowSays x t k) shown ((Report.table srt us).map (·.key)) ∧
      List.Forall₂ (fun t k => Suspect x t ∧ RowSays x t k) left (omitted.map (·.key)) := by
    obtain ⟨hd, hdr⟩ := List.forall₂_take_append _ _ _ h8, List.forall₂_drop_append _ _ _ h8
    exact ⟨_, _, (List.take_append_drop _ _).symm, hd, hdr⟩
  subst e
  have hmem : ∀ {a : List Test} {b : List Report.Key}, List.Forall₂ (fun t k => Suspect x t ∧ RowSays x t k) a b → ∀ t ∈ a, ∃ k ∈ b, Suspect x t ∧ RowSays x t k := by
    intro a b hab
    induction hab with
    | nil => simp
    | cons h0 _ ih =>
        intro t ht
        rcases List.mem_cons.mp ht with rfl | ht
        · exact ⟨_, by simp, h0⟩
        · obtain ⟨k, hk, h⟩ := ih t ht
          exact ⟨k, by simp [hk], h⟩
  refine ⟨shown, left, calm, (h7.append_right calm).trans h1, hsh.imp fun _ _ h => h.2, ?_, h3, ?_, ?_, ?_⟩
  · intro t ht
    rcases List.mem_append.mp ht with ht | ht
    · obtain ⟨k, _, h⟩ := hmem hsh t ht
      exact h.1
    · obtain ⟨k, _, h⟩ := hmem hle t ht
      exact h.1
  · intro hne
    have hl := h4.length_eq
    have hlen := hle.length_eq
    rw [List.length_map] at hlen ⊢
    rw [List.length_append] at hl
    have : 0 < left.length := List.length_pos_iff.mpr hne
    omega
  · rw [List.length_map]
    omega
  · intro a ha b hb hg hr
    obtain ⟨ka, hka, _, ra⟩ := hmem hsh a ha
    obtain ⟨kb, hkb, _, rb⟩ := hmem hle b hb
    have := (List.pairwise_append.mp h5).2.2 ka hka kb hkb (by
      unfold Report.Generated
      rw [ra.name, rb.name]
      exact hg)
    by_contra hna
    apply this
    exact .inl ⟨rb.fail.mpr hr, fun h => hna (ra.fail.mp h)⟩

end Verif.Verdict
