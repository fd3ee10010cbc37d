import Verif.Sched.Lemmas
import Verif.Total.Props

/-! C140: tests running at the same time. -/

namespace Verif.Sched

open Verif.Result (Bytes TestResult)
open Verif.Storage (Impl Sim AbsStore viewOf Op Backed memStorage badgerStorage memSim badgerSim)
open Verif.Total

section
variable {I : Impl} {good : Op → Prop} (S : Sim I good) {x : Ctx} (Bp : Backed good prePrefix (Enc x)) (Bq : Backed good postPrefix (Enc x))

include S Bp Bq in
/-- **C140**, for any storage that behaves as a map. However the steps of the tests of a phase are interleaved, a phase that ends without an error leaves the storage
as the tests leave it one after the other, in some order. -/
theorem C140_serial {fuel limit : Nat} (hl : 0 < limit) {after : Bool} {ts : List Test} {store store' : I.σ} {s0 : AbsStore} (R0 : S.R store s0)
    (h : Ends I x fuel limit after ts store store') : Serial I x fuel after ts store store' := by
  obtain ⟨st, hr, ho, he, rfl⟩ := h.run
  obtain ⟨s, log, v⟩ := inv S Bp Bq R0 hr
  obtain ⟨order, h1, h2⟩ := v.serial
  refine ⟨order, perm_of_log v.nodup (fun i => ?_) h1, h2⟩
  rw [v.done]
  constructor
  · intro hi
    rw [← v.len]
    exact (List.getElem?_eq_some_iff.mp hi).1
  · intro hi
    rw [← v.len] at hi
    rw [List.getElem?_eq_getElem hi, all_done S Bp Bq R0 hl hr ho he i _ (List.getElem?_eq_getElem hi)]

include S Bp Bq in
/-- **C140**. At any time the result of a test that is done is in the storage, computed from the baseline as it was before the phase, whatever the other tests do or
whether they fail; keys that belong to no test are as before the phase, and so are the results of the other phase. -/
theorem C140_stored {fuel limit : Nat} {after : Bool} {ts : List Test} (hn : (ts.map (·.ident)).Nodup) {store : I.σ} {s0 : AbsStore} (R0 : S.R store s0)
    {st : St I.σ} (h : Reach I x fuel limit after ts store st) :
    ∃ s, S.R st.store s ∧
      (∀ (i : Nat) (t : Test), ts[i]? = some t → st.tasks[i]? = some Task.done → ∃ b, loadStable I x fuel after store t = .loaded b ∧
        viewOf ((if after then postPrefix else prePrefix) ++ [59]) s t.ident = some (marshal x (resultOf x after t b))) ∧
      (∀ k, (∀ t ∈ ts, k ≠ t.ident) → viewOf ((if after then postPrefix else prePrefix) ++ [59]) s k = viewOf ((if after then postPrefix else prePrefix) ++ [59]) s0 k) ∧
      ∀ k, viewOf ((if after then prePrefix else postPrefix) ++ [59]) s k = viewOf ((if after then prePrefix else postPrefix) ++ [59]) s0 k := by
  obtain ⟨s, log, v⟩ := inv S Bp Bq R0 h
  exact ⟨s, v.rel, fun i t ht hd => v.kept hn i t hd ht, v.rest, fun k => congrFun v.others k⟩

end

/-- **C140**. When nothing is left to do, whatever the storage, all tests have returned or the first one has failed, and an error is returned just if some test has failed. -/
theorem C140_error {I : Impl} {x : Ctx} {fuel limit : Nat} (hl : 0 < limit) {after : Bool} {ts : List Test} {store : I.σ}
    {st : St I.σ} (h : Reach I x fuel limit after ts store st) (ho : Over I x fuel limit after ts st) :
    Returned st ∧ (st.err = true ↔ ∃ i : Nat, st.tasks[i]? = some Task.failed) :=
  ⟨returned hl h ho, (reach_basic h).2⟩

/-- **C140**. There are such runs: the tests one after the other are one of them. -/
theorem C140_possible {I : Impl} {x : Ctx} {fuel limit : Nat} (hl : 0 < limit) {after : Bool} {ts : List Test} {store store' : I.σ}
    (h : phase (whole I x fuel after) store ts = some store') : Ends I x fuel limit after ts store store' := by
  have hr := reach_prefix (limit := limit) hl ts [] store' h
  rw [List.append_nil] at hr
  refine ⟨_, hr, ?_, rfl, rfl⟩
  have hd : ∀ (i : Nat) (p : Task), (ts.map (fun _ => Task.done) ++ ([] : List Test).map (fun _ => Task.waiting))[i]? = some p → p = .done := by
    intro i p hp
    rw [List.map_nil, List.append_nil, List.getElem?_map] at hp
    cases h : ts[i]? <;> rw [h] at hp <;> simp at hp
    exact hp.symm
  intro st' hs
  cases hs with
  | start i hi => cases hd i _ hi
  | load i t hi => cases hd i _ hi
  | save i t b hi => cases hd i _ hi
  | lost i t b hi => cases hd i _ hi
  | fail i b hi => cases hd i _ hi

/-- From the interleaved update to one with the tests one after the other. -/
theorem update_serial {I : Impl} {good : Op → Prop} (S : Sim I good) {x : Ctx} (Bp : Backed good prePrefix (Enc x)) (Bq : Backed good postPrefix (Enc x))
    {fuel limit : Nat} (hl : 0 < limit) {ts : List Test} {report : Nat × Nat × List Compare.TestReport} (h : Updates I x fuel limit ts I.init report) :
    ∃ before after : List Test, before.Perm ts ∧ after.Perm ts ∧ update I x fuel I.init before after = some report := by
  obtain ⟨st1, st2, h1, h2, h3⟩ := h.run
  obtain ⟨a, ha, pa⟩ := C140_serial S Bp Bq hl S.init h1
  obtain ⟨st, hr, ho, he, e⟩ := h1.run
  obtain ⟨s, log, v⟩ := inv S Bp Bq S.init hr
  have R1 := v.rel
  rw [e] at R1
  obtain ⟨b, hb, pb⟩ := C140_serial S Bp Bq hl R1 h2
  refine ⟨a, b, ha, hb, ?_⟩
  have pa' : phase (beforeTest I x) I.init a = some st1 := pa
  have pb' : phase (afterTest I x fuel) st1 b = some st2 := pb
  unfold update runUpdate
  rw [pa', Option.bind_some, pb', Option.bind_some, h3]

/-- **C140**, with results on disk. What an update reports with the tests running at the same time it reports with the tests running one after the other. -/
theorem C140_disk (size : Nat) (hs : 0 < size) (x : Ctx) (hx : Faithful x) {fuel limit : Nat} (hl : 0 < limit) {ts : List Test}
    {report : Nat × Nat × List Compare.TestReport} (h : Updates (badgerStorage size) x fuel limit ts [] report) :
    ∃ before after : List Test, before.Perm ts ∧ after.Perm ts ∧ update (badgerStorage size) x fuel [] before after = some report :=
  update_serial (badgerSim size hs) (pre_backed hx).1 (pre_backed hx).2 hl h

/-- **C140**, with results in memory. -/
theorem C140_memory (x : Ctx) {fuel limit : Nat} (hl : 0 < limit) {ts : List Test}
    {report : Nat × Nat × List Compare.TestReport} (h : Updates memStorage x fuel limit ts [] report) :
    ∃ before after : List Test, before.Perm ts ∧ after.Perm ts ∧ update memStorage x fuel [] before after = some report :=
  update_serial memSim (mem_backed x _) (mem_backed x _) hl h

/-- There are updates with all tests running, in memory. -/
theorem update_possible (x : Ctx) {fuel limit : Nat} (hl : 0 < limit) {ts : List Test} {report : Nat × Nat × List Compare.TestReport}
    (h : update memStorage x fuel [] ts ts = some report) : Updates memStorage x fuel limit ts [] report := by
  unfold update runUpdate at h
  obtain ⟨st2, h1, h3⟩ := Option.bind_eq_some_iff.mp h
  obtain ⟨st1, h1, h2⟩ := Option.bind_eq_some_iff.mp h1
  exact ⟨st1, st2, C140_possible hl h1, C140_possible hl h2, h3⟩

/-- The reports of updates with the tests one after the other, for any storage that behaves as a map, with the same fuel for all of them. -/
theorem reports_at {I : Impl} {good : Op → Prop} (S : Sim I good) {x : Ctx} (hx : Faithful x) (Bp : Backed good prePrefix (Enc x)) (Bq : Backed good postPrefix (Enc x))
    {ts : List Test} {f0 : Nat} (h0 : ∀ t ∈ ts, ∃ B P, Comes x f0 t B P) (hn : (ts.map (·.ident)).Nodup) {fuel : Nat} (hf : f0 ≤ fuel) {before after : List Test}
    (hb : before.Perm ts) (ha : after.Perm ts) :
    ∃ same diff reports, update I x fuel I.init before after = some (same, diff, reports) ∧ Reports x fuel ts same diff reports := by
  obtain ⟨st, s, h1, R, h2, h3⟩ := run_ok S hx Bp Bq h0 hn hf hb ha S.init
  obtain ⟨same, diff, reports, h4, h5⟩ := compare_ok S hx Bp Bq hn hf R h2 (fun k hk => (h3 k hk).2)
  refine ⟨same, diff, reports, ?_, h5⟩
  unfold update
  rw [h1, Option.bind_some, h4]

/-- **C140** (partial). The report of an update does not depend on how the tests are interleaved: it has one entry for each test, which is what the test gives alone.
Missing: the conditions of C131 on each test (`Orderly`). -/
theorem C140_reports_partial (x : Ctx) (hx : Faithful x) (ts : List Test) (ho : ∀ t ∈ ts, Orderly x t) (hn : (ts.map (·.ident)).Nodup) :
    ∃ f0, ∀ fuel, f0 ≤ fuel → ∀ limit, 0 < limit → ∃ same diff reports, Reports x fuel ts same diff reports ∧
      (∀ report, Updates memStorage x fuel limit ts [] report ↔ report = (same, diff, reports)) ∧
      ∀ size, 0 < size → ∀ report, Updates (badgerStorage size) x fuel limit ts [] report → report = (same, diff, reports) := by
  obtain ⟨f0, h0⟩ := comes_all ho
  refine ⟨f0, fun fuel hf limit hl => ?_⟩
  obtain ⟨same, diff, reports, h1, h2⟩ := reports_at memSim hx (mem_backed x _) (mem_backed x _) h0 hn hf (.refl ts) (.refl ts)
  refine ⟨same, diff, reports, h2, fun report => ⟨fun hu => ?_, ?_⟩, fun size hs report hu => ?_⟩
  · obtain ⟨a, b, pa, pb, e⟩ := C140_memory x hl hu
    obtain ⟨s', d', r', e1, e2⟩ := reports_at memSim hx (mem_backed x _) (mem_backed x _) h0 hn hf pa pb
    have e3 := e1.symm.trans e
    cases e3
    obtain ⟨rfl, rfl, rfl⟩ := h2.unique e2
    rfl
  · rintro rfl
    exact update_possible x hl h1
  · obtain ⟨a, b, pa, pb, e⟩ := C140_disk size hs x hx hl hu
    obtain ⟨s', d', r', e1, e2⟩ := reports_at (badgerSim size hs) hx (pre_backed hx).1 (pre_backed hx).2 h0 hn hf pa pb
    have e3 := e1.symm.trans e
    cases e3
    obtain ⟨rfl, rfl, rfl⟩ := h2.unique e2
    rfl

/-! ### An interleaving -/

/-- Three tests before the update on two servers: the second is overtaken by the third, which ends first. -/
example (x : Ctx) (a b c : Test) : ∃ st : St (AMap Bytes Storage.Blob), Reach memStorage x 0 2 false [a, b, c] [] st ∧ Over memStorage x 0 2 false [a, b, c] st ∧
    st.err = false ∧ phase (beforeTest memStorage x) [] [a, c, b] = some st.store := by
  let s1 := (saveStep memStorage x false [] a none).1
  let s2 := (saveStep memStorage x false s1 c none).1
  let s3 := (saveStep memStorage x false s2 b none).1
  let R := Reach memStorage x 0 2 false [a, b, c] []
  have r0 : R ⟨[], [.waiting, .waiting, .waiting], false⟩ := .init
  have r1 : R ⟨[], [.started, .waiting, .waiting], false⟩ := r0.step (Step.start _ 0 rfl (by simp) (by simp))
  have r2 : R ⟨[], [.loaded none, .waiting, .waiting], false⟩ := r1.step (Step.load _ 0 a rfl rfl)
  have r3 : R ⟨s1, [.done, .waiting, .waiting], false⟩ := r2.step (Step.save _ 0 a none rfl rfl rfl)
  have r4 : R ⟨s1, [.done, .started, .waiting], false⟩ := r3.step (Step.start _ 1 rfl (by
    intro j hj
    obtain rfl : j = 0 := by omega
    simp) (fun _ => ⟨rfl, Nat.zero_lt_two⟩))
  have r5 : R ⟨s1, [.done, .loaded none, .waiting], false⟩ := r4.step (Step.load _ 1 b rfl rfl)
  have r6 : R ⟨s1, [.done, .loaded none, .started], false⟩ := r5.step (Step.start _ 2 rfl (by
    intro j hj
    obtain rfl | rfl : j = 0 ∨ j = 1 := by omega
    · simp
    · simp) (fun _ => ⟨rfl, Nat.one_lt_two⟩))
  have r7 : R ⟨s1, [.done, .loaded none, .loaded none], false⟩ := r6.step (Step.load _ 2 c rfl rfl)
  have r8 : R ⟨s2, [.done, .loaded none, .done], false⟩ := r7.step (Step.save _ 2 c none rfl rfl rfl)
  have r9 : R ⟨s3, [.done, .done, .done], false⟩ := r8.step (Step.save _ 1 b none rfl rfl rfl)
  refine ⟨_, r9, ?_, rfl, rfl⟩
  have hd : ∀ (i : Nat) (p : Task), [Task.done, Task.done, Task.done][i]? = some p → p = .done := by
    intro i p hp
    match i with
    | 0 => exact (Option.some.inj hp).symm
    | 1 => exact (Option.some.inj hp).symm
    | 2 => exact (Option.some.inj hp).symm
    | i + 3 => cases hp
  intro st' hs
  cases hs with
  | start i hi => cases hd i _ hi
  | load i t hi => cases hd i _ hi
  | save i t b hi => cases hd i _ hi
  | lost i t b hi => cases hd i _ hi
  | fail i b hi => cases hd i _ hi

/-- The first test fails: the second one is never started. -/
example (x : Ctx) (a b : Test) : ∃ st : St (AMap Bytes Storage.Blob), Reach memStorage x 0 2 false [a, b] [] st ∧ st.tasks = [.failed, .waiting] ∧ st.err = true ∧
    Over memStorage x 0 2 false [a, b] st := by
  have r0 : Reach memStorage x 0 2 false [a, b] [] ⟨[], [.waiting, .waiting], false⟩ := .init
  have r1 := r0.step (Step.start _ 0 rfl (by simp) (by simp))
  have r2 := r1.step (Step.load _ 0 a rfl rfl)
  have r3 := r2.step (Step.fail _ 0 none rfl)
  refine ⟨_, r3, rfl, rfl, ?_⟩
  intro st' hs
  have hd : ∀ (i : Nat) (p : Task), [Task.failed, Task.waiting][i]? = some p → p = .failed ∨ (i = 1 ∧ p = .waiting) := by
    intro i p hp
    match i with
    | 0 => exact .inl (Option.some.inj hp).symm
    | 1 => exact .inr ⟨rfl, (Option.some.inj hp).symm⟩
    | i + 2 => cases hp
  cases hs with
  | start i hi _ hl =>
    rcases hd i _ hi with h | ⟨rfl, -⟩
    · cases h
    · cases (hl (by decide)).1
  | load i t hi => rcases hd i _ hi with h | ⟨-, h⟩ <;> cases h
  | save i t b hi => rcases hd i _ hi with h | ⟨-, h⟩ <;> cases h
  | lost i t b hi => rcases hd i _ hi with h | ⟨-, h⟩ <;> cases h
  | fail i b hi => rcases hd i _ hi with h | ⟨-, h⟩ <;> cases h

/-- Two tests of which one changes: every interleaving reports a difference. -/
example (c : Fields.Lib) (dv : Bytes → Bytes → Bytes) : ∃ fuel, (∃ report, Updates memStorage (sample c dv) fuel 2 [testOf [117] [50], testOf [116] [51]] [] report) ∧
    ∀ same diff reports, Updates memStorage (sample c dv) fuel 2 [testOf [117] [50], testOf [116] [51]] [] (same, diff, reports) → diff ≠ 0 := by
  obtain ⟨f0, h⟩ := C140_reports_partial (sample c dv) (faithful_sample c dv) [testOf [117] [50], testOf [116] [51]]
    (by
      intro t ht
      simp only [List.mem_cons, List.not_mem_nil, or_false] at ht
      rcases ht with rfl | rfl
      · exact orderly_testOf c dv _ (.inl rfl)
      · exact orderly_testOf c dv _ (.inr rfl)) (by decide)
  obtain ⟨same, diff, reports, h1, h2, _⟩ := h f0 (Nat.le_refl _) 2 (by decide)
  refine ⟨f0, ⟨_, (h2 _).mpr rfl⟩, fun same' diff' reports' hu => ?_⟩
  have := (h2 _).mp hu
  cases this
  exact fun e => not_kept c dv _ (h1.clean.mp e (testOf [116] [51]) (by simp))

end Verif.Sched
