import Verif.Total.Lemmas
import Mathlib.Tactic.DeriveCountable
import Mathlib.Logic.Equiv.List
import Mathlib.Data.Countable.Basic

/-! C138 and C139: the report of a whole update. -/

namespace Verif.Total

open Verif.Result (Bytes StackFrame TestResult ETest EMap ENode EFrame Dicts)
open Verif.Storage (Impl Blob Sim Op Backed memStorage badgerStorage memSim badgerSim)
open Verif.Pipeline (calm Small small_calm keyed_small inOrder_calm named_small storable_small SmallTree small_test shown_calm at_callA)
open Verif.Compare (TestReport)

/-! ### Examples used below -/

instance : Countable UInt8 := Function.Injective.countable (f := UInt8.toNat) fun _ _ h => UInt8.toNat_inj.mp h

deriving instance Countable for StackFrame
deriving instance Countable for EMap
deriving instance Countable for ENode
deriving instance Countable for EFrame
deriving instance Countable for Dicts
deriving instance Countable for ETest

/-- There is an encoding as it is asked for. -/
theorem exists_codec : ∃ (enc : ETest → Blob) (dec : Blob → Option ETest), (∀ e, dec (enc e) = some e.wire) ∧ ∀ e, ∃ h t, enc e = h :: t ∧ 128 ≤ h.toNat := by
  classical
  obtain ⟨f, hf⟩ := exists_injective_nat ETest
  refine ⟨fun e => 200 :: List.replicate (f e) 0, fun b => if h : ∃ e, f e + 1 = b.length then some h.choose.wire else none, fun e => ?_, fun e => ⟨200, _, rfl, by decide⟩⟩
  have h : ∃ e', f e' + 1 = (200 :: List.replicate (f e) (0 : UInt8)).length := ⟨e, by simp⟩
  dsimp only
  rw [dif_pos h]
  have h2 : f h.choose + 1 = f e + 1 := h.choose_spec.trans (by simp)
  exact congrArg (fun e : ETest => some e.wire) (hf (Nat.add_right_cancel h2))

/-- A setting with that encoding. -/
noncomputable def sample (c : Fields.Lib) (dv : Bytes → Bytes → Bytes) : Ctx :=
  ⟨c, Result.toyH, Result.toyKey, dv, 2, false, exists_codec.choose, exists_codec.choose_spec.choose⟩

theorem faithful_sample (c : Fields.Lib) (dv : Bytes → Bytes → Bytes) : Faithful (sample c dv) :=
  ⟨exists_codec.choose_spec.choose_spec.1, exists_codec.choose_spec.choose_spec.2⟩

/-- A test whose runs before the update show "2" and whose run after it shows `v`. -/
def testOf (ident v : Bytes) : Test := ⟨ident, [84], calm [50], calm [50], calm v, calm [50]⟩

theorem orderly_testOf (c : Fields.Lib) (dv : Bytes → Bytes → Bytes) (ident : Bytes) {v : UInt8} (hv : v = 50 ∨ v = 51) : Orderly (sample c dv) (testOf ident [v]) := by
  have hs : ∀ v : UInt8, Small (calm [v]) := fun v => small_calm (by simp)
  refine ⟨keyed_small _ (by simp [testOf, hs]), inOrder_calm _, inOrder_calm _, by simp [sample], named_small c (hs _), named_small c (hs _), ?_, fun fuel base _ => ?_⟩
  · have hbase : Pipeline.monitored c Result.toyH none false (ident, [84]) (calm [50]) (calm [50]) =
        ⟨ident, [84], [([102], [⟨.cons [97] [49] .goNil .empty, [], 1⟩, ⟨.cons [97] [50] .goNil .empty, [], 2⟩])], [([102], [[109]])], [], 2, false, []⟩ := rfl
    show Pipeline.Storable Result.toyH Result.toyKey (Pipeline.monitored c Result.toyH none false (ident, [84]) (calm [50]) (calm [50]))
    rw [hbase]
    refine storable_small ?_
    intro f hf
    simp [TestResult.frames] at hf
    rcases hf with rfl | rfl <;> simp [SmallTree]
  · refine storable_small (small_test c _ (ident, [84]) ?_)
    rcases hv with rfl | rfl <;> simp

theorem kept_same (c : Fields.Lib) (dv : Bytes → Bytes → Bytes) (ident : Bytes) : Kept (sample c dv) (testOf ident [50]) := by
  exact ⟨fun i path n p v h _ => ⟨h, fun e => by cases e⟩, inf_idem (a := ((calm [50]).projectPanics : Multiset (Bytes × Bytes))),
    inf_idem (a := ((calm [50]).modulePanics : Multiset (Bytes × Bytes)))⟩

theorem not_kept (c : Fields.Lib) (dv : Bytes → Bytes → Bytes) (ident : Bytes) : ¬ Kept (sample c dv) (testOf ident [51]) := by
  intro h
  obtain ⟨m, hm, ha⟩ := (h.values [102] [] 1 [[97]] [50] (shown_calm c _ (by simp)) (shown_calm c _ (by simp))).1
  cases hm
  exact absurd ((at_callA c [51] (by simp) 2 _ _).mp ha).2 (by decide)

/-! ### The report of an update -/

/-- For any storage that behaves as a map, empty at the start. -/
theorem update_reports {I : Impl} {good : Op → Prop} (S : Sim I good) {x : Ctx} (hx : Faithful x) (Bp : Backed good prePrefix (Enc x))
    (Bq : Backed good postPrefix (Enc x)) {ts : List Test} (ho : ∀ t ∈ ts, Orderly x t) (hn : (ts.map (·.ident)).Nodup) :
    ∃ f0, ∀ fuel, f0 ≤ fuel → ∀ before after : List Test, before.Perm ts → after.Perm ts →
      ∃ same diff reports, update I x fuel I.init before after = some (same, diff, reports) ∧ Reports x fuel ts same diff reports := by
  obtain ⟨f0, h0⟩ := comes_all ho
  refine ⟨f0, fun fuel hf before after hb ha => ?_⟩
  obtain ⟨st, s, h1, R, h2, h3⟩ := run_ok S hx Bp Bq h0 hn hf hb ha S.init
  obtain ⟨same, diff, reports, h4, h5⟩ := compare_ok S hx Bp Bq hn hf R h2 (fun k hk => (h3 k hk).2)
  refine ⟨same, diff, reports, ?_, h5⟩
  unfold update
  rw [h1, Option.bind_some, h4]

/-! ## C138: no differences exactly if all tests keep their behaviour -/

/-- **C138** (partial), with results on disk. An update is reported, and the number of differences is zero exactly if each test behaves after the update as it did
before, in whatever order the tests of the two phases finish. Missing: the conditions of C131 on each test (`Orderly`). -/
theorem C138_disk_partial (limit : Nat) (hl : 0 < limit) (x : Ctx) (hx : Faithful x) (ts : List Test) (ho : ∀ t ∈ ts, Orderly x t)
    (hn : (ts.map (·.ident)).Nodup) :
    ∃ f0, ∀ fuel, f0 ≤ fuel → ∀ before after : List Test, before.Perm ts → after.Perm ts →
      ∃ same diff reports, update (badgerStorage limit) x fuel [] before after = some (same, diff, reports) ∧ (diff = 0 ↔ ∀ t ∈ ts, Kept x t) := by
  obtain ⟨f0, h⟩ := update_reports (badgerSim limit hl) hx (pre_backed hx).1 (pre_backed hx).2 ho hn
  refine ⟨f0, fun fuel hf before after hb ha => ?_⟩
  obtain ⟨same, diff, reports, h1, h2⟩ := h fuel hf before after hb ha
  exact ⟨same, diff, reports, h1, h2.clean⟩

/-- **C138** (partial), with results in memory. -/
theorem C138_memory_partial (x : Ctx) (hx : Faithful x) (ts : List Test) (ho : ∀ t ∈ ts, Orderly x t) (hn : (ts.map (·.ident)).Nodup) :
    ∃ f0, ∀ fuel, f0 ≤ fuel → ∀ before after : List Test, before.Perm ts → after.Perm ts →
      ∃ same diff reports, update memStorage x fuel [] before after = some (same, diff, reports) ∧ (diff = 0 ↔ ∀ t ∈ ts, Kept x t) := by
  obtain ⟨f0, h⟩ := update_reports memSim hx (mem_backed x _) (mem_backed x _) ho hn
  refine ⟨f0, fun fuel hf before after hb ha => ?_⟩
  obtain ⟨same, diff, reports, h1, h2⟩ := h fuel hf before after hb ha
  exact ⟨same, diff, reports, h1, h2.clean⟩

/-- Two tests of which one changes, finishing in different orders before and after; and two tests that do not change. -/
example (c : Fields.Lib) (dv : Bytes → Bytes → Bytes) : ∃ fuel same diff reports,
    update (badgerStorage 100) (sample c dv) fuel [] [testOf [117] [50], testOf [116] [51]] [testOf [116] [51], testOf [117] [50]] = some (same, diff, reports) ∧
      diff ≠ 0 := by
  obtain ⟨f0, h⟩ := C138_disk_partial 100 (by decide) (sample c dv) (faithful_sample c dv) [testOf [117] [50], testOf [116] [51]]
    (by
      intro t ht
      simp only [List.mem_cons, List.not_mem_nil, or_false] at ht
      rcases ht with rfl | rfl
      · exact orderly_testOf c dv _ (.inl rfl)
      · exact orderly_testOf c dv _ (.inr rfl)) (by decide)
  obtain ⟨same, diff, reports, h1, h2⟩ := h f0 (Nat.le_refl _) [testOf [117] [50], testOf [116] [51]] [testOf [116] [51], testOf [117] [50]] (.refl _)
    (.swap _ _ _)
  exact ⟨f0, same, diff, reports, h1, fun e => not_kept c dv _ (h2.mp e (testOf [116] [51]) (by simp))⟩

example (c : Fields.Lib) (dv : Bytes → Bytes → Bytes) : ∃ fuel same reports,
    update memStorage (sample c dv) fuel [] [testOf [117] [50], testOf [116] [50]] [testOf [116] [50], testOf [117] [50]] = some (same, 0, reports) := by
  obtain ⟨f0, h⟩ := C138_memory_partial (sample c dv) (faithful_sample c dv) [testOf [117] [50], testOf [116] [50]]
    (by
      intro t ht
      simp only [List.mem_cons, List.not_mem_nil, or_false] at ht
      rcases ht with rfl | rfl <;> exact orderly_testOf c dv _ (.inl rfl)) (by decide)
  obtain ⟨same, diff, reports, h1, h2⟩ := h f0 (Nat.le_refl _) [testOf [117] [50], testOf [116] [50]] [testOf [116] [50], testOf [117] [50]] (.refl _)
    (.swap _ _ _)
  have : diff = 0 := h2.mpr (by
    intro t ht
    simp only [List.mem_cons, List.not_mem_nil, or_false] at ht
    rcases ht with rfl | rfl <;> exact kept_same c dv _)
  exact ⟨f0, same, reports, by rw [h1, this]⟩

/-! ## C139: one report for each test -/

/-- **C139** (partial), with results on disk. The report has for each test exactly one entry, in the order of identifiers, named after the test; the entry is what the
test gives alone, whatever the other tests are, and the totals are the sums over the entries. Missing: the conditions of C131 on each test, and a storage that is not
empty at the start, see `C139_reused_violated`. -/
theorem C139_disk_partial (limit : Nat) (hl : 0 < limit) (x : Ctx) (hx : Faithful x) (ts : List Test) (ho : ∀ t ∈ ts, Orderly x t)
    (hn : (ts.map (·.ident)).Nodup) :
    ∃ f0, ∀ fuel, f0 ≤ fuel → ∀ before after : List Test, before.Perm ts → after.Perm ts →
      ∃ same diff reports, update (badgerStorage limit) x fuel [] before after = some (same, diff, reports) ∧ Reports x fuel ts same diff reports :=
  update_reports (badgerSim limit hl) hx (pre_backed hx).1 (pre_backed hx).2 ho hn

/-- **C139** (partial), with results in memory. -/
theorem C139_memory_partial (x : Ctx) (hx : Faithful x) (ts : List Test) (ho : ∀ t ∈ ts, Orderly x t) (hn : (ts.map (·.ident)).Nodup) :
    ∃ f0, ∀ fuel, f0 ≤ fuel → ∀ before after : List Test, before.Perm ts → after.Perm ts →
      ∃ same diff reports, update memStorage x fuel [] before after = some (same, diff, reports) ∧ Reports x fuel ts same diff reports :=
  update_reports memSim hx (mem_backed x _) (mem_backed x _) ho hn

theorem Reports.unique {x : Ctx} {fuel : Nat} {ts : List Test} {s d s' d' : Nat} {r r' : List TestReport} (h : Reports x fuel ts s d r)
    (h' : Reports x fuel ts s' d' r') : s = s' ∧ d = d' ∧ r = r' := by
  obtain ⟨l, p1, p2, p3⟩ := h.each
  obtain ⟨l', q1, q2, q3⟩ := h'.each
  have e : l = l' := by
    refine (p1.trans q1.symm).eq_of_pairwise (fun a b _ _ hab hba => ?_) p2 q2
    exact absurd (List.lt_trans hab hba) (List.lt_irrefl _)
  subst e
  have hr : r = r' := by
    clear p1 p2 q1 q2 h h'
    induction p3 generalizing r' with
    | nil => cases q3; rfl
    | cons a _ ih =>
      cases q3 with
      | cons b q3 =>
        have := a.1.symm.trans b.1
        rw [ih q3, Option.some.inj this]
  subst hr
  exact ⟨h.same.trans h'.same.symm, h.diff.trans h'.diff.symm, rfl⟩

/-- **C139** (partial). The report does not depend on the orders in which the tests finish, nor on where the results are kept. -/
theorem C139_order_partial (limit : Nat) (hl : 0 < limit) (x : Ctx) (hx : Faithful x) (ts : List Test) (ho : ∀ t ∈ ts, Orderly x t) (hn : (ts.map (·.ident)).Nodup) :
    ∃ f0, ∀ fuel, f0 ≤ fuel → ∀ before after before' after' : List Test, before.Perm ts → after.Perm ts → before'.Perm ts → after'.Perm ts →
      update (badgerStorage limit) x fuel [] before after = update memStorage x fuel [] before' after' := by
  obtain ⟨f0, h⟩ := C139_disk_partial limit hl x hx ts ho hn
  obtain ⟨f1, h'⟩ := C139_memory_partial x hx ts ho hn
  refine ⟨max f0 f1, fun fuel hf before after before' after' h1 h2 h3 h4 => ?_⟩
  obtain ⟨s, d, r, e1, e2⟩ := h fuel (by omega) before after h1 h2
  obtain ⟨s', d', r', e1', e2'⟩ := h' fuel (by omega) before' after' h3 h4
  obtain ⟨rfl, rfl, rfl⟩ := e2.unique e2'
  rw [e1, e1']

/-- **C139** is violated by a storage that is used for two updates, as `SingletonStorageProvider` allows (engine.go:649–656), and by a directory with the results of an
interrupted run: nothing is cleared, and the comparison lists all keys. The second report has entries for the tests of the first update, and counts their differences. -/
theorem C139_reused_violated (x : Ctx) (hx : Faithful x) (ts ts' : List Test) (ho : ∀ t ∈ ts ++ ts', Orderly x t) (hn : ((ts ++ ts').map (·.ident)).Nodup) :
    ∃ fuel st same diff reports, runUpdate memStorage x fuel [] ts ts = some st ∧ update memStorage x fuel st ts' ts' = some (same, diff, reports) ∧
      reports.length = ts.length + ts'.length ∧ (diff = 0 ↔ ∀ t ∈ ts ++ ts', Kept x t) := by
  obtain ⟨f0, h0⟩ := comes_all ho
  have hn' := hn
  rw [List.map_append, List.nodup_append] at hn'
  obtain ⟨n1, n2, n3⟩ := hn'
  obtain ⟨st, s, h1, R, h2, h3⟩ := run_ok memSim hx (mem_backed x _) (mem_backed x _) (fun t ht => h0 t (List.mem_append_left _ ht)) n1 (Nat.le_refl f0) (.refl ts) (.refl ts)
    memSim.init
  obtain ⟨st', s', h4, R', h5, h6⟩ := run_ok memSim hx (mem_backed x _) (mem_backed x _) (fun t ht => h0 t (List.mem_append_right _ ht)) n2 (Nat.le_refl f0) (.refl ts')
    (.refl ts') R
  obtain ⟨same, diff, reports, h7, h8⟩ := compare_ok memSim hx (mem_backed x _) (mem_backed x _) hn (Nat.le_refl f0) R' (by
    intro t ht
    rcases List.mem_append.mp ht with ht | ht
    · obtain ⟨B, P, g1, g2, g3⟩ := h2 t ht
      have := h6 t.ident fun t' ht' => n3 _ (List.mem_map.mpr ⟨t, ht, rfl⟩) _ (List.mem_map.mpr ⟨t', ht', rfl⟩)
      exact ⟨B, P, g1, this.1.trans g2, this.2.trans g3⟩
    · exact h5 t ht) (by
    intro k hk
    rw [(h6 k fun t ht => hk t (List.mem_append_right _ ht)).2, (h3 k fun t ht => hk t (List.mem_append_left _ ht)).2]
    rfl)
  refine ⟨f0, st, same, diff, reports, h1, ?_, ?_, h8.clean⟩
  · unfold update
    rw [h4, Option.bind_some, h7]
  · obtain ⟨l, p1, _, p3⟩ := h8.each
    rw [← p3.length_eq, p1.length_eq, List.length_append]

/-- The test of the first update changed; the second update changes nothing and is reported with differences. -/
example (c : Fields.Lib) (dv : Bytes → Bytes → Bytes) : ∃ fuel st same diff reports,
    runUpdate memStorage (sample c dv) fuel [] [testOf [116] [51]] [testOf [116] [51]] = some st ∧
    update memStorage (sample c dv) fuel st [testOf [117] [50]] [testOf [117] [50]] = some (same, diff, reports) ∧ reports.length = 2 ∧ diff ≠ 0 := by
  obtain ⟨fuel, st, same, diff, reports, h1, h2, h3, h4⟩ := C139_reused_violated (sample c dv) (faithful_sample c dv) [testOf [116] [51]] [testOf [117] [50]]
    (by
      intro t ht
      simp only [List.cons_append, List.nil_append, List.mem_cons, List.not_mem_nil, or_false] at ht
      rcases ht with rfl | rfl
      · exact orderly_testOf c dv _ (.inr rfl)
      · exact orderly_testOf c dv _ (.inl rfl)) (by decide)
  exact ⟨fuel, st, same, diff, reports, h1, h2, h3, fun e => not_kept c dv _ (h4.mp e (testOf [116] [51]) (by simp))⟩

end Verif.Total
