import Verif.Timing.Lemmas
import Verif.Verdict.Props

/-! C143: the time changes of the report, in terms of the runs of the tests. -/

namespace Verif.Timing

open Verif.Result (Bytes)
open Verif.Total (Ctx Test Orderly Faithful Reports alone)
open Verif.Verdict (Outcome written)
open Verif.Report (Input metrics through)
open Verif.Compare (Slower Faster)

/-- **C143** (partial). The time changes in the report of an update are those of the runs: a function called by a test is listed, once, exactly if some time between
two of its calls, the same calls before and after the update, changed by more than the factor; and what is listed is such a time. Missing: the conditions of C131 on each test (`Orderly`),
times that do not fit into 32 bits, and changes both ways, of which only the later kind is listed (C32). -/
theorem C143_times_partial (x : Ctx) (hx : Faithful x) (hm : 1 ≤ x.mult) (ts : List Test) (ho : ∀ t ∈ ts, Orderly x t) (hf : ∀ t ∈ ts, Fits x t)
    (hn : (ts.map (·.ident)).Nodup) :
    ∃ f0, ∀ fuel, f0 ≤ fuel → ∀ limit, 0 < limit → (∃ u, Outcome x fuel limit ts u) ∧
      ∀ u, Outcome x fuel limit ts u → ∀ i : Input, Perfs x ts (metrics (written i u)).perf := by
  obtain ⟨f0, h0⟩ := Verdict.outcomes x hx ts ho hn
  obtain ⟨f1, h1⟩ := clocked_all hm ho hf
  refine ⟨max f0 f1, fun fuel hfu limit hl => ⟨(h0 fuel (by omega) limit hl).1, fun u hu i => ?_⟩⟩
  exact perfs_of ((h0 fuel (by omega) limit hl).2 u hu).1 (h1 fuel (by omega)) i

/-- **C143** (partial). The same is so of what is read from the JSON file. Missing: also strings that are not text. -/
theorem C143_file_partial (x : Ctx) (hx : Faithful x) (hm : 1 ≤ x.mult) (ts : List Test) (ho : ∀ t ∈ ts, Orderly x t) (hf : ∀ t ∈ ts, Fits x t)
    (hn : (ts.map (·.ident)).Nodup) :
    ∃ f0, ∀ fuel, f0 ≤ fuel → ∀ limit, 0 < limit → (∃ u, Outcome x fuel limit ts u) ∧
      ∀ u, Outcome x fuel limit ts u → ∀ (i : Input) (js : Bytes → Bytes), Survives js (metrics (written i u)).perf →
        Perfs x ts (through js (metrics (written i u))).perf := by
  obtain ⟨f0, h0⟩ := C143_times_partial x hx hm ts ho hf hn
  refine ⟨f0, fun fuel hfu limit hl => ⟨(h0 fuel hfu limit hl).1, fun u hu i js hj => ?_⟩⟩
  have h := (h0 fuel hfu limit hl).2 u hu i
  rw [through_perf hm hf h hj]
  exact h

/-- An empty list of time changes means that no time changed by more than the factor, and the other way round. -/
theorem C143_steady {x : Ctx} {ts : List Test} {l : List Report.Perf} (h : Perfs x ts l) :
    l = [] ↔ ∀ t ∈ ts, ∀ f, ∀ iv ∈ gaps x t f, ¬ Slower x.mult iv ∧ ¬ Faster x.mult iv := by
  constructor
  · rintro rfl t ht f iv hiv
    rw [← not_or]
    intro hc
    obtain ⟨p, hp, _⟩ := h.complete t ht f ⟨iv, hiv, hc⟩
    cases hp
  · intro hall
    cases l with
    | nil => rfl
    | cons p l =>
        obtain ⟨t, ht, _, _, hT⟩ := h.sound p (by simp)
        obtain ⟨h1, h2⟩ := hall t ht p.caller _ hT.gap
        exact absurd hT.change (not_or.mpr ⟨h1, h2⟩)

/-! ### A test that becomes slow -/

/-- Two calls, the second one after `n` milliseconds. -/
def slowly (n : Nat) : Pipeline.Run := { Pipeline.calm [50] with calls := [Pipeline.callA [49] 1, Pipeline.callA [50] n] }

/-- A test whose second call comes after 2 milliseconds, and after 500 milliseconds after the update. -/
def delayed : Test := ⟨[116], [68], Pipeline.calm [50], Pipeline.calm [50], slowly 500, Pipeline.calm [50]⟩

theorem small_slowly (n : Nat) : Pipeline.Small (slowly n) := by
  intro m hm
  simp only [slowly, List.mem_cons, List.not_mem_nil, or_false] at hm
  rcases hm with rfl | rfl
  · exact ⟨_, _, by decide, rfl⟩
  · exact ⟨_, _, by decide, rfl⟩

theorem orderly_delayed (c : Fields.Lib) (dv : Bytes → Bytes → Bytes) : Orderly (Total.sample c dv) delayed := by
  have h := Total.orderly_testOf c dv [116] (v := 50) (.inl rfl)
  have hs : ∀ v : UInt8, Pipeline.Small (Pipeline.calm [v]) := fun v => Pipeline.small_calm (by simp)
  refine ⟨Pipeline.keyed_small _ (by simp [delayed, hs, small_slowly]), h.first, h.second, by simp [Total.sample], h.named1, Pipeline.named_small c (small_slowly _), ?_,
    fun fuel base _ => ?_⟩
  · have hbase : Pipeline.monitored c Result.toyH none false ([116], [68]) (Pipeline.calm [50]) (Pipeline.calm [50]) =
        ⟨[116], [68], [([102], [⟨.cons [97] [49] .goNil .empty, [], 1⟩, ⟨.cons [97] [50] .goNil .empty, [], 2⟩])], [([102], [[109]])], [], 2, false, []⟩ := rfl
    show Pipeline.Storable Result.toyH Result.toyKey (Pipeline.monitored c Result.toyH none false ([116], [68]) (Pipeline.calm [50]) (Pipeline.calm [50]))
    rw [hbase]
    refine Pipeline.storable_small ?_
    intro f hf
    simp [Result.TestResult.frames] at hf
    rcases hf with rfl | rfl <;> simp [Pipeline.SmallTree]
  · refine Pipeline.storable_small (r := Pipeline.testResult c Result.toyH (some base.callers) ([116], [68]) (slowly 500)) (Pipeline.small_run c _ _ fun m hm => ?_)
    simp only [slowly, List.mem_cons, List.not_mem_nil, or_false] at hm
    rcases hm with rfl | rfl
    · exact ⟨[49], by simp, 1, rfl⟩
    · exact ⟨[50], by simp, 500, rfl⟩

/-- The times of its two calls, and the times between them. -/
theorem gaps_delayed (c : Fields.Lib) (dv : Bytes → Bytes → Bytes) : gaps (Total.sample c dv) delayed [102] = [(1, 1), (1, 499)] := by
  simp [gaps, timeline, callsTo, delayed, slowly, Pipeline.calm, Pipeline.callA, times, Pipeline.callsAlong, Pipeline.pathOf, ms, Total.sample, Compare.intervals]

theorem gaps_none (x : Ctx) {f : Bytes} (hf : f ≠ [102]) : gaps x delayed f = [] := by
  have : callsTo delayed.r1 f = [] := by
    simp [callsTo, delayed, Pipeline.calm, Pipeline.callA, Ne.symm hf]
  unfold gaps timeline
  rw [this]
  rfl

theorem fits_delayed (c : Fields.Lib) (dv : Bytes → Bytes → Bytes) : Fits (Total.sample c dv) delayed := by
  refine ⟨fun m hm => ?_, fun f iv hiv => ?_⟩
  · have : m = Pipeline.callA [49] 1 ∨ m = Pipeline.callA [50] 500 := by simpa [delayed, slowly] using hm
    rcases this with rfl | rfl <;> simp [Pipeline.callA]
  · by_cases hf : f = [102]
    · subst hf
      rw [gaps_delayed] at hiv
      have : iv = (1, 1) ∨ iv = (1, 499) := by simpa using hiv
      rcases this with rfl | rfl <;> simp [Compare.FitsTimes, Total.sample]
    · rw [gaps_none _ hf] at hiv
      cases hiv

/-- The report of this test lists one time, of the function called, which is 498 milliseconds longer. -/
example (c : Fields.Lib) (dv : Bytes → Bytes → Bytes) (i : Input) : ∃ fuel, (∃ u, Outcome (Total.sample c dv) fuel 2 [delayed] u) ∧
    ∀ u, Outcome (Total.sample c dv) fuel 2 [delayed] u → (metrics (written i u)).perf = [⟨[116], [68], [102], 498, 1, 499⟩] := by
  obtain ⟨f0, h⟩ := C143_times_partial (Total.sample c dv) (Total.faithful_sample c dv) (by simp [Total.sample]) [delayed] (by simp [orderly_delayed])
    (by simp [fits_delayed]) (by simp)
  obtain ⟨h1, h2⟩ := h f0 (Nat.le_refl _) 2 (by decide)
  refine ⟨f0, h1, fun u hu => ?_⟩
  have hp := h2 u hu i
  generalize (metrics (written i u)).perf = l at hp
  have hs : ∀ p ∈ l, p = ⟨[116], [68], [102], 498, 1, 499⟩ := by
    intro p hm
    obtain ⟨t, ht, e1, e2, hT⟩ := hp.sound p hm
    rw [List.mem_singleton] at ht
    subst ht
    have hg := hT.gap
    have hc : p.caller = [102] := by
      by_contra hne
      rw [gaps_none _ hne] at hg
      cases hg
    rw [hc, gaps_delayed] at hg
    have hch := hT.change
    have hd := hT.amount
    obtain ⟨a, b, f, d, pre, post⟩ := p
    have e3 : (pre, post) = (1, 1) ∨ (pre, post) = (1, 499) := by simpa using hg
    rcases e3 with e3 | e3 <;> cases e3
    · simp [Slower, Faster, Total.sample] at hch
    · cases e1; cases e2; cases hc
      have hd : d = 498 := hd
      rw [hd]
  obtain ⟨p, hm, _⟩ := hp.complete delayed (by simp) [102] ⟨(1, 499), by rw [gaps_delayed]; simp, .inl (by simp [Slower, Total.sample])⟩
  cases l with
  | nil => cases hm
  | cons a r =>
      rw [hs a (by simp)]
      cases r with
      | nil => rfl
      | cons b r =>
          have := List.rel_of_pairwise_cons hp.once (a' := b) (by simp)
          rw [hs a (by simp), hs b (by simp)] at this
          exact absurd rfl this

end Verif.Timing
