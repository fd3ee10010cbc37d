import Verif.Leave.Lemmas

/-! Property C172. -/

namespace Verif.Leave
open Verif Verif.Files

/-- If no copy and no rename fails, all files are as before, wherever the analysis ends: in the instrumentation, in the tests, in the go command, or at the end. Writes of changed
files may fail. Missing: leftovers of earlier runs, links, a new go.sum, failing copies and renames. -/
theorem C172_left_partial (fs0 : FS) (src gen : Path → Prop) (mods : List Mod) (h : Project fs0 src gen mods) (a : Run) (hb : ∀ op ∈ a.before, OpOkR src gen op)
    (ha : ∀ op ∈ a.after, OpOkR src gen op) (h1 : ∀ x, a.restore1 x = .ok) (h2 : ∀ x, a.restore2 x = .ok) (hc : ∀ p, a.copies p = .ok) (hr : ∀ p, a.renames p = false)
    (hg : Tame mods a.get) : analysis mods a fs0 = fs0 := by
  unfold analysis
  rw [session_left h.files hb h1]
  simp only
  split
  swap
  · rfl
  have hspec := backupMods_spec a.copies mods ⟨fs0, [fs0]⟩ h.modules
  -- the state in which the go command is run
  have hw : ∀ w : W, (∀ q, q ∉ modNames mods → w.fs q = fs0 q) → update a w.fs = a.get w.fs := fun w he => update_left h hg ha h2 he
  let tool : W → W := fun w => w.step (a.get w.fs)
  have hbk : ∀ w', ∀ m ∈ mods, (tool w').fs (bkp m.gomod) = w'.fs (bkp m.gomod) ∧ (tool w').fs (bkp m.gosum) = w'.fs (bkp m.gosum) := fun w' m hm =>
    ⟨hg.frame w'.fs _ fun m' hm' => ⟨(gosum_ne h.modules hm hm').1, (gosum_ne h.modules hm hm').2.1⟩,
      hg.frame w'.fs _ fun m' hm' => ⟨(gosum_ne h.modules hm hm').2.2.1, (gosum_ne h.modules hm hm').2.2.2⟩⟩
  obtain ⟨c1, c2⟩ := C48_gomod_partial mods ⟨fs0, [fs0]⟩ h.modules a.copies a.renames tool hbk
  have c2 := c2 hc
  have hu : updateRun mods a.copies (fun w => w.step (update a w.fs)) a.renames ⟨fs0, [fs0]⟩ = updateRun mods a.copies tool a.renames ⟨fs0, [fs0]⟩ := by
    unfold updateRun
    cases hbm : backupMods a.copies mods ⟨fs0, [fs0]⟩ with
    | mk ok r =>
      obtain ⟨w1, bs⟩ := r
      rw [hbm] at hspec
      cases ok with
      | false => rfl
      | true =>
        simp only [tool]
        rw [hw w1 fun q hq => hspec.frame q fun hq' => hq (mem_bkps_names hq')]
  rw [hu]
  funext q
  by_cases hq : q ∈ modNames mods
  · obtain ⟨m, hm, hq⟩ := mem_modNames_iff.1 hq
    have hsum : fs0 m.gosum = none → ∀ q, q = m.gosum ∨ q = bkp m.gosum →
        (updateRun mods a.copies tool a.renames ⟨fs0, [fs0]⟩).fs q = fs0 q := by
      intro hn q hq
      refine updateRun_frame h hc q (fun fs hfs hsm => ?_) fun m' hm' => ?_
      · rcases hq with rfl | rfl
        · rw [hg.noSum fs m hm (hfs.trans hn), hn]
        · rw [hg.frame fs _ fun m' hm' => ⟨(gosum_ne h.modules hm hm').2.2.1, (gosum_ne h.modules hm hm').2.2.2⟩, hfs]
      · exact other_names h.modules hm hm' hn hq
    rcases hq with rfl | rfl | rfl | rfl
    · exact (c1 m hm (hr _) (hr _)).1
    · rw [(c2 m hm (hr _) (hr _)).1, (h.clean m hm).1]
    · by_cases hn : fs0 m.gosum = none
      · exact hsum hn _ (Or.inl rfl)
      · exact (c1 m hm (hr _) (hr _)).2 hn
    · by_cases hn : fs0 m.gosum = none
      · exact hsum hn _ (Or.inr rfl)
      · rw [(c2 m hm (hr _) (hr _)).2 hn, (h.clean m hm).2]
  · have hq' : ∀ m ∈ mods, q ≠ m.gomod ∧ q ≠ bkp m.gomod ∧ q ≠ m.gosum ∧ q ≠ bkp m.gosum := fun m hm => by
      refine ⟨?_, ?_, ?_, ?_⟩ <;> intro e <;> exact hq (mem_modNames_iff.2 ⟨m, hm, by simp [e]⟩)
    exact updateRun_frame h hc q (fun fs hfs _ => (hg.frame fs q fun m hm => ⟨(hq' m hm).1, (hq' m hm).2.2.1⟩).trans hfs)
      fun m hm => ⟨(hq' m hm).1, (hq' m hm).2.1, fun _ => (hq' m hm).2.2⟩

/-- Sources, their backups and the generated files are as before also if copies and renames of go.mod and go.sum fail, and whatever the go command does to these. -/
theorem C172_sources_partial (fs0 : FS) (src gen : Path → Prop) (mods : List Mod) (h : Project fs0 src gen mods) (a : Run) (hb : ∀ op ∈ a.before, OpOkR src gen op)
    (ha : ∀ op ∈ a.after, OpOkR src gen op) (h1 : ∀ x, a.restore1 x = .ok) (h2 : ∀ x, a.restore2 x = .ok)
    (hg : ∀ fs q, q ∉ modNames mods → a.get fs q = fs q) (q : Path) (hq : q ∉ modNames mods) : analysis mods a fs0 q = fs0 q := by
  unfold analysis
  rw [session_left h.files hb h1]
  split
  swap
  · rfl
  have sp := backupMods_spec a.copies mods ⟨fs0, [fs0]⟩ h.modules
  have hq' : ∀ m ∈ mods, q ≠ m.gomod ∧ q ≠ bkp m.gomod ∧ q ≠ m.gosum ∧ q ≠ bkp m.gosum := fun m hm => by
    refine ⟨?_, ?_, ?_, ?_⟩ <;> intro e <;> exact hq (mem_modNames_iff.2 ⟨m, hm, by simp [e]⟩)
  unfold updateRun
  cases hbm : backupMods a.copies mods ⟨fs0, [fs0]⟩ with
  | mk ok r =>
    obtain ⟨w1, bs⟩ := r
    rw [hbm] at sp
    have fr : ∀ q, q ∉ modNames mods → w1.fs q = fs0 q := fun q hq => sp.frame q fun e => hq (mem_bkps_names e)
    have hbs : ∀ b ∈ bs, q ≠ b.m.gomod ∧ q ≠ bkp b.m.gomod ∧ (b.hasSum = true → q ≠ b.m.gosum ∧ q ≠ bkp b.m.gosum) := fun b hb => by
      obtain ⟨k1, k2, k3⟩ := hq' b.m (sp.sub.subset (List.mem_map_of_mem hb))
      exact ⟨k1, k2, fun _ => k3⟩
    cases ok with
    | false => exact (restoreMods_frame _ q bs w1 hbs).trans (fr q hq)
    | true =>
      simp only
      rw [restoreMods_frame _ q bs _ hbs]
      have hs : ∀ q, q ∉ modNames mods → a.get w1.fs q = fs0 q := fun q hq => (hg _ q hq).trans (fr q hq)
      simp only [W.step, update]
      split
      · rw [session_left (setting_congr h hs) ha h2]
        exact hs q hq
      · exact hs q hq

/-! ### A case -/

/-- A source `c` and a module with go.mod `a`; go.sum would be `b`. -/
def fsEx : FS := fun q => if q = [97] then some (.file [1]) else if q = [99] then some (.file [3]) else none
def modsEx : List Mod := [⟨[97], [98]⟩]
/-- The source is instrumented twice and the update changes go.mod. -/
def runEx : Run where
  before := [.insertLines [99] [9] .ok .ok]
  restore1 := fun _ => .ok
  passed := true
  copies := fun _ => .ok
  get := fun fs => fs.set [97] (.file [2])
  got := true
  after := [.insertLines [99] [8] .ok .ok]
  restore2 := fun _ => .ok
  renames := fun _ => false

theorem projectEx : Project fsEx (· = [99]) (· = [100]) modsEx := by
  refine ⟨⟨?_, ?_, ?_, ?_, ?_⟩, ⟨by decide, ?_, ?_, ?_, ?_⟩, by decide, ?_, ?_⟩
  · rintro p rfl; exact ⟨[3], rfl⟩
  · rintro p rfl; rfl
  · rintro p q rfl rfl; decide
  · rintro p rfl; decide
  · rintro p q rfl rfl; decide
  · intro m hm; simp only [modsEx, List.mem_singleton] at hm; subst hm; exact ⟨[1], rfl⟩
  · intro m hm t; simp only [modsEx, List.mem_singleton] at hm; subst hm; simp [fsEx]
  · intro m hm t; simp only [modsEx, List.mem_singleton] at hm; subst hm; simp [fsEx, bkp]
  · intro m hm t; simp only [modsEx, List.mem_singleton] at hm; subst hm; simp [fsEx, bkp]
  · rintro p rfl; decide
  · rintro p rfl; decide

theorem tameEx : Tame modsEx runEx.get := by
  refine ⟨fun fs q hq => ?_, fun fs m hm h => ?_⟩
  · simp [runEx, FS.set, (hq ⟨[97], [98]⟩ (by simp [modsEx])).1]
  · simp only [modsEx, List.mem_singleton] at hm; subst hm
    simpa [runEx, FS.set] using h

example : analysis modsEx runEx fsEx = fsEx ∧ (run (newM fsEx) runEx.before).w.fs [99] = some (.file [9]) ∧ runEx.get fsEx ≠ fsEx := by
  refine ⟨C172_left_partial fsEx _ _ modsEx projectEx runEx ?_ ?_ (fun _ => rfl) (fun _ => rfl) (fun _ => rfl) (fun _ => rfl) tameEx, by decide, fun h => ?_⟩
  · simp [runEx, OpOkR, OpOk]
  · simp [runEx, OpOkR, OpOk]
  · have := congrFun h [97]
    revert this
    decide

/-- C172 fails: a go.sum made by the update stays (a); and if one source cannot be put back after the first tests, which is only logged, it stays changed although
nothing fails afterwards: the second instrumentation takes the backup for its own and registers no restore (b). -/
theorem C172_left_violated :
    (∃ a : Run, (∀ q, q ≠ [97] → q ≠ [98] → ∀ fs, a.get fs q = fs q) ∧ (∀ x, a.restore1 x = .ok) ∧ (∀ x, a.restore2 x = .ok) ∧ (∀ p, a.copies p = .ok) ∧
      (∀ p, a.renames p = false) ∧ fsEx [98] = none ∧ analysis modsEx a fsEx [98] ≠ none) ∧
    ∃ a : Run, (∀ op ∈ a.before ++ a.after, OpOkR (· = [99]) (· = [100]) op) ∧ Tame modsEx a.get ∧ a.passed = true ∧ a.got = true ∧ (∀ x, a.restore2 x = .ok) ∧ (∀ p, a.copies p = .ok) ∧
      (∀ p, a.renames p = false) ∧ analysis modsEx a fsEx [99] ≠ fsEx [99] := by
  refine ⟨⟨{ runEx with get := fun fs => fs.set [98] (.file [2]) }, ?_, fun _ => rfl, fun _ => rfl, fun _ => rfl, fun _ => rfl, rfl, by decide⟩,
    ⟨{ runEx with restore1 := fun _ => .remove }, ?_, tameEx, rfl, rfl, fun _ => rfl, fun _ => rfl, fun _ => rfl, by decide⟩⟩
  · intro q _ h fs
    simp [FS.set, h]
  · simp [runEx, OpOkR, OpOk]

end Verif.Leave
