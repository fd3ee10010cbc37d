import Verif.Leave.Spec
import Verif.Files.Props

namespace Verif.Leave
open Verif Verif.Files

theorem session_left {fs0 : FS} {src gen : Path → Prop} (hs : Setting fs0 src gen) {ops : List Op} (ho : ∀ op ∈ ops, OpOkR src gen op) {f : Action → RFault}
    (hf : ∀ a, f a = .ok) : session fs0 ops f = fs0 := by
  have : f = fun _ => .ok := funext hf
  subst this
  exact (C46_restore_partial fs0 src gen hs ops ho).1.2

theorem names_apart {mods : List Mod} (hn : (modNames mods).Nodup) {m m' : Mod} (h : m ∈ mods) (h' : m' ∈ mods) (e : m ≠ m') (q : Path) (hq : q ∈ names m) : q ∉ names m' := by
  induction mods with
  | nil => simp at h
  | cons x xs ih =>
    rw [modNames_cons, List.nodup_append] at hn
    rcases List.mem_cons.1 h with rfl | h1 <;> rcases List.mem_cons.1 h' with rfl | h2
    · exact absurd rfl e
    · exact fun hq' => hn.2.2 q hq q (mem_modNames h2 hq') rfl
    · exact fun hq' => hn.2.2 q hq' q (mem_modNames h1 hq) rfl
    · exact ih hn.2.1 h1 h2

theorem gosum_ne {fs : FS} {mods : List Mod} (hm : ModSetting fs mods) {m m' : Mod} (h : m ∈ mods) (h' : m' ∈ mods) : bkp m.gomod ≠ m'.gomod ∧ bkp m.gomod ≠ m'.gosum ∧
    bkp m.gosum ≠ m'.gomod ∧ bkp m.gosum ≠ m'.gosum := by
  by_cases e : m = m'
  · subst e
    have hn : (names m).Nodup := by
      have := hm.nodup
      exact (List.nodup_flatMap.1 this).1 m h
    simp only [names, List.nodup_cons, List.mem_cons, List.not_mem_nil, or_false, not_or, not_false_eq_true, List.nodup_nil, and_true] at hn
    exact ⟨fun e => hn.1.1 e.symm, hn.2.1.1, fun e => hn.1.2.2 e.symm, fun e => hn.2.2 e.symm⟩
  · have hd : ∀ q, q ∈ names m → q ∉ names m' := names_apart hm.nodup h h' e
    exact ⟨fun e => hd _ (by simp [names] : bkp m.gomod ∈ names m) (by simp [names, e]), fun e => hd _ (by simp [names] : bkp m.gomod ∈ names m) (by simp [names, e]),
      fun e => hd _ (by simp [names] : bkp m.gosum ∈ names m) (by simp [names, e]), fun e => hd _ (by simp [names] : bkp m.gosum ∈ names m) (by simp [names, e])⟩

theorem other_names {fs : FS} {mods : List Mod} (hm : ModSetting fs mods) {m m' : Mod} (h : m ∈ mods) (h' : m' ∈ mods) (hn : fs m.gosum = none) {q : Path}
    (hq : q = m.gosum ∨ q = bkp m.gosum) : q ≠ m'.gomod ∧ q ≠ bkp m'.gomod ∧ (fs m'.gosum ≠ none → q ≠ m'.gosum ∧ q ≠ bkp m'.gosum) := by
  by_cases e : m = m'
  · subst e
    have hnd : (names m).Nodup := (List.nodup_flatMap.1 hm.nodup).1 m h
    obtain ⟨n1, n2, n3, n4⟩ := names_nodup hnd
    refine ⟨?_, ?_, fun e => absurd hn e⟩
    · rcases hq with rfl | rfl
      · exact n1
      · exact n3.symm
    · rcases hq with rfl | rfl
      · exact n2
      · exact n4
  · have hd : ∀ q, q ∈ names m → q ∉ names m' := names_apart hm.nodup h h' e
    have hq : q ∉ names m' := hd q (by rcases hq with rfl | rfl <;> simp [names])
    simp only [names, List.mem_cons, List.not_mem_nil, or_false, not_or] at hq
    exact ⟨hq.1, hq.2.1, fun _ => hq.2.2⟩

/-- A project stays one under changes of the go.mod and go.sum files and their backups, as far as the sources are concerned. -/
theorem setting_congr {fs0 fs : FS} {src gen : Path → Prop} {mods : List Mod} (h : Project fs0 src gen mods) (he : ∀ q, q ∉ modNames mods → fs q = fs0 q) :
    Setting fs src gen :=
  ⟨fun p hp => by rw [he p (h.srcMod p hp).1]; exact h.files.regular p hp, fun p hp => by rw [he _ (h.srcMod p hp).2]; exact h.files.noBackup p hp,
    h.files.notBackup, h.files.genSrc, h.files.genBackup⟩

theorem mem_modNames_iff {mods : List Mod} {q : Path} : q ∈ modNames mods ↔ ∃ m ∈ mods, q = m.gomod ∨ q = bkp m.gomod ∨ q = m.gosum ∨ q = bkp m.gosum := by
  simp [modNames]

theorem update_left {fs0 fs : FS} {src gen : Path → Prop} {mods : List Mod} (h : Project fs0 src gen mods) {a : Run} (hg : Tame mods a.get)
    (ho : ∀ op ∈ a.after, OpOkR src gen op) (hf : ∀ x, a.restore2 x = .ok) (he : ∀ q, q ∉ modNames mods → fs q = fs0 q) : update a fs = a.get fs := by
  unfold update
  split
  · refine session_left (setting_congr h fun q hq => ?_) ho hf
    rw [hg.frame fs q fun m hm => ⟨fun e => hq (mem_modNames_iff.2 ⟨m, hm, Or.inl e⟩), fun e => hq (mem_modNames_iff.2 ⟨m, hm, Or.inr (Or.inr (Or.inl e))⟩)⟩, he q hq]
  · rfl

theorem rename_frame {w : W} {p q r : Path} {f : Bool} (h1 : r ≠ p) (h2 : r ≠ q) : (rename w p q f).2.fs r = w.fs r := by
  unfold rename
  split
  · rfl
  · split
    · rfl
    · simp only [W.step]
      rw [set_ne h2, del_ne h1]

theorem restoreMods_frame (fails : Path → Bool) (q : Path) : ∀ (bs : List Backup) (w : W),
    (∀ b ∈ bs, q ≠ b.m.gomod ∧ q ≠ bkp b.m.gomod ∧ (b.hasSum = true → q ≠ b.m.gosum ∧ q ≠ bkp b.m.gosum)) → (restoreMods fails bs w).fs q = w.fs q
  | [], w, _ => rfl
  | b :: bs, w, h => by
    obtain ⟨h1, h2, h3⟩ := h b (by simp)
    have ih := fun w => restoreMods_frame fails q bs w fun b hb => h b (by simp [hb])
    have hr : (rename w (bkp b.m.gomod) b.m.gomod (fails b.m.gomod)).2.fs q = w.fs q := rename_frame h2 h1
    unfold restoreMods
    cases hn : rename w (bkp b.m.gomod) b.m.gomod (fails b.m.gomod) with
    | mk ok w1 =>
      rw [hn] at hr
      cases ok with
      | false => exact (ih w1).trans hr
      | true =>
        simp only
        split
        · rename_i hs
          rw [ih, rename_frame (h3 hs).2 (h3 hs).1]
          exact hr
        · exact (ih w1).trans hr

/-- The backups write no backup of a go.sum that is not there. -/
theorem backupMods_frame {faults : Path → Fault} (hc : ∀ p, faults p = .ok) (q : Path) : ∀ (ms : List Mod) (w : W), ModSetting w.fs ms →
    (∀ m ∈ ms, q ≠ bkp m.gomod ∧ (w.fs m.gosum ≠ none → q ≠ bkp m.gosum)) → (backupMods faults ms w).2.1.fs q = w.fs q
  | [], w, _, _ => rfl
  | m :: ms, w, hs, h => by
    obtain ⟨h1, h2⟩ := h m (by simp)
    have hnd := hs.nodup
    rw [modNames_cons, List.nodup_append] at hnd
    obtain ⟨hn1, -, hn3⟩ := hnd
    obtain ⟨n1, n2, n3, n4⟩ := names_nodup hn1
    obtain ⟨c, hcm⟩ := hs.gomod m (by simp)
    have step : ∀ w' : W, (∀ r, r ≠ bkp m.gomod → r ≠ bkp m.gosum → w'.fs r = w.fs r) → (backupMods faults ms w').2.1.fs q = w'.fs q := by
      intro w' hw'
      have hsame : ∀ r ∈ modNames ms, w'.fs r = w.fs r := fun r hr =>
        hw' r (fun e => hn3 _ (by simp [names] : bkp m.gomod ∈ names m) r hr e.symm) (fun e => hn3 _ (by simp [names] : bkp m.gosum ∈ names m) r hr e.symm)
      refine backupMods_frame hc q ms w' (modSetting_congr (modSetting_tail hs) hsame) fun m' hm' => ?_
      rw [hsame _ (mem_modNames hm' (by simp [names]))]
      exact h m' (by simp [hm'])
    have hcopy : copyFile w m.gomod (bkp m.gomod) (faults m.gomod) = (true, w.writeTo (bkp m.gomod) c) := by
      rcases copyFile_file hcm (hs.modBkp m (by simp)) (faults m.gomod) with ⟨-, e⟩ | ⟨e, -⟩
      · exact e
      · exact absurd (hc _) e
    have hsum : (w.writeTo (bkp m.gomod) c).fs m.gosum = w.fs m.gosum := by simp [W.writeTo, set_ne n2]
    have hsreg : Reg (w.writeTo (bkp m.gomod) c).fs m.gosum := by
      intro t; rw [hsum]; exact hs.gosum m (by simp) t
    unfold backupMods
    rw [hcopy]
    simp only
    rw [fileExists_reg hsreg, hsum]
    have hq1 : (w.writeTo (bkp m.gomod) c).fs q = w.fs q := set_ne h1
    cases hg : w.fs m.gosum with
    | none =>
      simp only [Option.isSome_none, Bool.false_eq_true, if_false]
      rw [← hq1]
      exact step _ fun r hr _ => set_ne hr
    | some n =>
      simp only [Option.isSome_some, if_true]
      have hn : ∃ d, n = .file d := by
        cases n with
        | file d => exact ⟨d, rfl⟩
        | link t => exact absurd hg (hs.gosum m (by simp) t)
      obtain ⟨d, rfl⟩ := hn
      have hreg : Reg (w.writeTo (bkp m.gomod) c).fs (bkp m.gosum) := by
        intro t
        have : (w.writeTo (bkp m.gomod) c).fs (bkp m.gosum) = w.fs (bkp m.gosum) := set_ne n4
        rw [this]
        exact hs.sumBkp m (by simp) t
      have hcopy2 : copyFile (w.writeTo (bkp m.gomod) c) m.gosum (bkp m.gosum) (faults m.gosum) = (true, (w.writeTo (bkp m.gomod) c).writeTo (bkp m.gosum) d) := by
        rcases copyFile_file (hsum.trans hg) hreg (faults m.gosum) with ⟨-, e⟩ | ⟨e, -⟩
        · exact e
        · exact absurd (hc _) e
      rw [hcopy2]
      simp only
      have hq2 : ((w.writeTo (bkp m.gomod) c).writeTo (bkp m.gosum) d).fs q = w.fs q := (set_ne (h2 (by simp [hg]))).trans hq1
      rw [← hq2]
      exact step _ fun r hr hr' => (set_ne hr').trans (set_ne hr)

/-- Paths that are neither copied to, nor renamed, nor changed by the update stay as they are. -/
theorem updateRun_frame {fs0 : FS} {src gen : Path → Prop} {mods : List Mod} (h : Project fs0 src gen mods) {get : FS → FS} {copies : Path → Fault} (hc : ∀ p, copies p = .ok)
    {renames : Path → Bool} (q : Path) (hg : ∀ fs, fs q = fs0 q → (∀ m ∈ mods, fs m.gosum = fs0 m.gosum) → get fs q = fs0 q)
    (hq : ∀ m ∈ mods, q ≠ m.gomod ∧ q ≠ bkp m.gomod ∧ (fs0 m.gosum ≠ none → q ≠ m.gosum ∧ q ≠ bkp m.gosum)) :
    (updateRun mods copies (fun w => w.step (get w.fs)) renames ⟨fs0, [fs0]⟩).fs q = fs0 q := by
  have sp := backupMods_spec copies mods ⟨fs0, [fs0]⟩ h.modules
  have fr := backupMods_frame hc q mods ⟨fs0, [fs0]⟩ h.modules fun m hm => ⟨(hq m hm).2.1, fun e => ((hq m hm).2.2 e).2⟩
  have frs : ∀ m ∈ mods, (backupMods copies mods ⟨fs0, [fs0]⟩).2.1.fs m.gosum = fs0 m.gosum := fun m hm => sp.frame _ fun hb => by
    obtain ⟨m', hm', hb⟩ := List.mem_flatMap.1 hb
    simp only [List.mem_cons, List.not_mem_nil, or_false] at hb
    rcases hb with e | e
    · exact (gosum_ne h.modules hm' hm).2.1 e.symm
    · exact (gosum_ne h.modules hm' hm).2.2.2 e.symm
  unfold updateRun
  cases hb : backupMods copies mods ⟨fs0, [fs0]⟩ with
  | mk ok r =>
    obtain ⟨w1, bs⟩ := r
    rw [hb] at sp fr frs
    have hbs : ∀ b ∈ bs, q ≠ b.m.gomod ∧ q ≠ bkp b.m.gomod ∧ (b.hasSum = true → q ≠ b.m.gosum ∧ q ≠ bkp b.m.gosum) := by
      intro b hb
      obtain ⟨-, s2, -⟩ := sp.saved b hb
      obtain ⟨k1, k2, k3⟩ := hq b.m (sp.sub.subset (List.mem_map_of_mem hb))
      exact ⟨k1, k2, fun e => k3 (Option.isSome_iff_ne_none.1 (s2 ▸ e))⟩
    cases ok with
    | false => exact (restoreMods_frame renames q bs w1 hbs).trans fr
    | true =>
      simp only
      rw [restoreMods_frame renames q bs _ hbs]
      exact hg w1.fs fr frs

end Verif.Leave
