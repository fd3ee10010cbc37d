import Verif.Files.ModLemmas

/-!
C46–C48 and C76: what is on disk after instrumenting and restoring, and at every crash point in between.
-/

namespace Verif.Files

/-! ### C46 -/

/-- C46: whatever was committed, injected and restored in between, on a tree without leftovers, with sources that are regular files and
no failing backup copy, a final `Restore` without errors leaves the file system exactly as it was: every source back, every
backup and generated file gone, nothing else touched. Changed files may have failed to be written. And whatever errors a
`Restore` meets, if it reports none, everything is as it was. Missing: leftover backups, linked sources, failing backups and generated
files, and a `Restore` that failed before; see the counterexamples. -/
theorem C46_restore_partial (fs0 : FS) (src gen : Path → Prop) (hs : Setting fs0 src gen) (ops : List Op) (ho : ∀ op ∈ ops, OpOkR src gen op) :
    ((restore (run (newM fs0) ops) fun _ => .ok).1 = true ∧ (restore (run (newM fs0) ops) fun _ => .ok).2.w.fs = fs0) ∧
    ∀ faults, (restore (run (newM fs0) ops) faults).1 = true → (restore (run (newM fs0) ops) faults).2.w.fs = fs0 := by
  have hi := i46_run hs ops _ (i46_new fs0 src gen) ho
  have hb : ∀ faults, (restore (run (newM fs0) ops) faults).1 = true → (restore (run (newM fs0) ops) faults).2.w.fs = fs0 := by
    intro faults h
    unfold restore at h ⊢
    cases hc : cleanupAll (run (newM fs0) ops).cleanup faults (run (newM fs0) ops).w with
    | mk ok w' =>
        rw [hc] at h
        simp only at h ⊢
        subst h
        exact i46_cleanup hs faults _ _ _ hi.nodup hi.acts hi.rest hc
  have ha : (restore (run (newM fs0) ops) fun _ => .ok).1 = true := by
    have := cleanup_ok hs (fun _ => .ok) (fun _ => rfl) _ (run (newM fs0) ops).w hi.nodup hi.acts
    unfold restore
    exact this
  exact ⟨⟨ha, hb _ ha⟩, hb⟩

/-- Two source files `a` and `b`, nothing else. -/
private def fsEx : FS := fun q => if q = [97] then some (.file [1, 2]) else if q = [98] then some (.file [3]) else none

private def srcEx : Path → Prop := fun p => p = [97] ∨ p = [98]
private def genEx : Path → Prop := fun p => p = [99] ∨ p = [100]

private def opsEx : List Op :=
  [.inject [99] [100] false [7] [8] .ok .ok, .stage [97] [9, 9, 9], .commit (fun _ => (.ok, .ok)), .insertLines [98] [5] .ok (.after 0),
   .insertLines [97] [6] .ok .ok]

private theorem settingEx : Setting fsEx srcEx genEx := by
  refine ⟨?_, ?_, ?_, ?_, ?_⟩
  · rintro p (rfl | rfl)
    · exact ⟨_, rfl⟩
    · exact ⟨_, rfl⟩
  · rintro p (rfl | rfl) <;> rfl
  · rintro p q (rfl | rfl) (rfl | rfl) <;> decide
  · rintro p (rfl | rfl) (h | h) <;> exact absurd h (by decide)
  · rintro p q (rfl | rfl) (rfl | rfl) <;> decide

private theorem opsOkEx : ∀ op ∈ opsEx, OpOkR srcEx genEx op := by
  intro op hop
  simp only [opsEx, List.mem_cons, List.not_mem_nil, or_false] at hop
  rcases hop with rfl | rfl | rfl | rfl | rfl
  · exact ⟨⟨Or.inl rfl, Or.inr rfl, by decide, rfl, rfl⟩, fun _ h => by cases h⟩
  · exact ⟨Or.inl rfl, fun _ h => by cases h⟩
  · exact ⟨fun _ => rfl, fun _ h => by cases h⟩
  · exact ⟨⟨Or.inr rfl, rfl⟩, fun _ h => by cases h⟩
  · exact ⟨⟨Or.inl rfl, rfl⟩, fun _ h => by cases h⟩

/-- The hypotheses of C46 hold and the run changes things: before the restore, `a` is changed, `b` is emptied by a failed write, a file
is generated and the backups are there. -/
example : Setting fsEx srcEx genEx ∧ (∀ op ∈ opsEx, OpOkR srcEx genEx op) ∧ (run (newM fsEx) opsEx).w.fs [97] = some (.file [6]) ∧
    (run (newM fsEx) opsEx).w.fs [98] = some (.file []) ∧ (run (newM fsEx) opsEx).w.fs [99] = some (.file [7]) ∧
    (run (newM fsEx) opsEx).w.fs (bkp [97]) = some (.file [1, 2]) :=
  ⟨settingEx, opsOkEx, by decide, by decide, by decide, by decide⟩

/-- C46 does not hold either if the name of the backup is a link that leads to itself: it counts as a backup, so none is made, and the
source is lost though `Restore` reports success. -/
theorem C46_loop_violated : ∃ (fs0 : FS) (ops : List Op), fs0 [97] = some (.file [1]) ∧ (∀ c, fs0 (bkp [97]) ≠ some (.file c)) ∧
    (restore (run (newM fs0) ops) fun _ => .ok).1 = true ∧ ∀ q, (restore (run (newM fs0) ops) fun _ => .ok).2.w.fs q ≠ some (.file [1]) := by
  have hb : (bkp [97] : Path) ≠ [97] := by decide
  refine ⟨fun q => if q = [97] then some (.file [1]) else if q = bkp [97] then some (.link (bkp [97])) else none, [.insertLines [97] [9] .ok .ok], rfl,
    fun c => by simp [hb], by decide +kernel, fun q => ?_⟩
  show FS.set (fun q => if q = [97] then some (.file [1]) else if q = bkp [97] then some (.link (bkp [97])) else none) [97] (.file [9]) q ≠ _
  unfold FS.set
  split
  · simp
  · rename_i h
    simp only [if_neg h]
    split <;> simp

/-- C46 does not hold in general: (a) with a leftover backup no backup is taken and nothing is restored, though `Restore` reports success;
(b) of a linked source the link is backed up, and the file behind it stays changed; (c) when the second generated file cannot be
written, the first one stays; (d) when the backup copy fails, the part written stays; (e) after a `Restore` with an error, another
`Restore` reports success and does nothing. -/
theorem C46_restore_violated :
    (∃ (fs0 : FS) (ops : List Op), (∀ op ∈ ops, OpOkR (· = [97]) (fun _ => False) op) ∧ fs0 [97] = some (.file [1]) ∧
      (restore (run (newM fs0) ops) fun _ => .ok).1 = true ∧ (restore (run (newM fs0) ops) fun _ => .ok).2.w.fs [97] ≠ fs0 [97]) ∧
    (∃ (fs0 : FS) (ops : List Op), (∀ op ∈ ops, OpOkR (· = [97]) (fun _ => False) op) ∧ fs0 (bkp [97]) = none ∧
      (restore (run (newM fs0) ops) fun _ => .ok).1 = true ∧ (restore (run (newM fs0) ops) fun _ => .ok).2.w.fs [98] ≠ fs0 [98]) ∧
    (∃ (fs0 : FS) (op : Op), (∃ f, op = .inject [99] [100] false [7] [8] .ok f) ∧ Setting fs0 srcEx genEx ∧
      (restore (run (newM fs0) [op]) fun _ => .ok).1 = true ∧ (restore (run (newM fs0) [op]) fun _ => .ok).2.w.fs [99] ≠ fs0 [99]) ∧
    (∃ (fs0 : FS) (op : Op), (∃ f, op = .insertLines [97] [9] f .ok) ∧ Setting fs0 srcEx genEx ∧
      (restore (run (newM fs0) [op]) fun _ => .ok).1 = true ∧ (restore (run (newM fs0) [op]) fun _ => .ok).2.w.fs (bkp [97]) ≠ fs0 (bkp [97])) ∧
    (∃ (fs0 : FS) (ops : List Op), Setting fs0 srcEx genEx ∧ (∀ op ∈ ops, OpOk srcEx genEx op) ∧
      (restore (run (newM fs0) ops) fun _ => .ok).1 = true ∧ (restore (run (newM fs0) ops) fun _ => .ok).2.w.fs [97] ≠ fs0 [97]) := by
  refine ⟨⟨fun q => if q = [97] then some (.file [1]) else if q = bkp [97] then some (.file [2]) else none, [.insertLines [97] [9] .ok .ok], ?_, rfl,
      by decide, by decide⟩,
    ⟨fun q => if q = [97] then some (.link [98]) else if q = [98] then some (.file [2]) else none, [.insertLines [97] [9] .ok .ok], ?_, rfl,
      by decide, by decide⟩,
    ⟨fsEx, .inject [99] [100] false [7] [8] .ok .atOpen, ⟨_, rfl⟩, settingEx, by decide, by decide⟩,
    ⟨fsEx, .insertLines [97] [9] (.after 1) .ok, ⟨_, rfl⟩, settingEx, by decide, by decide⟩,
    ⟨fsEx, [.insertLines [97] [9] .ok .ok, .restore (fun _ => .remove)], settingEx, ?_, by decide, by decide⟩⟩
  · intro op hop
    rw [List.mem_singleton.mp hop]
    exact ⟨⟨rfl, rfl⟩, fun _ h => by cases h⟩
  · intro op hop
    rw [List.mem_singleton.mp hop]
    exact ⟨⟨rfl, rfl⟩, fun _ h => by cases h⟩
  · intro op hop
    simp only [List.mem_cons, List.not_mem_nil, or_false] at hop
    rcases hop with rfl | rfl
    · exact ⟨Or.inl rfl, rfl⟩
    · trivial

/-- C46: an error with one file does not keep `Restore` from restoring the others: whatever fails, a file whose own restore does not fail is
back and its backup gone, and generated files whose removal does not fail are gone. -/
theorem C46_others_partial (fs0 : FS) (src gen : Path → Prop) (hs : Setting fs0 src gen) (ops : List Op) (ho : ∀ op ∈ ops, OpOkR src gen op)
    (faults : Action → RFault) :
    (∀ p, src p → faults (.back p) = .ok →
      (restore (run (newM fs0) ops) faults).2.w.fs p = fs0 p ∧ (restore (run (newM fs0) ops) faults).2.w.fs (bkp p) = none) ∧
    ∀ q, (restore (run (newM fs0) ops) faults).2.w.fs q ≠ fs0 q →
      (∃ p, faults (.back p) ≠ .ok ∧ (q = p ∨ q = bkp p)) ∨ ∃ c a, faults (.gen c a) ≠ .ok ∧ (q = c ∨ q = a) := by
  have hi := i46_run hs ops _ (i46_new fs0 src gen) ho
  have hl : ∀ q, (∀ a ∈ (run (newM fs0) ops).cleanup, q ∈ touched a → faults a = .ok) → (restore (run (newM fs0) ops) faults).2.w.fs q = fs0 q := by
    intro q hq
    exact cleanup_each hs faults _ _ hi.nodup hi.acts hi.rest q hq
  refine ⟨fun p hp hf => ?_, fun q hq => ?_⟩
  · have hb : ∀ a ∈ (run (newM fs0) ops).cleanup, (p ∈ touched a ∨ bkp p ∈ touched a) → faults a = .ok := by
      intro a ha h
      have := mem_touched_src hs (hi.acts a ha) hp
      rcases h with h | h
      · rw [this.1 h]; exact hf
      · rw [this.2 h]; exact hf
    exact ⟨hl p fun a ha h => hb a ha (Or.inl h), (hl (bkp p) fun a ha h => hb a ha (Or.inr h)).trans (hs.noBackup p hp)⟩
  · by_contra hno
    refine hq (hl q fun a ha h => ?_)
    by_contra hf
    refine hno ?_
    cases a with
    | back p =>
        simp only [touched, List.mem_cons, List.not_mem_nil, or_false] at h
        exact Or.inl ⟨p, hf, h⟩
    | gen c a =>
        simp only [touched, List.mem_cons, List.not_mem_nil, or_false] at h
        exact Or.inr ⟨c, a, hf, h⟩

/-- One file cannot be restored, the other is. -/
example : (restore (run (newM fsEx) opsEx) fun a => if a = .back [97] then .remove else .ok).1 = false ∧
    (restore (run (newM fsEx) opsEx) fun a => if a = .back [97] then .remove else .ok).2.w.fs [98] = fsEx [98] ∧
    (restore (run (newM fsEx) opsEx) fun a => if a = .back [97] then .remove else .ok).2.w.fs [97] ≠ fsEx [97] := by decide

/-! ### C47 -/

/-- C46: a copy that is reported as made is one: a regular file has a copy with its content where the destination leads, a link has one to the same place; of other paths only
that one can have changed. A backup is thus what was backed up, also for links. -/
theorem C46_copy (w : W) (src dst : Path) (f : Fault) (h : (copyFile w src dst f).1 = true) :
    (∀ c, w.fs src = some (.file c) → ∃ q, follow w.fs maxLinks dst = some q ∧ (copyFile w src dst f).2.fs q = some (.file c) ∧
      ∀ r, r ≠ q → (copyFile w src dst f).2.fs r = w.fs r) ∧
    (∀ t, w.fs src = some (.link t) → w.fs dst = none ∧ (copyFile w src dst f).2.fs dst = some (.link t) ∧ ∀ r, r ≠ dst → (copyFile w src dst f).2.fs r = w.fs r) ∧
    w.fs src ≠ none := by
  unfold copyFile at h ⊢
  cases hs : w.fs src with
  | none => rw [hs] at h; cases h
  | some n =>
    rw [hs] at h
    cases n with
    | link t =>
      simp only at h ⊢
      split at h
      · cases h
      · rename_i hd
        rw [if_neg hd]
        refine ⟨by simp, ?_, by simp⟩
        rintro t' ht'
        cases ht'
        refine ⟨by simpa using hd, by simp [W.step], fun r hr => ?_⟩
        simp only [W.step]
        exact set_ne hr
    | file c =>
      simp only [writeFile] at h ⊢
      cases hq : follow w.fs maxLinks dst with
      | none => rw [hq] at h; cases h
      | some q =>
        rw [hq] at h
        cases f with
        | ok =>
          refine ⟨?_, by simp, by simp⟩
          rintro c' hc'
          cases hc'
          exact ⟨q, rfl, by simp [W.writeTo], fun r hr => set_ne hr⟩
        | atOpen => cases h
        | after n => cases h

/-- A link is copied as a link. -/
example : (copyFile ⟨fun q => if q = [97] then some (.link [98]) else none, []⟩ [97] [99] .ok).1 = true ∧
    (copyFile ⟨fun q => if q = [97] then some (.link [98]) else none, []⟩ [97] [99] .ok).2.fs [99] = some (.link [98]) := by decide

/-- C47: at every crash point of a run on a tree without leftovers, whatever writes, removals and renames fail, every source has its
original content in the file or in its backup. Missing: failing backup copies and linked sources. -/
theorem C47_crash_partial (fs0 : FS) (src gen : Path → Prop) (hs : Setting fs0 src gen) (ops : List Op) (ho : ∀ op ∈ ops, OpOk src gen op)
    (fs : FS) (hfs : fs ∈ (run (newM fs0) ops).w.log) (p : Path) (hp : src p) : fs p = fs0 p ∨ fs (bkp p) = fs0 p :=
  (i47_run hs ops _ (i47_new hs) ho).log fs hfs p hp

/-- A run with a failing restore goes through many states, and in some the source is not in its file. -/
example : 15 < (run (newM fsEx) (opsEx ++ [.restore fun _ => .rename])).w.log.length ∧ (∀ op ∈ opsEx ++ [.restore fun _ => .rename], OpOk srcEx genEx op) ∧
    (run (newM fsEx) (opsEx ++ [.restore fun _ => .rename])).w.fs [97] = none := by
  refine ⟨by decide, ?_, by decide⟩
  intro op hop
  rcases List.mem_append.mp hop with h | h
  · exact (opsOkEx op h).1
  · rw [List.mem_singleton.mp h]; trivial

/-- C47: a file is not written when its backup cannot be made: from any state, if the file is a regular file without backup and the copy fails,
the commit fails and the file is as it was, at every crash point. -/
theorem C47_failed_backup (m : M) (p : Path) (c data : Bytes) (hp : m.w.fs p = some (.file c)) (hb : m.w.fs (bkp p) = none) (cf wf : Fault) (hf : cf ≠ .ok) :
    (backupAndWrite m p data cf wf).1 = false ∧ (backupAndWrite m p data cf wf).2.w.fs p = some (.file c) ∧
    ∀ fs ∈ (backupAndWrite m p data cf wf).2.w.log, fs ∈ m.w.log ∨ fs p = some (.file c) := by
  have he : fileExists m.w.fs (bkp p) = false := by rw [fileExists_reg (reg_of_none hb), hb]; rfl
  have hn : p ≠ bkp p := Ne.symm (bkp_ne p)
  unfold backupAndWrite backup
  rw [he]
  rcases copyFile_file hp (reg_of_none hb) cf with ⟨h, _⟩ | ⟨_, h | ⟨d, h⟩⟩
  · exact absurd h hf
  · rw [h]
    exact ⟨rfl, hp, fun fs h => Or.inl h⟩
  · rw [h]
    refine ⟨rfl, ?_, fun fs hfs => ?_⟩
    · show (m.w.fs.set (bkp p) (.file d)) p = _; rw [set_ne hn]; exact hp
    · rcases mem_writeTo hfs with h | ⟨d', rfl⟩
      · exact Or.inl h
      · exact Or.inr (by rw [set_ne hn]; exact hp)

example : (newM fsEx).w.fs [97] = some (.file [1, 2]) ∧ (newM fsEx).w.fs (bkp [97]) = none ∧ (backupAndWrite (newM fsEx) [97] [9] (.after 1) .ok).2.w.fs (bkp [97]) = some (.file [1]) := by
  decide

/-- C47 does not hold when a backup copy fails: the part written counts as a backup the next time, the original is overwritten and is
nowhere on disk. Nor with a linked source: only the link is backed up. -/
theorem C47_crash_violated :
    (∃ (fs0 : FS) (ops : List Op), Setting fs0 srcEx genEx ∧ ops = [.insertLines [97] [9] (.after 1) .ok, .insertLines [97] [9] .ok .ok] ∧
      ∀ q, (run (newM fs0) ops).w.fs q ≠ fs0 [97]) ∧
    (∃ (fs0 : FS) (ops : List Op), (∀ op ∈ ops, OpOk (· = [97]) (fun _ => False) op) ∧ fs0 [97] = some (.link [98]) ∧
      fs0 [98] = some (.file [2]) ∧ ∀ q, (run (newM fs0) ops).w.fs q ≠ fs0 [98]) := by
  refine ⟨⟨fsEx, _, settingEx, rfl, ?_⟩, ⟨fun q => if q = [97] then some (.link [98]) else if q = [98] then some (.file [2]) else none,
    [.insertLines [97] [9] .ok .ok], ?_, rfl, rfl, ?_⟩⟩
  · intro q
    have h : (run (newM fsEx) [.insertLines [97] [9] (.after 1) .ok, .insertLines [97] [9] .ok .ok]).w.fs q
        = if q = [97] then some (.file [9]) else if q = bkp [97] then some (.file [1]) else fsEx q := rfl
    rw [h]
    split
    · decide
    · split
      · decide
      · rename_i h1 _
        simp only [fsEx, if_neg h1]
        split <;> decide
  · intro op hop
    rw [List.mem_singleton.mp hop]
    exact ⟨rfl, rfl⟩
  · intro q
    have h : (run (newM fun q => if q = [97] then some (.link [98]) else if q = [98] then some (.file [2]) else none) [.insertLines [97] [9] .ok .ok]).w.fs q
        = if q = [98] then some (.file [9]) else if q = bkp [97] then some (.link [98]) else
          if q = [97] then some (.link [98]) else if q = [98] then some (.file [2]) else none := rfl
    rw [h]
    split
    · decide
    · split
      · decide
      · split
        · decide
        · rename_i h1 _ _
          simp

/-! ### C48 -/

/-- Two modules have no name in common. -/
private theorem names_inj {mods : List Mod} (h : (modNames mods).Nodup) {m m' : Mod} (hm : m ∈ mods) (hm' : m' ∈ mods) {q : Path} (h1 : q ∈ names m) (h2 : q ∈ names m') : m = m' := by
  induction mods with
  | nil => cases hm
  | cons x l ih =>
      rw [modNames_cons, List.nodup_append] at h
      obtain ⟨h3, h4, h5⟩ := h
      rcases List.mem_cons.mp hm with rfl | _
      · rcases List.mem_cons.mp hm' with rfl | hm'
        · rfl
        · exact absurd rfl (h5 q h1 q (mem_modNames hm' h2))
      · rename_i hml
        rcases List.mem_cons.mp hm' with rfl | hm'
        · exact absurd rfl (h5 q h2 q (mem_modNames hml h1))
        · exact ih h4 hml hm'

private theorem names_each {mods : List Mod} (h : (modNames mods).Nodup) {m : Mod} (hm : m ∈ mods) : (names m).Nodup := by
  induction mods with
  | nil => cases hm
  | cons x l ih =>
      rw [modNames_cons, List.nodup_append] at h
      rcases List.mem_cons.mp hm with rfl | hm
      · exact h.1
      · exact ih h.2.1 hm

private theorem not_bkps {mods : List Mod} (h : (modNames mods).Nodup) {m : Mod} (hm : m ∈ mods) : m.gomod ∉ bkps mods ∧ m.gosum ∉ bkps mods := by
  obtain ⟨n1, n2, n3, n4⟩ := names_nodup (names_each h hm)
  constructor <;> intro hb <;> obtain ⟨m', hm', hq⟩ := List.mem_flatMap.mp hb <;> simp only [List.mem_cons, List.not_mem_nil, or_false] at hq
  · have : m = m' := names_inj h hm hm' (q := m.gomod) (by simp [names]) (by rcases hq with e | e <;> simp [names, e])
    subst this
    rcases hq with e | e
    · exact bkp_ne _ e.symm
    · exact n3 e
  · have : m = m' := names_inj h hm hm' (q := m.gosum) (by simp [names]) (by rcases hq with e | e <;> simp [names, e])
    subst this
    rcases hq with e | e
    · exact n2 e
    · exact bkp_ne _ e.symm

private theorem sublist_names {l l' : List Mod} (h : l.Sublist l') : (modNames l).Sublist (modNames l') := by
  induction h with
  | slnil => exact List.Sublist.refl _
  | cons a _ ih => rw [modNames_cons]; exact ih.trans (List.sublist_append_right _ _)
  | cons_cons a _ ih => rw [modNames_cons, modNames_cons]; exact (List.Sublist.refl _).append ih

/-- C48: whatever the update and the tests do to the files, wherever they stop, and whichever backup copy fails: if the renames at the end
of a module succeed and the backups were left alone, its go.mod is as before and so is its go.sum if it was there; an error
with another module does not matter. If no copy fails, no backup of a file that was there is left. Missing: a go.sum that was not
there before, backups left after a failed copy, and failing renames; see the counterexample. -/
theorem C48_gomod_partial (mods : List Mod) (w : W) (hs : ModSetting w.fs mods) (copyFaults : Path → Fault) (fails : Path → Bool) (tool : W → W)
    (ht : ∀ w', ∀ m ∈ mods, (tool w').fs (bkp m.gomod) = w'.fs (bkp m.gomod) ∧ (tool w').fs (bkp m.gosum) = w'.fs (bkp m.gosum)) :
    (∀ m ∈ mods, fails m.gomod = false → fails m.gosum = false → (updateRun mods copyFaults tool fails w).fs m.gomod = w.fs m.gomod ∧
      (w.fs m.gosum ≠ none → (updateRun mods copyFaults tool fails w).fs m.gosum = w.fs m.gosum)) ∧
    ((∀ p, copyFaults p = .ok) → ∀ m ∈ mods, fails m.gomod = false → fails m.gosum = false → (updateRun mods copyFaults tool fails w).fs (bkp m.gomod) = none ∧
      (w.fs m.gosum ≠ none → (updateRun mods copyFaults tool fails w).fs (bkp m.gosum) = none)) := by
  have sp := backupMods_spec copyFaults mods w hs
  unfold updateRun
  cases hr : backupMods copyFaults mods w with
  | mk ok r =>
      obtain ⟨w1, bs⟩ := r
      rw [hr] at sp
      simp only at sp
      have hnd : (modNames (bs.map (·.m))).Nodup := (sublist_names sp.sub).nodup hs.nodup
      -- the backups after any step that leaves them alone
      have key : ∀ w2 : W, (∀ m ∈ mods, w2.fs (bkp m.gomod) = w1.fs (bkp m.gomod) ∧ w2.fs (bkp m.gosum) = w1.fs (bkp m.gosum)) →
          (∀ q, q ∉ modNames (bs.map (·.m)) → (restoreMods fails bs w2).fs q = w2.fs q) ∧
          ∀ b ∈ bs, fails b.m.gomod = false → fails b.m.gosum = false → (restoreMods fails bs w2).fs b.m.gomod = w.fs b.m.gomod ∧ (restoreMods fails bs w2).fs (bkp b.m.gomod) = none ∧
            (w.fs b.m.gosum ≠ none → (restoreMods fails bs w2).fs b.m.gosum = w.fs b.m.gosum ∧ (restoreMods fails bs w2).fs (bkp b.m.gosum) = none) := by
        intro w2 h2
        have hin : ∀ b ∈ bs, b.m ∈ mods := fun b hb => sp.sub.subset (List.mem_map_of_mem hb)
        have hsv : ∀ b ∈ bs, w2.fs (bkp b.m.gomod) = w.fs b.m.gomod ∧ (b.hasSum = true → w2.fs (bkp b.m.gosum) = w.fs b.m.gosum) := by
          intro b hb
          obtain ⟨s1, s2, s3⟩ := sp.saved b hb
          rw [(h2 _ (hin b hb)).1, (h2 _ (hin b hb)).2]
          exact ⟨s1, s3⟩
        obtain ⟨k1, k2⟩ := restoreMods_ok fails bs w2 hnd (fun b hb => by
          obtain ⟨s1, s2, s3⟩ := sp.saved b hb
          rw [(hsv b hb).1]
          refine ⟨?_, fun h => ?_⟩
          · obtain ⟨c, hc⟩ := hs.gomod _ (hin b hb)
            exact ⟨_, hc⟩
          · rw [(hsv b hb).2 h]
            rw [s2] at h
            exact Option.isSome_iff_exists.mp h)
        refine ⟨k1, fun b hb f1 f2 => ?_⟩
        obtain ⟨s1, s2, s3⟩ := sp.saved b hb
        obtain ⟨r1, r2, r3⟩ := k2 b hb f1 f2
        refine ⟨r1.trans (hsv b hb).1, r2, fun hne => ?_⟩
        have hh : b.hasSum = true := by rw [s2]; exact Option.isSome_iff_ne_none.mpr hne
        exact ⟨((r3 hh).1).trans ((hsv b hb).2 hh), (r3 hh).2⟩
      cases ok with
      | true =>
          simp only
          obtain ⟨_, k2⟩ := key (tool w1) (ht w1)
          have hall := sp.all rfl
          have hb : ∀ m ∈ mods, ∃ b ∈ bs, b.m = m := fun m hm => by
            rw [← hall] at hm
            exact List.mem_map.mp hm
          refine ⟨fun m hm f1 f2 => ?_, fun _ m hm f1 f2 => ?_⟩
          · obtain ⟨b, hb, rfl⟩ := hb m hm
            exact ⟨(k2 b hb f1 f2).1, fun h => ((k2 b hb f1 f2).2.2 h).1⟩
          · obtain ⟨b, hb, rfl⟩ := hb m hm
            exact ⟨(k2 b hb f1 f2).2.1, fun h => ((k2 b hb f1 f2).2.2 h).2⟩
      | false =>
          simp only
          obtain ⟨k1, k2⟩ := key w1 (fun _ _ => ⟨rfl, rfl⟩)
          refine ⟨fun m hm f1 f2 => ?_, fun h => by cases sp.fine h⟩
          by_cases hmb : ∃ b ∈ bs, b.m = m
          · obtain ⟨b, hb, rfl⟩ := hmb
            exact ⟨(k2 b hb f1 f2).1, fun h => ((k2 b hb f1 f2).2.2 h).1⟩
          · have hno : ∀ q ∈ names m, q ∉ modNames (bs.map (·.m)) := by
              intro q hq hin
              obtain ⟨m', hm', hq'⟩ := List.mem_flatMap.mp hin
              obtain ⟨b, hb, rfl⟩ := List.mem_map.mp hm'
              exact hmb ⟨b, hb, (names_inj hs.nodup hm (sp.sub.subset hm') hq hq').symm⟩
            rw [k1 _ (hno _ (by simp [names])), k1 _ (hno _ (by simp [names])), sp.frame _ (not_bkps hs.nodup hm).1, sp.frame _ (not_bkps hs.nodup hm).2]
            exact ⟨rfl, fun _ => rfl⟩

/-- Two modules, the second without go.sum. -/
private def modsEx : List Mod := [⟨[97], [98]⟩, ⟨[99], [100]⟩]
private def fsMod : FS := fun q => if q = [97] then some (.file [1]) else if q = [98] then some (.file [2]) else if q = [99] then some (.file [3]) else none
/-- The update changes both go.mod and the go.sum. -/
private def toolEx (w : W) : W := w.step (((w.fs.set [97] (.file [9])).set [98] (.file [9])).set [99] (.file [9]))

private theorem modSettingEx : ModSetting fsMod modsEx := by
  refine ⟨by decide, ?_, ?_, ?_, ?_⟩ <;> intro m hm <;> simp only [modsEx, List.mem_cons, List.not_mem_nil, or_false] at hm <;> rcases hm with rfl | rfl
  · exact ⟨_, rfl⟩
  · exact ⟨_, rfl⟩
  all_goals (intro t; simp [fsMod, bkp])

private theorem toolKeepsEx : ∀ w', ∀ m ∈ modsEx, (toolEx w').fs (bkp m.gomod) = w'.fs (bkp m.gomod) ∧ (toolEx w').fs (bkp m.gosum) = w'.fs (bkp m.gosum) := by
  intro w' m hm
  simp only [modsEx, List.mem_cons, List.not_mem_nil, or_false] at hm
  rcases hm with rfl | rfl <;> simp [toolEx, W.step, FS.set, bkp]

example : ModSetting fsMod modsEx ∧ (∀ w', ∀ m ∈ modsEx, (toolEx w').fs (bkp m.gomod) = w'.fs (bkp m.gomod) ∧ (toolEx w').fs (bkp m.gosum) = w'.fs (bkp m.gosum)) ∧
    (updateRun modsEx (fun _ => .ok) toolEx (fun _ => false) ⟨fsMod, [fsMod]⟩).fs [97] = some (.file [1]) ∧
    (toolEx (backupMods (fun _ => .ok) modsEx ⟨fsMod, [fsMod]⟩).2.1).fs [97] = some (.file [9]) :=
  ⟨modSettingEx, toolKeepsEx, by decide, by decide⟩

/-- C48 does not hold in general: (a) a go.sum the update creates stays; (b) when go.sum cannot be copied, the backup of go.mod stays; (c)
when go.mod cannot be renamed, go.sum is not restored either. -/
theorem C48_gomod_violated :
    (∃ (mods : List Mod) (w : W) (tool : W → W), ModSetting w.fs mods ∧
      (∀ w', ∀ m ∈ mods, (tool w').fs (bkp m.gomod) = w'.fs (bkp m.gomod) ∧ (tool w').fs (bkp m.gosum) = w'.fs (bkp m.gosum)) ∧
      ∃ m ∈ mods, (updateRun mods (fun _ => .ok) tool (fun _ => false) w).fs m.gosum ≠ w.fs m.gosum) ∧
    (∃ (mods : List Mod) (w : W) (copyFaults : Path → Fault), ModSetting w.fs mods ∧
      ∃ m ∈ mods, w.fs (bkp m.gomod) = none ∧ (updateRun mods copyFaults (fun w => w) (fun _ => false) w).fs (bkp m.gomod) ≠ none) ∧
    (∃ (mods : List Mod) (w : W) (tool : W → W) (fails : Path → Bool), ModSetting w.fs mods ∧
      (∀ w', ∀ m ∈ mods, (tool w').fs (bkp m.gomod) = w'.fs (bkp m.gomod) ∧ (tool w').fs (bkp m.gosum) = w'.fs (bkp m.gosum)) ∧
      ∃ m ∈ mods, fails m.gosum = false ∧ (updateRun mods (fun _ => .ok) tool fails w).fs m.gosum ≠ w.fs m.gosum) := by
  refine ⟨⟨modsEx, ⟨fsMod, [fsMod]⟩, fun w => w.step (w.fs.set [100] (.file [9])), modSettingEx, ?_, ⟨[99], [100]⟩, by decide, by decide⟩,
    ⟨modsEx, ⟨fsMod, [fsMod]⟩, fun p => if p = [98] then .after 0 else .ok, modSettingEx, ⟨[97], [98]⟩, by decide, by decide, by decide⟩,
    ⟨modsEx, ⟨fsMod, [fsMod]⟩, toolEx, fun p => p == [97], modSettingEx, toolKeepsEx, ⟨[97], [98]⟩, by decide, by decide, by decide⟩⟩
  intro w' m hm
  simp only [modsEx, List.mem_cons, List.not_mem_nil, or_false] at hm
  rcases hm with rfl | rfl <;> simp [W.step, FS.set, bkp]

/-! ### C77 -/

/-- After a backup that succeeds, a regular file and every other regular file is still as it was. -/
private theorem backup_keeps (m : M) (p : Path) (cf : Fault) (hreg : ∀ q, Reg m.w.fs q) :
    (∀ q, Reg (backup m p cf).2.w.fs q) ∧ (backup m p cf).2.pending = m.pending ∧ ∀ q, q ≠ bkp p → (backup m p cf).2.w.fs q = m.w.fs q := by
  unfold backup
  split
  · exact ⟨hreg, rfl, fun _ _ => rfl⟩
  · have set_reg : ∀ d q, Reg (m.w.fs.set (bkp p) (.file d)) q := by
      intro d q t
      by_cases h : q = bkp p
      · subst h; simp
      · rw [set_ne h]; exact hreg q t
    cases hp : m.w.fs p with
    | none =>
        have : copyFile m.w p (bkp p) cf = (false, m.w) := by simp [copyFile, hp]
        rw [this]
        exact ⟨hreg, rfl, fun _ _ => rfl⟩
    | some n =>
        cases n with
        | link t => exact absurd hp (hreg p t)
        | file c =>
            rcases copyFile_file hp (hreg (bkp p)) cf with ⟨_, h⟩ | ⟨_, h | ⟨d, h⟩⟩ <;> rw [h]
            · exact ⟨set_reg c, rfl, fun q hq => set_ne hq⟩
            · exact ⟨hreg, rfl, fun _ _ => rfl⟩
            · exact ⟨set_reg d, rfl, fun q hq => set_ne hq⟩

private theorem backupAndWrite_true (m : M) (p : Path) (data : Bytes) (cf wf : Fault) (hreg : ∀ q, Reg m.w.fs q) :
    (∀ q, Reg (backupAndWrite m p data cf wf).2.w.fs q) ∧ (∀ q, q ≠ p → q ≠ bkp p → (backupAndWrite m p data cf wf).2.w.fs q = m.w.fs q) ∧
    ((backupAndWrite m p data cf wf).1 = true → (backupAndWrite m p data cf wf).2.w.fs p = some (.file data)) := by
  obtain ⟨b1, _, b2⟩ := backup_keeps m p cf hreg
  unfold backupAndWrite
  cases hb : backup m p cf with
  | mk ok m1 =>
      rw [hb] at b1 b2
      simp only at b1 b2
      cases ok with
      | false => exact ⟨b1, fun q _ h => b2 q h, fun h => by cases h⟩
      | true =>
          simp only [writeFile, follow_reg (b1 p)]
          have set_reg : ∀ d q, Reg (m1.w.fs.set p (.file d)) q := by
            intro d q t
            by_cases h : q = p
            · subst h; simp
            · rw [set_ne h]; exact b1 q t
          cases wf with
          | ok =>
              refine ⟨set_reg data, fun q h1 h2 => ?_, fun _ => ?_⟩
              · simp only [W.writeTo]; rw [set_ne h1, b2 q h2]
              · simp [W.writeTo]
          | atOpen => exact ⟨b1, fun q _ h => b2 q h, fun h => by cases h⟩
          | after n =>
              refine ⟨set_reg _, fun q h1 h2 => ?_, fun h => by cases h⟩
              simp only [W.writeTo]; rw [set_ne h1, b2 q h2]

private theorem commitAll_true (faults : Path → Fault × Fault) : ∀ (es : List (Path × Bytes)) (m : M), (∀ q, Reg m.w.fs q) → (es.map (·.1)).Nodup →
    (∀ e ∈ es, ∀ e' ∈ es, e.1 ≠ bkp e'.1) → 
    (∀ q, q ∉ es.map (·.1) → q ∉ es.map (fun e => bkp e.1) → (commitAll es faults m).2.w.fs q = m.w.fs q) ∧
    ((commitAll es faults m).1 = true → ∀ e ∈ es, (commitAll es faults m).2.w.fs e.1 = some (.file e.2)) := by
  intro es
  induction es with
  | nil => intro m _ _ _; exact ⟨fun _ _ _ => rfl, by simp⟩
  | cons e es ih =>
      intro m hreg hnd hne
      obtain ⟨b1, b2, b3⟩ := backupAndWrite_true m e.1 e.2 (faults e.1).1 (faults e.1).2 hreg
      rw [List.map_cons, List.nodup_cons] at hnd
      obtain ⟨i1, i2⟩ := ih (backupAndWrite m e.1 e.2 (faults e.1).1 (faults e.1).2).2 b1 hnd.2
        (fun x hx y hy => hne x (List.mem_cons_of_mem _ hx) y (List.mem_cons_of_mem _ hy))
      simp only [commitAll]
      refine ⟨fun q h1 h2 => ?_, fun h => ?_⟩
      · simp only [List.map_cons, List.mem_cons, not_or] at h1 h2
        rw [i1 q h1.2 h2.2, b2 q h1.1 h2.1]
      · rw [Bool.and_eq_true] at h
        intro x hx
        rcases List.mem_cons.mp hx with rfl | hx
        · rw [i1 x.1 hnd.1 ?_]
          · exact b3 h.1
          · intro hc
            obtain ⟨y, hy, hye⟩ := List.mem_map.mp hc
            exact hne x List.mem_cons_self y (List.mem_cons_of_mem _ hy) hye.symm
        · exact i2 h.2 x hx

/-- C77: a commit that reports success has written every pending file, whatever order they are handled in, leaves every other file except
backups alone, and nothing is pending any more. -/
theorem C77_commit (m : M) (faults : Path → Fault × Fault) (hreg : ∀ q t, m.w.fs q ≠ some (.link t)) (hnd : (m.pending.map (·.1)).Nodup)
    (hne : ∀ e ∈ m.pending, ∀ e' ∈ m.pending, e.1 ≠ bkp e'.1) :
    ((commit m faults).1 = true → (commit m faults).2.pending = [] ∧ ∀ e ∈ m.pending, (commit m faults).2.w.fs e.1 = some (.file e.2)) ∧
    ∀ q, (commit m faults).2.w.fs q ≠ m.w.fs q → ∃ e ∈ m.pending, q = e.1 ∨ q = bkp e.1 := by
  obtain ⟨c1, c2⟩ := commitAll_true faults m.pending m hreg hnd hne
  have hfs : (commit m faults).2.w.fs = (commitAll m.pending faults m).2.w.fs ∧ (commit m faults).1 = (commitAll m.pending faults m).1 ∧
      ((commit m faults).1 = true → (commit m faults).2.pending = []) := by
    unfold commit
    split
    · rename_i h; rw [h]; exact ⟨rfl, rfl, fun _ => rfl⟩
    · rename_i h; rw [h]; exact ⟨rfl, rfl, fun h => by cases h⟩
  obtain ⟨f1, f2, f3⟩ := hfs
  refine ⟨fun h => ⟨f3 h, fun e he => ?_⟩, fun q hq => ?_⟩
  · rw [f1]
    exact c2 (f2 ▸ h) e he
  · by_contra hno
    rw [f1] at hq
    refine hq (c1 q ?_ ?_)
    · intro h
      obtain ⟨e, he, rfl⟩ := List.mem_map.mp h
      exact hno ⟨e, he, Or.inl rfl⟩
    · intro h
      obtain ⟨e, he, rfl⟩ := List.mem_map.mp h
      exact hno ⟨e, he, Or.inr rfl⟩

/-- Two files pending. -/
example : (commit (run (newM fsEx) [.stage [97] [9, 9], .stage [98] [8]]) fun _ => (.ok, .ok)).1 = true ∧
    (commit (run (newM fsEx) [.stage [97] [9, 9], .stage [98] [8]]) fun _ => (.ok, .ok)).2.w.fs [98] = some (.file [8]) ∧
    (run (newM fsEx) [.stage [97] [9, 9], .stage [98] [8]]).pending.length = 2 := by decide

/-! ### C76 -/

/-- C76, sources: if before a run every source has a complete backup, or is itself intact and has no backup, then at every crash point of
the run, and so at the end, its original content is in the file or in the backup, although the run does not know about the backup. Missing:
backups that are not complete. -/
theorem C76_sources_partial (orig : FS) (src gen : Path → Prop) (hs : Setting orig src gen) (fs1 : FS)
    (hfile : ∀ p, src p → ∀ t, fs1 p ≠ some (.link t))
    (hb : ∀ p, src p → fs1 (bkp p) = orig p ∨ (fs1 p = orig p ∧ fs1 (bkp p) = none)) (ops : List Op) (ho : ∀ op ∈ ops, OpOk src gen op)
    (fs : FS) (hfs : fs ∈ (run (newM fs1) ops).w.log) (p : Path) (hp : src p) : fs p = orig p ∨ fs (bkp p) = orig p := by
  have hj : J orig src fs1 := ⟨hb, hfile⟩
  have hi : I47 orig src gen (newM fs1) := by
    refine ⟨by simp [newM], hj, by simp [newM], by simp [newM], by simp [newM], ?_⟩
    intro fs hfs p hp
    rw [show (newM fs1).w.log = [fs1] from rfl, List.mem_singleton] at hfs
    subst hfs
    exact j_kept hj hp
  exact (i47_run hs ops _ hi ho).log fs hfs p hp

/-- A state after a crash in the middle of writing a source: the backup is complete. -/
example : ∃ fs1 ∈ (run (newM fsEx) [.insertLines [97] [9, 9] .ok .ok]).w.log, fs1 [97] = some (.file [9]) ∧ fs1 (bkp [97]) = fsEx [97] := by
  refine ⟨(fsEx.set (bkp [97]) (.file [1, 2])).set [97] (.file [9]), ?_, by decide, by decide⟩
  exact List.mem_of_getElem? (i := 5) rfl

/-- C76, go.mod and go.sum: at every crash point of the update run, whatever copies and renames fail, the original go.mod and go.sum are in
the file or its backup, provided the update leaves the backups alone. Missing: the next run, which begins by overwriting the backups. -/
theorem C76_gomod_partial (mods : List Mod) (fs0 : FS) (hs : ModSetting fs0 mods) (copyFaults : Path → Fault) (fails : Path → Bool) (tool : W → W)
    (ht : ∀ w', ∀ m ∈ mods, (tool w').fs (bkp m.gomod) = w'.fs (bkp m.gomod) ∧ (tool w').fs (bkp m.gosum) = w'.fs (bkp m.gosum))
    (hl : ∀ w', ∀ fs ∈ (tool w').log, fs ∈ w'.log ∨ ∀ m ∈ mods, fs (bkp m.gomod) = w'.fs (bkp m.gomod) ∧ fs (bkp m.gosum) = w'.fs (bkp m.gosum))
    (fs : FS) (hfs : fs ∈ (updateRun mods copyFaults tool fails ⟨fs0, [fs0]⟩).log) (m : Mod) (hm : m ∈ mods) :
    (fs m.gomod = fs0 m.gomod ∨ fs (bkp m.gomod) = fs0 m.gomod) ∧ (fs0 m.gosum ≠ none → fs m.gosum = fs0 m.gosum ∨ fs (bkp m.gosum) = fs0 m.gosum) := by
  let K : Path → Prop := fun p => ∃ m ∈ mods, p = m.gomod ∨ (p = m.gosum ∧ fs0 m.gosum ≠ none)
  have hK : ∀ p q, K p → K q → p ≠ bkp q := by
    rintro p q ⟨m1, hm1, h1⟩ ⟨m2, hm2, h2⟩ rfl
    have hb : bkp q ∈ bkps mods := List.mem_flatMap.mpr ⟨m2, hm2, by rcases h2 with rfl | ⟨rfl, _⟩ <;> simp⟩
    rcases h1 with e | ⟨e, _⟩
    · exact (not_bkps hs.nodup hm1).1 (e ▸ hb)
    · exact (not_bkps hs.nodup hm1).2 (e ▸ hb)
  have hKn : ∀ p, K p → p ∉ bkps mods := by
    rintro p ⟨m1, hm1, rfl | ⟨rfl, _⟩⟩
    · exact (not_bkps hs.nodup hm1).1
    · exact (not_bkps hs.nodup hm1).2
  suffices h : AllKept K fs0 fs by
    exact ⟨(h m.gomod ⟨m, hm, Or.inl rfl⟩).symm, fun hne => (h m.gosum ⟨m, hm, Or.inr ⟨rfl, hne⟩⟩).symm⟩
  have h0 : AllKept K fs0 fs0 := fun p _ => Or.inr rfl
  have sp := backupMods_spec copyFaults mods ⟨fs0, [fs0]⟩ hs
  unfold updateRun at hfs
  cases hr : backupMods copyFaults mods ⟨fs0, [fs0]⟩ with
  | mk ok r =>
      obtain ⟨w1, bs⟩ := r
      rw [hr] at sp hfs
      simp only at sp hfs
      have hnd : (modNames (bs.map (·.m))).Nodup := (sublist_names sp.sub).nodup hs.nodup
      have hin : ∀ b ∈ bs, b.m ∈ mods := fun b hb => sp.sub.subset (List.mem_map_of_mem hb)
      have hlog1 : ∀ fs ∈ w1.log, AllKept K fs0 fs := by
        intro fs hfs p hp
        rcases sp.log fs hfs with h | h
        · rw [List.mem_singleton] at h; subst h; exact h0 p hp
        · exact Or.inr (h p (hKn p hp))
      have hbs : ∀ w2 : W, (∀ m ∈ mods, w2.fs (bkp m.gomod) = w1.fs (bkp m.gomod) ∧ w2.fs (bkp m.gosum) = w1.fs (bkp m.gosum)) →
          ∀ b ∈ bs, K b.m.gomod ∧ w2.fs (bkp b.m.gomod) = fs0 b.m.gomod ∧ (b.hasSum = true → K b.m.gosum ∧ w2.fs (bkp b.m.gosum) = fs0 b.m.gosum) := by
        intro w2 h2 b hb
        obtain ⟨s1, s2, s3⟩ := sp.saved b hb
        refine ⟨⟨b.m, hin b hb, Or.inl rfl⟩, (h2 _ (hin b hb)).1.trans s1, fun h => ⟨⟨b.m, hin b hb, Or.inr ⟨rfl, ?_⟩⟩, (h2 _ (hin b hb)).2.trans (s3 h)⟩⟩
        rw [s2] at h
        exact Option.isSome_iff_ne_none.mp h
      cases ok with
      | false =>
          simp only at hfs
          have hk : AllKept K fs0 w1.fs := fun p hp => Or.inr (sp.frame p (hKn p hp))
          rcases restoreMods_kept hK fails bs w1 hnd (hbs w1 fun _ _ => ⟨rfl, rfl⟩) hk fs hfs with h | h
          · exact hlog1 fs h
          · exact h
      | true =>
          simp only at hfs
          have hall := sp.all rfl
          -- backups complete
          have hfull : ∀ fs' : FS, (∀ m ∈ mods, fs' (bkp m.gomod) = w1.fs (bkp m.gomod) ∧ fs' (bkp m.gosum) = w1.fs (bkp m.gosum)) → AllKept K fs0 fs' := by
            rintro fs' h p ⟨m1, hm1, hp⟩
            obtain ⟨b, hb, rfl⟩ : ∃ b ∈ bs, b.m = m1 := by
              have := hm1
              rw [← hall] at this
              exact List.mem_map.mp this
            obtain ⟨s1, s2, s3⟩ := sp.saved b hb
            rcases hp with rfl | ⟨rfl, hne⟩
            · exact Or.inl ((h _ hm1).1.trans s1)
            · exact Or.inl ((h _ hm1).2.trans (s3 (by rw [s2]; exact Option.isSome_iff_ne_none.mpr hne)))
          rcases restoreMods_kept hK fails bs (tool w1) hnd (hbs _ (ht w1)) (hfull _ (ht w1)) fs hfs with h | h
          · rcases hl w1 fs h with h | h
            · exact hlog1 fs h
            · exact hfull fs h
          · exact h

/-- The hypotheses about the update hold for the example above, and the run goes through many states. -/
example : (∀ w', ∀ fs ∈ (toolEx w').log, fs ∈ w'.log ∨ ∀ m ∈ modsEx, fs (bkp m.gomod) = w'.fs (bkp m.gomod) ∧ fs (bkp m.gosum) = w'.fs (bkp m.gosum)) ∧
    (updateRun modsEx (fun _ => .ok) toolEx (fun p => p == [97]) ⟨fsMod, [fsMod]⟩).log.length = 9 := by
  refine ⟨fun w' fs hfs => ?_, by decide⟩
  simp only [toolEx, W.step, List.mem_append, List.mem_singleton] at hfs
  rcases hfs with h | h
  · exact Or.inl h
  · subst h; exact Or.inr (toolKeepsEx w')

private def fsOne : FS := fun q => if q = [97] then some (.file [1]) else none
private def toolOne (w : W) : W := w.step (w.fs.set [97] (.file [9]))

/-- C76 does not hold in general. Sources: after a crash while the backup is being copied, the next run takes the part for a backup and
overwrites the original, which is then nowhere on disk, and reports a successful restore. go.mod: after a crash during the update,
the next run overwrites the backup with the changed go.mod; at its end the changed one is in place and the original nowhere on disk. -/
theorem C76_rerun_violated :
    (∃ (fs0 : FS) (ops : List Op) (fs1 : FS), Setting fs0 srcEx genEx ∧ (∀ op ∈ ops, OpOkR srcEx genEx op) ∧ fs1 ∈ (run (newM fs0) ops).w.log ∧
      (restore (run (newM fs1) ops) fun _ => .ok).1 = true ∧ ∀ q, (restore (run (newM fs1) ops) fun _ => .ok).2.w.fs q ≠ fs0 [97]) ∧
    (∃ (mods : List Mod) (fs0 : FS) (tool : W → W) (fs1 : FS), ModSetting fs0 mods ∧
      (∀ w', ∀ m ∈ mods, (tool w').fs (bkp m.gomod) = w'.fs (bkp m.gomod) ∧ (tool w').fs (bkp m.gosum) = w'.fs (bkp m.gosum)) ∧
      fs1 ∈ (updateRun mods (fun _ => .ok) tool (fun _ => false) ⟨fs0, [fs0]⟩).log ∧
      ∃ m ∈ mods, ∀ q, (updateRun mods (fun _ => .ok) tool (fun _ => false) ⟨fs1, [fs1]⟩).fs q ≠ fs0 m.gomod) := by
  refine ⟨⟨fsEx, [.insertLines [97] [9] .ok .ok], fsEx.set (bkp [97]) (.file [1]), settingEx, ?_, ?_, by decide, ?_⟩,
    ⟨[⟨[97], [98]⟩], fsOne, toolOne, (fsOne.set (bkp [97]) (.file [1])).set [97] (.file [9]), ?_, ?_, ?_, ⟨[97], [98]⟩, by decide, ?_⟩⟩
  · intro op hop
    rw [List.mem_singleton.mp hop]
    exact ⟨⟨Or.inl rfl, rfl⟩, fun _ h => by cases h⟩
  · exact List.mem_of_getElem? (i := 2) rfl
  · intro q
    have h : (restore (run (newM (fsEx.set (bkp [97]) (.file [1]))) [.insertLines [97] [9] .ok .ok]) fun _ => .ok).2.w.fs q
        = if q = [97] then some (.file [9]) else if q = bkp [97] then some (.file [1]) else fsEx q := rfl
    rw [h]
    split
    · decide
    · split
      · decide
      · rename_i h1 _
        simp only [fsEx, if_neg h1]
        split <;> decide
  · refine ⟨by decide, ?_, ?_, ?_, ?_⟩ <;> intro m hm <;> rw [List.mem_singleton.mp hm]
    · exact ⟨_, rfl⟩
    all_goals (intro t; simp [fsOne, bkp])
  · intro w' m hm
    rw [List.mem_singleton.mp hm]
    simp [toolOne, W.step, FS.set, bkp]
  · exact List.mem_of_getElem? (i := 3) rfl
  · intro q
    have h : (updateRun [⟨[97], [98]⟩] (fun _ => .ok) toolOne (fun _ => false)
        ⟨(fsOne.set (bkp [97]) (.file [1])).set [97] (.file [9]), [(fsOne.set (bkp [97]) (.file [1])).set [97] (.file [9])]⟩).fs q
        = if q = [97] then some (.file [9]) else if q = bkp [97] then none else if q = [97] then some (.file [9]) else if q = bkp [97] then some (.file [9])
          else if q = [97] then some (.file [9]) else if q = bkp [97] then some (.file [1]) else fsOne q := rfl
    rw [h]
    split
    · decide
    · split
      · decide
      · rename_i h1 h2
        simp [fsOne, h1]

end Verif.Files
