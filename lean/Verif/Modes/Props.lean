import Verif.Modes.Lemmas

/-! Property C171. -/

namespace Verif.Modes
open Verif

/-- A file that was committed to any number of times and restored has the content from before and the permissions of a new file, whatever it had; no other file is changed
and no backup is left. -/
theorem C171_restored (umask : Mode) (p : Path) (f : File) (cs : List Nat) (d d1 d2 : Disk) (hne : cs ≠ []) (hf : d.get p = some f) (hb : d.get (bkp p) = none)
    (h1 : commits umask p d cs = some d1) (h2 : restore d1 p = some d2) :
    (∃ m, d2.get p = some ⟨f.content, m⟩ ∧ Default umask m) ∧ d2.get (bkp p) = none ∧ ∀ q, q ≠ p → d2.get q = d.get q := by
  obtain ⟨i1, i2⟩ := commits_first hne hf hb h1
  simp only [restore, i1, Option.some.injEq] at h2
  subst h2
  have e : (AMap.set (AMap.del d1 (bkp p)) p ⟨f.content, rwAll &&& ~~~umask⟩).get (bkp p) = none := by
    rw [AMap.get_set, if_neg (bkp_ne p), AMap.get_del, if_pos rfl]
  refine ⟨⟨_, by rw [AMap.get_set, if_pos rfl], default_rw umask⟩, e, fun q hq => ?_⟩
  by_cases hq' : q = bkp p
  · rw [hq', e, hb]
  · rw [AMap.get_set, if_neg hq, AMap.get_del, if_neg hq', i2 q hq hq']

/-- Commits to a file its owner may read and write succeed, leave what was committed last and can be undone. -/
theorem C171_works (umask : Mode) (p : Path) (f : File) (cs : List Nat) (d : Disk) (hf : d.get p = some f) (hb : d.get (bkp p) = none)
    (hr : f.mode.getLsbD 8 = true) (hw : f.mode.getLsbD 7 = true) (hne : cs ≠ []) :
    ∃ d1 d2, commits umask p d cs = some d1 ∧ d1.get p = some ⟨cs.getLast hne, f.mode⟩ ∧ restore d1 p = some d2 :=
  have ⟨d1, h1, h2⟩ := commits_first_some umask hne hf hb hr hw
  ⟨d1, _, h1, h2, by rw [restore, (commits_first hne hf hb h1).1]⟩

/-- Nothing is written to a file its owner may not read, or not write: the commit fails. -/
theorem C171_denied (umask : Mode) (p : Path) (f : File) (c : Nat) (d : Disk) (hf : d.get p = some f) (hb : d.get (bkp p) = none)
    (h : f.mode.getLsbD 8 = false ∨ f.mode.getLsbD 7 = false) : commit umask d p c = none := by
  have hb' : (d.get (bkp p)).isSome = false := by rw [hb]; rfl
  unfold commit
  rw [hb']
  cases hr : canRead f.mode with
  | false => simp [copyFile, hf, hr]
  | true =>
    have hw : canWrite f.mode = false := h.resolve_left (by intro e; rw [canRead, e] at hr; cases hr)
    have e : (AMap.set d (bkp p) ⟨f.content, rwAll &&& ~~~umask⟩).get p = some f := by rw [AMap.get_set, if_neg (bkp_ne p).symm, hf]
    simp [copyFile, hf, hr, write, hb, e, hw]

/-- A file that was removed after its backup was made is made again by the next commit, and then group and others may not write it, whatever the mask. -/
theorem C171_again (umask : Mode) (p : Path) (c : Nat) (d : Disk) (hf : d.get p = none) (hb : (d.get (bkp p)).isSome = true) :
    ∃ d1 m, commit umask d p c = some d1 ∧ d1.get p = some ⟨c, m⟩ ∧ m.getLsbD 4 = false ∧ m.getLsbD 1 = false ∧ m.getLsbD 7 = !umask.getLsbD 7 := by
  refine ⟨_, rwOwner &&& ~~~umask, by simp only [commit, hb, if_true]; simp [write, hf]; rfl, by rw [AMap.get_set, if_pos rfl], ?_, ?_, ?_⟩
  all_goals simp [rwOwner]

example : commit 0b000010010#9 [(['a'], ⟨1, 0b100100100#9⟩)] ['a'] 5 = none := by decide
example : (commit 0b000000000#9 [(['a', '.', 'b', 'k', 'p'], ⟨1, 0b110100100#9⟩)] ['a'] 5).map (fun d => d.get ['a']) = some (some ⟨5, 0b110100100#9⟩) := by decide

/-- So restoring gives back the permissions exactly if the file had those of a new file. Missing: all others. -/
theorem C171_mode_partial (umask : Mode) (p : Path) (f : File) (cs : List Nat) (d d1 d2 : Disk) (hne : cs ≠ []) (hf : d.get p = some f) (hb : d.get (bkp p) = none)
    (h1 : commits umask p d cs = some d1) (h2 : restore d1 p = some d2) : d2.get p = d.get p ↔ Default umask f.mode := by
  obtain ⟨⟨m, hm, hd⟩, -⟩ := C171_restored umask p f cs d d1 d2 hne hf hb h1 h2
  rw [hm, hf]
  constructor
  · intro h
    have : m = f.mode := by
      have := Option.some.inj h
      exact congrArg File.mode this
    exact this ▸ hd
  · intro h
    rw [default_unique hd h]

/-- C171 fails: a file that only its owner may read and write can be read by all after the analysis; one that may be executed no longer may. -/
theorem C171_mode_violated : ∃ (umask : Mode) (p : Path) (f g : File) (d d1 d2 : Disk), d.get p = some f ∧ d.get (bkp p) = none ∧ commits umask p d [7] = some d1 ∧
    restore d1 p = some d2 ∧ d2.get p = some g ∧ f.mode = 0b110000000#9 ∧ g.mode = 0b110100100#9 :=
  ⟨0b000010010#9, ['a'], ⟨1, 0b110000000#9⟩, ⟨1, 0b110100100#9⟩, [(['a'], ⟨1, 0b110000000#9⟩)], _, _, by decide, by decide, rfl, rfl, by decide, rfl, rfl⟩

/-- The files of a copy have the content of the files, and the permissions of new files; the files copied stay as they are. -/
theorem C171_copy (umask : Mode) (cp : Path → Path) (ps : List Path) (d d' : Disk) (hn : ps.Nodup) (ha : Apart cp ps d) (h : copyAll umask cp d ps = some d') :
    (∀ p ∈ ps, d'.get p = d.get p) ∧ ∀ p ∈ ps, ∃ f m, d.get p = some f ∧ d'.get (cp p) = some ⟨f.content, m⟩ ∧ Default umask m := by
  obtain ⟨i1, i2⟩ := copyAll_get ps d d' hn ha h
  refine ⟨fun p hp => i1 p fun q hq => (ha.other q hq p hp).symm, fun p hp => ?_⟩
  obtain ⟨f, hf, hf'⟩ := i2 p hp
  exact ⟨f, _, hf, hf', default_rw umask⟩

/-- Copying files their owner may read succeeds. -/
theorem C171_copied (umask : Mode) (cp : Path → Path) (ps : List Path) (d : Disk) (hn : ps.Nodup) (ha : Apart cp ps d)
    (hr : ∀ p ∈ ps, ∃ f, d.get p = some f ∧ f.mode.getLsbD 8 = true) : ∃ d', copyAll umask cp d ps = some d' :=
  copyAll_some umask ps d hn ha hr

/-- C171 fails for copies: no file of a copy may be executed by anybody, so tests that run a script of the project fail in the copy. -/
theorem C171_exec_violated (umask : Mode) (cp : Path → Path) (ps : List Path) (d d' : Disk) (hn : ps.Nodup) (ha : Apart cp ps d) (h : copyAll umask cp d ps = some d') :
    ∀ p ∈ ps, ∀ g, d'.get (cp p) = some g → canExec g.mode = false := by
  intro p hp g hg
  obtain ⟨f, m, -, h2, h3⟩ := (C171_copy umask cp ps d d' hn ha h).2 p hp
  rw [h2] at hg
  obtain rfl := Option.some.inj hg
  exact default_exec h3

/-! ### A case -/

/-- A script and a source. -/
def demo : Disk := [(['s'], ⟨1, 0b111101101#9⟩), (['a'], ⟨2, 0b110100100#9⟩)]

example : canExec 0b111101101#9 = true ∧ (copyAll 0b000010010#9 (fun p => 'c' :: p) demo [['s'], ['a']]).map (fun d => d.get ['c', 's']) = some (some ⟨1, 0b110100100#9⟩) := by decide
example : Apart (fun p => 'c' :: p) [['s'], ['a']] demo := ⟨by decide, by decide, by decide⟩
example : ∃ d1 d2, commits 0b000010010#9 ['a'] demo [5, 6] = some d1 ∧ d1.get ['a'] = some ⟨6, 0b110100100#9⟩ ∧ restore d1 ['a'] = some d2 ∧ d2.get ['a'] = demo.get ['a'] :=
  ⟨_, _, rfl, by decide, rfl, by decide⟩
example : Default 0b000010010#9 0b110100100#9 := by unfold Default; decide

end Verif.Modes
