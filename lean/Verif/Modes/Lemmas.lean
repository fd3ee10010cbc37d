import Verif.Modes.Spec

namespace Verif.Modes
open Verif

theorem bkp_ne (p : Path) : bkp p ≠ p := by
  intro h
  have := congrArg List.length h
  simp [bkp] at this

theorem default_rw (umask : Mode) : Default umask (rwAll &&& ~~~umask) := by
  intro i hi
  simp only [BitVec.getLsbD_and, BitVec.getLsbD_not, hi, decide_true, Bool.true_and]
  congr 1
  revert i
  decide

theorem default_unique {umask m m' : Mode} (h : Default umask m) (h' : Default umask m') : m = m' :=
  BitVec.eq_of_getLsbD_eq fun i hi => by rw [h i hi, h' i hi]

theorem default_exec {umask m : Mode} (h : Default umask m) : canExec m = false := by
  unfold canExec
  rw [h 6 (by decide), h 3 (by decide), h 0 (by decide)]
  simp

theorem write_get {umask a : Mode} {d d' : Disk} {p q : Path} {c : Nat} (h : write umask a d p c = some d') (hq : q ≠ p) : d'.get q = d.get q := by
  unfold write at h
  split at h
  · split at h
    · obtain rfl := Option.some.inj h
      rw [AMap.get_set, if_neg hq]
    · cases h
  · obtain rfl := Option.some.inj h
    rw [AMap.get_set, if_neg hq]

theorem write_new {umask a : Mode} {d : Disk} {p : Path} {c : Nat} (h : d.get p = none) : write umask a d p c = some (d.set p ⟨c, a &&& ~~~umask⟩) := by
  simp [write, h]

/-- After commits the backup has the content the file had and the permissions of a new file. -/
theorem commits_bkp {umask : Mode} {p : Path} {f : File} : ∀ (cs : List Nat) (d d' : Disk), d.get (bkp p) = some f → commits umask p d cs = some d' →
    d'.get (bkp p) = some f ∧ ∀ q, q ≠ p → d'.get q = d.get q
  | [], d, d', hb, h => by
    obtain rfl := Option.some.inj h
    exact ⟨hb, fun _ _ => rfl⟩
  | c :: cs, d, d', hb, h => by
    simp only [commits, commit, hb, Option.isSome_some, if_true, Option.bind_eq_bind, Option.bind_some] at h
    cases hw : write umask rwOwner d p c with
    | none => simp [hw] at h
    | some d1 =>
      simp only [hw, Option.bind_some] at h
      have h1 : ∀ q, q ≠ p → d1.get q = d.get q := fun q hq => write_get hw hq
      obtain ⟨i1, i2⟩ := commits_bkp cs d1 d' (by rw [h1 _ (bkp_ne p), hb]) h
      exact ⟨i1, fun q hq => by rw [i2 q hq, h1 q hq]⟩

theorem commits_first {umask : Mode} {p : Path} {f : File} {cs : List Nat} {d d' : Disk} (hne : cs ≠ []) (hf : d.get p = some f) (hb : d.get (bkp p) = none)
    (h : commits umask p d cs = some d') : d'.get (bkp p) = some ⟨f.content, rwAll &&& ~~~umask⟩ ∧ ∀ q, q ≠ p → q ≠ bkp p → d'.get q = d.get q := by
  match cs, hne with
  | c :: cs, _ =>
    simp only [commits, commit, hb, Option.isSome_none, Bool.false_eq_true, if_false, copyFile, hf, Option.bind_eq_bind] at h
    cases hr : canRead f.mode with
    | false => simp [hr] at h
    | true =>
      simp only [hr, if_true, write_new hb, Option.bind_some] at h
      cases hw : write umask rwOwner (d.set (bkp p) ⟨f.content, rwAll &&& ~~~umask⟩) p c with
      | none => simp [hw] at h
      | some d1 =>
        simp only [hw, Option.bind_some] at h
        have h1 : ∀ q, q ≠ p → d1.get q = (d.set (bkp p) ⟨f.content, rwAll &&& ~~~umask⟩).get q := fun q hq => write_get hw hq
        obtain ⟨i1, i2⟩ := commits_bkp cs d1 d' (by rw [h1 _ (bkp_ne p), AMap.get_set, if_pos rfl]) h
        exact ⟨i1, fun q hq hq' => by rw [i2 q hq, h1 q hq, AMap.get_set, if_neg hq']⟩

theorem write_some {umask a : Mode} {d : Disk} {p : Path} {f : File} {c : Nat} (h : d.get p = some f) (hw : canWrite f.mode = true) :
    write umask a d p c = some (d.set p ⟨c, f.mode⟩) := by
  simp [write, h, hw]

theorem commits_some (umask : Mode) {p : Path} {b : File} : ∀ (cs : List Nat) (f : File) (d : Disk), d.get p = some f → d.get (bkp p) = some b → canWrite f.mode = true →
    ∃ d1, commits umask p d cs = some d1 ∧ d1.get p = some ⟨cs.getLastD f.content, f.mode⟩
  | [], f, d, hf, _, _ => ⟨d, rfl, by rw [hf]; rfl⟩
  | c :: cs, f, d, hf, hb, hw => by
    obtain ⟨d1, h1, h2⟩ := commits_some umask cs ⟨c, f.mode⟩ (d.set p ⟨c, f.mode⟩) (by rw [AMap.get_set, if_pos rfl])
      (by rw [AMap.get_set, if_neg (bkp_ne p), hb]) hw
    refine ⟨d1, ?_, by rw [h2]; cases cs <;> rfl⟩
    simp [commits, commit, hb, write_some hf hw, h1]

theorem commits_first_some (umask : Mode) {p : Path} {f : File} {cs : List Nat} {d : Disk} (hne : cs ≠ []) (hf : d.get p = some f) (hb : d.get (bkp p) = none)
    (hr : canRead f.mode = true) (hw : canWrite f.mode = true) : ∃ d1, commits umask p d cs = some d1 ∧ d1.get p = some ⟨cs.getLast hne, f.mode⟩ := by
  match cs, hne with
  | c :: cs, hne =>
    have hf' : (AMap.set d (bkp p) ⟨f.content, rwAll &&& ~~~umask⟩).get p = some f := by rw [AMap.get_set, if_neg (bkp_ne p).symm, hf]
    obtain ⟨d1, h1, h2⟩ := commits_some umask (b := ⟨f.content, rwAll &&& ~~~umask⟩) cs ⟨c, f.mode⟩
      ((AMap.set d (bkp p) ⟨f.content, rwAll &&& ~~~umask⟩).set p ⟨c, f.mode⟩) (by rw [AMap.get_set, if_pos rfl])
      (by rw [AMap.get_set, if_neg (bkp_ne p), AMap.get_set, if_pos rfl]) hw
    refine ⟨d1, ?_, by rw [h2, List.getLast_eq_getLastD]⟩
    simp [commits, commit, hb, copyFile, hf, hr, write_new hb, write_some hf' hw, h1]

theorem copyAll_get {umask : Mode} {cp : Path → Path} : ∀ (ps : List Path) (d d' : Disk), ps.Nodup → Apart cp ps d → copyAll umask cp d ps = some d' →
    (∀ q, (∀ p ∈ ps, q ≠ cp p) → d'.get q = d.get q) ∧ ∀ p ∈ ps, ∃ f, d.get p = some f ∧ d'.get (cp p) = some ⟨f.content, rwAll &&& ~~~umask⟩
  | [], d, d', _, _, h => by
    obtain rfl := Option.some.inj h
    exact ⟨fun _ _ => rfl, by simp⟩
  | p :: ps, d, d', hn, ha, h => by
    simp only [copyAll] at h
    cases hf : d.get p with
    | none => simp [copyFile, hf] at h
    | some f =>
      simp only [copyFile, hf] at h
      cases hr : canRead f.mode with
      | false => simp [hr] at h
      | true =>
        simp only [hr, if_true, write_new (ha.new p (by simp)), Option.bind_some] at h
        have hp : p ∉ ps := (List.nodup_cons.1 hn).1
        have ha' : Apart cp ps (d.set (cp p) ⟨f.content, rwAll &&& ~~~umask⟩) := by
          refine ⟨fun q hq => ?_, fun q hq r hr => ha.other q (by simp [hq]) r (by simp [hr]), fun q hq r hr => ha.inj q (by simp [hq]) r (by simp [hr])⟩
          rw [AMap.get_set, if_neg, ha.new q (by simp [hq])]
          intro e
          have := ha.inj q (by simp [hq]) p (by simp) e
          exact hp (this ▸ hq)
        obtain ⟨i1, i2⟩ := copyAll_get ps _ d' (List.nodup_cons.1 hn).2 ha' h
        constructor
        · intro q hq
          rw [i1 q fun r hr => hq r (by simp [hr]), AMap.get_set, if_neg (hq p (by simp))]
        · intro q hq
          rcases List.mem_cons.1 hq with rfl | hq
          · refine ⟨f, hf, ?_⟩
            rw [i1 _ fun r hr e => hp ?_, AMap.get_set, if_pos rfl]
            have := ha.inj q (by simp) r (by simp [hr]) e
            exact this ▸ hr
          · obtain ⟨g, hg, hg'⟩ := i2 q hq
            refine ⟨g, ?_, hg'⟩
            rw [AMap.get_set, if_neg (ha.other p (by simp) q (by simp [hq])).symm] at hg
            exact hg

theorem copyAll_some (umask : Mode) {cp : Path → Path} : ∀ (ps : List Path) (d : Disk), ps.Nodup → Apart cp ps d → (∀ p ∈ ps, ∃ f, d.get p = some f ∧ canRead f.mode = true) →
    ∃ d', copyAll umask cp d ps = some d'
  | [], d, _, _, _ => ⟨d, rfl⟩
  | p :: ps, d, hn, ha, hr => by
    obtain ⟨f, hf, hf'⟩ := hr p (by simp)
    have hp : p ∉ ps := (List.nodup_cons.1 hn).1
    obtain ⟨d', h⟩ := copyAll_some umask (cp := cp) ps (d.set (cp p) ⟨f.content, rwAll &&& ~~~umask⟩) (List.nodup_cons.1 hn).2
      ⟨fun q hq => by
          rw [AMap.get_set, if_neg, ha.new q (by simp [hq])]
          intro e
          exact hp (ha.inj q (by simp [hq]) p (by simp) e ▸ hq),
        fun q hq r hr => ha.other q (by simp [hq]) r (by simp [hr]), fun q hq r hr => ha.inj q (by simp [hq]) r (by simp [hr])⟩
      fun q hq => by
        obtain ⟨g, hg, hg'⟩ := hr q (by simp [hq])
        exact ⟨g, by rw [AMap.get_set, if_neg (ha.other p (by simp) q (by simp [hq])).symm, hg], hg'⟩
    exact ⟨d', by simp [copyAll, copyFile, hf, hf', write_new (ha.new p (by simp)), h]⟩

end Verif.Modes
