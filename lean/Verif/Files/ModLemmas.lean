import Verif.Files.Lemmas

namespace Verif.Files

/-- The four names of a module. -/
def names (m : Mod) : List Path := [m.gomod, bkp m.gomod, m.gosum, bkp m.gosum]

theorem modNames_cons (m : Mod) (ms : List Mod) : modNames (m :: ms) = names m ++ modNames ms := rfl

theorem mem_modNames {m : Mod} {ms : List Mod} (h : m ∈ ms) {q : Path} (hq : q ∈ names m) : q ∈ modNames ms := List.mem_flatMap.mpr ⟨m, h, hq⟩

theorem names_nodup {m : Mod} (h : (names m).Nodup) :
    m.gosum ≠ m.gomod ∧ m.gosum ≠ bkp m.gomod ∧ m.gomod ≠ bkp m.gosum ∧ bkp m.gosum ≠ bkp m.gomod := by
  simp only [names, List.nodup_cons, List.mem_cons, List.not_mem_nil, or_false, not_or, not_false_eq_true, List.nodup_nil, and_true] at h
  exact ⟨fun e => h.1.2.1 e.symm, fun e => h.2.1.1 e.symm, fun e => h.1.2.2 e, fun e => h.2.1.2 e.symm⟩

theorem copyFile_file {w : W} {src dst : Path} {c : Bytes} (hs : w.fs src = some (.file c)) (hd : Reg w.fs dst) (f : Fault) :
    (f = .ok ∧ copyFile w src dst f = (true, w.writeTo dst c)) ∨ (f ≠ .ok ∧ (copyFile w src dst f = (false, w) ∨ ∃ d, copyFile w src dst f = (false, w.writeTo dst d))) := by
  unfold copyFile
  rw [hs]
  simp only [writeFile, follow_reg hd]
  cases f with
  | ok => exact Or.inl ⟨rfl, rfl⟩
  | atOpen => exact Or.inr ⟨by simp, Or.inl rfl⟩
  | after n => exact Or.inr ⟨by simp, Or.inr ⟨_, rfl⟩⟩

/-- Names of the backups. -/
def bkps (ms : List Mod) : List Path := ms.flatMap fun m => [bkp m.gomod, bkp m.gosum]

theorem bkps_cons (m : Mod) (ms : List Mod) : bkps (m :: ms) = [bkp m.gomod, bkp m.gosum] ++ bkps ms := rfl

theorem mem_bkps_names {ms : List Mod} {q : Path} (h : q ∈ bkps ms) : q ∈ modNames ms := by
  obtain ⟨m, hm, hq⟩ := List.mem_flatMap.mp h
  refine mem_modNames hm ?_
  simp only [List.mem_cons, List.not_mem_nil, or_false] at hq
  rcases hq with rfl | rfl <;> simp [names]

/-- A module setting depends on the names of the modules only. -/
theorem modSetting_congr {fs fs' : FS} {ms : List Mod} (h : ModSetting fs ms) (he : ∀ q ∈ modNames ms, fs' q = fs q) : ModSetting fs' ms := by
  refine ⟨h.nodup, fun m hm => ?_, fun m hm t => ?_, fun m hm t => ?_, fun m hm t => ?_⟩
  · rw [he _ (mem_modNames hm (by simp [names]))]; exact h.gomod m hm
  · rw [he _ (mem_modNames hm (by simp [names]))]; exact h.gosum m hm t
  · rw [he _ (mem_modNames hm (by simp [names]))]; exact h.modBkp m hm t
  · rw [he _ (mem_modNames hm (by simp [names]))]; exact h.sumBkp m hm t

theorem modSetting_tail {fs : FS} {m : Mod} {ms : List Mod} (h : ModSetting fs (m :: ms)) : ModSetting fs ms := by
  refine ⟨?_, fun x hx => h.gomod x (List.mem_cons_of_mem _ hx), fun x hx => h.gosum x (List.mem_cons_of_mem _ hx),
    fun x hx => h.modBkp x (List.mem_cons_of_mem _ hx), fun x hx => h.sumBkp x (List.mem_cons_of_mem _ hx)⟩
  have := h.nodup
  rw [modNames_cons, List.nodup_append] at this
  exact this.2.1

/-- What the backup loop does. -/
structure BSpec (faults : Path → Fault) (ms : List Mod) (w : W) (ok : Bool) (w' : W) (bs : List Backup) : Prop where
  frame : ∀ q, q ∉ bkps ms → w'.fs q = w.fs q
  saved : ∀ b ∈ bs, w'.fs (bkp b.m.gomod) = w.fs b.m.gomod ∧ b.hasSum = (w.fs b.m.gosum).isSome ∧ (b.hasSum = true → w'.fs (bkp b.m.gosum) = w.fs b.m.gosum)
  sub : (bs.map (·.m)).Sublist ms
  all : ok = true → bs.map (·.m) = ms
  fine : (∀ p, faults p = .ok) → ok = true
  log : ∀ fs ∈ w'.log, fs ∈ w.log ∨ ∀ q, q ∉ bkps ms → fs q = w.fs q

theorem backupMods_spec (faults : Path → Fault) : ∀ (ms : List Mod) (w : W), ModSetting w.fs ms →
    BSpec faults ms w (backupMods faults ms w).1 (backupMods faults ms w).2.1 (backupMods faults ms w).2.2 := by
  intro ms
  induction ms with
  | nil =>
      intro w _
      exact ⟨fun _ _ => rfl, by simp [backupMods], by simp [backupMods], fun _ => rfl, fun _ => rfl, fun fs h => Or.inl h⟩
  | cons m ms ih =>
      intro w hs
      have hnd := hs.nodup
      rw [modNames_cons, List.nodup_append] at hnd
      obtain ⟨hn1, hn2, hn3⟩ := hnd
      obtain ⟨n1, n2, n3, n4⟩ := names_nodup hn1
      obtain ⟨c, hc⟩ := hs.gomod m List.mem_cons_self
      have hout : ∀ q ∈ names m, q ∉ bkps ms := fun q hq hb => hn3 q hq q (mem_bkps_names hb) rfl
      -- writing a backup of `m`
      have hframe : ∀ (fs : FS) q d, q ∉ bkps (m :: ms) → (fs.set (bkp m.gomod) (.file d)) q = fs q ∧ (fs.set (bkp m.gosum) (.file d)) q = fs q := by
        intro fs q d hq
        rw [bkps_cons, List.mem_append, not_or] at hq
        simp only [List.mem_cons, List.not_mem_nil, or_false, not_or] at hq
        exact ⟨set_ne hq.1.1, set_ne hq.1.2⟩
      have hq' : ∀ q, q ∉ bkps (m :: ms) → q ∉ bkps ms := fun q hq h => hq (by rw [bkps_cons]; exact List.mem_append_right _ h)
      have fail : ∀ w', (∀ q, q ∉ bkps (m :: ms) → w'.fs q = w.fs q) → (∀ fs ∈ w'.log, fs ∈ w.log ∨ ∀ q, q ∉ bkps (m :: ms) → fs q = w.fs q) →
          (¬ ∀ p, faults p = .ok) → BSpec faults (m :: ms) w false w' [] :=
        fun w' h1 h2 h3 => ⟨h1, by simp, by simp, by simp, fun h => absurd h h3, h2⟩
      simp only [backupMods]
      rcases copyFile_file hc (hs.modBkp m List.mem_cons_self) (faults m.gomod) with ⟨_, h1⟩ | ⟨hf, h1 | ⟨d, h1⟩⟩
      · rw [h1]
        simp only
        have hsum : (w.writeTo (bkp m.gomod) c).fs m.gosum = w.fs m.gosum := by simp [W.writeTo, set_ne n2]
        have hsreg : Reg (w.writeTo (bkp m.gomod) c).fs m.gosum := by
          intro t; rw [hsum]; exact hs.gosum m List.mem_cons_self t
        have log1 : ∀ fs ∈ (w.writeTo (bkp m.gomod) c).log, fs ∈ w.log ∨ ∀ q, q ∉ bkps (m :: ms) → fs q = w.fs q := by
          intro fs hfs
          rcases mem_writeTo hfs with h | ⟨d, rfl⟩
          · exact Or.inl h
          · exact Or.inr fun q hq => (hframe _ q d hq).1
        rw [fileExists_reg hsreg, hsum]
        cases hgs : w.fs m.gosum with
        | none =>
            simp only [Option.isSome_none, Bool.false_eq_true, if_false]
            have hset := modSetting_congr (modSetting_tail hs) (fs' := (w.writeTo (bkp m.gomod) c).fs) (fun q hq => by
              have : q ≠ bkp m.gomod := by rintro rfl; exact hn3 _ (by simp [names]) _ hq rfl
              simp [W.writeTo, set_ne this])
            have sp := ih _ hset
            refine ⟨?_, ?_, ?_, ?_, ?_, ?_⟩
            · intro q hq
              rw [sp.frame q (hq' q hq)]
              exact (hframe _ q c hq).1
            · intro b hb
              rcases List.mem_cons.mp hb with rfl | hb
              · refine ⟨?_, by rw [hgs]; rfl, fun h => by cases h⟩
                rw [sp.frame _ (hout _ (by simp [names]))]
                simp [W.writeTo, hc]
              · obtain ⟨s1, s2, s3⟩ := sp.saved b hb
                have hbm : b.m ∈ ms := sp.sub.subset (List.mem_map_of_mem hb)
                have e1 : (w.writeTo (bkp m.gomod) c).fs b.m.gomod = w.fs b.m.gomod := by
                  have : b.m.gomod ≠ bkp m.gomod := fun e => hn3 (bkp m.gomod) (by simp [names]) b.m.gomod (mem_modNames hbm (by simp [names])) e.symm
                  simp [W.writeTo, set_ne this]
                have e2 : (w.writeTo (bkp m.gomod) c).fs b.m.gosum = w.fs b.m.gosum := by
                  have : b.m.gosum ≠ bkp m.gomod := fun e => hn3 (bkp m.gomod) (by simp [names]) b.m.gosum (mem_modNames hbm (by simp [names])) e.symm
                  simp [W.writeTo, set_ne this]
                rw [e1] at s1
                rw [e2] at s2 s3
                exact ⟨s1, s2, s3⟩
            · simpa using sp.sub
            · intro h; simpa using sp.all h
            · exact sp.fine
            · intro fs hfs
              rcases sp.log fs hfs with h | h
              · exact log1 fs h
              · refine Or.inr fun q hq => ?_
                rw [h q (hq' q hq)]
                exact (hframe _ q c hq).1
        | some n =>
            simp only [Option.isSome_some, if_true]
            obtain ⟨cs, hcs⟩ : ∃ cs, n = .file cs := by
              cases n with
              | file cs => exact ⟨cs, rfl⟩
              | link t => exact absurd hgs (hs.gosum m List.mem_cons_self t)
            subst hcs
            have hbreg : Reg (w.writeTo (bkp m.gomod) c).fs (bkp m.gosum) := by
              intro t
              simp only [W.writeTo]
              rw [set_ne n4]
              exact hs.sumBkp m List.mem_cons_self t
            rcases copyFile_file (hsum.trans hgs) hbreg (faults m.gosum) with ⟨_, h2⟩ | ⟨hf, h2 | ⟨d, h2⟩⟩
            · rw [h2]
              simp only
              have hset := modSetting_congr (modSetting_tail hs) (fs' := ((w.writeTo (bkp m.gomod) c).writeTo (bkp m.gosum) cs).fs) (fun q hq => by
                have e1 : q ≠ bkp m.gomod := by rintro rfl; exact hn3 _ (by simp [names]) _ hq rfl
                have e2 : q ≠ bkp m.gosum := by rintro rfl; exact hn3 _ (by simp [names]) _ hq rfl
                simp [W.writeTo, set_ne e1, set_ne e2])
              have sp := ih _ hset
              have hfr : ∀ q, q ∉ bkps (m :: ms) → ((w.writeTo (bkp m.gomod) c).writeTo (bkp m.gosum) cs).fs q = w.fs q := by
                intro q hq
                simp only [W.writeTo]
                rw [(hframe _ q cs hq).2, (hframe _ q c hq).1]
              refine ⟨?_, ?_, ?_, ?_, ?_, ?_⟩
              · intro q hq
                rw [sp.frame q (hq' q hq)]
                exact hfr q hq
              · intro b hb
                rcases List.mem_cons.mp hb with rfl | hb
                · refine ⟨?_, by rw [hgs]; rfl, fun _ => ?_⟩
                  · rw [sp.frame _ (hout _ (by simp [names]))]
                    simp [W.writeTo, hc, set_ne (Ne.symm n4)]
                  · rw [sp.frame _ (hout _ (by simp [names])), hgs]
                    simp [W.writeTo]
                · obtain ⟨s1, s2, s3⟩ := sp.saved b hb
                  have hbm : b.m ∈ ms := sp.sub.subset (List.mem_map_of_mem hb)
                  have e : ∀ q ∈ names b.m, ((w.writeTo (bkp m.gomod) c).writeTo (bkp m.gosum) cs).fs q = w.fs q := by
                    intro q hq
                    have e1 : q ≠ bkp m.gomod := by rintro rfl; exact hn3 _ (by simp [names]) _ (mem_modNames hbm hq) rfl
                    have e2 : q ≠ bkp m.gosum := by rintro rfl; exact hn3 _ (by simp [names]) _ (mem_modNames hbm hq) rfl
                    simp [W.writeTo, set_ne e1, set_ne e2]
                  rw [e _ (by simp [names])] at s1
                  rw [e _ (by simp [names])] at s2 s3
                  exact ⟨s1, s2, s3⟩
              · simpa using sp.sub
              · intro h; simpa using sp.all h
              · exact sp.fine
              · intro fs hfs
                rcases sp.log fs hfs with h | h
                · rcases mem_writeTo h with h | ⟨d, rfl⟩
                  · exact log1 fs h
                  · refine Or.inr fun q hq => ?_
                    rw [(hframe _ q d hq).2]
                    exact (hframe _ q c hq).1
                · refine Or.inr fun q hq => ?_
                  rw [h q (hq' q hq)]
                  exact hfr q hq
            · rw [h2]
              exact fail _ (fun q hq => (hframe _ q c hq).1) log1 fun h => hf (h _)
            · rw [h2]
              refine fail _ (fun q hq => ?_) (fun fs hfs => ?_) fun h => hf (h _)
              · simp only [W.writeTo]
                rw [(hframe _ q d hq).2, (hframe _ q c hq).1]
              · rcases mem_writeTo hfs with h | ⟨d', rfl⟩
                · exact log1 fs h
                · refine Or.inr fun q hq => ?_
                  rw [(hframe _ q d' hq).2]
                  exact (hframe _ q c hq).1
      · rw [h1]
        exact fail _ (fun _ _ => rfl) (fun fs h => Or.inl h) fun h => hf (h _)
      · rw [h1]
        refine fail _ (fun q hq => (hframe _ q d hq).1) (fun fs hfs => ?_) fun h => hf (h _)
        rcases mem_writeTo hfs with h | ⟨d', rfl⟩
        · exact Or.inl h
        · exact Or.inr fun q hq => (hframe _ q d' hq).1

theorem rename_ok {w : W} {src dst : Path} {n : Node} (h : w.fs src = some n) : rename w src dst false = (true, w.step ((w.fs.del src).set dst n)) := by
  simp [rename, h]

/-- What the restore loop does for the modules whose renames do not fail. -/
theorem restoreMods_ok (fails : Path → Bool) : ∀ (bs : List Backup) (w : W), (modNames (bs.map (·.m))).Nodup →
    (∀ b ∈ bs, (∃ n, w.fs (bkp b.m.gomod) = some n) ∧ (b.hasSum = true → ∃ n, w.fs (bkp b.m.gosum) = some n)) →
    (∀ q, q ∉ modNames (bs.map (·.m)) → (restoreMods fails bs w).fs q = w.fs q) ∧
    ∀ b ∈ bs, fails b.m.gomod = false → fails b.m.gosum = false →
      (restoreMods fails bs w).fs b.m.gomod = w.fs (bkp b.m.gomod) ∧ (restoreMods fails bs w).fs (bkp b.m.gomod) = none ∧
      (b.hasSum = true → (restoreMods fails bs w).fs b.m.gosum = w.fs (bkp b.m.gosum) ∧ (restoreMods fails bs w).fs (bkp b.m.gosum) = none) := by
  intro bs
  induction bs with
  | nil => intro w _ _; exact ⟨fun _ _ => rfl, by simp⟩
  | cons b bs ih =>
      intro w hnd hb
      rw [List.map_cons, modNames_cons, List.nodup_append] at hnd
      obtain ⟨hn1, hn2, hn3⟩ := hnd
      obtain ⟨n1, n2, n3, n4⟩ := names_nodup hn1
      obtain ⟨⟨n, hn⟩, hsum⟩ := hb b List.mem_cons_self
      -- one step, then the rest
      have go : ∀ w1 : W, (∀ q, q ∉ names b.m → w1.fs q = w.fs q) →
          (fails b.m.gomod = false → fails b.m.gosum = false → w1.fs b.m.gomod = w.fs (bkp b.m.gomod) ∧ w1.fs (bkp b.m.gomod) = none ∧
            (b.hasSum = true → w1.fs b.m.gosum = w.fs (bkp b.m.gosum) ∧ w1.fs (bkp b.m.gosum) = none)) →
          (∀ q, q ∉ modNames ((b :: bs).map (·.m)) → (restoreMods fails bs w1).fs q = w.fs q) ∧
          ∀ b' ∈ b :: bs, fails b'.m.gomod = false → fails b'.m.gosum = false →
            (restoreMods fails bs w1).fs b'.m.gomod = w.fs (bkp b'.m.gomod) ∧ (restoreMods fails bs w1).fs (bkp b'.m.gomod) = none ∧
            (b'.hasSum = true → (restoreMods fails bs w1).fs b'.m.gosum = w.fs (bkp b'.m.gosum) ∧ (restoreMods fails bs w1).fs (bkp b'.m.gosum) = none) := by
        intro w1 hfr hthis
        have hsame : ∀ b' ∈ bs, ∀ q ∈ names b'.m, w1.fs q = w.fs q := by
          intro b' hb' q hq
          refine hfr q fun h => hn3 q h q (mem_modNames (List.mem_map_of_mem hb') hq) rfl
        obtain ⟨i1, i2⟩ := ih w1 hn2 (fun b' hb' => by
          rw [hsame b' hb' _ (by simp [names]), hsame b' hb' _ (by simp [names])]
          exact hb b' (List.mem_cons_of_mem _ hb'))
        refine ⟨fun q hq => ?_, fun b' hb' => ?_⟩
        · rw [List.map_cons, modNames_cons, List.mem_append, not_or] at hq
          rw [i1 q hq.2, hfr q hq.1]
        · rcases List.mem_cons.mp hb' with hbe | hb'
          · have e : ∀ q ∈ names b.m, (restoreMods fails bs w1).fs q = w1.fs q := fun q hq => i1 q fun h => hn3 q hq q h rfl
            rw [hbe, e _ (by simp [names]), e _ (by simp [names]), e _ (by simp [names]), e _ (by simp [names])]
            exact hthis
          · have := i2 b' hb'
            rw [hsame b' hb' _ (by simp [names]), hsame b' hb' _ (by simp [names])] at this
            exact this
      simp only [restoreMods]
      cases hf : fails b.m.gomod with
      | true =>
          have : rename w (bkp b.m.gomod) b.m.gomod true = (false, w) := by simp [rename, hn]
          rw [this]
          exact go w (fun _ _ => rfl) fun h => by rw [hf] at h; cases h
      | false =>
      simp only [rename_ok hn]
      have fr1 : ∀ q, q ∉ names b.m → (w.step ((w.fs.del (bkp b.m.gomod)).set b.m.gomod n)).fs q = w.fs q := by
        intro q hq
        simp only [names, List.mem_cons, List.not_mem_nil, or_false, not_or] at hq
        simp only [W.step]
        rw [set_ne hq.1, del_ne hq.2.1]
      cases hh : b.hasSum with
      | false =>
          simp only [Bool.false_eq_true, if_false]
          refine go _ fr1 fun _ _ => ⟨?_, ?_, ?_⟩
          · simp [W.step, hn]
          · simp only [W.step]; rw [set_ne (bkp_ne _), del_self]
          · intro h; rw [hh] at h; cases h
      | true =>
          simp only [if_true]
          obtain ⟨ns, hns⟩ := hsum hh
          have hns' : (w.step ((w.fs.del (bkp b.m.gomod)).set b.m.gomod n)).fs (bkp b.m.gosum) = some ns := by
            simp only [W.step]
            rw [set_ne (fun e => n3 e.symm), del_ne n4]; exact hns
          cases hf2 : fails b.m.gosum with
          | true =>
              have : rename (w.step ((w.fs.del (bkp b.m.gomod)).set b.m.gomod n)) (bkp b.m.gosum) b.m.gosum true
                  = (false, w.step ((w.fs.del (bkp b.m.gomod)).set b.m.gomod n)) := by simp [rename, hns']
              rw [this]
              exact go _ fr1 fun _ h => by rw [hf2] at h; cases h
          | false =>
          rw [rename_ok hns']
          refine go _ ?_ fun _ _ => ⟨?_, ?_, ?_⟩
          · intro q hq
            have hq' := hq
            simp only [names, List.mem_cons, List.not_mem_nil, or_false, not_or] at hq
            rw [← fr1 q hq']
            simp only [W.step]
            rw [set_ne hq.2.2.1, del_ne hq.2.2.2]
          · simp only [W.step]
            rw [set_ne (Ne.symm n1), del_ne n3, set_self, hn]
          · simp only [W.step]
            rw [set_ne (Ne.symm n2), del_ne (Ne.symm n4), set_ne (bkp_ne _), del_self]
          · intro _
            simp only [W.step]
            rw [set_self, set_ne (bkp_ne _), del_self, hns]
            exact ⟨rfl, rfl⟩

/-- Protected paths: `x p` is in the file or its backup. -/
def AllKept (K : Path → Prop) (x : Path → Option Node) (fs : FS) : Prop := ∀ p, K p → fs (bkp p) = x p ∨ fs p = x p

theorem rename_kept {K : Path → Prop} {x : Path → Option Node} (hK : ∀ p q, K p → K q → p ≠ bkp q) {w : W} {p : Path} (hp : K p) (fails : Bool)
    (hb : w.fs (bkp p) = x p) (hk : AllKept K x w.fs) :
    AllKept K x (rename w (bkp p) p fails).2.fs ∧ (∀ fs ∈ (rename w (bkp p) p fails).2.log, fs ∈ w.log ∨ AllKept K x fs) ∧
    ∀ q, K q → q ≠ p → (rename w (bkp p) p fails).2.fs (bkp q) = w.fs (bkp q) := by
  unfold rename
  cases hn : w.fs (bkp p) with
  | none => exact ⟨hk, fun fs h => Or.inl h, fun _ _ _ => rfl⟩
  | some n =>
      simp only
      split
      · exact ⟨hk, fun fs h => Or.inl h, fun _ _ _ => rfl⟩
      · have e : ∀ q, K q → q ≠ p → ((w.fs.del (bkp p)).set p n) (bkp q) = w.fs (bkp q) := by
          intro q hq hqp
          rw [set_ne (fun h => hK p q hp hq h.symm), del_ne (fun h => hqp (bkp_inj h))]
        have hk' : AllKept K x ((w.fs.del (bkp p)).set p n) := by
          intro q hq
          by_cases hqp : q = p
          · subst hqp
            exact Or.inr (by rw [set_self, ← hb, hn])
          · rw [e q hq hqp, set_ne hqp, del_ne (hK q p hq hp)]
            exact hk q hq
        refine ⟨hk', fun fs hfs => ?_, e⟩
        simp only [W.step, List.mem_append, List.mem_singleton] at hfs
        rcases hfs with h | rfl
        · exact Or.inl h
        · exact Or.inr hk'

theorem restoreMods_kept {K : Path → Prop} {x : Path → Option Node} (hK : ∀ p q, K p → K q → p ≠ bkp q) (fails : Path → Bool) : ∀ (bs : List Backup) (w : W),
    (modNames (bs.map (·.m))).Nodup → (∀ b ∈ bs, K b.m.gomod ∧ w.fs (bkp b.m.gomod) = x b.m.gomod ∧ (b.hasSum = true → K b.m.gosum ∧ w.fs (bkp b.m.gosum) = x b.m.gosum)) →
    AllKept K x w.fs → ∀ fs ∈ (restoreMods fails bs w).log, fs ∈ w.log ∨ AllKept K x fs := by
  intro bs
  induction bs with
  | nil => intro w _ _ _ fs h; exact Or.inl h
  | cons b bs ih =>
      intro w hnd hb hk
      rw [List.map_cons, modNames_cons, List.nodup_append] at hnd
      obtain ⟨hn1, hn2, hn3⟩ := hnd
      obtain ⟨n1, n2, n3, n4⟩ := names_nodup hn1
      obtain ⟨k1, k2, k3⟩ := hb b List.mem_cons_self
      obtain ⟨r1, r2, r3⟩ := rename_kept hK k1 (fails b.m.gomod) k2 hk
      -- continuing with the rest from a state reached
      have go : ∀ w1 : W, AllKept K x w1.fs → (∀ fs ∈ w1.log, fs ∈ w.log ∨ AllKept K x fs) →
          (∀ q, K q → q ≠ b.m.gomod → q ≠ b.m.gosum → w1.fs (bkp q) = w.fs (bkp q)) →
          ∀ fs ∈ (restoreMods fails bs w1).log, fs ∈ w.log ∨ AllKept K x fs := by
        intro w1 h1 h2 h3 fs hfs
        have := ih w1 hn2 (fun b' hb' => by
          obtain ⟨b1, b2, b3⟩ := hb b' (List.mem_cons_of_mem _ hb')
          have ne : ∀ q ∈ names b'.m, q ≠ b.m.gomod ∧ q ≠ b.m.gosum := by
            intro q hq
            have hm := mem_modNames (List.mem_map_of_mem (f := (·.m)) hb') hq
            exact ⟨fun e => hn3 q (by rw [e]; simp [names]) q hm rfl, fun e => hn3 q (by rw [e]; simp [names]) q hm rfl⟩
          refine ⟨b1, ?_, fun h => ⟨(b3 h).1, ?_⟩⟩
          · rw [h3 _ b1 (ne _ (by simp [names])).1 (ne _ (by simp [names])).2]; exact b2
          · rw [h3 _ (b3 h).1 (ne _ (by simp [names])).1 (ne _ (by simp [names])).2]; exact (b3 h).2) h1 fs hfs
        rcases this with h | h
        · exact h2 fs h
        · exact Or.inr h
      simp only [restoreMods]
      cases hr : rename w (bkp b.m.gomod) b.m.gomod (fails b.m.gomod) with
      | mk ok w1 =>
          rw [hr] at r1 r2 r3
          simp only at r1 r2 r3
          cases ok with
          | false => exact go w1 r1 r2 fun q hq h _ => r3 q hq h
          | true =>
              simp only
              split
              · rename_i hh
                obtain ⟨s1, s2⟩ := k3 hh
                have s2' : w1.fs (bkp b.m.gosum) = x b.m.gosum := by rw [r3 _ s1 n1]; exact s2
                obtain ⟨t1, t2, t3⟩ := rename_kept hK s1 (fails b.m.gosum) s2' r1
                refine go _ t1 ?_ ?_
                · intro fs hfs
                  rcases t2 fs hfs with h | h
                  · exact r2 fs h
                  · exact Or.inr h
                · intro q hq h1 h2
                  rw [t3 q hq h2, r3 q hq h1]
              · exact go w1 r1 r2 fun q hq h _ => r3 q hq h

end Verif.Files
