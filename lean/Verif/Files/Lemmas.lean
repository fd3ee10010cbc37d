import Verif.Files.Spec

namespace Verif.Files

/-! ### Primitive steps -/

@[simp] theorem set_self (fs : FS) (p : Path) (n : Node) : fs.set p n p = some n := by simp [FS.set]
theorem set_ne {fs : FS} {p q : Path} {n : Node} (h : q ≠ p) : fs.set p n q = fs q := by simp [FS.set, h]
@[simp] theorem del_self (fs : FS) (p : Path) : fs.del p p = none := by simp [FS.del]
theorem del_ne {fs : FS} {p q : Path} (h : q ≠ p) : fs.del p q = fs q := by simp [FS.del, h]

theorem bkp_inj {p q : Path} (h : bkp p = bkp q) : p = q := List.append_cancel_right h
theorem bkp_ne (p : Path) : bkp p ≠ p := fun h => by
  have := congrArg List.length h
  simp [bkp] at this

/-- Not a link. -/
def Reg (fs : FS) (p : Path) : Prop := ∀ t, fs p ≠ some (.link t)

theorem reg_of_file {fs : FS} {p : Path} {c : Bytes} (h : fs p = some (.file c)) : Reg fs p := fun t ht => by rw [h] at ht; cases ht
theorem reg_of_none {fs : FS} {p : Path} (h : fs p = none) : Reg fs p := fun t ht => by rw [h] at ht; cases ht

theorem follow_reg {fs : FS} {p : Path} (h : Reg fs p) : follow fs maxLinks p = some p := by
  unfold maxLinks follow
  cases hp : fs p with
  | none => rfl
  | some n =>
      cases n with
      | file c => rfl
      | link t => exact absurd hp (h t)

theorem fileExists_reg {fs : FS} {p : Path} (h : Reg fs p) : fileExists fs p = (fs p).isSome := by
  simp [fileExists, follow_reg h]

theorem statOk_reg {fs : FS} {p : Path} (h : Reg fs p) : statOk fs p = (fs p).isSome := by
  simp [statOk, follow_reg h]

theorem writeFile_reg {w : W} {p : Path} (h : Reg w.fs p) (data : Bytes) (f : Fault) :
    (writeFile w p data f).2 = w ∨ ∃ d, (writeFile w p data f).2 = w.writeTo p d := by
  unfold writeFile
  rw [follow_reg h]
  cases f with
  | ok => exact Or.inr ⟨_, rfl⟩
  | atOpen => exact Or.inl rfl
  | after n => exact Or.inr ⟨_, rfl⟩

theorem writeFile_ok {w : W} {p : Path} (h : Reg w.fs p) (data : Bytes) : writeFile w p data .ok = (true, w.writeTo p data) := by
  simp [writeFile, follow_reg h]

theorem mem_writeTo {w : W} {q : Path} {data : Bytes} {fs : FS} (h : fs ∈ (w.writeTo q data).log) :
    fs ∈ w.log ∨ ∃ d, fs = w.fs.set q (.file d) := by
  simp only [W.writeTo, List.mem_append, List.mem_map] at h
  rcases h with h | ⟨n, _, h⟩
  · exact Or.inl h
  · exact Or.inr ⟨_, h.symm⟩

/-! ### Exact restoration -/

/-- The paths a cleanup action is about. -/
def touched : Action → List Path
  | .back p => [p, bkp p]
  | .gen c a => [c, a]

/-- State of the files an action is about. -/
def ActOk (fs0 : FS) (src gen : Path → Prop) (fs : FS) : Action → Prop
  | .back p => src p ∧ fs (bkp p) = fs0 p ∧ ∃ c, fs p = some (.file c)
  | .gen c a => gen c ∧ gen a ∧ c ≠ a ∧ fs0 c = none ∧ fs0 a = none ∧ (∃ d, fs c = some (.file d)) ∧ ∃ d, fs a = some (.file d)

/-- What holds between operations. -/
structure I46 (fs0 : FS) (src gen : Path → Prop) (m : M) : Prop where
  pend : ∀ e ∈ m.pending, src e.1
  nodup : (m.cleanup.flatMap touched).Nodup
  acts : ∀ a ∈ m.cleanup, ActOk fs0 src gen m.w.fs a
  rest : ∀ q, q ∉ m.cleanup.flatMap touched → m.w.fs q = fs0 q

theorem actOk_congr {fs0 : FS} {src gen : Path → Prop} {fs fs' : FS} {a : Action} (h : ∀ q ∈ touched a, fs' q = fs q) (ha : ActOk fs0 src gen fs a) :
    ActOk fs0 src gen fs' a := by
  cases a with
  | back p =>
      obtain ⟨h1, h2, h3⟩ := ha
      exact ⟨h1, by rw [h _ (by simp [touched])]; exact h2, by rw [h _ (by simp [touched])]; exact h3⟩
  | gen c a =>
      obtain ⟨h1, h2, h3, h4, h5, h6, h7⟩ := ha
      exact ⟨h1, h2, h3, h4, h5, by rw [h _ (by simp [touched])]; exact h6, by rw [h _ (by simp [touched])]; exact h7⟩

theorem mem_touched_src {fs0 : FS} {src gen : Path → Prop} (hs : Setting fs0 src gen) {fs : FS} {a : Action} {p : Path} (ha : ActOk fs0 src gen fs a)
    (hp : src p) : (p ∈ touched a → a = .back p) ∧ (bkp p ∈ touched a → a = .back p) := by
  cases a with
  | back q =>
      obtain ⟨h1, _⟩ := ha
      simp only [touched, List.mem_cons, List.not_mem_nil, or_false]
      refine ⟨?_, ?_⟩
      · rintro (h | h)
        · rw [h]
        · exact absurd h (hs.notBackup p q hp h1)
      · rintro (h | h)
        · exact absurd h.symm (hs.notBackup q p h1 hp)
        · rw [bkp_inj h]
  | gen c a =>
      obtain ⟨h1, h2, _⟩ := ha
      simp only [touched, List.mem_cons, List.not_mem_nil, or_false]
      refine ⟨?_, ?_⟩
      · rintro (rfl | rfl)
        · exact absurd hp (hs.genSrc _ h1)
        · exact absurd hp (hs.genSrc _ h2)
      · rintro (h | h)
        · exact absurd h.symm (hs.genBackup _ p h1 hp)
        · exact absurd h.symm (hs.genBackup _ p h2 hp)

theorem nodup_acts {l : List Action} (h : (l.flatMap touched).Nodup) {a b : Action} (ha : a ∈ l) (hb : b ∈ l) {q : Path} (h1 : q ∈ touched a) (h2 : q ∈ touched b) :
    a = b := by
  induction l with
  | nil => simp at ha
  | cons x l ih =>
      rw [List.flatMap_cons, List.nodup_append] at h
      obtain ⟨_, h4, h5⟩ := h
      rcases List.mem_cons.mp ha with ha' | ha' <;> rcases List.mem_cons.mp hb with hb' | hb'
      · rw [ha', hb']
      · exact absurd rfl (h5 q (ha' ▸ h1) q (List.mem_flatMap.mpr ⟨b, hb', h2⟩))
      · exact absurd rfl (h5 q (hb' ▸ h2) q (List.mem_flatMap.mpr ⟨a, ha', h1⟩))
      · exact ih h4 ha' hb'

/-- A source file that is written keeps the invariant once its backup is registered. -/
theorem i46_write {fs0 : FS} {src gen : Path → Prop} (hs : Setting fs0 src gen) {m : M} {p : Path} {data : Bytes} (hi : I46 fs0 src gen m) (hp : src p)
    (hb : Action.back p ∈ m.cleanup) (wf : Fault) : I46 fs0 src gen { m with w := (writeFile m.w p data wf).2 } := by
  obtain ⟨_, hbk, c, hc⟩ := hi.acts _ hb
  have hreg := reg_of_file hc
  rcases writeFile_reg hreg data wf with h | ⟨d, h⟩
  · rw [h]; exact hi
  · rw [h]
    refine ⟨hi.pend, hi.nodup, ?_, ?_⟩
    · intro a ha
      by_cases hab : a = .back p
      · subst hab
        exact ⟨hp, by simpa [W.writeTo, set_ne (bkp_ne p)] using hbk, d, by simp [W.writeTo]⟩
      · refine actOk_congr (fun q hq => ?_) (hi.acts a ha)
        have hqp : q ≠ p := by
          rintro rfl
          exact hab ((mem_touched_src hs (hi.acts a ha) hp).1 hq)
        simp [W.writeTo, set_ne hqp]
    · intro q hq
      have hqp : q ≠ p := by
        rintro rfl
        exact hq (List.mem_flatMap.mpr ⟨_, hb, by simp [touched]⟩)
      simp only [W.writeTo, set_ne hqp]
      exact hi.rest q hq

theorem i46_backup {fs0 : FS} {src gen : Path → Prop} (hs : Setting fs0 src gen) {m : M} {p : Path} (hi : I46 fs0 src gen m) (hp : src p) :
    (backup m p .ok).1 = true ∧ I46 fs0 src gen (backup m p .ok).2 ∧ Action.back p ∈ (backup m p .ok).2.cleanup := by
  obtain ⟨c0, hc0⟩ := hs.regular p hp
  by_cases hb : Action.back p ∈ m.cleanup
  · obtain ⟨_, hbk, _⟩ := hi.acts _ hb
    have he : fileExists m.w.fs (bkp p) = true := by
      rw [hc0] at hbk
      rw [fileExists_reg (reg_of_file hbk), hbk]; rfl
    unfold backup
    rw [if_pos he]
    exact ⟨rfl, hi, hb⟩
  · have hnt : ∀ a ∈ m.cleanup, p ∉ touched a ∧ bkp p ∉ touched a := by
      intro a ha
      have := mem_touched_src hs (hi.acts a ha) hp
      exact ⟨fun h => hb (this.1 h ▸ ha), fun h => hb (this.2 h ▸ ha)⟩
    have hp0 : m.w.fs p = fs0 p := hi.rest p (by simp only [List.mem_flatMap, not_exists, not_and]; exact fun a ha => (hnt a ha).1)
    have hb0 : m.w.fs (bkp p) = none := by
      rw [hi.rest (bkp p) (by simp only [List.mem_flatMap, not_exists, not_and]; exact fun a ha => (hnt a ha).2)]
      exact hs.noBackup p hp
    have he : ¬ fileExists m.w.fs (bkp p) = true := by
      rw [fileExists_reg (reg_of_none hb0), hb0]; simp
    have hcp : copyFile m.w p (bkp p) .ok = (true, m.w.writeTo (bkp p) c0) := by
      unfold copyFile
      rw [hp0, hc0]
      exact writeFile_ok (reg_of_none hb0) c0
    unfold backup
    rw [if_neg he, hcp]
    refine ⟨rfl, ⟨hi.pend, ?_, ?_, ?_⟩, by simp⟩
    · rw [List.flatMap_append, List.nodup_append]
      refine ⟨hi.nodup, ?_, ?_⟩
      · simp only [List.flatMap_cons, List.flatMap_nil, List.append_nil, touched, List.nodup_cons, List.mem_singleton, List.not_mem_nil, not_false_eq_true,
          List.nodup_nil, and_true]
        exact fun h => bkp_ne p h.symm
      · intro x hx y hy hxy
        subst hxy
        obtain ⟨a, ha, hxa⟩ := List.mem_flatMap.mp hx
        simp only [List.flatMap_cons, List.flatMap_nil, List.append_nil, touched, List.mem_cons, List.not_mem_nil, or_false] at hy
        rcases hy with rfl | rfl
        · exact (hnt a ha).1 hxa
        · exact (hnt a ha).2 hxa
    · intro a ha
      rcases List.mem_append.mp ha with ha | ha
      · refine actOk_congr (fun q hq => ?_) (hi.acts a ha)
        have : q ≠ bkp p := by rintro rfl; exact (hnt a ha).2 hq
        simp [W.writeTo, set_ne this]
      · simp only [List.mem_singleton] at ha
        subst ha
        exact ⟨hp, by simp [W.writeTo, hc0], c0, by simp [W.writeTo, set_ne (Ne.symm (bkp_ne p)), hp0, hc0]⟩
    · intro q hq
      simp only [List.flatMap_append, List.flatMap_cons, List.flatMap_nil, List.append_nil, List.mem_append, not_or, touched, List.mem_cons, List.not_mem_nil,
        or_false] at hq
      simp only [W.writeTo, set_ne hq.2.2]
      exact hi.rest q hq.1

theorem i46_backupAndWrite {fs0 : FS} {src gen : Path → Prop} (hs : Setting fs0 src gen) {m : M} {p : Path} {data : Bytes} {wf : Fault} (hi : I46 fs0 src gen m) (hp : src p) :
    I46 fs0 src gen (backupAndWrite m p data .ok wf).2 := by
  obtain ⟨h1, h2, h3⟩ := i46_backup hs hi hp
  unfold backupAndWrite
  cases hb : backup m p .ok with
  | mk ok m' =>
      rw [hb] at h1 h2 h3
      subst h1
      exact i46_write hs h2 hp h3 wf

theorem i46_commitAll {fs0 : FS} {src gen : Path → Prop} (hs : Setting fs0 src gen) (faults : Path → Fault × Fault) (hf : ∀ p, (faults p).1 = .ok) :
    ∀ (es : List (Path × Bytes)) (m : M), (∀ e ∈ es, src e.1) → I46 fs0 src gen m → I46 fs0 src gen (commitAll es faults m).2 := by
  intro es
  induction es with
  | nil => intro m _ hi; exact hi
  | cons e es ih =>
      intro m he hi
      have := i46_backupAndWrite hs (data := e.2) (wf := (faults e.1).2) hi (he e List.mem_cons_self)
      have := ih _ (fun x hx => he x (List.mem_cons_of_mem _ hx)) this
      simpa only [commitAll, hf] using this

theorem i46_cleanup {fs0 : FS} {src gen : Path → Prop} (hs : Setting fs0 src gen) (faults : Action → RFault) : ∀ (l : List Action) (w w' : W),
    (l.flatMap touched).Nodup → (∀ a ∈ l, ActOk fs0 src gen w.fs a) → (∀ q, q ∉ l.flatMap touched → w.fs q = fs0 q) →
    cleanupAll l faults w = (true, w') → w'.fs = fs0 := by
  intro l
  induction l with
  | nil =>
      intro w w' _ _ h3 h
      simp only [cleanupAll, Prod.mk.injEq, true_and] at h
      subst h
      funext q
      exact h3 q (by simp)
  | cons a l ih =>
      intro w w' h1 h2 h3 h
      have h1' := h1
      rw [List.flatMap_cons, List.nodup_append] at h1
      obtain ⟨n1, n2, n3⟩ := h1
      simp only [cleanupAll] at h
      cases hc : cleanupOne w a (faults a) with
      | mk ok w1 =>
          rw [hc] at h
          simp only at h
          cases hr : cleanupAll l faults w1 with
          | mk ok2 w2 =>
              rw [hr] at h
              simp only [Prod.mk.injEq, Bool.and_eq_true] at h
              obtain ⟨⟨rfl, rfl⟩, rfl⟩ := h
              -- only the paths of the action change, and they are restored
              have key : (∀ q, q ∉ touched a → w1.fs q = w.fs q) ∧ ∀ q ∈ touched a, w1.fs q = fs0 q := by
                have hok := h2 a List.mem_cons_self
                cases a with
                | back p =>
                    obtain ⟨hp, hbk, c, hc1⟩ := hok
                    simp only [cleanupOne, replaceFile, statOk_reg (reg_of_file hc1), hc1, Option.isSome_some, if_true, remove, Bool.true_and] at hc
                    by_cases hf : faults (.back p) = .remove
                    · rw [hf] at hc; simp at hc
                    · have hf' : (faults (.back p) == RFault.remove) = false := by simpa using hf
                      rw [hf'] at hc
                      simp only [Bool.not_false, if_true, rename, W.step, del_ne (bkp_ne p), hbk] at hc
                      obtain ⟨c0, hc0⟩ := hs.regular p hp
                      rw [hc0] at hc
                      simp only at hc
                      split at hc
                      · cases hc
                      · simp only [Prod.mk.injEq, true_and] at hc
                        subst hc
                        constructor
                        · intro q hq
                          simp only [touched, List.mem_cons, List.not_mem_nil, or_false, not_or] at hq
                          simp only
                          rw [set_ne hq.1, del_ne hq.2, del_ne hq.1]
                        · intro q hq
                          simp only [touched, List.mem_cons, List.not_mem_nil, or_false] at hq
                          rcases hq with rfl | rfl
                          · simp [hc0]
                          · simp only
                            rw [set_ne (bkp_ne p), del_self, hs.noBackup p hp]
                | gen c b =>
                    obtain ⟨_, _, hne, hc0, hb0, ⟨d1, hd1⟩, d2, hd2⟩ := hok
                    simp only [cleanupOne, remove, hd1, Option.isSome_some, Bool.true_and] at hc
                    by_cases hf : faults (.gen c b) = .remove
                    · rw [hf] at hc; simp at hc
                    · have hf' : (faults (.gen c b) == RFault.remove) = false := by simpa using hf
                      rw [hf'] at hc
                      simp only [Bool.not_false, if_true, W.step, del_ne (Ne.symm hne), hd2, Option.isSome_some, Bool.true_and] at hc
                      split at hc
                      · simp only [Bool.and_true, Prod.mk.injEq, true_and] at hc
                        subst hc
                        constructor
                        · intro q hq
                          simp only [touched, List.mem_cons, List.not_mem_nil, or_false, not_or] at hq
                          simp only
                          rw [del_ne hq.2, del_ne hq.1]
                        · intro q hq
                          simp only [touched, List.mem_cons, List.not_mem_nil, or_false] at hq
                          rcases hq with rfl | rfl
                          · simp only
                            rw [del_ne hne, del_self, hc0]
                          · simp [hb0]
                      · simp at hc
              refine ih w1 w2 n2 ?_ ?_ hr
              · intro b hb
                refine actOk_congr (fun q hq => key.1 q ?_) (h2 b (List.mem_cons_of_mem _ hb))
                intro hqa
                exact n3 q hqa q (List.mem_flatMap.mpr ⟨b, hb, hq⟩) rfl
              · intro q hq
                by_cases hqa : q ∈ touched a
                · exact key.2 q hqa
                · rw [key.1 q hqa]
                  exact h3 q (by rw [List.flatMap_cons, List.mem_append, not_or]; exact ⟨hqa, hq⟩)

/-- A cleanup action changes its own files only. -/
theorem cleanupOne_frame (w : W) (a : Action) (f : RFault) {q : Path} (hq : q ∉ touched a) : (cleanupOne w a f).2.fs q = w.fs q := by
  cases a with
  | back p =>
      simp only [touched, List.mem_cons, List.not_mem_nil, or_false, not_or] at hq
      have hren : ∀ w : W, (rename w (bkp p) p (f == .rename)).2.fs q = w.fs q := by
        intro w
        unfold rename
        split
        · rfl
        · split
          · rfl
          · simp only [W.step]; rw [set_ne hq.1, del_ne hq.2]
      simp only [cleanupOne, replaceFile]
      split
      · unfold remove
        split
        · rename_i h
          split at h
          · cases h
          · cases h; rfl
        · rename_i h
          split at h
          · cases h
            rw [hren]
            simp only [W.step]; rw [del_ne hq.1]
          · cases h
      · exact hren w
  | gen c b =>
      simp only [touched, List.mem_cons, List.not_mem_nil, or_false, not_or] at hq
      have hrm : ∀ (w : W) (x : Path) (fl : Bool), q ≠ x → (remove w x fl).2.fs q = w.fs q := by
        intro w x fl hx
        unfold remove
        split
        · simp only [W.step]; rw [del_ne hx]
        · rfl
      simp only [cleanupOne]
      rw [hrm _ _ _ hq.2, hrm _ _ _ hq.1]

/-- A cleanup action without error restores its files. -/
theorem cleanupOne_ok {fs0 : FS} {src gen : Path → Prop} (hs : Setting fs0 src gen) {w : W} {a : Action} (hok : ActOk fs0 src gen w.fs a) {q : Path}
    (hq : q ∈ touched a) : (cleanupOne w a .ok).2.fs q = fs0 q := by
  have e1 : (RFault.ok == RFault.remove) = false := rfl
  have e2 : (RFault.ok == RFault.rename) = false := rfl
  cases a with
  | back p =>
      obtain ⟨hp, hbk, c, hc1⟩ := hok
      obtain ⟨c0, hc0⟩ := hs.regular p hp
      rw [hc0] at hbk
      simp only [cleanupOne, replaceFile, statOk_reg (reg_of_file hc1), hc1, Option.isSome_some, if_true, remove, rename, W.step, e1, e2,
        Bool.not_false, Bool.and_true, del_ne (bkp_ne p), hbk, Bool.false_eq_true, if_false]
      simp only [touched, List.mem_cons, List.not_mem_nil, or_false] at hq
      rcases hq with rfl | rfl
      · simp [hc0]
      · rw [set_ne (bkp_ne p), del_self, hs.noBackup p hp]
  | gen c b =>
      obtain ⟨_, _, hne, hc0, hb0, ⟨d1, hd1⟩, d2, hd2⟩ := hok
      simp only [cleanupOne, remove, hd1, Option.isSome_some, W.step, e1, e2, Bool.not_false, Bool.and_true, if_true, del_ne (Ne.symm hne), hd2]
      simp only [touched, List.mem_cons, List.not_mem_nil, or_false] at hq
      rcases hq with rfl | rfl
      · rw [del_ne hne, del_self, hc0]
      · simp [hb0]

/-- Files whose own action does not fail are restored. -/
theorem cleanup_each {fs0 : FS} {src gen : Path → Prop} (hs : Setting fs0 src gen) (faults : Action → RFault) : ∀ (l : List Action) (w : W),
    (l.flatMap touched).Nodup → (∀ a ∈ l, ActOk fs0 src gen w.fs a) → (∀ q, q ∉ l.flatMap touched → w.fs q = fs0 q) →
    ∀ q, (∀ a ∈ l, q ∈ touched a → faults a = .ok) → (cleanupAll l faults w).2.fs q = fs0 q := by
  suffices h : ∀ (l : List Action) (w : W), (l.flatMap touched).Nodup → (∀ a ∈ l, ActOk fs0 src gen w.fs a) →
      ∀ q, (q ∉ l.flatMap touched → w.fs q = fs0 q) → (∀ a ∈ l, q ∈ touched a → faults a = .ok) → (cleanupAll l faults w).2.fs q = fs0 q from
    fun l w h1 h2 h3 q => h l w h1 h2 q (h3 q)
  intro l
  induction l with
  | nil => intro w _ _ q h _; exact h (by simp)
  | cons a l ih =>
      intro w h1 h2 q h3 h4
      rw [List.flatMap_cons, List.nodup_append] at h1
      obtain ⟨n1, n2, n3⟩ := h1
      simp only [cleanupAll]
      refine ih _ n2 ?_ q ?_ fun b hb => h4 b (List.mem_cons_of_mem _ hb)
      · intro b hb
        refine actOk_congr (fun x hx => cleanupOne_frame w a _ ?_) (h2 b (List.mem_cons_of_mem _ hb))
        intro hxa
        exact n3 x hxa x (List.mem_flatMap.mpr ⟨b, hb, hx⟩) rfl
      · intro hq
        by_cases hqa : q ∈ touched a
        · rw [h4 a List.mem_cons_self hqa]
          exact cleanupOne_ok hs (h2 a List.mem_cons_self) hqa
        · rw [cleanupOne_frame w a _ hqa]
          exact h3 (by rw [List.flatMap_cons, List.mem_append, not_or]; exact ⟨hqa, hq⟩)

/-- Without faults the cleanup meets no error. -/
theorem cleanup_ok {fs0 : FS} {src gen : Path → Prop} (hs : Setting fs0 src gen) (faults : Action → RFault) (hf : ∀ a, faults a = .ok) :
    ∀ (l : List Action) (w : W), (l.flatMap touched).Nodup → (∀ a ∈ l, ActOk fs0 src gen w.fs a) → (cleanupAll l faults w).1 = true := by
  intro l
  induction l with
  | nil => intro w _ _; rfl
  | cons a l ih =>
      intro w h1 h2
      rw [List.flatMap_cons, List.nodup_append] at h1
      obtain ⟨n1, n2, n3⟩ := h1
      have hok := h2 a List.mem_cons_self
      have key : (cleanupOne w a .ok).1 = true ∧ ∀ q, q ∉ touched a → (cleanupOne w a .ok).2.fs q = w.fs q := by
        cases a with
        | back p =>
            obtain ⟨hp, hbk, c, hc1⟩ := hok
            obtain ⟨c0, hc0⟩ := hs.regular p hp
            rw [hc0] at hbk
            have e1 : (RFault.ok == RFault.remove) = false := rfl
            have e2 : (RFault.ok == RFault.rename) = false := rfl
            simp only [cleanupOne, replaceFile, statOk_reg (reg_of_file hc1), hc1, Option.isSome_some, if_true, remove, rename, W.step, e1, e2,
              Bool.not_false, Bool.and_true, del_ne (bkp_ne p), hbk, Bool.false_eq_true, if_false, true_and]
            intro q hq
            simp only [touched, List.mem_cons, List.not_mem_nil, or_false, not_or] at hq
            rw [set_ne hq.1, del_ne hq.2, del_ne hq.1]
        | gen c b =>
            obtain ⟨_, _, hne, hc0, hb0, ⟨d1, hd1⟩, d2, hd2⟩ := hok
            simp only [cleanupOne, remove, hd1, Option.isSome_some, W.step, del_ne (Ne.symm hne), hd2]
            refine ⟨by simp [W.step, del_ne (Ne.symm hne), hd2], fun q hq => ?_⟩
            simp only [touched, List.mem_cons, List.not_mem_nil, or_false, not_or] at hq
            have e1 : (RFault.ok == RFault.remove) = false := rfl
            have e2 : (RFault.ok == RFault.rename) = false := rfl
            simp only [e1, e2, Bool.not_false, Bool.and_true, if_true, del_ne (Ne.symm hne), hd2, Option.isSome_some]
            rw [del_ne hq.2, del_ne hq.1]
      simp only [cleanupAll, hf]
      rw [key.1, Bool.true_and]
      refine ih _ n2 ?_
      intro b hb
      refine actOk_congr (fun q hq => key.2 q ?_) (h2 b (List.mem_cons_of_mem _ hb))
      intro hqa
      exact n3 q hqa q (List.mem_flatMap.mpr ⟨b, hb, hq⟩) rfl

theorem i46_inject {fs0 : FS} {src gen : Path → Prop} (hs : Setting fs0 src gen) {m : M} {c a : Path} {other : Bool} {ct at_ : Bytes}
    (hi : I46 fs0 src gen m) (hc : gen c) (ha : gen a) (hne : c ≠ a) : I46 fs0 src gen (inject m c a other ct at_ .ok .ok).2 := by
  unfold inject
  split
  · exact hi
  · rename_i hcond
    simp only [Bool.or_eq_true, not_or, Bool.not_eq_true, Option.isSome_eq_false_iff, Option.isNone_iff_eq_none] at hcond
    obtain ⟨⟨_, h1⟩, h2⟩ := hcond
    rw [writeFile_ok (reg_of_none h1)]
    have h2' : (m.w.writeTo c ct).fs a = none := by simp [W.writeTo, set_ne (Ne.symm hne), h2]
    simp only
    rw [writeFile_ok (reg_of_none h2')]
    have hnot : ∀ q, m.w.fs q = none → q ∉ m.cleanup.flatMap touched := by
      intro q hq hm
      obtain ⟨x, hx, hqx⟩ := List.mem_flatMap.mp hm
      have hok := hi.acts x hx
      cases x with
      | back p =>
          obtain ⟨hp, hb, d, hd⟩ := hok
          obtain ⟨c0, hc0⟩ := hs.regular p hp
          simp only [touched, List.mem_cons, List.not_mem_nil, or_false] at hqx
          rcases hqx with rfl | rfl
          · rw [hd] at hq; cases hq
          · rw [hb, hc0] at hq; cases hq
      | gen c' a' =>
          obtain ⟨_, _, _, _, _, ⟨d1, hd1⟩, d2, hd2⟩ := hok
          simp only [touched, List.mem_cons, List.not_mem_nil, or_false] at hqx
          rcases hqx with rfl | rfl
          · rw [hd1] at hq; cases hq
          · rw [hd2] at hq; cases hq
    have hn1 := hnot c h1
    have hn2 := hnot a h2
    refine ⟨hi.pend, ?_, ?_, ?_⟩
    · rw [List.flatMap_append, List.nodup_append]
      refine ⟨hi.nodup, by simp [touched, hne], ?_⟩
      intro x hx y hy hxy
      subst hxy
      simp only [List.flatMap_cons, List.flatMap_nil, List.append_nil, touched, List.mem_cons, List.not_mem_nil, or_false] at hy
      rcases hy with rfl | rfl
      · exact hn1 hx
      · exact hn2 hx
    · intro b hb
      rcases List.mem_append.mp hb with hb | hb
      · refine actOk_congr (fun q hq => ?_) (hi.acts b hb)
        have hq' : q ∈ m.cleanup.flatMap touched := List.mem_flatMap.mpr ⟨b, hb, hq⟩
        have e1 : q ≠ c := by rintro rfl; exact hn1 hq'
        have e2 : q ≠ a := by rintro rfl; exact hn2 hq'
        simp [W.writeTo, set_ne e1, set_ne e2]
      · simp only [List.mem_singleton] at hb
        subst hb
        refine ⟨hc, ha, hne, ?_, ?_, ⟨ct, by simp [W.writeTo, set_ne hne]⟩, at_, by simp [W.writeTo]⟩
        · rw [← hi.rest c hn1]; exact h1
        · rw [← hi.rest a hn2]; exact h2
    · intro q hq
      simp only [List.flatMap_append, List.flatMap_cons, List.flatMap_nil, List.append_nil, List.mem_append, not_or, touched, List.mem_cons, List.not_mem_nil,
        or_false] at hq
      simp only [W.writeTo, set_ne hq.2.1, set_ne hq.2.2]
      exact hi.rest q hq.1

theorem i46_run1 {fs0 : FS} {src gen : Path → Prop} (hs : Setting fs0 src gen) {m : M} (hi : I46 fs0 src gen m) (op : Op) (ho : OpOkR src gen op) :
    I46 fs0 src gen (run1 m op) := by
  obtain ⟨ho, hr⟩ := ho
  cases op with
  | stage p data =>
      refine ⟨?_, hi.nodup, hi.acts, hi.rest⟩
      intro e he
      simp only [run1, AMap.set, List.mem_cons] at he
      rcases he with rfl | he
      · exact ho
      · exact hi.pend e (by unfold AMap.del at he; exact (List.mem_filter.mp he).1)
  | commitFile p cf wf =>
      simp only [OpOk] at ho
      subst ho
      simp only [run1, commitFile]
      cases hg : m.pending.get p with
      | none => exact hi
      | some data =>
          have hp : src p := hi.pend _ (AMap.mem_of_get hg)
          refine i46_backupAndWrite hs ⟨?_, hi.nodup, hi.acts, hi.rest⟩ hp
          intro e he
          exact hi.pend e (by unfold AMap.del at he; exact (List.mem_filter.mp he).1)
  | commit faults =>
      have := i46_commitAll hs faults ho m.pending m hi.pend hi
      simp only [run1, commit]
      cases hc : commitAll m.pending faults m with
      | mk ok m' =>
          rw [hc] at this
          cases ok with
          | true => exact ⟨by simp, this.nodup, this.acts, this.rest⟩
          | false => exact this
  | insertLines p data cf wf =>
      obtain ⟨h1, rfl⟩ := ho
      exact i46_backupAndWrite hs hi h1
  | inject c a other ct at_ f1 f2 =>
      obtain ⟨h1, h2, h3, rfl, rfl⟩ := ho
      exact i46_inject hs hi h1 h2 h3
  | restore faults =>
      have hf := hr faults rfl
      have h1 := cleanup_ok hs faults hf m.cleanup m.w hi.nodup hi.acts
      simp only [run1, restore]
      cases hc : cleanupAll m.cleanup faults m.w with
      | mk ok w =>
          rw [hc] at h1
          simp only at h1
          subst h1
          have := i46_cleanup hs faults m.cleanup m.w w hi.nodup hi.acts hi.rest hc
          exact ⟨hi.pend, by simp, by simp, fun q _ => by rw [this]⟩

theorem i46_run {fs0 : FS} {src gen : Path → Prop} (hs : Setting fs0 src gen) : ∀ (ops : List Op) (m : M), I46 fs0 src gen m → (∀ op ∈ ops, OpOkR src gen op) →
    I46 fs0 src gen (run m ops) := by
  intro ops
  induction ops with
  | nil => intro m hi _; exact hi
  | cons op ops ih => intro m hi ho; exact ih _ (i46_run1 hs hi op (ho op List.mem_cons_self)) fun o h => ho o (List.mem_cons_of_mem _ h)

theorem i46_new (fs0 : FS) (src gen : Path → Prop) : I46 fs0 src gen (newM fs0) := ⟨by simp [newM], by simp [newM], by simp [newM], fun _ _ => rfl⟩

/-! ### Crash points -/

/-- What holds of the files between steps of an operation. -/
structure J (fs0 : FS) (src : Path → Prop) (fs : FS) : Prop where
  safe : ∀ p, src p → fs (bkp p) = fs0 p ∨ (fs p = fs0 p ∧ fs (bkp p) = none)
  reg : ∀ p, src p → Reg fs p

/-- What holds of the log. -/
def LogOk (fs0 : FS) (src : Path → Prop) (log : List FS) : Prop := ∀ fs ∈ log, ∀ p, src p → Kept fs0 fs p

/-- What holds between operations. -/
structure I47 (fs0 : FS) (src gen : Path → Prop) (m : M) : Prop where
  pend : ∀ e ∈ m.pending, src e.1
  files : J fs0 src m.w.fs
  nodup : (m.cleanup.filter fun a => a matches .back _).Nodup
  back : ∀ p, Action.back p ∈ m.cleanup → src p ∧ m.w.fs (bkp p) = fs0 p
  gens : ∀ c a, Action.gen c a ∈ m.cleanup → gen c ∧ gen a
  log : LogOk fs0 src m.w.log

theorem j_kept {fs0 : FS} {src : Path → Prop} {fs : FS} (h : J fs0 src fs) {p : Path} (hp : src p) : Kept fs0 fs p := by
  rcases h.safe p hp with h | h
  · exact Or.inr h
  · exact Or.inl h.1

/-- Changing a file that is neither a source nor a backup. -/
theorem j_other {fs0 : FS} {src : Path → Prop} {fs fs' : FS} (h : J fs0 src fs) (hq : ∀ p, src p → fs' p = fs p ∧ fs' (bkp p) = fs (bkp p)) : J fs0 src fs' := by
  refine ⟨fun p hp => ?_, fun p hp t => ?_⟩
  · rw [(hq p hp).1, (hq p hp).2]; exact h.safe p hp
  · rw [(hq p hp).1]; exact h.reg p hp t

/-- Writing a source whose backup is complete. -/
theorem j_write {fs0 : FS} {src gen : Path → Prop} (hs : Setting fs0 src gen) {fs : FS} {p : Path} {d : Bytes} (h : J fs0 src fs) (hp : src p) (hb : fs (bkp p) = fs0 p) :
    J fs0 src (fs.set p (.file d)) := by
  refine ⟨fun q hq => ?_, fun q hq t => ?_⟩
  · have e : bkp q ≠ p := fun e => hs.notBackup p q hp hq e.symm
    rw [set_ne e]
    by_cases hqp : q = p
    · subst hqp; exact Or.inl hb
    · rw [set_ne hqp]; exact h.safe q hq
  · by_cases hqp : q = p
    · subst hqp; simp
    · rw [set_ne hqp]; exact h.reg q hq t

theorem logOk_append {fs0 : FS} {src : Path → Prop} {log log' : List FS} (h : LogOk fs0 src log) (h' : LogOk fs0 src log') : LogOk fs0 src (log ++ log') := by
  intro fs hfs
  rcases List.mem_append.mp hfs with hfs | hfs
  · exact h fs hfs
  · exact h' fs hfs

theorem i47_write {fs0 : FS} {src gen : Path → Prop} (hs : Setting fs0 src gen) {m : M} {p : Path} {data : Bytes} (hi : I47 fs0 src gen m) (hp : src p)
    (hb : m.w.fs (bkp p) = fs0 p) (wf : Fault) : I47 fs0 src gen { m with w := (writeFile m.w p data wf).2 } := by
  rcases writeFile_reg (hi.files.reg p hp) data wf with h | ⟨d, h⟩
  · rw [h]; exact hi
  · rw [h]
    refine ⟨hi.pend, j_write hs hi.files hp hb, hi.nodup, ?_, hi.gens, ?_⟩
    · intro q hq
      obtain ⟨h1, h2⟩ := hi.back q hq
      refine ⟨h1, ?_⟩
      simp only [W.writeTo]
      rw [set_ne (fun e => hs.notBackup p q hp h1 e.symm)]
      exact h2
    · intro fs hfs q hq
      rcases mem_writeTo hfs with hfs | ⟨d', rfl⟩
      · exact hi.log fs hfs q hq
      · exact j_kept (j_write hs hi.files hp hb) hq

theorem i47_backup {fs0 : FS} {src gen : Path → Prop} (hs : Setting fs0 src gen) {m : M} {p : Path} (hi : I47 fs0 src gen m) (hp : src p) :
    (backup m p .ok).1 = true ∧ I47 fs0 src gen (backup m p .ok).2 ∧ (backup m p .ok).2.w.fs (bkp p) = fs0 p := by
  obtain ⟨c0, hc0⟩ := hs.regular p hp
  rcases hi.files.safe p hp with hb | ⟨hp0, hb⟩
  · have he : fileExists m.w.fs (bkp p) = true := by
      rw [hc0] at hb
      rw [fileExists_reg (reg_of_file hb), hb]; rfl
    unfold backup
    rw [if_pos he]
    exact ⟨rfl, hi, hb⟩
  · have he : ¬ fileExists m.w.fs (bkp p) = true := by
      rw [fileExists_reg (reg_of_none hb), hb]; simp
    have hcp : copyFile m.w p (bkp p) .ok = (true, m.w.writeTo (bkp p) c0) := by
      unfold copyFile
      rw [hp0, hc0]
      exact writeFile_ok (reg_of_none hb) c0
    have hnb : Action.back p ∉ m.cleanup := by
      intro h
      have := (hi.back p h).2
      rw [hb, hc0] at this
      cases this
    -- the states while the backup is written
    have hmid : ∀ d q, src q → q ≠ p → (m.w.fs.set (bkp p) (.file d)) (bkp q) = m.w.fs (bkp q) :=
      fun d q _ hqp => set_ne (fun e => hqp (bkp_inj e))
    have hmid' : ∀ d q, src q → (m.w.fs.set (bkp p) (.file d)) q = m.w.fs q := fun d q hq => set_ne (hs.notBackup q p hq hp)
    unfold backup
    rw [if_neg he, hcp]
    refine ⟨rfl, ⟨hi.pend, ⟨?_, ?_⟩, ?_, ?_, ?_, ?_⟩, by simp [W.writeTo, hc0]⟩
    · intro q hq
      by_cases hqp : q = p
      · subst hqp; exact Or.inl (by simp [W.writeTo, hc0])
      · simp only [W.writeTo]
        rw [hmid c0 q hq hqp, hmid' c0 q hq]
        exact hi.files.safe q hq
    · intro q hq t
      simp only [W.writeTo]
      rw [hmid' c0 q hq]
      exact hi.files.reg q hq t
    · simp only [List.filter_append]
      rw [List.nodup_append]
      refine ⟨hi.nodup, by simp, ?_⟩
      intro x hx y hy hxy
      subst hxy
      simp only [List.mem_filter, List.mem_singleton] at hx hy
      rw [hy.1] at hx
      exact hnb hx.1
    · intro q hq0
      rcases List.mem_append.mp hq0 with hq | hq
      · obtain ⟨h1, h2⟩ := hi.back q hq
        refine ⟨h1, ?_⟩
        have hqp : q ≠ p := fun e => hnb (e ▸ hq)
        simp only [W.writeTo]
        rw [hmid c0 q h1 hqp]
        exact h2
      · simp only [List.mem_singleton, Action.back.injEq] at hq
        subst hq
        exact ⟨hp, by simp [W.writeTo, hc0]⟩
    · intro c a hca
      rcases List.mem_append.mp hca with h | h
      · exact hi.gens c a h
      · simp at h
    · intro fs hfs q hq
      rcases mem_writeTo hfs with hfs | ⟨d', rfl⟩
      · exact hi.log fs hfs q hq
      · unfold Kept
        rw [hmid' d' q hq]
        by_cases hqp : q = p
        · subst hqp; exact Or.inl hp0
        · rw [hmid d' q hq hqp]
          exact j_kept hi.files hq

theorem i47_backupAndWrite {fs0 : FS} {src gen : Path → Prop} (hs : Setting fs0 src gen) {m : M} {p : Path} {data : Bytes} {wf : Fault} (hi : I47 fs0 src gen m) (hp : src p) :
    I47 fs0 src gen (backupAndWrite m p data .ok wf).2 := by
  obtain ⟨h1, h2, h3⟩ := i47_backup hs hi hp
  unfold backupAndWrite
  cases hb : backup m p .ok with
  | mk ok m' =>
      rw [hb] at h1 h2 h3
      subst h1
      exact i47_write hs h2 hp h3 wf

theorem i47_commitAll {fs0 : FS} {src gen : Path → Prop} (hs : Setting fs0 src gen) (faults : Path → Fault × Fault) (hf : ∀ p, (faults p).1 = .ok) :
    ∀ (es : List (Path × Bytes)) (m : M), (∀ e ∈ es, src e.1) → I47 fs0 src gen m → I47 fs0 src gen (commitAll es faults m).2 := by
  intro es
  induction es with
  | nil => intro m _ hi; exact hi
  | cons e es ih =>
      intro m he hi
      have := i47_backupAndWrite hs (data := e.2) (wf := (faults e.1).2) hi (he e List.mem_cons_self)
      have := ih _ (fun x hx => he x (List.mem_cons_of_mem _ hx)) this
      simpa only [commitAll, hf] using this

theorem i47_inject {fs0 : FS} {src gen : Path → Prop} (hs : Setting fs0 src gen) {m : M} {c a : Path} {other : Bool} {ct at_ : Bytes}
    (hi : I47 fs0 src gen m) (hc : gen c) (ha : gen a) (hne : c ≠ a) : I47 fs0 src gen (inject m c a other ct at_ .ok .ok).2 := by
  unfold inject
  split
  · exact hi
  · rename_i hcond
    simp only [Bool.or_eq_true, not_or, Bool.not_eq_true, Option.isSome_eq_false_iff, Option.isNone_iff_eq_none] at hcond
    obtain ⟨⟨_, h1⟩, h2⟩ := hcond
    rw [writeFile_ok (reg_of_none h1)]
    have h2' : (m.w.writeTo c ct).fs a = none := by simp [W.writeTo, set_ne (Ne.symm hne), h2]
    simp only
    rw [writeFile_ok (reg_of_none h2')]
    have hset : ∀ (fs : FS) g d, gen g → ∀ p, src p → (fs.set g (.file d)) p = fs p ∧ (fs.set g (.file d)) (bkp p) = fs (bkp p) := by
      intro fs g d hg p hp
      exact ⟨set_ne (fun e => hs.genSrc g hg (e ▸ hp)), set_ne (fun e => hs.genBackup g p hg hp e.symm)⟩
    have j1 : ∀ d, J fs0 src (m.w.fs.set c (.file d)) := fun d => j_other hi.files (hset _ c d hc)
    have j2 : ∀ d, J fs0 src ((m.w.writeTo c ct).fs.set a (.file d)) := fun d => j_other (j1 ct) (hset _ a d ha)
    refine ⟨hi.pend, j2 at_, ?_, ?_, ?_, ?_⟩
    · simp only [List.filter_append]
      simpa using hi.nodup
    · intro q hq
      have hq' : Action.back q ∈ m.cleanup := by
        rcases List.mem_append.mp hq with h | h
        · exact h
        · simp at h
      obtain ⟨h3, h4⟩ := hi.back q hq'
      refine ⟨h3, ?_⟩
      simp only [W.writeTo]
      rw [(hset _ a at_ ha q h3).2, (hset _ c ct hc q h3).2]
      exact h4
    · intro c' a' h
      rcases List.mem_append.mp h with h | h
      · exact hi.gens c' a' h
      · simp only [List.mem_singleton, Action.gen.injEq] at h
        rw [h.1, h.2]
        exact ⟨hc, ha⟩
    · intro fs hfs q hq
      rcases mem_writeTo hfs with hfs | ⟨d', rfl⟩
      · rcases mem_writeTo hfs with hfs | ⟨d', rfl⟩
        · exact hi.log fs hfs q hq
        · exact j_kept (j1 d') hq
      · exact j_kept (j2 d') hq

theorem i47_cleanup {fs0 : FS} {src gen : Path → Prop} (hs : Setting fs0 src gen) (faults : Action → RFault) : ∀ (l : List Action) (w : W),
    (l.filter fun a => a matches .back _).Nodup → (∀ p, Action.back p ∈ l → src p ∧ w.fs (bkp p) = fs0 p) → (∀ c a, Action.gen c a ∈ l → gen c ∧ gen a) →
    J fs0 src w.fs → LogOk fs0 src w.log → J fs0 src (cleanupAll l faults w).2.fs ∧ LogOk fs0 src (cleanupAll l faults w).2.log := by
  intro l
  induction l with
  | nil => intro w _ _ _ h4 h5; exact ⟨h4, h5⟩
  | cons a l ih =>
      intro w h1 h2 h3 h4 h5
      have key : J fs0 src (cleanupOne w a (faults a)).2.fs ∧ LogOk fs0 src (cleanupOne w a (faults a)).2.log ∧
          (∀ p, Action.back p ∈ l → (cleanupOne w a (faults a)).2.fs (bkp p) = fs0 p) := by
        cases a with
        | gen c b =>
            obtain ⟨hc, hb⟩ := h3 c b List.mem_cons_self
            have hdel : ∀ (fs : FS) g, gen g → ∀ p, src p → (fs.del g) p = fs p ∧ (fs.del g) (bkp p) = fs (bkp p) := by
              intro fs g hg p hp
              exact ⟨del_ne (fun e => hs.genSrc g hg (e ▸ hp)), del_ne (fun e => hs.genBackup g p hg hp e.symm)⟩
            have hrem : ∀ (w : W) g b, gen g → J fs0 src w.fs → LogOk fs0 src w.log → J fs0 src (remove w g b).2.fs ∧ LogOk fs0 src (remove w g b).2.log ∧
                ∀ p, src p → (remove w g b).2.fs (bkp p) = w.fs (bkp p) := by
              intro w g b hg hj hl
              unfold remove
              split
              · have hj' := j_other hj (hdel w.fs g hg)
                refine ⟨hj', logOk_append hl ?_, fun p hp => (hdel w.fs g hg p hp).2⟩
                intro fs hfs p hp
                simp only [List.mem_singleton] at hfs
                rw [hfs]
                exact j_kept hj' hp
              · exact ⟨hj, hl, fun _ _ => rfl⟩
            obtain ⟨a1, a2, a3⟩ := hrem w c (faults (.gen c b) == .remove) hc h4 h5
            obtain ⟨b1, b2, b3⟩ := hrem (remove w c (faults (.gen c b) == .remove)).2 b (faults (.gen c b) == .rename) hb a1 a2
            refine ⟨b1, b2, fun p hp => ?_⟩
            obtain ⟨p1, p2⟩ := h2 p (List.mem_cons_of_mem _ hp)
            rw [← p2, ← a3 p p1]
            exact b3 p p1
        | back p =>
            obtain ⟨hp, hb⟩ := h2 p List.mem_cons_self
            obtain ⟨c0, hc0⟩ := hs.regular p hp
            rw [hc0] at hb
            have hnb : Action.back p ∉ l := by
              intro h
              rw [List.filter_cons, if_pos rfl, List.nodup_cons] at h1
              exact h1.1 (List.mem_filter.mpr ⟨h, rfl⟩)
            -- without the file
            have jd : J fs0 src (w.fs.del p) := by
              refine ⟨fun q hq => ?_, fun q hq t => ?_⟩
              · rw [del_ne (fun e => hs.notBackup p q hp hq e.symm)]
                by_cases hqp : q = p
                · subst hqp; exact Or.inl (by rw [hb, hc0])
                · rw [del_ne hqp]; exact h4.safe q hq
              · by_cases hqp : q = p
                · subst hqp; simp
                · rw [del_ne hqp]; exact h4.reg q hq t
            -- renaming the backup
            have hren : ∀ (w : W) b, J fs0 src w.fs → LogOk fs0 src w.log → w.fs (bkp p) = some (.file c0) →
                J fs0 src (rename w (bkp p) p b).2.fs ∧ LogOk fs0 src (rename w (bkp p) p b).2.log ∧
                ∀ q, src q → q ≠ p → (rename w (bkp p) p b).2.fs (bkp q) = w.fs (bkp q) := by
              intro w b hj hl hbw
              unfold rename
              rw [hbw]
              simp only
              split
              · exact ⟨hj, hl, fun _ _ _ => rfl⟩
              · have e : ∀ q, src q → q ≠ p → ((w.fs.del (bkp p)).set p (.file c0)) q = w.fs q ∧ ((w.fs.del (bkp p)).set p (.file c0)) (bkp q) = w.fs (bkp q) := by
                  intro q hq hqp
                  refine ⟨by rw [set_ne hqp, del_ne (hs.notBackup q p hq hp)], ?_⟩
                  rw [set_ne (fun e => hs.notBackup p q hp hq e.symm), del_ne (fun e => hqp (bkp_inj e))]
                have hj' : J fs0 src ((w.fs.del (bkp p)).set p (.file c0)) := by
                  refine ⟨fun q hq => ?_, fun q hq t => ?_⟩
                  · by_cases hqp : q = p
                    · subst hqp
                      exact Or.inr ⟨by simp [hc0], by rw [set_ne (bkp_ne q), del_self]⟩
                    · rw [(e q hq hqp).1, (e q hq hqp).2]; exact hj.safe q hq
                  · by_cases hqp : q = p
                    · subst hqp; simp
                    · rw [(e q hq hqp).1]; exact hj.reg q hq t
                refine ⟨hj', logOk_append hl ?_, fun q hq hqp => (e q hq hqp).2⟩
                intro fs hfs q hq
                simp only [List.mem_singleton] at hfs
                rw [hfs]
                exact j_kept hj' hq
            have fin : ∀ (w' : W), (J fs0 src w'.fs ∧ LogOk fs0 src w'.log ∧ ∀ q, src q → q ≠ p → w'.fs (bkp q) = w.fs (bkp q)) →
                J fs0 src w'.fs ∧ LogOk fs0 src w'.log ∧ ∀ q, Action.back q ∈ l → w'.fs (bkp q) = fs0 q := by
              rintro w' ⟨x1, x2, x3⟩
              refine ⟨x1, x2, fun q hq => ?_⟩
              obtain ⟨q1, q2⟩ := h2 q (List.mem_cons_of_mem _ hq)
              rw [← q2]
              exact x3 q q1 (by rintro rfl; exact hnb hq)
            apply fin
            simp only [cleanupOne, replaceFile]
            split
            · cases hrm : remove w p (faults (.back p) == .remove) with
              | mk ok w1 =>
              unfold remove at hrm
              split at hrm
              · cases hrm
                have hl : LogOk fs0 src (w.step (w.fs.del p)).log := by
                  refine logOk_append h5 ?_
                  intro fs hfs q hq
                  simp only [List.mem_singleton] at hfs
                  rw [hfs]
                  exact j_kept jd hq
                obtain ⟨r1, r2, r3⟩ := hren (w.step (w.fs.del p)) (faults (.back p) == .rename) jd hl (by simp only [W.step]; rw [del_ne (bkp_ne p)]; exact hb)
                refine ⟨r1, r2, fun q hq hqp => ?_⟩
                have r := r3 q hq hqp
                simp only [W.step] at r ⊢
                rw [r, del_ne (fun e => hs.notBackup p q hp hq e.symm)]
              · cases hrm
                exact ⟨h4, h5, fun _ _ _ => rfl⟩
            · exact hren w _ h4 h5 hb
      obtain ⟨k1, k2, k3⟩ := key
      simp only [cleanupAll]
      refine ih _ ?_ ?_ ?_ k1 k2
      · exact h1.sublist ((List.sublist_cons_self a l).filter _)
      · exact fun p hp => ⟨(h2 p (List.mem_cons_of_mem _ hp)).1, k3 p hp⟩
      · exact fun c b hcb => h3 c b (List.mem_cons_of_mem _ hcb)

theorem i47_run1 {fs0 : FS} {src gen : Path → Prop} (hs : Setting fs0 src gen) {m : M} (hi : I47 fs0 src gen m) (op : Op) (ho : OpOk src gen op) :
    I47 fs0 src gen (run1 m op) := by
  cases op with
  | stage p data =>
      refine ⟨?_, hi.files, hi.nodup, hi.back, hi.gens, hi.log⟩
      intro e he
      simp only [run1, AMap.set, List.mem_cons] at he
      rcases he with rfl | he
      · exact ho
      · exact hi.pend e (by unfold AMap.del at he; exact (List.mem_filter.mp he).1)
  | commitFile p cf wf =>
      simp only [OpOk] at ho
      subst ho
      simp only [run1, commitFile]
      cases hg : m.pending.get p with
      | none => exact hi
      | some data =>
          have hp : src p := hi.pend _ (AMap.mem_of_get hg)
          refine i47_backupAndWrite hs ⟨?_, hi.files, hi.nodup, hi.back, hi.gens, hi.log⟩ hp
          intro e he
          exact hi.pend e (by unfold AMap.del at he; exact (List.mem_filter.mp he).1)
  | commit faults =>
      have := i47_commitAll hs faults ho m.pending m hi.pend hi
      simp only [run1, commit]
      cases hc : commitAll m.pending faults m with
      | mk ok m' =>
          rw [hc] at this
          cases ok with
          | true => exact ⟨by simp, this.files, this.nodup, this.back, this.gens, this.log⟩
          | false => exact this
  | insertLines p data cf wf =>
      obtain ⟨h1, rfl⟩ := ho
      exact i47_backupAndWrite hs hi h1
  | inject c a other ct at_ f1 f2 =>
      obtain ⟨h1, h2, h3, rfl, rfl⟩ := ho
      exact i47_inject hs hi h1 h2 h3
  | restore faults =>
      obtain ⟨h1, h2⟩ := i47_cleanup hs faults m.cleanup m.w hi.nodup hi.back hi.gens hi.files hi.log
      simp only [run1, restore]
      exact ⟨hi.pend, h1, by simp, by simp, by simp, h2⟩

theorem i47_run {fs0 : FS} {src gen : Path → Prop} (hs : Setting fs0 src gen) : ∀ (ops : List Op) (m : M), I47 fs0 src gen m → (∀ op ∈ ops, OpOk src gen op) →
    I47 fs0 src gen (run m ops) := by
  intro ops
  induction ops with
  | nil => intro m hi _; exact hi
  | cons op ops ih => intro m hi ho; exact ih _ (i47_run1 hs hi op (ho op List.mem_cons_self)) fun o h => ho o (List.mem_cons_of_mem _ h)

theorem i47_new {fs0 : FS} {src gen : Path → Prop} (hs : Setting fs0 src gen) : I47 fs0 src gen (newM fs0) := by
  have hj : J fs0 src fs0 := ⟨fun p hp => Or.inr ⟨rfl, hs.noBackup p hp⟩, fun p hp => by
    obtain ⟨c, hc⟩ := hs.regular p hp
    exact reg_of_file hc⟩
  refine ⟨by simp [newM], hj, by simp [newM], by simp [newM], by simp [newM], ?_⟩
  intro fs hfs p hp
  simp only [newM, List.mem_singleton] at hfs
  rw [hfs]
  exact j_kept hj hp

end Verif.Files
