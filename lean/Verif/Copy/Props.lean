import Verif.Copy.Lemmas

/-!
C114: a copy that succeeds is complete and nothing else is written.
C115: failures are reported, and nothing is written after the end.
C116: copying ends, and succeeds if no operation fails.
C117: paths in the copy lead to the same files as in the original, inside of the copy.
C118: `WriteChmod` makes everything writable, removes no permission, waits, and reports failures.
-/

namespace Verif.Copy

/-! ### C114 -/

/-- If `CopyDir` returns no error, the destination is the same as the source at every path, and stays so. -/
theorem C114_complete (limit : Nat) (src : Tree) (hw : src.Wf) (st : St) (errs : List Err) (h : Reach limit src (fun _ => none) st errs) (hr : st.ret = some none) :
    (∀ p, st.dst p = src.at p) ∧ ∀ n st', Run limit n st st' → st' = st := by
  obtain ⟨pre, hi⟩ := inv hw h
  obtain ⟨htodo, htasks, hg⟩ := (hi.ret none hr).1 rfl
  have hpre : src.walk [] = pre := by rw [hi.split, htodo, List.append_nil]
  constructor
  · intro p
    cases ha : src.at p with
    | some n =>
      have hm : (p, n) ∈ pre := by rw [← hpre]; exact (mem_walk src hw [] p n).mpr ⟨p, by simp, ha⟩
      rcases hi.copied hg (p, n) hm with ⟨t, ht, -⟩ | h'
      · rw [htasks] at ht; cases ht
      · exact h'
    | none =>
      cases hd : st.dst p with
      | none => rfl
      | some n =>
        obtain ⟨n', h1, -⟩ := hi.only p n hd
        rw [← hpre] at h1
        obtain ⟨q, hq, h2⟩ := (mem_walk src hw [] p n').mp h1
        simp at hq
        subst hq
        rw [ha] at h2; cases h2
  · intro n st' hrun
    induction hrun with
    | refl => rfl
    | ok n a b c _ hs ih =>
      obtain rfl := ih h hr hi htodo htasks hg
      cases hs <;> simp_all
    | fail n a b c e _ hs ih =>
      obtain rfl := ih h hr hi htodo htasks hg
      cases hs <;> simp_all

/-- At any time, whatever happened: what is at the destination is at the same path in the source, files possibly with the first bytes only. -/
theorem C114_only (limit : Nat) (src : Tree) (hw : src.Wf) (st : St) (errs : List Err) (h : Reach limit src (fun _ => none) st errs) (p : Path) (n : Node)
    (hd : st.dst p = some n) : src.at p = some n ∨ ∃ c k, src.at p = some (.file c) ∧ n = .file (c.take k) := by
  obtain ⟨pre, hi⟩ := inv hw h
  obtain ⟨n', h1, h2⟩ := hi.only p n hd
  have hm : (p, n') ∈ src.walk [] := by rw [hi.split]; exact List.mem_append_left _ h1
  obtain ⟨q, hq, ha⟩ := (mem_walk src hw [] p n').mp hm
  simp at hq
  subst hq
  rcases h2 with rfl | ⟨c, k, rfl, rfl⟩
  · exact Or.inl ha
  · exact Or.inr ⟨c, k, ha, rfl⟩

/-! ### C115 -/

/-- An error is returned exactly if something failed. -/
theorem C115_error (limit : Nat) (src : Tree) (hw : src.Wf) (st : St) (errs : List Err) (h : Reach limit src (fun _ => none) st errs) (r : Option Err)
    (hr : st.ret = some r) : (r = none ↔ errs = []) := by
  obtain ⟨pre, hi⟩ := inv hw h
  constructor
  · rintro rfl
    exact hi.noGerr ((hi.ret none hr).1 rfl).2.2 (Or.inr hr)
  · intro he
    cases r with
    | none => rfl
    | some e =>
      rcases (hi.ret _ hr).2 e rfl with h' | ⟨-, h', -⟩
      · rw [he] at h'; cases h'
      · exact absurd he h'

/-- The error returned is one that happened, if it was not found by looking at the context. -/
theorem C115_cause_partial (limit : Nat) (src : Tree) (hw : src.Wf) (st : St) (errs : List Err) (h : Reach limit src (fun _ => none) st errs) (e : Err)
    (hr : st.ret = some (some e)) (hc : e ≠ .canceled ∨ st.todo = []) : e ∈ errs := by
  obtain ⟨pre, hi⟩ := inv hw h
  rcases (hi.ret _ hr).2 e rfl with h' | ⟨h1, -, h2⟩
  · exact h'
  · rcases hc with hc | hc
    · exact absurd h1 hc
    · exact absurd hc h2

/-- If there was no error, no copy is running when `CopyDir` returns. -/
theorem C115_wait_partial (limit : Nat) (src : Tree) (hw : src.Wf) (st : St) (errs : List Err) (h : Reach limit src (fun _ => none) st errs)
    (hr : st.ret ≠ none) (he : errs = []) : st.tasks = [] := by
  obtain ⟨pre, hi⟩ := inv hw h
  obtain ⟨r, hr⟩ := Option.ne_none_iff_exists'.mp hr
  have := (C115_error limit src hw st errs h r hr).mpr he
  subst this
  exact ((hi.ret none hr).1 rfl).2.1

/-- Two files and an empty directory. -/
def two : Tree := .dir ["a", "b", "c"] [.file [1], .file [2, 3], .dir [] []]

def r0 : St := init two fun _ => none
def r1 : St := { r0 with checked := true }
def r2 : St := { r1 with todo := r1.todo.tail, checked := false, dst := r1.dst.set [] .dir }
def r3 : St := { r2 with checked := true }
def r4 : St := { r3 with todo := r3.todo.tail, checked := false, tasks := [⟨["a"], .file [1], .start⟩] }
def r5 : St := { r4 with checked := true }
def r6 : St := { r5 with todo := r5.todo.tail, checked := false, tasks := [⟨["a"], .file [1], .start⟩, ⟨["b"], .file [2, 3], .start⟩] }
def r7 : St := { r6 with tasks := [⟨["b"], .file [2, 3], .start⟩], gerr := some (.io ["a"]), canceled := true }
def r8 : St := { r7 with ret := some (some .canceled) }

theorem reach8 : Reach 4 two (fun _ => none) r8 [.io ["a"]] := by
  have h0 : Reach 4 two (fun _ => none) r0 [] := .init
  have h1 : Reach 4 two (fun _ => none) r1 [] := .ok _ _ _ h0 (.check _ rfl (by simp [r0, init, two, Tree.walk]) rfl rfl)
  have h2 : Reach 4 two (fun _ => none) r2 [] := .ok _ _ _ h1 (.mkdir _ _ _ rfl rfl rfl (Or.inl rfl) (Or.inl rfl))
  have h3 : Reach 4 two (fun _ => none) r3 [] := .ok _ _ _ h2 (.check _ rfl (by simp [r2, r1, r0, init, two, Tree.walk, walkAll]) rfl rfl)
  have h4 : Reach 4 two (fun _ => none) r4 [] := .ok _ _ _ h3 (.spawn _ ["a"] (.file [1]) _ rfl rfl (by simp) rfl (by decide))
  have h5 : Reach 4 two (fun _ => none) r5 [] := .ok _ _ _ h4 (.check _ rfl (by simp [r4, r3, r2, r1, r0, init, two, Tree.walk, walkAll]) rfl rfl)
  have h6 : Reach 4 two (fun _ => none) r6 [] := .ok _ _ _ h5 (.spawn _ ["b"] (.file [2, 3]) _ rfl rfl (by simp) rfl (by decide))
  have h7 : Reach 4 two (fun _ => none) r7 [.io ["a"]] := .fail _ _ _ _ h6 (.copy _ [] _ ⟨["a"], .file [1], .start⟩ rfl)
  exact .ok _ _ _ h7 (.done _ rfl (by simp [r7, r6, r5, r4, r3, r2, r1, r0, init, two, Tree.walk, walkAll]) rfl rfl)

/-- One file cannot be read; the error returned is that the context was canceled. -/
theorem C115_cause_violated : ∃ (src : Tree) (st : St), src.Wf ∧ Reach 4 src (fun _ => none) st [.io ["a"]] ∧ st.ret = some (some .canceled) :=
  ⟨two, r8, by simp [two, Tree.Wf, WfAll], reach8, rfl⟩

/-- After `CopyDir` returned the error, another copy is still running, and creates a file. -/
theorem C115_wait_violated : ∃ (src : Tree) (st st' : St) (errs : List Err), src.Wf ∧ Reach 4 src (fun _ => none) st errs ∧ st.ret ≠ none ∧ Ok 4 st st' ∧
    st.dst ["b"] = none ∧ st'.dst ["b"] = some (.file []) :=
  ⟨two, r8, _, _, by simp [two, Tree.Wf, WfAll], reach8, by simp [r8], .create r8 [] [] ["b"] [2, 3] rfl (Or.inr (by decide)) (Or.inl (by decide)),
    by decide, FS.set_eq r8.dst ["b"] (.file [])⟩

/-! ### C116 -/

/-- Every run ends, however the goroutines are scheduled and whatever fails. -/
theorem C116_bounded (limit : Nat) (src : Tree) (dst : FS) : ∃ bound, ∀ n st, Run limit n (init src dst) st → n ≤ bound :=
  ⟨weight (init src dst), fun n st h => by have := run_weight h; omega⟩

/-- If no operation fails, a run that cannot go on has returned no error, and the copy is complete. -/
theorem C116_succeeds (limit : Nat) (hl : 0 < limit) (src : Tree) (hw : src.Wf) (st : St) (h : Reach limit src (fun _ => none) st [])
    (hstuck : ∀ st', ¬ Ok limit st st') : st.ret = some none ∧ ∀ p, st.dst p = src.at p := by
  obtain ⟨pre, hi⟩ := inv hw h
  have hr : st.ret = some none := by
    cases hr : st.ret with
    | none =>
      obtain ⟨st', h'⟩ := progress hw hl hi hr
      exact absurd h' (hstuck st')
    | some r => rw [(C115_error limit src hw st [] h r hr).mpr rfl]
  exact ⟨hr, (C114_complete limit src hw st [] h hr).1⟩

theorem ends (limit : Nat) (hl : 0 < limit) (src : Tree) (hw : src.Wf) : ∀ (k : Nat) (st : St), weight st ≤ k → Reach limit src (fun _ => none) st [] →
    ∃ st', Reach limit src (fun _ => none) st' [] ∧ st'.ret = some none := by
  intro k
  induction k with
  | zero =>
    intro st hk h
    by_cases hs : ∃ st', Ok limit st st'
    · obtain ⟨st', h'⟩ := hs
      have := ok_weight h'
      omega
    · exact ⟨st, h, (C116_succeeds limit hl src hw st h (fun st' h' => hs ⟨st', h'⟩)).1⟩
  | succ k ih =>
    intro st hk h
    by_cases hs : ∃ st', Ok limit st st'
    · obtain ⟨st', h'⟩ := hs
      have := ok_weight h'
      exact ih st' (by omega) (.ok _ _ _ h h')
    · exact ⟨st, h, (C116_succeeds limit hl src hw st h (fun st' h' => hs ⟨st', h'⟩)).1⟩

/-- The hypotheses of C114 to C116 can be met for every source: there is a run that copies it. -/
theorem C116_possible (limit : Nat) (hl : 0 < limit) (src : Tree) (hw : src.Wf) : ∃ st, Reach limit src (fun _ => none) st [] ∧ st.ret = some none :=
  ends limit hl src hw _ _ (Nat.le_refl _) .init

example : ∃ st, Reach 1 two (fun _ => none) st [] ∧ st.ret = some none ∧ st.dst ["b"] = some (.file [2, 3]) ∧ st.dst ["d"] = none := by
  obtain ⟨st, h, hr⟩ := C116_possible 1 (by decide) two (by simp [two, Tree.Wf, WfAll])
  obtain ⟨h1, -⟩ := C114_complete 1 two (by simp [two, Tree.Wf, WfAll]) st [] h hr
  exact ⟨st, h, hr, (h1 _).trans (by simp [two, Tree.at, child, Tree.node]), (h1 _).trans (by simp [two, Tree.at, child])⟩

/-! ### C117 -/

/-- A path that leads to something below the source by relative links leads to its copy in the copy. `before` and `after` are the file systems with the source
and with the copy. -/
theorem C117_paths_partial (limit : Nat) (src : Tree) (hw : src.Wf) (st : St) (errs : List Err) (h : Reach limit src (fun _ => none) st errs) (hr : st.ret = some none)
    (before after : FS) (srcRoot dstRoot : Path) (hb : Holds before srcRoot fun p => src.at p) (ha : Holds after dstRoot st.dst)
    (hps : Plain before srcRoot) (hpd : Plain after dstRoot) (k : Nat) (p r : Path) (hin : resolveIn k (fun p => src.at p) [] p = some r) :
    resolve (srcRoot.length + k) before [] (srcRoot ++ p) = some (srcRoot ++ r) ∧ resolve (dstRoot.length + k) after [] (dstRoot ++ p) = some (dstRoot ++ r) ∧
    after (dstRoot ++ r) = before (srcRoot ++ r) := by
  have hd := (C114_complete limit src hw st errs h hr).1
  have he : st.dst = fun p => src.at p := funext hd
  rw [he] at ha
  refine ⟨?_, ?_, (ha r).trans (hb r).symm⟩
  · rw [resolve_plain srcRoot [] k p hps.1 (fun q t hq hne => by simpa using hps.2 q t hq hne)]
    have := resolve_in hb k [] p r hin
    simpa using this
  · rw [resolve_plain dstRoot [] k p hpd.1 (fun q t hq hne => by simpa using hpd.2 q t hq hne)]
    have := resolve_in ha k [] p r hin
    simpa using this

/-- In the copy of a source without links every path leads to itself, inside of the copy. -/
theorem C117_plain_partial (limit : Nat) (src : Tree) (hw : src.Wf) (st : St) (errs : List Err) (h : Reach limit src (fun _ => none) st errs) (hr : st.ret = some none)
    (hno : ∀ q t, src.at q ≠ some (.link t)) (after : FS) (dstRoot : Path) (ha : Holds after dstRoot st.dst) (hpd : Plain after dstRoot) (p : Path) (hp : ".." ∉ p) :
    resolve (dstRoot.length + (p.length + 1)) after [] (dstRoot ++ p) = some (dstRoot ++ p) := by
  have hd := (C114_complete limit src hw st errs h hr).1
  have he : st.dst = fun p => src.at p := funext hd
  rw [he] at ha
  rw [resolve_plain dstRoot [] _ p hpd.1 (fun q t hq hne => by simpa using hpd.2 q t hq hne)]
  have := resolve_in ha _ [] p p (resolveIn_plain hno p [] hp)
  simpa using this

/-- A relative link in the source. -/
def linked : Tree := .dir ["a.go", "sub"] [.file [1], .dir ["a.go"] [.link (.rel ["..", "a.go"])]]

example : linked.Wf ∧ resolveIn 9 (fun p => linked.at p) [] ["sub", "a.go"] = some ["a.go"] :=
  ⟨by simp [linked, Tree.Wf, WfAll], by decide⟩

/-- An absolute link in the project leads out of the copy to the original. -/
theorem C117_link_violated : ∃ (src : Tree) (st : St) (after : FS), src.Wf ∧ Reach 4 src (fun _ => none) st [] ∧ st.ret = some none ∧
    Holds after ["tmp", "project"] st.dst ∧ Plain after ["tmp", "project"] ∧
    resolve 9 after [] ["tmp", "project", "gen.go"] = some ["home", "proj", "tpl.go"] := by
  let src : Tree := .dir ["gen.go", "tpl.go"] [.link (.abs ["home", "proj", "tpl.go"]), .file [1]]
  have hw : src.Wf := by simp [src, Tree.Wf, WfAll]
  obtain ⟨st, h, hr⟩ := C116_possible 4 (by decide) src hw
  have hd := (C114_complete 4 src hw st [] h hr).1
  let after : FS := fun q => match q with
    | "tmp" :: "project" :: p => st.dst p
    | ["home", "proj", "tpl.go"] => some (.file [1])
    | _ => some .dir
  refine ⟨src, st, after, hw, h, hr, fun p => rfl, ⟨by decide, ?_⟩, ?_⟩
  · intro q t hq hne
    obtain ⟨s, hs⟩ := hq
    match q, hs with
    | [], _ => exact absurd rfl hne
    | [a], hs => simp at hs; obtain ⟨rfl, -⟩ := hs; simp [after]
    | [a, b], hs => simp at hs; obtain ⟨rfl, rfl, -⟩ := hs; simp [after, hd, src, Tree.at, Tree.node]
    | a :: b :: c :: l, hs => simp at hs
  · have h1 : after ["tmp", "project"] = some .dir := by simp [after, hd, src, Tree.at, Tree.node]
    have h2 : after ["tmp", "project", "gen.go"] = some (.link (.abs ["home", "proj", "tpl.go"])) := by simp [after, hd, src, Tree.at, Tree.node, child]
    have h3 : after ["tmp"] = some .dir := rfl
    simp only [resolve, List.nil_append, List.cons_append, h1, h2, h3]
    rfl

/-- A project directory (or GOPATH) that is itself a link is "copied" as a link: everything in the temporary directory is the original. -/
theorem C117_root_violated : ∃ (src : Tree) (st : St) (after : FS), src.Wf ∧ Reach 4 src (fun _ => none) st [] ∧ st.ret = some none ∧
    Holds after ["tmp", "project"] st.dst ∧ ∀ x, x ≠ ".." → after ["real", x] = some (.file []) →
      resolve 9 after [] ["tmp", "project", x] = some ["real", x] := by
  let src : Tree := .link (.abs ["real"])
  have hw : src.Wf := by simp [src, Tree.Wf]
  obtain ⟨st, h, hr⟩ := C116_possible 4 (by decide) src hw
  have hd := (C114_complete 4 src hw st [] h hr).1
  let after : FS := fun q => match q with
    | "tmp" :: "project" :: p => st.dst p
    | ["real", _] => some (.file [])
    | _ => some .dir
  refine ⟨src, st, after, hw, h, hr, fun p => rfl, ?_⟩
  intro x hx _
  have h1 : after ["tmp", "project"] = some (.link (.abs ["real"])) := by simp [after, hd, src, Tree.at, Tree.node]
  have h3 : after ["tmp"] = some .dir := rfl
  have h4 : after ["real"] = some .dir := rfl
  have h5 : after ["real", x] = some (.file []) := rfl
  simp [resolve, h1, h3, h4, h5, hx]

/-! ### C118 -/

/-- If `WriteChmod` returns no error, everything that is not a link can be written by everyone, directories can be searched, and nothing else changed. -/
theorem C118_writable (limit : Nat) (paths : List Path) (hnp : paths.Nodup) (info : Path → Option Info) (st : CSt) (errs : List Err)
    (h : CReach limit paths info st errs) (hr : st.ret = some []) :
    (∀ p ∈ paths, ∃ i j, info p = some i ∧ st.info p = some j ∧ j.isDir = i.isDir ∧ j.isLink = i.isLink ∧ (i.isLink = true → j.perm = i.perm) ∧
      (i.isLink = false → ∀ b : Nat, j.perm.getLsbD b = (i.perm.getLsbD b || b == 1 || b == 4 || b == 7 || (i.isDir && (b == 0 || b == 3 || b == 6))))) ∧
    ∀ p, p ∉ paths → st.info p = info p := by
  obtain ⟨pre, hi⟩ := cinv hnp h
  obtain ⟨htasks, w, hw, hl⟩ := hi.ret [] hr
  have hwn : w = none := by cases w <;> simp at hl ⊢
  have hg : st.gerr = none := by cases hg : st.gerr <;> simp [hg] at hl ⊢
  have htodo := (hi.werr w hw).1 hwn
  have hpre : paths = pre := by rw [hi.split, htodo, List.append_nil]
  constructor
  · intro p hp
    rw [hpre] at hp
    rcases hi.done hg p hp with h' | ⟨i, h1, h2⟩
    · rw [htasks] at h'; cases h'
    · by_cases hlk : i.isLink = true
      · rw [if_pos hlk] at h2
        exact ⟨i, i, h1, h2, rfl, rfl, fun _ => rfl, fun h' => by rw [hlk] at h'; cases h'⟩
      · rw [if_neg hlk] at h2
        refine ⟨i, _, h1, h2, rfl, rfl, fun h' => absurd h' hlk, ?_⟩
        intro _ b
        rcases Nat.lt_or_ge b 9 with hb | hb
        · have : b = 0 ∨ b = 1 ∨ b = 2 ∨ b = 3 ∨ b = 4 ∨ b = 5 ∨ b = 6 ∨ b = 7 ∨ b = 8 := by omega
          unfold newPerm
          rcases this with rfl | rfl | rfl | rfl | rfl | rfl | rfl | rfl | rfl <;> cases i.isDir <;> simp
        · rw [BitVec.getLsbD_of_ge _ _ hb, BitVec.getLsbD_of_ge _ _ hb]
          have h1 : (b == 0) = false := by simp; omega
          have h2 : (b == 1) = false := by simp; omega
          have h3 : (b == 3) = false := by simp; omega
          have h4 : (b == 4) = false := by simp; omega
          have h5 : (b == 6) = false := by simp; omega
          have h6 : (b == 7) = false := by simp; omega
          simp [h1, h2, h3, h4, h5, h6]
  · intro p hp
    exact hi.same p (Or.inl (hpre ▸ hp))

/-- No permission is ever removed, also if something fails. -/
theorem C118_keeps (limit : Nat) (paths : List Path) (hnp : paths.Nodup) (info : Path → Option Info) (st : CSt) (errs : List Err)
    (h : CReach limit paths info st errs) (p : Path) (i : Info) (hp : info p = some i) :
    ∃ j, st.info p = some j ∧ ∀ b, i.perm.getLsbD b = true → j.perm.getLsbD b = true := by
  obtain ⟨pre, hi⟩ := cinv hnp h
  rcases hi.either p i hp with h' | ⟨-, h'⟩
  · exact ⟨i, h', fun _ hb => hb⟩
  · refine ⟨_, h', fun b hb => ?_⟩
    dsimp only
    unfold newPerm
    split <;> simp [hb]

/-- `concurrentWalk` returns when no goroutine is running, with an error exactly if something failed, and then with one that happened. -/
theorem C118_returns (limit : Nat) (paths : List Path) (hnp : paths.Nodup) (info : Path → Option Info) (st : CSt) (errs : List Err)
    (h : CReach limit paths info st errs) (l : List Err) (hr : st.ret = some l) :
    st.tasks = [] ∧ (l = [] ↔ errs = []) ∧ (errs ≠ [] → ∃ e ∈ l, e ∈ errs) := by
  obtain ⟨pre, hi⟩ := cinv hnp h
  obtain ⟨htasks, w, hw, rfl⟩ := hi.ret l hr
  have hone : errs ≠ [] → ∃ e ∈ w.toList ++ st.gerr.toList, e ∈ errs := by
    intro he
    cases hg : st.gerr with
    | some e => exact ⟨e, by simp, hi.gerr e hg⟩
    | none =>
      cases w with
      | none => exact absurd (hi.noErr hg (Or.inr hw)) he
      | some e =>
        rcases (hi.werr _ hw).2 e rfl with h' | ⟨-, h'⟩
        · exact ⟨e, by simp, h'⟩
        · rw [hg] at h'; cases h'
  refine ⟨htasks, ⟨?_, ?_⟩, hone⟩
  · intro hl
    by_cases he : errs = []
    · exact he
    · obtain ⟨e, h1, -⟩ := hone he
      rw [hl] at h1; cases h1
  · intro he
    have hg : st.gerr = none := by
      cases hg : st.gerr with
      | none => rfl
      | some e => have := hi.gerr e hg; rw [he] at this; cases this
    have hwn : w = none := by
      cases w with
      | none => rfl
      | some e =>
        rcases (hi.werr _ hw).2 e rfl with h' | ⟨-, h'⟩
        · rw [he] at h'; cases h'
        · rw [hg] at h'; cases h'
    simp [hg, hwn]

/-- A read-only directory (`0555`). -/
example : ∃ st, CReach 1 [[]] (fun p => if p = [] then some ⟨0o555#9, true, false⟩ else none) st [] ∧ st.ret = some [] ∧ st.info [] = some ⟨0o777#9, true, false⟩ := by
  let info : Path → Option Info := fun p => if p = [] then some ⟨0o555#9, true, false⟩ else none
  have h0 : CReach 1 [[]] info _ [] := .init
  have h1 := CReach.ok _ _ _ h0 (.check _ rfl (by simp [cinit]) rfl rfl)
  have h2 := CReach.ok _ _ _ h1 (.spawn _ [] [] rfl rfl rfl (by simp [cinit]))
  have h3 := CReach.ok _ _ _ h2 (.walked _ rfl rfl)
  have h4 := CReach.ok _ _ _ h3 (.chmod _ [] [] [] ⟨0o555#9, true, false⟩ rfl rfl rfl)
  have h5 := CReach.ok _ _ _ h4 (.wait _ none rfl rfl rfl)
  exact ⟨_, h5, rfl, rfl⟩

end Verif.Copy
