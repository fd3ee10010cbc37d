import Verif.Util.Lemmas
import Mathlib.Data.List.Induction

namespace Verif.Util

/-! ## C53: the concurrency limiter -/

/-- At most `limit` activities hold the limiter, in every reachable state, with or without `Join` running, whatever the
goroutines do. -/
theorem C53_at_most_limit (limit : Nat) (c : Bool) (rounds : List Nat) (s : LState)
    (h : LReach limit c (linit limit rounds) s) : holders s ≤ limit := by
  have := tokens_inv h; omega

/-- When `Join` has returned (it has taken `limit` tokens), no activity holds the limiter. -/
theorem C53_join_waits (limit : Nat) (c : Bool) (rounds : List Nat) (s : LState)
    (h : LReach limit c (linit limit rounds) s) (hj : s.joined = limit) : ∀ g ∈ s.gs, isHolding g = false := by
  have h2 := tokens_inv h
  have h3 : holders s = 0 := by omega
  intro g hg
  have := List.countP_eq_zero.mp h3 g hg
  simpa using this

/-- With the documented use (no `Take` once `Join` has started) and a positive limit, every reachable state that is not
finished has a next step, and every step makes progress: every execution ends, with all activities over and `Join`
returned. -/
theorem C53_no_deadlock (limit : Nat) (hl : 0 < limit) (rounds : List Nat) (s : LState)
    (h : LReach limit true (linit limit rounds) s) :
    (LDone limit s ∨ ∃ s', LStep limit true s s') ∧
    ∀ s', LStep limit true s s' → work s'.gs + (limit - s'.joined) < work s.gs + (limit - s.joined) := by
  have hinv := tokens_inv h
  constructor
  · by_cases hh : ∃ g ∈ s.gs, isHolding g = true
    · obtain ⟨g, hg, hgh⟩ := hh
      obtain ⟨i, hi⟩ := List.getElem?_of_mem hg
      cases g with
      | idle r => simp [isHolding] at hgh
      | holding r =>
          have : 0 < holders s := List.countP_pos_iff.mpr ⟨_, hg, hgh⟩
          exact Or.inr ⟨_, LStep.release s i r hi (by omega)⟩
    · have hz : holders s = 0 := by
        refine List.countP_eq_zero.mpr ?_
        intro g hg hgt; exact hh ⟨g, hg, hgt⟩
      by_cases hr : ∀ g ∈ s.gs, remaining g = 0
      · by_cases hj : s.joined = limit
        · left
          refine ⟨?_, hj⟩
          intro g hg
          have h1 := hr g hg
          cases g with
          | idle r => simp [remaining] at h1; rw [h1]
          | holding r => exact absurd ⟨_, hg, rfl⟩ hh
        · exact Or.inr ⟨_, LStep.join s (by omega) (by omega) (fun _ => hr)⟩
      · have hj : s.joined = 0 := by
          by_contra hne
          exact hr (joined_inv h (by omega))
        have : ∃ g ∈ s.gs, remaining g ≠ 0 := by
          by_contra hne
          exact hr (fun g hg => by_contra fun hc => hne ⟨g, hg, hc⟩)
        obtain ⟨g, hg, hgr⟩ := this
        obtain ⟨i, hi⟩ := List.getElem?_of_mem hg
        cases g with
        | holding r => exact absurd ⟨_, hg, rfl⟩ hh
        | idle r =>
            obtain ⟨r', rfl⟩ : ∃ r', r = r' + 1 := ⟨r - 1, by simp [remaining] at hgr; omega⟩
            exact Or.inr ⟨_, LStep.take s i r' hi (by omega)⟩
  · intro s' st
    cases st with
    | take i r hi ht =>
        have := work_set _ i _ (.holding r) hi
        simp only [gwork] at this ⊢
        omega
    | release i r hi ht =>
        have := work_set _ i _ (.idle r) hi
        simp only [gwork] at this ⊢
        omega
    | join hj ht _ =>
        show work s.gs + (limit - (s.joined + 1)) < _
        omega

/-- Without the documented use the limiter can hang: `Join` takes the only token, the pending activity never starts. -/
theorem C53_take_after_join_hangs :
    ∃ s, LReach 1 false (linit 1 [1]) s ∧ s.joined = 1 ∧ s.gs = [.idle 1] ∧ ∀ s', ¬ LStep 1 false s s' := by
  refine ⟨⟨0, [.idle 1], 1⟩, LReach.step LReach.refl (LStep.join (linit 1 [1]) (by decide) (by decide) (by simp)), rfl, rfl, ?_⟩
  intro s' st
  cases st with
  | take i r hi ht => simp at ht
  | release i r hi ht =>
      have := List.mem_of_getElem? hi
      simp at this
  | join hj ht _ => simp at ht

/-- Three goroutines, limit two: a state with both slots used is reachable. -/
example : ∃ s, LReach 2 true (linit 2 [1, 2, 1]) s ∧ holders s = 2 :=
  ⟨_, LReach.step (LReach.step LReach.refl (LStep.take _ 0 0 rfl (by decide))) (LStep.take _ 1 1 rfl (by decide)), rfl⟩

/-- A complete run: one activity, then `Join` with limit one. -/
example : ∃ s, LReach 1 true (linit 1 [1]) s ∧ LDone 1 s := by
  refine ⟨⟨0, [.idle 0], 1⟩, ?_, by simp, rfl⟩
  have h1 := LReach.step LReach.refl (LStep.take (contract := true) (limit := 1) (linit 1 [1]) 0 0 rfl (by decide))
  have h2 := LReach.step h1 (LStep.release _ 0 0 rfl (by decide))
  exact LReach.step h2 (LStep.join _ (by decide) (by decide) (by decide))

/-! ## C54: striped locks -/

/-- Two goroutines never hold the lock for the same key at the same time. -/
theorem C54_exclusion {K : Type} (hash : K → Nat) (stripes g : Nat) (s : MState K)
    (h : MReach hash (minit K stripes g) s) (k : K) (i i' : Nat) (hi : HoldsKey s i k) (hi' : HoldsKey s i' k) :
    i = i' := by
  have inv := minv hash stripes g h
  obtain ⟨j, hj⟩ := hi
  obtain ⟨j', hj'⟩ := hi'
  have h1 := inv.stripe i k j hj
  have h2 := inv.stripe i' k j' hj'
  subst h1; subst h2
  exact inv.one i i' k k _ hj hj'

/-- A waiting goroutine is only ever blocked by somebody holding the stripe: if nobody holds a lock, every key can be
locked (for a positive number of stripes). -/
theorem C54_free_lock_available {K : Type} (hash : K → Nat) (stripes g : Nat) (hs : 0 < stripes) (s : MState K)
    (h : MReach hash (minit K stripes g) s) (i : Nat) (hi : s.gs[i]? = some .free) (k : K)
    (hfree : ∀ i' k', HoldsKey s i' k' → stripeOf hash stripes k' ≠ stripeOf hash stripes k) :
    ∃ s', MStep hash s s' ∧ HoldsKey s' i k := by
  have key : ∀ t, MReach hash (minit K stripes g) t → ∀ j : Nat, t.locks[j]? = some true →
      ∃ (i' : Nat) (k' : K), t.gs[i']? = some (MPhase.holds k' j) := by
    clear hfree hi h
    intro t h
    induction h with
    | refl =>
        intro j hj
        have := List.mem_of_getElem? hj
        simp [minit] at this
    | step hr st ih =>
        intro j hj
        cases st with
        | lock a ka ha hl =>
            rename_i s0
            have hlt : a < s0.gs.length := (List.getElem?_eq_some_iff.mp ha).1
            by_cases hjj : stripeOf hash s0.locks.length ka = j
            · exact ⟨a, ka, by simp [hlt, hjj]⟩
            · rw [List.getElem?_set_ne hjj] at hj
              obtain ⟨i', k', h'⟩ := ih j hj
              refine ⟨i', k', ?_⟩
              rw [List.getElem?_set_ne]
              · exact h'
              · rintro rfl; rw [ha] at h'; simp at h'
        | unlock a ka ja ha =>
            by_cases hjj : ja = j
            · subst hjj
              rw [List.getElem?_set] at hj
              simp at hj
            · rw [List.getElem?_set_ne hjj] at hj
              obtain ⟨i', k', h'⟩ := ih j hj
              refine ⟨i', k', ?_⟩
              rw [List.getElem?_set_ne]
              · exact h'
              · rintro rfl; rw [ha] at h'; simp at h'; exact hjj h'.2
  have inv := minv hash stripes g h
  have hlt : stripeOf hash stripes k < s.locks.length := by rw [inv.len]; exact Nat.mod_lt _ hs
  have hl : s.locks[stripeOf hash s.locks.length k]? = some false := by
    rw [inv.len, List.getElem?_eq_getElem hlt]
    cases hb : s.locks[stripeOf hash stripes k] with
    | false => rfl
    | true =>
        obtain ⟨i', k', h'⟩ := key s h _ (by rw [List.getElem?_eq_getElem hlt, hb])
        exact absurd (inv.stripe i' k' _ h').symm (hfree i' k' ⟨_, h'⟩)
  have hgl : i < s.gs.length := (List.getElem?_eq_some_iff.mp hi).1
  exact ⟨_, MStep.lock s i k hi hl, _, by simp [hgl]; rfl⟩

/-- Two goroutines holding different keys of different stripes. -/
example : ∃ s, MReach (fun k : Nat => k) (minit Nat 3 2) s ∧ HoldsKey s 0 4 ∧ HoldsKey s 1 8 :=
  ⟨_, MReach.step (MReach.step MReach.refl (MStep.lock _ 0 4 rfl rfl)) (MStep.lock _ 1 8 rfl rfl), ⟨_, rfl⟩, ⟨_, rfl⟩⟩

/-! ## C55: the rolling buffer -/

/-- The buffer holds the whole output, or "..." and an exact suffix of at least half the limit. -/
theorem C55_tail (max : Nat) (ws : List Bytes) :
    let buf := ws.foldl (rollWrite max) []
    buf = ws.flatten ∨ ∃ t, buf = dots ++ t ∧ t <:+ ws.flatten ∧ max / 2 ≤ t.length ∧ max < ws.flatten.length := by
  induction ws using List.reverseRecOn with
  | nil => left; rfl
  | append_singleton ws p ih =>
      simp only [List.foldl_append, List.foldl_cons, List.foldl_nil, List.flatten_append, List.flatten_cons,
        List.flatten_nil, List.append_nil] at *
      generalize ws.foldl (rollWrite max) [] = buf at *
      generalize ws.flatten = out at *
      unfold rollWrite
      simp only
      rcases ih with rfl | ⟨t, rfl, ⟨pre, rfl⟩, hlen, hbig⟩
      · split
        · rename_i h
          right
          refine ⟨_, rfl, List.drop_suffix _ _, ?_, h⟩
          rw [List.length_drop]
          omega
        · left; rfl
      · split
        · rename_i h
          right
          have hd : (dots ++ t ++ p).drop ((dots ++ t ++ p).length - max / 2) = (t ++ p).drop ((t ++ p).length - max / 2) := by
            have e : (dots ++ t ++ p).length - max / 2 = dots.length + ((t ++ p).length - max / 2) := by
              simp only [List.length_append]; omega
            rw [e, List.append_assoc, ← List.drop_drop, List.drop_left]
          rw [hd]
          refine ⟨_, rfl, ?_, ?_, ?_⟩
          · exact (List.drop_suffix _ _).trans ⟨pre, by simp⟩
          · rw [List.length_drop]; simp only [List.length_append]; omega
          · simp only [List.length_append] at *; omega
        · right
          exact ⟨t ++ p, by simp, ⟨pre, by simp⟩, by simp only [List.length_append]; omega, by simp only [List.length_append] at *; omega⟩

/-- The buffer never exceeds its limit, for limits of at least five bytes. -/
theorem C55_bounded (max : Nat) (hm : 5 ≤ max) (ws : List Bytes) : (ws.foldl (rollWrite max) []).length ≤ max := by
  induction ws using List.reverseRecOn with
  | nil => simp
  | append_singleton ws p _ =>
      simp only [List.foldl_append, List.foldl_cons, List.foldl_nil]
      unfold rollWrite
      simp only
      split
      · simp only [List.length_append, List.length_drop, dots, List.length_cons, List.length_nil]
        omega
      · omega

/-- A limit below five is exceeded: the ellipsis alone does not fit. -/
theorem C55_small_limit (max : Nat) (hm : max < 5) (p : Bytes) (hp : max < p.length) :
    max < (rollWrite max [] p).length := by
  unfold rollWrite
  simp only [List.nil_append, gt_iff_lt, hp, if_true, List.length_append, List.length_drop, dots, List.length_cons,
    List.length_nil]
  omega

/-- Output that fits is kept as it is. -/
theorem C55_fits (max : Nat) (ws : List Bytes) (h : ws.flatten.length ≤ max) :
    ws.foldl (rollWrite max) [] = ws.flatten := by
  rcases C55_tail max ws with h1 | ⟨_, _, _, _, h2⟩
  · exact h1
  · omega

example : [[1, 2, 3], [4, 5, 6, 7]].foldl (rollWrite 6) [] = dots ++ [5, 6, 7] := by decide

/-! ## C56: the tee -/

/-- With at least one writer: every write calls every non-nil writer exactly once, in order, with the same bytes,
whatever the others answer; every error is reported; and without errors and short writes there is no error and the
whole input counts as written. -/
theorem C56_write_partial (ws : List (Option (Nat × Bool))) (hne : given ws ≠ []) (resp : Nat → Nat × List Nat) (p : Bytes) :
    ∃ w, teeOf ws = some w ∧
      (writeTo resp p w).calls = (given ws).map (fun x => (x.1, p)) ∧
      (∀ x ∈ given ws, ∀ e ∈ (resp x.1).2, e ∈ (writeTo resp p w).errs) ∧
      ((∀ x ∈ given ws, resp x.1 = (p.length, [])) → (writeTo resp p w).errs = [] ∧ (writeTo resp p w).n = p.length) := by
  obtain ⟨w, hw, hl⟩ := leaves_teeOf ws hne
  refine ⟨w, hw, ?_, ?_, ?_⟩
  · rw [calls_eq, hl]
  · intro x hx e he; exact errs_mem resp p w x (hl ▸ hx) e he
  · intro h; exact write_ok resp p w (hl ▸ h)

/-- A write that reports no error was complete at every writer or equally short at all of them: a writer that wrote
fewer bytes than another one does not go unnoticed. -/
theorem C56_uneven_noticed (ws : List (Option (Nat × Bool))) (w : Writer) (hw : teeOf ws = some w)
    (resp : Nat → Nat × List Nat) (p : Bytes) (h : (writeTo resp p w).errs = []) :
    ∀ x ∈ given ws, resp x.1 = ((writeTo resp p w).n, []) := by
  by_cases hne : given ws = []
  · simp [hne]
  obtain ⟨w', hw', hl⟩ := leaves_teeOf ws hne
  rw [hw] at hw'; cases hw'
  intro x hx
  exact write_even resp p w h x (hl ▸ hx)

/-- Closing closes every closable writer, once per occurrence, in order. -/
theorem C56_close_partial (ws : List (Option (Nat × Bool))) (hne : given ws ≠ []) :
    ∃ w, teeOf ws = some w ∧ closeAll w = ((given ws).filter (·.2)).map (·.1) := by
  obtain ⟨w, hw, hl⟩ := leaves_teeOf ws hne
  exact ⟨w, hw, by rw [closeAll_eq, hl]⟩

/-- Without any non-nil writer the tee wraps a nil writer, so the first write panics. -/
theorem C56_no_writer_violated : teeOf [] = none ∧ teeOf [none, none] = none := ⟨rfl, rfl⟩

example : ∃ w, teeOf [some (1, true), none, some (2, false), some (3, true)] = some w ∧
    writeTo (fun i => if i = 1 then (0, [7]) else (2, [])) [65, 66] w =
      ⟨[(1, [65, 66]), (2, [65, 66]), (3, [65, 66])], 0, [7]⟩ ∧ closeAll w = [1, 3] :=
  ⟨_, rfl, by decide, by decide⟩

/-! ## C57: the environment of child processes -/

/-- An inherited LD_ variable is not passed on; one the caller asked for is. -/
theorem C57_no_ld (env os : List Bytes) (k : Bytes) (hk : [76, 68, 95] <+: k) (hreq : k ∉ env.map envKey) :
    lookupEnv (mergeSafeEnv env os) k = none := by
  unfold lookupEnv
  rw [Option.map_eq_none_iff, List.find?_eq_none]
  intro e he hek
  simp only [beq_iff_eq] at hek
  subst hek
  rw [List.mem_reverse, mergeSafeEnv, List.mem_append, List.mem_filter] at he
  rcases he with ⟨_, he⟩ | he
  · have : ldPrefix.isPrefixOf e = true := List.isPrefixOf_iff_prefix.mpr (envKey_ld.mpr hk)
    simp [this] at he
  · exact hreq (List.mem_map.mpr ⟨e, he, rfl⟩)

/-- The value the child sees for a variable is what some entry, asked for or inherited, has after the name and the first equals sign. -/
theorem C57_value (env os : List Bytes) (k v : Bytes) (h : lookupEnv (mergeSafeEnv env os) k = some v) :
    (k ++ 61 :: v ∈ env ∨ k ++ 61 :: v ∈ os ∨ v = [] ∧ (k ∈ env ∨ k ∈ os)) ∧ (61 : UInt8) ∉ k := by
  unfold lookupEnv at h
  obtain ⟨e, he, rfl⟩ := Option.map_eq_some_iff.mp h
  have hk := List.find?_some he
  have hm := List.mem_of_find?_eq_some he
  simp only [beq_iff_eq] at hk
  subst hk
  have split : ∀ l : Bytes, (l = envKey l ++ 61 :: envVal l ∨ envVal l = [] ∧ l = envKey l) ∧ (61 : UInt8) ∉ envKey l := by
    intro l
    induction l with
    | nil => exact ⟨Or.inr ⟨rfl, rfl⟩, by simp [envKey]⟩
    | cons b l ih =>
      by_cases hb : b = 61
      · subst hb; simp [envKey, envVal]
      · have e1 : envKey (b :: l) = b :: envKey l := by simp [envKey, hb]
        have e2 : envVal (b :: l) = envVal l := by simp [envVal, hb]
        rw [e1, e2]
        refine ⟨?_, by simp only [List.mem_cons, not_or]; exact ⟨fun h => hb h.symm, ih.2⟩⟩
        rcases ih.1 with h | ⟨h1, h2⟩
        · left; rw [List.cons_append, ← h]
        · right; exact ⟨h1, by rw [← h2]⟩
  rw [List.mem_reverse, mergeSafeEnv, List.mem_append, List.mem_filter] at hm
  have hm' : e ∈ env ∨ e ∈ os := hm.elim (fun h => Or.inr h.1) Or.inl
  obtain ⟨hs, hn⟩ := split e
  refine ⟨?_, hn⟩
  rcases hs with hs | ⟨h1, h2⟩
  · rw [← hs]; exact hm'.elim Or.inl fun h => Or.inr (Or.inl h)
  · right; right; rw [← h2]; exact ⟨h1, hm'⟩

/-- Every requested variable has, for the child, the value asked for, whatever the parent had. -/
theorem C57_requested (env os : List Bytes) (k : Bytes) (hreq : k ∈ env.map envKey) :
    lookupEnv (mergeSafeEnv env os) k = lookupEnv env k ∧ (lookupEnv env k).isSome := by
  have hs : (env.reverse.find? (fun e => envKey e == k)).isSome := by
    rw [List.find?_isSome]
    obtain ⟨e, he, rfl⟩ := List.mem_map.mp hreq
    exact ⟨e, List.mem_reverse.mpr he, by simp⟩
  refine ⟨?_, by simpa [lookupEnv] using hs⟩
  unfold lookupEnv mergeSafeEnv
  simp only
  rw [find_rev_append, Option.or_of_isSome hs]

/-- Every other inherited variable keeps its value (a variable needs a non-empty name). -/
theorem C57_others_unchanged (env os : List Bytes) (k : Bytes) (hk : k ≠ []) (hld : ¬ [76, 68, 95] <+: k)
    (hreq : k ∉ env.map envKey) : lookupEnv (mergeSafeEnv env os) k = lookupEnv os k := by
  unfold lookupEnv mergeSafeEnv
  simp only
  rw [find_rev_append]
  have h1 : env.reverse.find? (fun e => envKey e == k) = none := by
    rw [List.find?_eq_none]
    intro e he hek
    simp only [beq_iff_eq] at hek
    exact hreq (List.mem_map.mpr ⟨e, List.mem_reverse.mp he, hek⟩)
  rw [h1, Option.none_or, ← List.filter_reverse, find_filter_eq]
  intro e _ hek
  simp only [beq_iff_eq] at hek
  subst hek
  have h2 : ¬ (e = [] ∨ e = [61] ∨ ldPrefix.isPrefixOf e = true) := by
    rintro (rfl | rfl | h)
    · exact hk rfl
    · exact hk (by decide)
    · exact hld (envKey_ld.mp (List.isPrefixOf_iff_prefix.mp h))
  simp only [if_neg h2, if_neg hreq]

/-- Requested GOPATH replaces the inherited one, LD_PRELOAD disappears, HOME stays. -/
example :
    let b := fun (s : String) => s.toUTF8.toList
    mergeSafeEnv [b "GOPATH=/x"] [b "LD_PRELOAD=l", b "GOPATH=/y", b "HOME=/h"] = [b "HOME=/h", b "GOPATH=/x"] := by
  decide +kernel

/-! ## C58: the directory containment check -/

/-- The check is exact as long as the first name below the directory does not start with "..". -/
theorem C58_within_partial (cwd : List Bytes) (hc : ∀ c ∈ cwd, Name c) (file dir : Bytes)
    (hd : ∀ c rest, absClean cwd file = absClean cwd dir ++ c :: rest → ¬ [46, 46] <+: c) :
    fileWithinDir cwd file dir = true ↔ Within (absClean cwd file) (absClean cwd dir) := by
  have hpre : ∀ r : Bytes, ([46, 46].isPrefixOf r || [46, 46, 47].isPrefixOf r) = true ↔ [46, 46] <+: r := by
    intro r
    rw [Bool.or_eq_true, List.isPrefixOf_iff_prefix, List.isPrefixOf_iff_prefix]
    constructor
    · rintro (h | h)
      · exact h
      · exact (show ([46, 46] : Bytes) <+: [46, 46, 47] from ⟨[47], rfl⟩).trans h
    · exact Or.inl
  have hnames := absClean_names hc file
  unfold fileWithinDir Within
  simp only
  rw [show ∀ b : Bool, ((if b then false else true) = true ↔ ¬ b = true) by decide, hpre]
  constructor
  · intro h
    by_contra hout
    obtain ⟨cs, hcs⟩ := rel_outside _ _ hout
    rw [hcs] at h
    exact h (joinPath_prefix _ _)
  · rintro ⟨rest, hrest⟩
    rw [← hrest, rel_below]
    cases rest with
    | nil => decide
    | cons c rest =>
        have hn : Name c := hnames c (by rw [← hrest]; simp)
        rw [dotdot_prefix_join hn]
        exact hd c rest hrest.symm

/-- Nothing outside the directory is ever reported as inside. -/
theorem C58_outside_rejected (cwd : List Bytes) (file dir : Bytes)
    (h : fileWithinDir cwd file dir = true) : Within (absClean cwd file) (absClean cwd dir) := by
  by_contra hout
  obtain ⟨cs, hcs⟩ := rel_outside _ _ hout
  unfold fileWithinDir at h
  simp only [hcs] at h
  have : [46, 46].isPrefixOf (joinPath ([46, 46] :: cs)) = true := List.isPrefixOf_iff_prefix.mpr (joinPath_prefix _ _)
  simp [this] at h

/-- A file "/d/..x" lies in "/d" but is reported as outside. -/
theorem C58_dotdot_name_violated : ∃ file dir : Bytes,
    Within (absClean [] file) (absClean [] dir) ∧ fileWithinDir [] file dir = false :=
  ⟨[47, 100, 47, 46, 46, 120], [47, 100], by unfold Within; decide, by decide⟩

/-- "a/../b/c" is within "b", taken from the working directory "/w". -/
example : fileWithinDir [[119]] [97, 47, 46, 46, 47, 98, 47, 99] [98] = true ∧
    absClean [[119]] [97, 47, 46, 46, 47, 98, 47, 99] = [[119], [98], [99]] := by decide

/-- "/dir1" is not within "/dir". -/
example : fileWithinDir [] [47, 100, 49] [47, 100] = false := by decide

/-! ## C59: limiting lines -/

/-- A text of at most `n` lines is unchanged. -/
theorem C59_short (s : Bytes) (n : Nat) (head : Bool) (h : newlines s + 1 ≤ n) : limitStringLines s n head = s := by
  unfold limitStringLines
  simp only [splitLines_length]
  rw [if_neg (by omega)]

/-- A longer text is cut to exactly its first `n` lines. -/
theorem C59_head (s : Bytes) (n : Nat) (hn : 0 < n) (h : n < newlines s + 1) :
    FirstLines n s (limitStringLines s n true) := by
  unfold limitStringLines
  simp only [splitLines_length]
  rw [if_pos (by omega), if_pos trivial]
  have hlen := splitLines_length s
  have h1 : (splitLines s).take n ≠ [] := by
    intro hc; have := congrArg List.length hc; simp [List.length_take, hlen] at this; omega
  have h2 : (splitLines s).drop n ≠ [] := by
    intro hc; have := congrArg List.length hc; simp [List.length_drop, hlen] at this; omega
  refine ⟨joinLines ((splitLines s).drop n), ?_, ?_⟩
  · rw [← joinLines_append h1 h2, List.take_append_drop, join_split]
  · rw [newlines_join h1 (fun l hl => splitLines_no_nl s l (List.mem_of_mem_take hl)), List.length_take, hlen]
    omega

/-- A longer text is cut to exactly its last `n` lines. -/
theorem C59_tail (s : Bytes) (n : Nat) (hn : 0 < n) (h : n < newlines s + 1) :
    LastLines n s (limitStringLines s n false) := by
  unfold limitStringLines
  simp only [splitLines_length]
  rw [if_pos (by omega), if_neg (by decide)]
  have hlen := splitLines_length s
  have h1 : (splitLines s).take (newlines s + 1 - n) ≠ [] := by
    intro hc; have := congrArg List.length hc; simp only [List.length_take, hlen, List.length_nil] at this; omega
  have h2 : (splitLines s).drop (newlines s + 1 - n) ≠ [] := by
    intro hc; have := congrArg List.length hc; simp only [List.length_drop, hlen, List.length_nil] at this; omega
  refine ⟨joinLines ((splitLines s).take (newlines s + 1 - n)), ?_, ?_⟩
  · rw [← joinLines_append h1 h2, List.take_append_drop, join_split]
  · rw [newlines_join h2 (fun l hl => splitLines_no_nl s l (List.mem_of_mem_drop hl)), List.length_drop, hlen]
    omega

/-- No lines requested: nothing is returned. -/
theorem C59_zero (s : Bytes) (head : Bool) : limitStringLines s 0 head = [] := by
  unfold limitStringLines
  simp only [splitLines_length]
  rw [if_pos (by omega)]
  cases head
  · rw [if_neg (by decide), List.drop_of_length_le (by rw [splitLines_length]; omega)]; rfl
  · rw [if_pos rfl, List.take_zero]; rfl

example : limitStringLines [97, 10, 98, 10, 99] 2 true = [97, 10, 98] ∧
    limitStringLines [97, 10, 98, 10, 99] 2 false = [98, 10, 99] := by decide

end Verif.Util
