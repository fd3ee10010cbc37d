import Verif.Runs.Lemmas

/-! C105–C107: running the tests concurrently. -/

namespace Verif.Runs

variable {B : Type}

/-! ### A concrete run: two tests, one server -/

def cfgX : Cfg Nat := ⟨1, fun _ => false, fun b => b % 2 == 0, fun b => if b < 5 then some b else none⟩

def x0 : St Nat := init cfgX 2
def x1 : St Nat := { x0 with ph := [.started, .waiting] }
def x2 : St Nat := { x1 with ph := [.holds 0, .waiting], chan := [] }
def x3 : St Nat := { x2 with ph := [.running 0 none, .waiting], handler := setHandler x2.handler 0 ⟨0, false⟩ }
def x4 : St Nat := { x3 with flight := [⟨0, ⟨0, false⟩, 4, none⟩], sent := [(⟨0, false⟩, 4)] }

theorem reach_x4 (clean : Bool) : Reach cfgX clean 2 x4 := by
  refine .step (st := x3) (.step (st := x2) (.step (st := x1) (.step (st := x0) .init ?_) ?_) ?_) ?_
  · exact Step.start x0 0 rfl (by simp) (by simp)
  · exact Step.take x1 0 0 [] rfl rfl
  · exact Step.first x2 0 0 rfl
  · exact Step.post x3 0 0 none 4 rfl

/-! With an answer before the process ends. -/
def y5 : St Nat := { x4 with flight := [⟨0, ⟨0, false⟩, 4, some ⟨0, false⟩⟩] }
def y6 : St Nat := { y5 with flight := [], recd := [(⟨0, false⟩, 4)] }
def y7 : St Nat := { y6 with ph := [.exited 0 none, .waiting] }
def y8 : St Nat := { y7 with ph := [.ended 0 [4] none, .waiting] }
def y9 : St Nat := { y8 with ph := [.saved 0 [4] none, .waiting], store := [(0, [4], none)] }
def y10 : St Nat := { y9 with ph := [.counted 0 [4] none, .waiting], total := 1, reached := [4] }
def y11 : St Nat := { y10 with ph := [.done [4] none, .waiting], chan := [0] }

theorem reach_y11 : Reach cfgX true 2 y11 := by
  refine .step (st := y10) (.step (st := y9) (.step (st := y8) (.step (st := y7) (.step (st := y6) (.step (st := y5) (.step (st := x4) (reach_x4 true)
    ?_) ?_) ?_) ?_) ?_) ?_) ?_
  · exact Step.load x4 ⟨0, ⟨0, false⟩, 4, none⟩ [] [] ⟨0, false⟩ rfl rfl rfl
  · exact Step.record y5 ⟨0, ⟨0, false⟩, 4, some ⟨0, false⟩⟩ [] [] ⟨0, false⟩ rfl rfl
  · exact Step.exit y6 0 0 none rfl (fun _ f hf => by cases hf)
  · exact Step.result1 y7 0 0 rfl
  · exact Step.save y8 0 0 [4] none rfl rfl
  · exact Step.count y9 0 0 [4] none rfl
  · exact Step.release y10 0 0 [4] none rfl

/-- The second test: it may start, the first one being done; here setting its handler fails. -/
def y12 : St Nat := { y11 with ph := [.done [4] none, .started] }
def y13 : St Nat := { y12 with ph := [.done [4] none, .holds 0], chan := [] }
def y14 : St Nat := { y13 with ph := [.done [4] none, .failed], chan := [0], err := true }

theorem reach_y14 : Reach cfgX true 2 y14 := by
  refine .step (st := y13) (.step (st := y12) (.step (st := y11) reach_y11 ?_) ?_) ?_
  · exact Step.start y11 1 rfl (by intro j hj; obtain rfl : j = 0 := by omega
                                   simp [y11]) (fun _ => ⟨⟨_, rfl, rfl⟩, by decide⟩)
  · exact Step.take y12 1 0 [] rfl rfl
  · exact Step.fail y13 1 0 _ rfl rfl (Or.inl rfl)

theorem over_y14 : Over y14 := by
  intro i p hp
  match i with
  | 0 => exact Or.inl ⟨[4], none, (Option.some.inj hp).symm⟩
  | 1 => exact Or.inr (Or.inl (Option.some.inj hp).symm)
  | i + 2 => cases hp

/-! ### C105 -/

/-- A stored result holds exactly the messages of the runs of its own test, the first and the second apart, if processes end only after the answers
to their messages. Partial: see `C105_violated`. -/
theorem C105_own_messages_partial {c : Cfg B} {n : Nat} {st : St B} (h : Reach c true n st) {i : Nat} {one : List B} {two : Option (List B)}
    (hm : (i, one, two) ∈ st.store) :
    i < n ∧ one.Perm (sentBy st i false) ∧ (c.twice i = true → ∃ l, two = some l ∧ l.Perm (sentBy st i true)) ∧ (c.twice i = false → two = none) := by
  obtain ⟨p, hp, hk⟩ := ((store_inv h).2 i one two).mp hm
  have hlt := (List.getElem?_eq_some_iff.mp hp).1
  rw [length_inv h] at hlt
  obtain ⟨h1, h2⟩ := results_inv h i p hp
  have hs := shape_inv h i p hp
  have e : p.one = some one ∧ p.two = two ∧ two.isSome = c.twice i := by
    cases p <;> simp only [Phase.kept, Option.some.injEq, Prod.mk.injEq, reduceCtorEq] at hk <;> obtain ⟨rfl, rfl⟩ := hk <;> exact ⟨rfl, rfl, hs⟩
  refine ⟨hlt, h1 one e.1, ?_, ?_⟩
  · intro ht
    rw [ht] at e
    obtain ⟨l, hl⟩ := Option.isSome_iff_exists.mp e.2.2
    exact ⟨l, hl, h2 l (e.2.1.trans hl)⟩
  · intro ht
    rw [ht] at e
    simpa using e.2.2

example : ((0, [4], none) ∈ y11.store) ∧ sentBy y11 0 false = [4] := ⟨by decide, by decide⟩

/-! A process that ends without waiting: its message is still on the way when the next test is running on the server. -/
def z5 : St Nat := { x4 with ph := [.exited 0 none, .waiting] }
def z6 : St Nat := { z5 with ph := [.ended 0 [] none, .waiting] }
def z7 : St Nat := { z6 with ph := [.saved 0 [] none, .waiting], store := [(0, [], none)] }
def z8 : St Nat := { z7 with ph := [.counted 0 [] none, .waiting] }
def z9 : St Nat := { z8 with ph := [.done [] none, .waiting], chan := [0] }
def z10 : St Nat := { z9 with ph := [.done [] none, .started] }
def z11 : St Nat := { z10 with ph := [.done [] none, .holds 0], chan := [] }
def z12 : St Nat := { z11 with ph := [.done [] none, .running 0 none], handler := setHandler z11.handler 0 ⟨1, false⟩ }
def z13 : St Nat := { z12 with flight := [⟨0, ⟨0, false⟩, 4, some ⟨1, false⟩⟩] }
def z14 : St Nat := { z13 with flight := [], recd := [(⟨1, false⟩, 4)] }
def z15 : St Nat := { z14 with ph := [.done [] none, .exited 0 none] }
def z16 : St Nat := { z15 with ph := [.done [] none, .ended 0 [4] none] }
def z17 : St Nat := { z16 with ph := [.done [] none, .saved 0 [4] none], store := [(0, [], none), (1, [4], none)] }

theorem reach_z17 : Reach cfgX false 2 z17 := by
  refine .step (st := z16) (.step (st := z15) (.step (st := z14) (.step (st := z13) (.step (st := z12) (.step (st := z11) (.step (st := z10)
    (.step (st := z9) (.step (st := z8) (.step (st := z7) (.step (st := z6) (.step (st := z5) (.step (st := x4) (reach_x4 false)
    ?_) ?_) ?_) ?_) ?_) ?_) ?_) ?_) ?_) ?_) ?_) ?_) ?_
  · exact Step.exit x4 0 0 none rfl (by simp)
  · exact Step.result1 z5 0 0 rfl
  · exact Step.save z6 0 0 [] none rfl rfl
  · exact Step.count z7 0 0 [] none rfl
  · exact Step.release z8 0 0 [] none rfl
  · exact Step.start z9 1 rfl (by intro j hj; obtain rfl : j = 0 := by omega
                                  simp [z9]) (fun _ => ⟨⟨_, rfl, rfl⟩, by decide⟩)
  · exact Step.take z10 1 0 [] rfl rfl
  · exact Step.first z11 1 0 rfl
  · exact Step.load z12 ⟨0, ⟨0, false⟩, 4, none⟩ [] [] ⟨1, false⟩ rfl rfl rfl
  · exact Step.record z13 ⟨0, ⟨0, false⟩, 4, some ⟨1, false⟩⟩ [] [] ⟨1, false⟩ rfl rfl
  · exact Step.exit z14 1 0 none rfl (by simp)
  · exact Step.result1 z15 1 0 rfl
  · exact Step.save z16 1 0 [4] none rfl rfl

/-- Otherwise a message may be missing in the result of its test and be stored for another test, which sent nothing. -/
theorem C105_violated : ∃ (c : Cfg Nat) (st : St Nat) (i j b : Nat), Reach c false 2 st ∧ (⟨i, false⟩, b) ∈ st.sent ∧ (i, [], none) ∈ st.store ∧
    i ≠ j ∧ sentBy st j false = [] ∧ sentBy st j true = [] ∧ (j, [b], none) ∈ st.store :=
  ⟨cfgX, z17, 0, 1, 4, reach_z17, by decide, by decide, by decide, by decide, by decide, by decide⟩

/-! ### C106 -/

theorem over_kept {st : St B} (ho : Over st) {i : Nat} {p : Phase B} (hp : st.ph[i]? = some p) : p.added = p.kept := by
  rcases ho i p hp with ⟨one, two, rfl⟩ | rfl | ⟨rfl, -⟩ <;> rfl

/-- No test has more than one result. -/
theorem C106_once {c : Cfg B} {clean : Bool} {n : Nat} {st : St B} (h : Reach c clean n st) : (st.store.map (·.1)).Nodup := (store_inv h).1

/-- At the end an error is returned just if some test has no result. -/
theorem C106_error {c : Cfg B} {clean : Bool} {n : Nat} {st : St B} (h : Reach c clean n st) (ho : Over st) :
    st.err = true ↔ ∃ i < n, i ∉ st.store.map (·.1) := by
  rw [err_inv h]
  have hlen := length_inv h
  constructor
  · rintro ⟨i, hi⟩
    refine ⟨i, by rw [← hlen]; exact (List.getElem?_eq_some_iff.mp hi).1, ?_⟩
    intro hm
    obtain ⟨⟨j, one, two⟩, hj, rfl⟩ := List.mem_map.mp hm
    obtain ⟨p, hp, hk⟩ := ((store_inv h).2 _ _ _).mp hj
    rw [hi] at hp
    obtain rfl := Option.some.inj hp
    cases hk
  · rintro ⟨i, hi, hm⟩
    have hp : st.ph[i]? = some (st.ph[i]'(by omega)) := List.getElem?_eq_getElem (by omega)
    rcases ho i _ hp with ⟨one, two, h1⟩ | h1 | ⟨-, h1⟩
    · exfalso
      exact hm (List.mem_map.mpr ⟨(i, one, two), ((store_inv h).2 i one two).mpr ⟨_, hp, by rw [h1]; rfl⟩, rfl⟩)
    · exact ⟨i, by rw [hp, h1]⟩
    · exact ⟨0, h1⟩

/-- Sums over the phases are sums over the tests with a result. -/
theorem sum_store {c : Cfg B} {clean : Bool} {n : Nat} {st : St B} (h : Reach c clean n st) (ho : Over st) :
    st.total = (st.store.map fun e => checks c e.2.1 e.2.2).sum := by
  have hst := store_inv h
  rw [(totals_inv h).1]
  -- both lists are indexed by the position of the test
  have key : ∀ (m : Nat) (ph : List (Phase B)) (store : List (Nat × List B × Option (List B))), (store.map (·.1)).Nodup →
      (∀ i one two, (i, one, two) ∈ store ↔ ∃ k p, i = m + k ∧ ph[k]? = some p ∧ p.added = some (one, two)) →
      (ph.map (Phase.sum c)).sum = (store.map fun e => checks c e.2.1 e.2.2).sum := by
    intro m ph
    induction ph generalizing m with
    | nil =>
      intro store _ hs
      have : store = [] := by
        rw [List.eq_nil_iff_forall_not_mem]
        rintro ⟨i, one, two⟩ hm
        obtain ⟨k, p, -, hp, -⟩ := (hs i one two).mp hm
        cases hp
      rw [this]; rfl
    | cons p ph ih =>
      intro store hn hs
      rw [List.map_cons, List.sum_cons]
      cases ha : p.added with
      | none =>
        have e : Phase.sum c p = 0 := by unfold Phase.sum; rw [ha]
        rw [e, Nat.zero_add]
        refine ih (m + 1) store hn ?_
        intro i one two
        rw [hs]
        constructor
        · rintro ⟨k, q, rfl, hq, hk⟩
          cases k with
          | zero =>
            obtain rfl := Option.some.inj hq
            rw [ha] at hk
            cases hk
          | succ k => exact ⟨k, q, by omega, hq, hk⟩
        · rintro ⟨k, q, rfl, hq, hk⟩
          exact ⟨k + 1, q, by omega, hq, hk⟩
      | some r =>
        obtain ⟨one, two⟩ := r
        have e : Phase.sum c p = checks c one two := by unfold Phase.sum; rw [ha]
        have hm : (m, one, two) ∈ store := (hs m one two).mpr ⟨0, p, rfl, rfl, ha⟩
        obtain ⟨l1, l2, hl⟩ := List.append_of_mem hm
        rw [e]
        have hperm : store.Perm ((m, one, two) :: (l1 ++ l2)) := by rw [hl]; exact List.perm_middle
        have hn' : m ∉ (l1 ++ l2).map (·.1) ∧ ((l1 ++ l2).map (·.1)).Nodup := by
          have := (hperm.map (·.1)).nodup_iff.mp hn
          rw [List.map_cons] at this
          exact List.nodup_cons.mp this
        have hsum : (store.map fun e => checks c e.2.1 e.2.2).sum = checks c one two + ((l1 ++ l2).map fun e => checks c e.2.1 e.2.2).sum := by
          rw [hl]
          simp only [List.map_append, List.map_cons, List.sum_append, List.sum_cons]
          omega
        rw [hsum, ih (m + 1) (l1 ++ l2) hn'.2]
        intro i o t
        constructor
        · intro hmem
          obtain ⟨k, q, hi, hq, hk⟩ := (hs i o t).mp (hperm.mem_iff.mpr (List.mem_cons_of_mem _ hmem))
          cases k with
          | zero => exact absurd (List.mem_map.mpr ⟨_, hmem, hi⟩) hn'.1
          | succ k => exact ⟨k, q, by omega, hq, hk⟩
        · rintro ⟨k, q, hi, hq, hk⟩
          rcases List.mem_cons.mp (hperm.mem_iff.mp ((hs i o t).mpr ⟨k + 1, q, by omega, hq, hk⟩)) with h | h
          · exfalso
            have : i = m := congrArg (·.1) h
            omega
          · exact h
  refine key 0 st.ph st.store hst.1 ?_
  intro i one two
  rw [hst.2]
  constructor
  · rintro ⟨p, hp, hk⟩
    exact ⟨i, p, by omega, hp, (over_kept ho hp).trans hk⟩
  · rintro ⟨k, p, rfl, hp, hk⟩
    rw [Nat.zero_add]
    exact ⟨p, hp, (over_kept ho hp).symm.trans hk⟩

/-- At the end the total is the sum of the field checks of the tests with a result, whatever the order in which they ran. Partial: processes end only
after the answers to their messages. -/
theorem C106_total_partial {c : Cfg B} {n : Nat} {st : St B} (h : Reach c true n st) (ho : Over st) :
    st.total = ((st.store.map (·.1)).map (checksOf c st)).sum := by
  rw [sum_store h ho, List.map_map]
  refine congrArg List.sum (List.map_congr_left ?_)
  rintro ⟨i, one, two⟩ hm
  obtain ⟨-, h1, h2, h3⟩ := C105_own_messages_partial h hm
  dsimp only [Function.comp]
  unfold checksOf
  cases ht : c.twice i with
  | false =>
    rw [h3 ht]
    exact h1.countP_eq _
  | true =>
    obtain ⟨l, rfl, hl⟩ := h2 ht
    simp only [checks, if_true]
    rw [h1.countP_eq, hl.countP_eq]

def z12' : St Nat := { z11 with ph := [.done [] none, .failed], chan := [0], err := true }

/-- Otherwise a message that arrives too late is in no total, although the result of its test is kept. -/
theorem C106_violated : ∃ (c : Cfg Nat) (st : St Nat), Reach c false 2 st ∧ Over st ∧ st.total < ((st.store.map (·.1)).map (checksOf c st)).sum := by
  refine ⟨cfgX, z12', ?_, ?_, by decide⟩
  · refine .step (st := z11) (.step (st := z10) (.step (st := z9) (.step (st := z8) (.step (st := z7) (.step (st := z6) (.step (st := z5)
      (.step (st := x4) (reach_x4 false) ?_) ?_) ?_) ?_) ?_) ?_) ?_) ?_
    · exact Step.exit x4 0 0 none rfl (by simp)
    · exact Step.result1 z5 0 0 rfl
    · exact Step.save z6 0 0 [] none rfl rfl
    · exact Step.count z7 0 0 [] none rfl
    · exact Step.release z8 0 0 [] none rfl
    · exact Step.start z9 1 rfl (by intro j hj; obtain rfl : j = 0 := by omega
                                    simp [z9]) (fun _ => ⟨⟨_, rfl, rfl⟩, by decide⟩)
    · exact Step.take z10 1 0 [] rfl rfl
    · exact Step.fail z11 1 0 (.holds 0) rfl rfl (Or.inl rfl)
  · intro i p hp
    match i with
    | 0 => exact Or.inl ⟨[], none, (Option.some.inj hp).symm⟩
    | 1 => exact Or.inr (Or.inl (Option.some.inj hp).symm)
    | i + 2 => cases hp

/-- At the end the functions reached are those of the first runs of the tests with a result. Partial: processes end only after the answers to their
messages. -/
theorem C106_reached_partial {c : Cfg B} {n : Nat} {st : St B} (h : Reach c true n st) (ho : Over st) (f : Nat) :
    f ∈ st.reached ↔ ∃ i ∈ st.store.map (·.1), ∃ b ∈ sentBy st i false, c.reach b = some f := by
  rw [(totals_inv h).2.mem_iff, List.mem_flatMap]
  constructor
  · rintro ⟨p, hp, hf⟩
    obtain ⟨i, hi⟩ := List.getElem?_of_mem hp
    unfold Phase.hits at hf
    cases ha : p.added with
    | none => rw [ha] at hf; cases hf
    | some r =>
      obtain ⟨one, two⟩ := r
      rw [ha] at hf
      obtain ⟨b, hb, hbf⟩ := List.mem_filterMap.mp hf
      have hm : (i, one, two) ∈ st.store := ((store_inv h).2 i one two).mpr ⟨p, hi, (over_kept ho hi).symm.trans ha⟩
      exact ⟨i, List.mem_map.mpr ⟨_, hm, rfl⟩, b, (C105_own_messages_partial h hm).2.1.mem_iff.mp hb, hbf⟩
  · rintro ⟨i, hi, b, hb, hbf⟩
    obtain ⟨⟨j, one, two⟩, hm, rfl⟩ := List.mem_map.mp hi
    obtain ⟨p, hp, hk⟩ := ((store_inv h).2 j one two).mp hm
    refine ⟨p, List.mem_of_getElem? hp, ?_⟩
    unfold Phase.hits
    rw [over_kept ho hp, hk]
    exact List.mem_filterMap.mpr ⟨b, (C105_own_messages_partial h hm).2.1.mem_iff.mpr hb, hbf⟩

example : Reach cfgX true 2 y14 ∧ Over y14 ∧ y14.err = true ∧ y14.store.map (·.1) = [0] ∧ y14.total = 1 ∧ checksOf cfgX y14 0 = 1 ∧ y14.reached = [4] :=
  ⟨reach_y14, over_y14, rfl, rfl, rfl, by decide, rfl⟩

/-! ### C107 -/

/-- Two test functions never have the same server, and none has one that is free. -/
theorem C107_exclusive {c : Cfg B} {clean : Bool} {n : Nat} {st : St B} (h : Reach c clean n st) {i s : Nat} {p : Phase B}
    (hi : st.ph[i]? = some p) (hs : p.srv = some s) :
    s < c.servers ∧ s ∉ st.chan ∧ ∀ j q, st.ph[j]? = some q → q.srv = some s → j = i := by
  have hm : s ∈ st.ph.filterMap Phase.srv := List.mem_filterMap.mpr ⟨p, List.mem_of_getElem? hi, hs⟩
  have hp := servers_inv h
  refine ⟨List.mem_range.mp (hp.mem_iff.mp (List.mem_append_right _ hm)), ?_, fun j q hj hq => exclusive h hj hi hq hs⟩
  intro hc
  exact (List.nodup_append.mp (hp.nodup_iff.mpr List.nodup_range)).2.2 s hc s hm rfl

/-- At the end all servers are back, each once. -/
theorem C107_returned {c : Cfg B} {clean : Bool} {n : Nat} {st : St B} (h : Reach c clean n st) (ho : Over st) :
    st.chan.Perm (List.range c.servers) := by
  have hp := servers_inv h
  rw [List.filterMap_eq_nil_iff.mpr, List.append_nil] at hp
  · exact hp
  · intro p hm
    obtain ⟨i, hi⟩ := List.getElem?_of_mem hm
    rcases ho i p hi with ⟨one, two, rfl⟩ | rfl | ⟨rfl, -⟩ <;> rfl

/-- The channel never holds more than it has room for, so giving a server back does not block. -/
theorem C107_room {c : Cfg B} {clean : Bool} {n : Nat} {st : St B} (h : Reach c clean n st) {i s : Nat} {p : Phase B}
    (hi : st.ph[i]? = some p) (hs : p.srv = some s) : st.chan.length < c.servers := by
  have hm : s ∈ st.ph.filterMap Phase.srv := List.mem_filterMap.mpr ⟨p, List.mem_of_getElem? hi, hs⟩
  have hl := (servers_inv h).length_eq
  rw [List.length_append, List.length_range] at hl
  have := List.length_pos_of_mem hm
  omega

/-- As long as no more messages are sent, every schedule ends after boundedly many steps. -/
theorem C107_bounded {c : Cfg B} {clean : Bool} (st : St B) : ∃ N, ∀ k st', Quiet c clean k st st' → k ≤ N := by
  refine ⟨left st, ?_⟩
  intro k st' hq
  induction hq with
  | nil => omega
  | cons hs hsent _ ih =>
    have := left_lt hs hsent
    omega

/-- There is a server, if there is a test. -/
theorem enough {c : Cfg B} {clean : Bool} {cpus n : Nat} {st : St B} (hc : c.servers = serverCount cpus n) (h : Reach c clean n st) (ho : ¬ Over st) :
    0 < c.servers := by
  have hn : n ≠ 0 := by
    rintro rfl
    apply ho
    intro i p hp
    rw [List.eq_nil_of_length_eq_zero (length_inv h)] at hp
    cases hp
  rw [hc]
  unfold serverCount
  omega

/-- There is no deadlock: a schedule that cannot be continued without a message being sent has run all tests. -/
theorem C107_no_deadlock {c : Cfg B} {clean : Bool} {cpus n : Nat} {st : St B} (hc : c.servers = serverCount cpus n) (h : Reach c clean n st)
    (hstuck : ∀ st', Quiet c clean 1 st st' → False) : Over st := by
  by_contra ho
  obtain ⟨st', hs, hsent, -⟩ := progress h (enough hc h ho) ho
  exact hstuck st' (.cons hs hsent (.nil _))

/-- From any state, all tests can be completed without further messages and without further errors. -/
theorem C107_completes {c : Cfg B} {clean : Bool} {cpus n : Nat} {st : St B} (hc : c.servers = serverCount cpus n) (h : Reach c clean n st) :
    ∃ k st', Quiet c clean k st st' ∧ Over st' ∧ st'.err = st.err := by
  suffices H : ∀ m (st : St B), left st ≤ m → Reach c clean n st → ∃ k st', Quiet c clean k st st' ∧ Over st' ∧ st'.err = st.err from H _ st (Nat.le_refl _) h
  intro m
  induction m with
  | zero =>
    intro st hl h
    by_cases ho : Over st
    · exact ⟨0, st, .nil _, ho, rfl⟩
    · obtain ⟨st', hs, hsent, -⟩ := progress h (enough hc h ho) ho
      have := left_lt hs hsent
      omega
  | succ m ih =>
    intro st hl h
    by_cases ho : Over st
    · exact ⟨0, st, .nil _, ho, rfl⟩
    · obtain ⟨st', hs, hsent, herr⟩ := progress h (enough hc h ho) ho
      have := left_lt hs hsent
      obtain ⟨k, st'', h1, h2, h3⟩ := ih st' (by omega) (h.step hs)
      exact ⟨k + 1, st'', .cons hs hsent h1, h2, h3.trans herr⟩

example : x4.ph[0]? = some (.running 0 none) ∧ x4.chan = [] ∧ cfgX.servers = serverCount 3 2 := ⟨rfl, rfl, by decide⟩

/-- Without servers a test would wait forever. -/
example : ∃ st : St Nat, Reach { cfgX with servers := 0 } true 1 st ∧ ¬ Over st ∧ ∀ st', Step { cfgX with servers := 0 } true st st' → False := by
  refine ⟨{ init { cfgX with servers := 0 } 1 with ph := [.started] }, .step .init (Step.start _ 0 rfl (by simp) (by simp)), ?_, ?_⟩
  · intro ho
    rcases ho 0 _ rfl with ⟨_, _, h⟩ | h | ⟨h, _⟩ <;> cases h
  · intro st' hs
    have one : ∀ {i : Nat} {p : Phase Nat}, ([Phase.started] : List (Phase Nat))[i]? = some p → p = .started := by
      intro i p hp
      exact List.mem_singleton.mp (List.mem_of_getElem? hp)
    cases hs with
    | take i s rest h1 h2 => cases h2
    | load f l1 l2 t h1 => cases l1 <;> cases h1
    | record f l1 l2 t h1 => cases l1 <;> cases h1
    | fail i s p h1 h2 h3 => rw [one h1] at h2; cases h2
    | start i h1 => cases one h1
    | first i s h1 => cases one h1
    | post i s prev b h1 => cases one h1
    | exit i s prev h1 => cases one h1
    | result1 i s h1 => cases one h1
    | second i s o h1 => cases one h1
    | result2 i s o h1 => cases one h1
    | save i s o t h1 => cases one h1
    | count i s o t h1 => cases one h1
    | release i s o t h1 => cases one h1

end Verif.Runs
