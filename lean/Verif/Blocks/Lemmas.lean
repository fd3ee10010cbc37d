import Verif.Blocks.Spec
import Verif.Static.Props

/-! Lemmas on the return points of functions in SSA form. -/

namespace Verif.Blocks

open Verif.Static (Ret callsOn)

theorem sum_pos {l : List Nat} : 0 < l.sum ↔ ∃ n ∈ l, 0 < n := by
  induction l with
  | nil => simp
  | cons a l ih =>
    rw [List.sum_cons, Nat.add_pos_iff_pos_or_pos, ih]
    simp

theorem returnCount_pos (f : Fn) : 0 < returnCount f ↔ ∃ blk ∈ f.blocks, ∃ l rs, .ret (some l) rs ∈ blk.instrs := by
  unfold returnCount
  rw [sum_pos]
  simp only [List.mem_map, exists_exists_and_eq_and, List.countP_pos_iff]
  refine exists_congr fun blk => and_congr_right fun _ => ⟨?_, ?_⟩
  · rintro ⟨i, hi, h⟩
    match i, h, hi with
    | .ret (some l) rs, _, hi => exact ⟨l, rs, hi⟩
  · rintro ⟨l, rs, h⟩
    exact ⟨_, h, rfl⟩

theorem panicCount_pos (f : Fn) : 0 < panicCount f ↔ ∃ blk ∈ f.blocks, ∃ p, .panic p ∈ blk.instrs := by
  unfold panicCount
  rw [sum_pos]
  simp only [List.mem_map, exists_exists_and_eq_and, List.countP_pos_iff]
  refine exists_congr fun blk => and_congr_right fun _ => ⟨?_, ?_⟩
  · rintro ⟨i, hi, h⟩
    match i, h, hi with
    | .panic p, _, hi => exact ⟨p, hi⟩
  · rintro ⟨p, h⟩
    exact ⟨_, h, rfl⟩

theorem callCount_eq (rs : List Operand) : callCount rs = UInt32.ofNat (called rs) := by
  have : ∀ n, rs.foldl (fun (n : UInt32) o => if o = .call then n + 1 else n) n = n + UInt32.ofNat (rs.count .call) := by
    induction rs with
    | nil => intro n; simp
    | cons a rs ih =>
      intro n
      rw [List.foldl_cons, ih, List.count_cons]
      by_cases h : a = .call
      · simp only [h, if_pos, beq_self_eq_true]
        rw [UInt32.ofNat_add, UInt32.add_assoc, UInt32.add_comm (UInt32.ofNat _)]
        rfl
      · simp [h]
  rw [callCount, this]
  simp [called]

/-- An exit block adds the line of its last instruction, and no calls. -/
theorem exitInfo_some {f : Fn} (h : SSA f) {blk : Block} (hb : blk ∈ f.blocks) {x : Ret} :
    exitInfo blk = some x ↔ ∃ l, x = ⟨UInt32.ofNat l, 0⟩ ∧ ((∃ rs, .ret (some l) rs ∈ blk.instrs) ∨ .panic (some l) ∈ blk.instrs) := by
  unfold exitInfo
  constructor
  · intro hx
    split at hx
    · rename_i hs
      rcases h.exits blk hb hs with ⟨p, rs, hl⟩ | ⟨p, hl⟩
      · rw [hl] at hx
        obtain ⟨l, hp, rfl⟩ := Option.map_eq_some_iff.mp hx
        exact ⟨l, rfl, .inl ⟨rs, by rw [← show p = some l from hp]; exact List.mem_of_getLast? hl⟩⟩
      · rw [hl] at hx
        obtain ⟨l, hp, rfl⟩ := Option.map_eq_some_iff.mp hx
        exact ⟨l, rfl, .inr (by rw [← show p = some l from hp]; exact List.mem_of_getLast? hl)⟩
    · cases hx
  · rintro ⟨l, rfl, ⟨rs, hm⟩ | hm⟩
    · obtain ⟨h1, h2⟩ := h.ends blk hb _ hm (.inl ⟨_, _, rfl⟩)
      rw [if_pos h1, h2]
      rfl
    · obtain ⟨h1, h2⟩ := h.ends blk hb _ hm (.inr ⟨_, rfl⟩)
      rw [if_pos h1, h2]
      rfl

theorem mem_infos {f : Fn} (h : SSA f) (line : Nat) (hl : line < 2 ^ 32) :
    (∃ x ∈ infos f, x.line = UInt32.ofNat line) ↔ ∃ blk ∈ f.blocks, (∃ rs, .ret (some line) rs ∈ blk.instrs) ∨ .panic (some line) ∈ blk.instrs := by
  have inj : ∀ blk ∈ f.blocks, ∀ i ∈ blk.instrs, ∀ l, i.pos = some l → UInt32.ofNat l = UInt32.ofNat line → l = line := fun blk hb i hi l hp he => by
    have h1 := h.lines blk hb i hi l hp
    have := congrArg UInt32.toNat he
    rwa [UInt32.toNat_ofNat', UInt32.toNat_ofNat', Nat.mod_eq_of_lt h1, Nat.mod_eq_of_lt hl] at this
  unfold infos
  constructor
  · rintro ⟨x, hx, he⟩
    obtain ⟨blk, hb, hx⟩ := List.mem_flatMap.mp hx
    refine ⟨blk, hb, ?_⟩
    rcases List.mem_append.mp hx with hx | hx
    · obtain ⟨i, hi, hr⟩ := List.mem_filterMap.mp hx
      match i, hi, hr with
      | .ret (some l) rs, hi, hr =>
        cases hr
        have := inj blk hb _ hi l rfl he
        subst this
        exact .inl ⟨rs, hi⟩
    · rw [Option.mem_toList, exitInfo_some h hb] at hx
      obtain ⟨l, rfl, ⟨rs, hm⟩ | hm⟩ := hx
      · have := inj blk hb _ hm l rfl he
        subst this
        exact .inl ⟨rs, hm⟩
      · have := inj blk hb _ hm l rfl he
        subst this
        exact .inr hm
  · rintro ⟨blk, hb, hc⟩
    refine ⟨⟨UInt32.ofNat line, 0⟩, List.mem_flatMap.mpr ⟨blk, hb, List.mem_append_right _ ?_⟩, rfl⟩
    rw [Option.mem_toList, exitInfo_some h hb]
    exact ⟨line, rfl, hc⟩

theorem callsOn_append (a b : List Ret) (line : UInt32) : callsOn (a ++ b) line = callsOn a line + callsOn b line := by
  unfold callsOn
  rw [List.filter_append, List.map_append]
  induction (a.filter fun r => r.line = line).map (·.calls) with
  | nil => simp
  | cons x l ih => rw [List.cons_append, List.foldr_cons, ih, List.foldr_cons, UInt32.add_assoc]

theorem callsOn_returns {f : Fn} (h : SSA f) (line : Nat) (hl : line < 2 ^ 32) {blk : Block} (hb : blk ∈ f.blocks) : ∀ is : List Instr, (∀ i ∈ is, i ∈ blk.instrs) →
    callsOn (is.filterMap returnInfo) (UInt32.ofNat line) = UInt32.ofNat (((is.filterMap fun i => match i with
      | .ret (some l) rs => if l = line then some rs else none
      | _ => none).map called).sum)
  | [], _ => rfl
  | i :: is, hi => by
    have ih := callsOn_returns h line hl hb is fun j hj => hi j (List.mem_cons_of_mem _ hj)
    match i, hi i List.mem_cons_self with
    | .ret none _, _ => simpa [List.filterMap_cons, returnInfo] using ih
    | .panic _, _ => simpa [List.filterMap_cons, returnInfo] using ih
    | .call _, _ => simpa [List.filterMap_cons, returnInfo] using ih
    | .other _, _ => simpa [List.filterMap_cons, returnInfo] using ih
    | .ret (some l) rs, hm =>
      have h1 := h.lines blk hb _ hm l rfl
      rw [List.filterMap_cons_some (f := returnInfo) (b := (⟨UInt32.ofNat l, callCount rs⟩ : Ret)) rfl, ← List.singleton_append, callsOn_append, ih, List.filterMap_cons]
      by_cases he : l = line
      · subst he
        simp [callsOn, callCount_eq, UInt32.ofNat_add]
      · have : UInt32.ofNat l ≠ UInt32.ofNat line := fun hc => he (by
          have := congrArg UInt32.toNat hc
          rwa [UInt32.toNat_ofNat', UInt32.toNat_ofNat', Nat.mod_eq_of_lt h1, Nat.mod_eq_of_lt hl] at this)
        simp [callsOn, this, he]

theorem callsOn_exit {f : Fn} (h : SSA f) (line : UInt32) {blk : Block} (hb : blk ∈ f.blocks) : callsOn (exitInfo blk).toList line = 0 := by
  cases hx : exitInfo blk with
  | none => rfl
  | some x =>
    obtain ⟨l, rfl, _⟩ := (exitInfo_some h hb).mp hx
    by_cases he : UInt32.ofNat l = line <;> simp [callsOn, he]

theorem callsOn_infos {f : Fn} (h : SSA f) (line : Nat) (hl : line < 2 ^ 32) : callsOn (infos f) (UInt32.ofNat line) = UInt32.ofNat ((returnsOn f line).map called).sum := by
  unfold infos returnsOn
  suffices ∀ bs : List Block, (∀ b ∈ bs, b ∈ f.blocks) → callsOn (bs.flatMap fun b => b.instrs.filterMap returnInfo ++ (exitInfo b).toList) (UInt32.ofNat line) =
      UInt32.ofNat ((bs.flatMap fun b => b.instrs.filterMap fun i => match i with
        | .ret (some l) rs => if l = line then some rs else none
        | _ => none).map called).sum from this _ fun _ h => h
  intro bs
  induction bs with
  | nil => intro _; rfl
  | cons b bs ih =>
    intro hbs
    rw [List.flatMap_cons, callsOn_append, callsOn_append, callsOn_exit h _ (hbs b List.mem_cons_self), ih fun x hx => hbs x (List.mem_cons_of_mem _ hx),
      callsOn_returns h line hl (hbs b List.mem_cons_self) _ fun _ h => h, List.flatMap_cons, List.map_append, List.sum_append, UInt32.ofNat_add]
    simp

/-- In code of a real function, an instruction that is there can be reached, but for those of the recover block. -/
theorem gets_of {f : Fn} (h : SSA f) {blk : Block} (hb : blk ∈ f.blocks) {i : Instr} (hi : i ∈ blk.instrs) (hk : (∃ l rs, i = .ret (some l) rs) ∨ ∃ p, i = .panic p) : Gets f i := by
  obtain ⟨b, hlt, rfl⟩ := List.mem_iff_getElem.mp hb
  have hget : f.blocks[b]? = some f.blocks[b] := List.getElem?_eq_getElem hlt
  rcases h.reached b hlt with he | hr
  · exact ⟨b, _, he, hget, hi⟩
  · obtain ⟨h1, h2⟩ := h.bare b _ hr hget i hi
    rcases hk with ⟨l, rs, rfl⟩ | ⟨p, rfl⟩
    · exact absurd rfl (h1 l rs)
    · exact absurd rfl (h2 p)

end Verif.Blocks
