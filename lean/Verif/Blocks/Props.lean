import Verif.Blocks.Lemmas

/-! C150: return points of functions in SSA form. -/

namespace Verif.Blocks

open Verif.Static (Ret)

/-- **C150** (partial). A function with results that is taken to end in panic never returns. Missing: functions with deferred calls that may recover
(`C150_recover_violated`). -/
theorem C150_never_partial (f : Fn) (h : SSA f) (hm : endsInPanic f = true) (hr : f.recover = none) : ¬ Returns f := by
  rintro ⟨p, rs, b, blk, _, hb, hi⟩
  simp only [endsInPanic, Bool.and_eq_true, decide_eq_true_eq, beq_iff_eq] at hm
  cases p with
  | none => exact h.stated hm.1.1 b blk hb (by rw [hr]; simp) rs hi
  | some l =>
    have := (returnCount_pos f).mpr ⟨blk, List.mem_of_getElem? hb, l, rs, hi⟩
    omega

/-- **C150.** A function with results that never returns and is not taken to end in panic has no panic that can be reached: it runs forever, or ends the program. -/
theorem C150_unmarked (f : Fn) (h : SSA f) (hres : 0 < f.results) (hm : endsInPanic f = false) (hn : ¬ Returns f) : ∀ p, ¬ Gets f (.panic p) := by
  rintro p ⟨b, blk, _, hb, hi⟩
  have hp := (panicCount_pos f).mpr ⟨blk, List.mem_of_getElem? hb, p, hi⟩
  have hr : returnCount f = 0 := Nat.eq_zero_of_not_pos fun hpos => by
    obtain ⟨blk, hb, l, rs, hi⟩ := (returnCount_pos f).mp hpos
    exact hn ⟨_, _, gets_of h hb hi (.inl ⟨l, rs, rfl⟩)⟩
  simp [endsInPanic, hres, hr, hp] at hm

/-- **C150.** However equal lines are sorted: the return points have each line once, ascending; their lines are those of return statements and of panics that can be reached;
and each has the number of operands returned on its line that are calls with one result. -/
theorem C150_points (f : Fn) (h : SSA f) (sorted : List Ret) (hp : sorted.Perm (infos f)) (hs : sorted.Pairwise fun x y => x.line ≤ y.line) :
    (points sorted).Pairwise (fun x y => x.line < y.line) ∧
    (∀ line < 2 ^ 32, (∃ x ∈ points sorted, x.line.toNat = line) ↔ (∃ rs, Gets f (.ret (some line) rs)) ∨ Gets f (.panic (some line))) ∧
    ∀ x ∈ points sorted, x.calls = UInt32.ofNat ((returnsOn f x.line.toNat).map called).sum := by
  obtain ⟨h1, h2, h3⟩ := Static.C45_merge (infos f) sorted hp hs
  refine ⟨h1, fun line hl => ?_, fun x hx => ?_⟩
  · have e : (∃ x ∈ points sorted, x.line.toNat = line) ↔ ∃ x ∈ points sorted, x.line = UInt32.ofNat line := by
      refine exists_congr fun x => and_congr_right fun _ => ⟨fun hx => ?_, fun hx => ?_⟩
      · rw [← hx, UInt32.ofNat_toNat]
      · rw [hx, UInt32.toNat_ofNat', Nat.mod_eq_of_lt hl]
    rw [e, show (∃ x ∈ points sorted, x.line = UInt32.ofNat line) ↔ _ from h2 _, mem_infos h line hl]
    constructor
    · rintro ⟨blk, hb, ⟨rs, hi⟩ | hi⟩
      · exact .inl ⟨rs, gets_of h hb hi (.inl ⟨_, _, rfl⟩)⟩
      · exact .inr (gets_of h hb hi (.inr ⟨_, rfl⟩))
    · rintro (⟨rs, b, blk, _, hb, hi⟩ | ⟨b, blk, _, hb, hi⟩)
      · exact ⟨blk, List.mem_of_getElem? hb, .inl ⟨rs, hi⟩⟩
      · exact ⟨blk, List.mem_of_getElem? hb, .inr hi⟩
  · rw [h3 x hx, ← callsOn_infos h _ x.line.toNat_lt, UInt32.ofNat_toNat]

/-! ### Violations -/

/-- A function that panics and recovers: `func f() (n int) { defer func() { recover() }(); panic("x") }`, the panic on line 3. -/
def recovers : Fn := ⟨[⟨[.other (some 2), .panic (some 3)], []⟩, ⟨[.other none, .ret none [.other]], []⟩], some 1, 1⟩

theorem ssa_recovers : SSA recovers where
  ends := by simp [recovers]
  exits := by simp [recovers]
  stated := fun _ b blk hb hn rs hm => by
    match b, hb with
    | 0, hb => cases hb; simp at hm
    | 1, _ => exact hn rfl
  reached := fun b hb => by
    match b, hb with
    | 0, _ => exact .inl .entry
    | 1, _ => exact .inr rfl
  bare := fun b blk hr hb => by
    cases hr
    cases hb
    simp
  lines := by simp [recovers, Instr.pos]

/-- **C150**, violated. A function that recovers its panic and returns is taken to end in panic, so it is not watched. -/
theorem C150_recover_violated : ∃ f, SSA f ∧ endsInPanic f = true ∧ Returns f :=
  ⟨recovers, ssa_recovers, by decide, none, [.other], 1, _, .recovered .entry (by rfl) (List.mem_cons_self) (by exact trivial) rfl, rfl, by simp⟩

/-- **C150**, violated. The line of a panic is among the return points although nothing returns there. -/
theorem C150_panic_violated : ∃ f, SSA f ∧ ∃ sorted, sorted.Perm (infos f) ∧ sorted.Pairwise (fun x y => x.line ≤ y.line) ∧ ∃ x ∈ points sorted, returnsOn f x.line.toNat = [] :=
  ⟨recovers, ssa_recovers, infos recovers, .refl _, by decide +kernel, ⟨3, 0⟩, by decide +kernel, by decide +kernel⟩

/-- `func g() (int, error) { return h() }`, on line 5. -/
def forwards : Fn := ⟨[⟨[.call (some 5), .other none, .other none, .ret (some 5) [.part 0, .part 0]], []⟩], none, 2⟩

theorem ssa_forwards : SSA forwards where
  ends := by simp [forwards]
  exits := by simp [forwards]
  stated := fun _ b blk hb _ rs hm => by
    match b, hb with
    | 0, hb => cases hb; simp at hm
  reached := fun b hb => by
    match b, hb with
    | 0, _ => exact .inl .entry
  bare := fun b blk hr => by cases hr
  lines := by simp [forwards, Instr.pos]

/-- **C150**, violated. A call with several results that is returned is not counted. -/
theorem C150_calls_violated : ∃ f, SSA f ∧ ∃ sorted, sorted.Perm (infos f) ∧ sorted.Pairwise (fun x y => x.line ≤ y.line) ∧ ∃ x ∈ points sorted, x.calls = 0 ∧ ((returnsOn f x.line.toNat).map callsReturned).sum = 1 :=
  ⟨forwards, ssa_forwards, infos forwards, .refl _, by decide +kernel, ⟨5, 0⟩, by decide +kernel, rfl, by decide +kernel⟩

/-! ### Examples -/

/-- `if c { return g() + 1, h() }; panic("x")`, on lines 4 and 6. -/
def mixed : Fn := ⟨[⟨[.other (some 3)], [1, 2]⟩, ⟨[.call (some 4), .call (some 4), .ret (some 4) [.other, .call]], []⟩, ⟨[.panic (some 6)], []⟩], none, 2⟩

example : endsInPanic mixed = false ∧ points (infos mixed) = [⟨4, 1⟩, ⟨6, 0⟩] := by decide +kernel

/-- `for { if c { panic("x") } }`, on line 4. -/
def loops : Fn := ⟨[⟨[.other (some 3)], [1, 0]⟩, ⟨[.panic (some 4)], []⟩], none, 1⟩

theorem ssa_loops : SSA loops where
  ends := by simp [loops]
  exits := by simp [loops]
  stated := fun _ b blk hb _ rs hm => by
    match b, hb with
    | 0, hb => cases hb; simp at hm
    | 1, hb => cases hb; simp at hm
  reached := fun b hb => by
    match b, hb with
    | 0, _ => exact .inl .entry
    | 1, _ => exact .inl (.step .entry (by rfl) (by simp))
  bare := fun b blk hr => by cases hr
  lines := by simp [loops, Instr.pos]

example : ¬ Returns loops := C150_never_partial loops ssa_loops (by decide) rfl

end Verif.Blocks
