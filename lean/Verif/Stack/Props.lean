import Verif.Stack.Spec
import Verif.Seen.Props

/-! # C158: stacks are those of the program -/

namespace Verif.Stack

open Verif.Wire (Frame)
open Verif.Result (Bytes)

theorem collect_eq : ∀ (fuel : Nat) (l : List Frame), l ≠ [] → l.length ≤ fuel → collect fuel l = l
  | 0, l, h, h' => absurd (List.length_eq_zero_iff.mp (by omega)) h
  | fuel + 1, [], h, _ => absurd rfl h
  | fuel + 1, [f], _, _ => rfl
  | fuel + 1, f :: g :: l, _, h' => by
    rw [collect]
    simp only [next, List.isEmpty_cons, Bool.not_false, if_true]
    rw [collect_eq fuel (g :: l) (by simp) (by simpa using h')]

theorem capture_eq {all program : List Frame} (h : Sending all program) : capture 3 all = program.take 2048 := by
  obtain ⟨a, b, c, rfl⟩ := h.client
  unfold capture callers
  simp only [List.drop_succ_cons, List.drop_zero]
  refine collect_eq _ _ ?_ (by simp [Wire.maxStackFrames])
  cases hp : program with
  | nil => exact absurd hp h.some
  | cons f l => simp [Wire.maxStackFrames]

/-- C158 (frames): the stack sent has the functions of the program from the innermost on, none of the client, and as many of them as there are or the limit allows. -/
theorem C158_frames {all program : List Frame} (h : Sending all program) : capture 3 all <+: program ∧ (capture 3 all).length = min program.length 2048 ∧ (capture 3 all).head? = program.head? := by
  rw [capture_eq h]
  refine ⟨List.take_prefix _ _, by simp [Nat.min_comm], ?_⟩
  cases program <;> simp

/-- C158 (accepted): however deep the program is, the server accepts the entry message with this stack, and gets it as it is (names of functions and files fit in 4 GB). -/
theorem C158_accepted {all program : List Frame} (h : Sending all program) (hn : ∀ f ∈ program, f.file.length ≤ Wire.maxUint32 ∧ f.func.length ≤ Wire.maxUint32)
    (id : UInt32) (ns : BitVec 64) : (Wire.decodePoint (Wire.encPoint ⟨id, ns, capture 3 all⟩)).out = some (⟨id, ns, capture 3 all⟩, []) := by
  have hok : Wire.stackOK (capture 3 all) := by
    rw [capture_eq h]
    exact ⟨by simp [Wire.maxStackFrames, Nat.min_le_left], fun f hf => hn f (List.mem_of_mem_take hf)⟩
  simpa using Wire.C08_point_roundtrip ⟨id, ns, capture 3 all⟩ [] hok

/-- C158 (paths): the path by which states are matched is that of the functions of the project, so that states are taken to belong together just if they have the same path. Missing: stacks
of more than 2048 functions, see `C158_deep_violated`. -/
theorem C158_path_partial {all program : List Frame} (h : Sending all program) (hd : program.length ≤ 2048) (e : Seen.Env) (s : Seen.Shot) (hs : s.stack = capture 3 all) :
    Seen.pathAt e s = projectPath e program := by
  unfold Seen.pathAt projectPath
  rw [hs, capture_eq h, List.take_of_length_le hd]

/-- C158 (paths, any depth): the path is that of the innermost 2048 functions, hence the beginning of the whole path. -/
theorem C158_prefix {all program : List Frame} (h : Sending all program) (e : Seen.Env) (s : Seen.Shot) (hs : s.stack = capture 3 all) : Seen.pathAt e s <+: projectPath e program := by
  unfold Seen.pathAt projectPath
  rw [hs, capture_eq h]
  exact ((List.take_prefix _ _).map _).filter _

def frame (n : UInt64) : Frame := ⟨"./a.go".toUTF8.toList, "p.f".toUTF8.toList, n⟩
def client : List Frame := [frame 1, frame 2, frame 3]

example : Sending (client ++ [frame 7, frame 8]) [frame 7, frame 8] ∧ capture 3 (client ++ [frame 7, frame 8]) = [frame 7, frame 8] :=
  ⟨⟨⟨_, _, _, rfl⟩, by simp⟩, rfl⟩

/-- A function that calls itself: its states at depths 2048 and 2049 have different paths, but are taken to have the same. -/
theorem C158_deep_violated (e : Seen.Env) (ht : e.trim (frame 0).file = (frame 0).file) : ∃ p q, Sending (client ++ p) p ∧ Sending (client ++ q) q ∧ projectPath e p ≠ projectPath e q ∧
    ∀ s t : Seen.Shot, s.stack = capture 3 (client ++ p) → t.stack = capture 3 (client ++ q) → Seen.pathAt e s = Seen.pathAt e t := by
  have hp : Sending (client ++ List.replicate 2048 (frame 0)) (List.replicate 2048 (frame 0)) := ⟨⟨_, _, _, rfl⟩, List.ne_nil_of_length_pos (by rw [List.length_replicate]; omega)⟩
  have hq : Sending (client ++ List.replicate 2049 (frame 0)) (List.replicate 2049 (frame 0)) := ⟨⟨_, _, _, rfl⟩, List.ne_nil_of_length_pos (by rw [List.length_replicate]; omega)⟩
  refine ⟨_, _, hp, hq, fun h => ?_, fun s t hs ht' => ?_⟩
  · have := congrArg List.length h
    unfold projectPath at this
    rw [List.map_replicate, List.map_replicate, ht, List.filter_replicate, List.filter_replicate, if_pos (by decide +kernel), if_pos (by decide +kernel)] at this
    rw [List.length_replicate, List.length_replicate] at this
    omega
  · unfold Seen.pathAt
    rw [hs, ht', capture_eq hp, capture_eq hq, List.take_replicate, List.take_replicate]
    rfl

end Verif.Stack
