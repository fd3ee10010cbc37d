import Verif.Tidy.Spec
import Verif.Seen.Props
import Verif.Monitor.Props

/-! From conditions on programs to conditions on what is recorded of them. -/

namespace Verif.Tidy

open Verif.Result (Bytes)
open Verif.Capture (Cfg Heap V Unwraps items)
open Verif.Seen
open Verif.Pipeline (Run Call)
open Verif.Fields (Lib)

/-- Each call is that of a moment. -/
theorem call_shot {P : Program} {r : Run} (h : Makes P r) {m : Call} (hm : m ∈ r.calls) : ∃ s ∈ P.shots, sent P.env P.fuel s = some m ∧ CallOf P.env s m := by
  rw [makes_calls h] at hm
  obtain ⟨s, hs, hsm⟩ := List.mem_filterMap.mp hm
  obtain ⟨m', h1, h2, _⟩ := C147_exact_partial ⟨fun _ => [], fun _ => [], fun _ _ => [], fun _ => []⟩ P.env P.fuel s (makes_clear h s hs)
  cases hsm.symm.trans h1
  exact ⟨s, hs, hsm, h2⟩

theorem inOrder {P : Program} {r : Run} (h : Makes P r) (ht : Timely P) : Pipeline.InOrder r := by
  constructor
  · intro m hm
    obtain ⟨s, hs, _, hc⟩ := call_shot h hm
    rw [hc.time]
    exact ht.short s hs
  · intro f
    rw [makes_calls h, List.pairwise_filter, List.pairwise_filterMap]
    refine ht.order.imp_of_mem fun {s t} hs ht' hst m hm m' hm' h1 h2 => ?_
    obtain ⟨m0, g1, g2, _⟩ := C147_exact_partial ⟨fun _ => [], fun _ => [], fun _ _ => [], fun _ => []⟩ P.env P.fuel s (makes_clear h s hs)
    obtain ⟨m1, g3, g4, _⟩ := C147_exact_partial ⟨fun _ => [], fun _ => [], fun _ _ => [], fun _ => []⟩ P.env P.fuel t (makes_clear h t ht')
    cases (show sent P.env P.fuel s = some m from hm).symm.trans g1
    cases (show sent P.env P.fuel t = some m' from hm').symm.trans g3
    simp only [decide_eq_true_eq] at h1 h2
    rw [g2.time, g4.time]
    exact hst f ⟨(g2.project h1.1).1, by rw [(g2.project h1.1).2, h1.2]⟩ ⟨(g4.project h2.1).1, by rw [(g4.project h2.1).2, h2.2]⟩

theorem shows_words {lib : Lib} {c : Cfg} {h : Heap} {mark : Bool} {r : Nat} {parent n : Bytes} {v : V} {p : List Bytes} {s : Bytes} (hs : Shows lib c h mark r parent n v p s)
    (hn : Word n) (hw : Worded c h r v) : ∀ k ∈ p, Word k := by
  induction hs with
  | part hu _ hm _ ih =>
    intro k hk
    rcases List.mem_cons.mp hk with rfl | hk
    · exact hn
    · obtain ⟨g1, g2⟩ := hw _ hu _ hm
      exact ih g1 g2 k hk
  | _ => simpa using hn

theorem named {lib : Lib} {P : Program} {r : Run} (h : Makes P r) (hs : Spoken P) : Pipeline.Named lib r := by
  intro m hm p v hat
  obtain ⟨s, hsh, hsm, _⟩ := call_shot h hm
  obtain ⟨m', h1, _, h3⟩ := C147_exact_partial lib P.env P.fuel s (makes_clear h s hsh)
  cases hsm.symm.trans h1
  obtain ⟨sn, g1, g2, g3⟩ := (h3 p v).mp ((Fields.C102_last ..).mpr hat)
  obtain ⟨w1, w2⟩ := hs s hsh sn g1 g2
  exact shows_words g3 w1 w2

theorem callPath_project (fs : List Result.StackFrame) : Monitor.callPath (Monitor.projectFrames fs) = Pipeline.pathOf fs := by
  unfold Monitor.callPath Monitor.projectFrames Pipeline.pathOf
  congr 1
  apply List.filter_congr
  intro f _
  rw [Monitor.isProjectFile, Bool.eq_iff_iff, decide_eq_true_eq, Bool.and_eq_true, Bool.not_eq_true', ← Bool.not_eq_true, List.isPrefixOf_iff_prefix, List.isPrefixOf_iff_prefix]
  rfl

theorem stackText_path : ∀ (fs : List Result.StackFrame), Monitor.stackText fs = pathText (Monitor.callPath fs)
  | [] => rfl
  | [f] => by simp [Monitor.stackText, pathText, Monitor.callPath, List.intercalate]
  | f :: g :: fs => by
    rw [Monitor.stackText_cons2, stackText_path (g :: fs)]
    simp [pathText, Monitor.callPath, List.intercalate]

theorem keyed {H : Bytes → Bytes} {P : Fin 4 → Program} {rs : Fin 4 → Run} (h : ∀ j, Makes (P j) (rs j)) (hp : ∀ j, Separable (P j)) (hh : Hashed H P) :
    Pipeline.Keyed H [rs 0, rs 1, rs 2, rs 3] := by
  have idx : ∀ r ∈ [rs 0, rs 1, rs 2, rs 3], ∃ j, r = rs j := fun r hr => by
    simp only [List.mem_cons, List.not_mem_nil, or_false] at hr
    rcases hr with rfl | rfl | rfl | rfl <;> exact ⟨_, rfl⟩
  intro r hr m hm r' hr' m' hm' he
  obtain ⟨j, rfl⟩ := idx r hr
  obtain ⟨j', rfl⟩ := idx r' hr'
  obtain ⟨s, hs, _, hc⟩ := call_shot (h j) hm
  obtain ⟨s', hs', _, hc'⟩ := call_shot (h j') hm'
  have e1 : Monitor.callPath (Monitor.projectFrames m.stack) = pathAt (P j).env s := by rw [callPath_project, path_eq hc]
  have e2 : Monitor.callPath (Monitor.projectFrames m'.stack) = pathAt (P j').env s' := by rw [callPath_project, path_eq hc']
  have plain : ∀ (fs : List Result.StackFrame) (path : List (Bytes × Bytes)), Monitor.callPath fs = path → (∀ q ∈ path, (58 : UInt8) ∉ q.1 ∧ (124 : UInt8) ∉ q.2) →
      ∀ f ∈ fs, Monitor.PlainFrame f := fun fs path hq g f hf => by
    subst hq
    exact g (f.file, f.func) (List.mem_map.mpr ⟨f, hf, rfl⟩)
  have := (Monitor.C26_keys_identify_partial H (Monitor.projectFrames m.stack) (Monitor.projectFrames m'.stack) (plain _ _ e1 (hp j s hs)) (plain _ _ e2 (hp j' s' hs')) fun g => ?_).mp he
  · rw [← callPath_project, ← callPath_project, this]
  · rw [stackText_path, stackText_path, e1, e2] at g ⊢
    exact hh j s hs j' s' hs' g

theorem orderly {x : Total.Ctx} {k : Case} (hf : ∀ j, ∀ ev ∈ (k.prog j).events, Fine (k.prog j).env (k.prog j).fuel ev) (ht : Tidy x k.prog) (hs : Stored x k.test) :
    Total.Orderly x k.test := by
  have hm : ∀ j, Makes (k.prog j) (runOf (k.prog j).env (k.prog j).fuel (k.prog j).failed (k.prog j).events) := fun j => ⟨hf j, rfl⟩
  exact ⟨keyed hm ht.separable ht.hashed, inOrder (hm 0) ht.first, inOrder (hm 1) ht.second, fun g => ⟨inOrder (hm 2) (ht.after g).1, inOrder (hm 3) (ht.after g).2⟩,
    named (hm 0) ht.spoken0, named (hm 2) ht.spoken2, hs.1, hs.2⟩

end Verif.Tidy
