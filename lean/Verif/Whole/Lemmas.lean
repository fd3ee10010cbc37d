import Verif.Whole.Spec
import Verif.Reach.Props
import Verif.Verdict.Props
import Verif.Module.Props

namespace Verif.Whole

open Verif.Result (Bytes)
open Verif.Static (Graph Entry)
open Verif.Total (Ctx Test Kept Orderly Faithful)
open Verif.Report (Input metrics)
open Verif.Verdict (Says Outcome Regressed)

theorem entry_mem (taken : Taken) (n : Nat) (ch : Bytes) : (n, ch) ∈ entryPoints taken ↔ ∃ k, n = k + 1 ∧ taken[k]? = some (some ch) := by
  unfold entryPoints
  rw [List.mem_filterMap]
  constructor
  · rintro ⟨⟨o, m⟩, hm, he⟩
    obtain ⟨h1, h2, h3⟩ := List.mem_zipIdx hm
    cases o with
    | none => cases he
    | some c =>
      simp only [Option.map_some, Option.some.injEq, Prod.mk.injEq] at he
      obtain ⟨rfl, rfl⟩ := he
      refine ⟨m - 1, by omega, ?_⟩
      rw [List.getElem?_eq_getElem (by omega), ← h3]
  · rintro ⟨k, rfl, hk⟩
    refine ⟨(some ch, k + 1), ?_, rfl⟩
    rw [List.mk_mem_zipIdx_iff_le_and_getElem?_sub]
    exact ⟨by omega, by simpa using hk⟩

theorem entry_nodup (taken : Taken) : (AMap.keys (entryPoints taken)).Nodup := by
  have h1 : ((taken.zipIdx 1).map Prod.snd).Nodup := by
    rw [List.zipIdx_map_snd]
    exact List.nodup_range'
  have h2 : (AMap.keys (entryPoints taken)).Sublist ((taken.zipIdx 1).map Prod.snd) := by
    unfold entryPoints AMap.keys
    generalize taken.zipIdx 1 = l
    induction l with
    | nil => simp
    | cons a l ih =>
      obtain ⟨o, n⟩ := a
      cases o with
      | none => simpa using ih.cons n
      | some c => simpa using ih.cons_cons n
  exact h2.nodup h1

theorem entry_get (taken : Taken) (n : Nat) (ch : Bytes) : AMap.get (entryPoints taken) n = some ch ↔ ∃ k, n = k + 1 ∧ taken[k]? = some (some ch) := by
  rw [← entry_mem]
  exact ⟨AMap.mem_of_get, AMap.get_eq_some_of_mem (entry_nodup taken)⟩

theorem fold_keys (l : List Bytes) (m : AMap Bytes Bool) (hm : (AMap.keys m).Nodup) :
    (AMap.keys (l.foldl (fun m ident => AMap.set m ident true) m)).Nodup ∧
    ∀ ch, ch ∈ AMap.keys (l.foldl (fun m ident => AMap.set m ident true) m) ↔ ch ∈ AMap.keys m ∨ ch ∈ l := by
  induction l generalizing m with
  | nil => simp [hm]
  | cons a l ih =>
    obtain ⟨h1, h2⟩ := ih (AMap.set m a true) (AMap.nodup_set hm _ _)
    rw [List.foldl_cons]
    refine ⟨h1, fun ch => ?_⟩
    rw [h2, AMap.mem_keys, AMap.mem_keys, AMap.get_set, List.mem_cons]
    by_cases e : ch = a
    · simp [e]
    · simp [e]

theorem reached_spec (taken : Taken) (ts : List Test) : (AMap.keys (identsReached (entryPoints taken) ts)).Nodup ∧
    ∀ ch, ch ∈ AMap.keys (identsReached (entryPoints taken) ts) ↔ Entered ts taken ch := by
  obtain ⟨h1, h2⟩ := fold_keys (ts.flatMap (changesReached (entryPoints taken))) [] (by simp [AMap.keys])
  refine ⟨h1, fun ch => ?_⟩
  unfold identsReached Entered
  rw [h2, List.mem_flatMap]
  simp only [AMap.keys, List.map_nil, List.not_mem_nil, false_or, changesReached, List.mem_filterMap, List.mem_dedup, entry_get]
  constructor
  · rintro ⟨t, ht, n, hn, k, rfl, hk⟩
    exact ⟨t, ht, k, hk, hn⟩
  · rintro ⟨t, ht, k, hk, hn⟩
    exact ⟨t, ht, k + 1, hn, k, rfl, hk⟩

end Verif.Whole
