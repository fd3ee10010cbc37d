import Verif.Workspace.Spec
import Verif.Util.Lemmas
import Verif.Report.Lemmas
import Verif.Module.Props
import Mathlib.Data.List.Dedup

namespace Verif.Workspace
open Verif Verif.Util

/-! ### Paths -/

theorem cleanRev_keep : ∀ (cs acc : List Bytes), Names cs → cleanRev acc cs = cs.reverse ++ acc
  | [], acc, _ => by simp [cleanRev]
  | c :: cs, acc, h => by
    obtain ⟨h1, h2, h3, -⟩ := h c (by simp)
    unfold cleanRev
    rw [if_neg (by simp [h1, h2]), if_neg h3, cleanRev_keep cs (c :: acc) (fun x hx => h x (by simp [hx]))]
    simp

theorem cleanRev_append : ∀ (a b acc : List Bytes), cleanRev acc (a ++ b) = cleanRev (cleanRev acc a) b
  | [], b, acc => by simp [cleanRev]
  | c :: a, b, acc => by
    simp only [List.cons_append]
    conv => lhs; unfold cleanRev
    conv => rhs; arg 1; unfold cleanRev
    split
    · exact cleanRev_append a b acc
    · split
      · exact cleanRev_append a b _
      · exact cleanRev_append a b _

theorem clean_keep {cs : List Bytes} (h : Names cs) : clean cs = cs := by
  unfold clean; rw [cleanRev_keep cs [] h]; simp

theorem clean_append {a : List Bytes} (h : Names a) (b : List Bytes) : clean (a ++ b) = (cleanRev a.reverse b).reverse := by
  unfold clean; rw [cleanRev_append, cleanRev_keep a [] h]; simp

theorem cleanRev_dotdots : ∀ (n : Nat) (acc cs : List Bytes), cleanRev acc (List.replicate n [46, 46] ++ cs) = cleanRev (acc.drop n) cs
  | 0, acc, cs => by simp
  | n + 1, acc, cs => by
    rw [List.replicate_succ, List.cons_append]
    conv => lhs; unfold cleanRev
    rw [if_neg (by decide), if_pos rfl, cleanRev_dotdots n]
    cases acc <;> simp

/-- Going from `r` along the relative path to `t` leads to `t`. -/
theorem cleanRev_rel : ∀ (r t acc : List Bytes), Names t → cleanRev (r.reverse ++ acc) (relComps r t) = t.reverse ++ acc
  | [], t, acc, ht => by
    have : relComps [] t = t := by cases t <;> simp [relComps]
    rw [this]; simpa using cleanRev_keep t acc ht
  | b :: bs, [], acc, _ => by
    simp only [relComps]
    rw [cleanRev_dotdots]
    rw [List.drop_append_of_le_length (by simp)]
    simp [cleanRev]
  | b :: bs, t :: ts, acc, ht => by
    simp only [relComps]
    split
    · rename_i he; subst he
      have := cleanRev_rel bs ts (b :: acc) (fun x hx => ht x (by simp [hx]))
      simpa using this
    · rw [cleanRev_dotdots, List.drop_append_of_le_length (by simp)]
      rw [show (b :: bs).reverse.drop (bs.length + 1) = [] by simp]
      simpa using cleanRev_keep (t :: ts) acc ht

theorem clean_rel {r t : List Bytes} (hr : Names r) (ht : Names t) : clean (r ++ relComps r t) = t := by
  rw [clean_append hr]
  have := cleanRev_rel r t [] ht
  simp only [List.append_nil] at this
  rw [this]; simp

theorem cleanRelRev_keep : ∀ (cs acc : List Bytes), Names cs → cleanRelRev acc cs = cs.reverse ++ acc
  | [], acc, _ => by simp [cleanRelRev]
  | c :: cs, acc, h => by
    obtain ⟨h1, h2, h3, -⟩ := h c (by simp)
    unfold cleanRelRev
    rw [if_neg (by simp [h1, h2]), if_neg (show ¬ c = dotdot from h3), cleanRelRev_keep cs (c :: acc) (fun x hx => h x (by simp [hx]))]
    simp

theorem cleanRelRev_dotdots : ∀ (n k : Nat) (cs : List Bytes),
    cleanRelRev (List.replicate k dotdot) (List.replicate n [46, 46] ++ cs) = cleanRelRev (List.replicate (k + n) dotdot) cs
  | 0, k, cs => by simp
  | n + 1, k, cs => by
    rw [List.replicate_succ, List.cons_append]
    have ih := cleanRelRev_dotdots n (k + 1) cs
    rw [show k + 1 + n = k + (n + 1) by omega] at ih
    rw [← ih]
    conv => lhs; unfold cleanRelRev
    rw [if_neg (by decide), if_pos (show ([46, 46] : Bytes) = dotdot from rfl)]
    cases k with
    | zero => rfl
    | succ k => simp only [List.replicate_succ, if_true]

theorem rel_shape : ∀ (r t : List Bytes), Names t → ∃ n cs, relComps r t = List.replicate n [46, 46] ++ cs ∧ Names cs
  | [], t, ht => ⟨0, t, by cases t <;> simp [relComps], ht⟩
  | b :: bs, [], _ => ⟨bs.length + 1, [], by simp [relComps], by simp [Names]⟩
  | b :: bs, t :: ts, ht => by
    simp only [relComps]
    split
    · exact rel_shape bs ts (fun x hx => ht x (by simp [hx]))
    · exact ⟨bs.length + 1, t :: ts, rfl, ht⟩

theorem mkP_rel (r : List Bytes) {t : List Bytes} (ht : Names t) : mkP false (relComps r t) = ⟨false, relComps r t⟩ := by
  obtain ⟨n, cs, h1, h2⟩ := rel_shape r t ht
  unfold mkP
  rw [h1]
  have := cleanRelRev_dotdots n 0 cs
  simp only [List.replicate_zero] at this
  rw [if_neg (by simp), this, cleanRelRev_keep cs _ h2]
  simp [dotdot]

theorem mkP_keep {cs : List Bytes} (h : Names cs) : mkP true cs = ⟨true, cs⟩ := by unfold mkP; rw [if_pos rfl, clean_keep h]

theorem join_eq {p : Pth} (h : Rooted p) (cs : List Bytes) : p.join cs = ⟨true, clean (p.comps ++ cs)⟩ := by
  unfold Pth.join mkP; rw [h.1]; simp

theorem clean_names {cs : List Bytes} (h : ∀ c ∈ cs, (47 : UInt8) ∉ c) : Names (clean cs) := by
  intro c hc
  exact cleanRev_names cs [] (by simp) h c (List.mem_reverse.mp hc)

theorem leads_abs {root : List Bytes} {raw : Bytes} (h : isAbs raw = true) : leads root raw = clean (splitPath raw) := by
  unfold leads absClean
  cases raw with
  | nil => simp [isAbs] at h
  | cons b s => simp only [isAbs, List.head?_cons, beq_iff_eq, Option.some.injEq] at h; subst h; rfl

theorem leads_rel {root : List Bytes} {raw : Bytes} (h : isAbs raw = false) : leads root raw = clean (root ++ splitPath raw) := by
  unfold leads absClean
  split
  · simp [isAbs] at h
  · rfl

theorem leads_names {root : List Bytes} (h : Names root) (raw : Bytes) : Names (leads root raw) := absClean_names h raw

theorem rel_inj {r t t' : List Bytes} (hr : Names r) (ht : Names t) (ht' : Names t') (h : relComps r t = relComps r t') : t = t' := by
  rw [← clean_rel hr ht, h, clean_rel hr ht']

/-! ### Entries -/

theorem hasMod_iff (w : World) {p : Pth} (h : p.abs = true) : w.hasMod p = true ↔ HasMod w p.comps := by
  unfold World.hasMod HasMod World.place
  rw [if_pos h]
  split <;> simp_all

theorem dots_suffix (raw : Bytes) : hasEllipsis raw = true ↔ dots <:+ raw := by unfold hasEllipsis; exact List.isSuffixOf_iff_suffix

theorem trim_eq (pre : Bytes) : trimEllipsis (pre ++ dots) = pre := by unfold trimEllipsis dots; simp

theorem isAbs_append (pre : Bytes) : isAbs (pre ++ dots) = isAbs pre := by cases pre <;> simp [isAbs, dots]

theorem meta_iff (raw : Bytes) : hasMeta raw = true ↔ IsGlob raw := by
  unfold hasMeta IsGlob
  simp only [List.any_eq_true, Bool.or_eq_true, beq_iff_eq]
  constructor
  · rintro ⟨b, h, ((rfl | rfl) | rfl) | rfl⟩ <;> simp [h]
  · rintro (h | h | h | h) <;> exact ⟨_, h, by simp⟩

theorem not_meta {raw : Bytes} : hasMeta raw = false ↔ ¬ IsGlob raw := by rw [← meta_iff]; simp

theorem mem_walk {w : World} (hw : Sane w) {start : Pth} (hs : Rooted start) {l : List Pth} (h : walk w start = some l) (p : Pth) :
    p ∈ l ↔ p.abs = true ∧ start.comps <+: p.comps ∧ p.comps ∈ w.dirs ∧ HasMod w p.comps := by
  unfold walk at h
  split at h
  · simp only [Option.some.injEq] at h
    subst h
    have hp : w.place start = start.comps := by unfold World.place; rw [if_pos hs.1]
    rw [hp]
    have hj : ∀ d, d ∈ w.dirs → start.comps <+: d → start.join (d.drop start.comps.length) = ⟨true, d⟩ := by
      intro d hd hpre
      rw [join_eq hs]
      obtain ⟨e, rfl⟩ := hpre
      rw [List.drop_left, clean_keep (hw.dirs _ hd)]
    simp only [List.mem_filter, List.mem_map, List.isPrefixOf_iff_prefix]
    constructor
    · rintro ⟨⟨d, ⟨hd, hpre⟩, rfl⟩, hm⟩
      rw [hj d hd hpre] at hm ⊢
      exact ⟨rfl, hpre, hd, (hasMod_iff w rfl).mp hm⟩
    · rintro ⟨h1, h2, h3, h4⟩
      refine ⟨⟨p.comps, ⟨h3, h2⟩, ?_⟩, (hasMod_iff w h1).mpr h4⟩
      rw [hj _ h3 h2]
      cases p; simp_all
  · simp at h

theorem place_abs (w : World) {p : Pth} (h : p.abs = true) : w.place p = p.comps := by unfold World.place; rw [if_pos h]

theorem resolve_rel {root : Pth} (hr : Rooted root) {t : List Bytes} (ht : Names t) : resolve root ⟨false, relComps root.comps t⟩ = ⟨true, t⟩ := by
  unfold resolve
  rw [if_neg (by simp), join_eq hr, clean_rel hr.2 ht]

theorem resolve_abs {root p : Pth} (h : p.abs = true) : resolve root p = p := by unfold resolve; rw [if_pos h]

/-- What an entry adds: absolute paths, or relative ones from the root to a place; `add` leaves them as they are. -/
def Added (root p : Pth) (d : List Bytes) : Prop := Names d ∧ (p = ⟨true, d⟩ ∨ p = ⟨false, relComps root.comps d⟩)

theorem added_mkP {root p : Pth} {d : List Bytes} (h : Added root p d) : mkP p.abs p.comps = p := by
  rcases h with ⟨hd, rfl | rfl⟩
  · exact mkP_keep hd
  · exact mkP_rel _ hd

theorem added_resolve {root p : Pth} (hr : Rooted root) {d : List Bytes} (h : Added root p d) : resolve root p = ⟨true, d⟩ := by
  rcases h with ⟨hd, rfl | rfl⟩
  · exact resolve_abs rfl
  · exact resolve_rel hr hd

theorem added_rooted {root p : Pth} {d : List Bytes} (h : Added root p d) (ha : p.abs = true) : p = ⟨true, d⟩ := by
  rcases h with ⟨hd, rfl | rfl⟩
  · rfl
  · simp at ha

theorem entry_spec {w : World} (hw : Sane w) {root : Pth} (hr : Rooted root) {raw : Bytes} (hn : ¬ AbsEllipsis raw) {l : List Pth} (h : entry w root raw = some l) :
    (∀ p ∈ l, ∃ d, Added root p d ∧ Uses w root.comps raw d) ∧ (∀ d, Uses w root.comps raw d → ∃ p ∈ l, Added root p d) ∧
    (Relative raw → ∀ p ∈ l, p.abs = false) := by
  have hsplit : ∀ s, ∀ c ∈ root.comps ++ splitPath s, (47 : UInt8) ∉ c := by
    intro s c hc
    rcases List.mem_append.mp hc with hc | hc
    · exact (hr.2 c hc).2.2.2
    · exact splitPath_no_slash _ c hc
  by_cases he : hasEllipsis raw = true
  · -- "..."
    obtain ⟨pre, rfl⟩ := (dots_suffix raw).mp he
    have habs : isAbs (pre ++ dots) = false := by
      by_contra hc
      simp only [Bool.not_eq_false] at hc
      refine hn ⟨?_, pre, rfl⟩
      simpa [isAbs] using hc
    unfold entry at h
    rw [habs, if_neg (by simp), if_pos he, trim_eq, join_eq hr] at h
    have hst : Rooted ⟨true, clean (root.comps ++ splitPath pre)⟩ := ⟨rfl, clean_names (hsplit pre)⟩
    have hm := mem_walk hw hst h
    have hl : leads root.comps pre = clean (root.comps ++ splitPath pre) := leads_rel (by rw [← isAbs_append]; exact habs)
    refine ⟨?_, ?_, fun hrel => absurd ((dots_suffix _).mp he) hrel.2⟩
    · intro p hp
      obtain ⟨h1, h2, h3, h4⟩ := (hm p).mp hp
      refine ⟨p.comps, ⟨hw.dirs _ h3, Or.inl (by cases p; simp_all)⟩, .below pre _ rfl (by rw [hl]; exact h2) h3 h4⟩
    · intro d hu
      cases hu with
      | plain h1 _ => exact absurd ⟨pre, rfl⟩ h1
      | glob _ _ h1 => exact absurd ⟨pre, rfl⟩ h1
      | below pre' _ h1 h2 h3 h4 =>
        have : pre' = pre := (List.append_cancel_right h1).symm
        subst this
        exact ⟨⟨true, d⟩, (hm _).mpr ⟨rfl, by rw [← hl]; exact h2, h3, h4⟩, hw.dirs _ h3, Or.inl rfl⟩
  · have hns : ¬ dots <:+ raw := fun hc => he ((dots_suffix raw).mpr hc)
    have noBelow : ∀ d, Uses w root.comps raw d → (hasMeta raw = false ∧ d = leads root.comps raw) ∨
        (hasMeta raw = true ∧ ∃ ms m, w.glob ⟨true, leads root.comps raw⟩ = some ms ∧ m ∈ ms ∧ m.comps ∈ w.dirs ∧ d = m.comps) := by
      intro d hu
      cases hu with
      | plain h1 h2 => exact Or.inl ⟨not_meta.mpr h2, rfl⟩
      | glob ms m h1 h2 h3 h4 h5 => exact Or.inr ⟨(meta_iff raw).mpr h2, ms, m, h3, h4, h5, rfl⟩
      | below pre _ h1 => exact absurd ⟨pre, h1.symm⟩ hns
    have hdir : ∀ m : Pth, m.abs = true → (w.isDir m = true ↔ m.comps ∈ w.dirs) := by
      intro m hm; unfold World.isDir; rw [place_abs w hm]; simp
    by_cases habs : isAbs raw = true
    · unfold entry at h
      rw [if_pos habs, if_neg he] at h
      have hp : parseP raw = ⟨true, leads root.comps raw⟩ := by unfold parseP; rw [habs, leads_abs habs]; simp [mkP]
      by_cases hme : hasMeta raw = true
      · rw [if_pos hme, hp] at h
        cases hg : w.glob ⟨true, leads root.comps raw⟩ with
        | none => rw [hg] at h; simp at h
        | some ms =>
          rw [hg] at h
          simp only [Option.map_some, Option.some.injEq] at h
          subst h
          have hR := hw.glob _ _ hg rfl
          refine ⟨?_, ?_, fun hrel => absurd (by simpa [isAbs] using habs) hrel.1⟩
          · intro p hp
            simp only [List.mem_filter] at hp
            have := hR p hp.1
            refine ⟨p.comps, ⟨this.2, Or.inl (by cases p; simp_all [Rooted])⟩, .glob ms p hns ((meta_iff raw).mp hme) hg hp.1 ((hdir p this.1).mp hp.2)⟩
          · intro d hu
            rcases noBelow d hu with ⟨q, -⟩ | ⟨-, ms', m, q1, q2, q3, rfl⟩
            · rw [hme] at q; simp at q
            · rw [hg] at q1; simp only [Option.some.injEq] at q1; subst q1
              have := hR m q2
              exact ⟨m, by simp [q2, (hdir m this.1).mpr q3], this.2, Or.inl (by cases m; simp_all [Rooted])⟩
      · rw [if_neg hme] at h
        simp only [Option.some.injEq] at h
        subst h
        have hme' : hasMeta raw = false := by simpa using hme
        refine ⟨?_, ?_, fun hrel => absurd (by simpa [isAbs] using habs) hrel.1⟩
        · intro p hp'
          simp only [List.mem_singleton] at hp'
          exact ⟨_, ⟨leads_names hr.2 raw, Or.inl (hp'.trans hp)⟩, .plain hns (not_meta.mp hme')⟩
        · intro d hu
          rcases noBelow d hu with ⟨-, rfl⟩ | ⟨q, -⟩
          · exact ⟨_, by simp, leads_names hr.2 raw, Or.inl hp⟩
          · rw [hme'] at q; simp at q
    · have habs' : isAbs raw = false := by simpa using habs
      unfold entry at h
      rw [if_neg habs, if_neg he, join_eq hr, ← leads_rel habs'] at h
      by_cases hme : hasMeta raw = true
      · rw [if_pos hme] at h
        cases hg : w.glob ⟨true, leads root.comps raw⟩ with
        | none => rw [hg] at h; simp at h
        | some ms =>
          rw [hg] at h
          simp only [Option.map_some, Option.some.injEq] at h
          subst h
          have hR := hw.glob _ _ hg rfl
          refine ⟨?_, ?_, ?_⟩
          · intro p hp
            simp only [List.mem_map, List.mem_filter] at hp
            obtain ⟨m, ⟨q1, q2⟩, rfl⟩ := hp
            have := hR m q1
            exact ⟨m.comps, ⟨this.2, Or.inr rfl⟩, .glob ms m hns ((meta_iff raw).mp hme) hg q1 ((hdir m this.1).mp q2)⟩
          · intro d hu
            rcases noBelow d hu with ⟨q, -⟩ | ⟨-, ms', m, q1, q2, q3, rfl⟩
            · rw [hme] at q; simp at q
            · rw [hg] at q1; simp only [Option.some.injEq] at q1; subst q1
              have := hR m q2
              exact ⟨relTo root m, List.mem_map.mpr ⟨m, by simp [q2, (hdir m this.1).mpr q3], rfl⟩, this.2, Or.inr rfl⟩
          · intro _ p hp
            simp only [List.mem_map] at hp
            obtain ⟨m, -, rfl⟩ := hp
            rfl
      · rw [if_neg hme] at h
        simp only [Option.some.injEq] at h
        subst h
        have hme' : hasMeta raw = false := by simpa using hme
        refine ⟨?_, ?_, ?_⟩
        · intro p hp'
          simp only [List.mem_singleton] at hp'
          exact ⟨_, ⟨leads_names hr.2 raw, Or.inr hp'⟩, .plain hns (not_meta.mp hme')⟩
        · intro d hu
          rcases noBelow d hu with ⟨-, rfl⟩ | ⟨q, -⟩
          · exact ⟨_, List.mem_singleton.mpr rfl, leads_names hr.2 raw, Or.inr rfl⟩
          · rw [hme'] at q; simp at q
        · intro _ p hp; simp only [List.mem_singleton] at hp; subst hp; rfl

theorem entries_mem {w : World} {root : Pth} : ∀ {raws : List Bytes} {l : List Pth}, entries w root raws = some l →
    ∀ p, p ∈ l ↔ ∃ raw ∈ raws, ∃ a, entry w root raw = some a ∧ p ∈ a
  | [], l, h => by simp only [entries, Option.some.injEq] at h; subst h; simp
  | raw :: rest, l, h => by
    simp only [entries] at h
    cases ha : entry w root raw with
    | none => rw [ha] at h; simp at h
    | some a =>
      rw [ha] at h
      simp only [Option.map_eq_some_iff] at h
      obtain ⟨b, hb, rfl⟩ := h
      intro p
      simp only [List.mem_append, entries_mem hb p, List.mem_cons, exists_eq_or_imp, ha, Option.some.injEq, exists_eq_left']

theorem mem_sortedSet (f : Pth → Bytes) (ps : List Pth) (p : Pth) : p ∈ sortedSet f ps ↔ p ∈ ps := by
  unfold sortedSet; rw [(Report.sortBy_perm _ _).mem_iff, List.mem_dedup]

theorem nodup_sortedSet (f : Pth → Bytes) (ps : List Pth) : (sortedSet f ps).Nodup := by
  unfold sortedSet; rw [(Report.sortBy_perm _ _).nodup_iff]; exact List.nodup_dedup ps

theorem sorted_sortedSet (f : Pth → Bytes) (ps : List Pth) : (sortedSet f ps).Pairwise fun a b => f a ≤ f b := by
  unfold sortedSet
  have := Report.sortBy_sorted (f := fun a b : Pth => Report.le (f a) (f b)) (fun a b => Report.le_total' _ _) (fun a b c => Report.le_trans' _ _ _) ps.dedup
  exact this.imp fun h => by simpa [Report.le] using h

theorem parse_spec {w : World} (hw : Sane w) {root : Pth} (hr : Rooted root) {raws : List Bytes} (hn : ∀ raw ∈ raws, ¬ AbsEllipsis raw) {out : List Pth}
    (h : parseGoWork w root (.use raws) = some out) :
    (∀ p ∈ out, ∃ d, Added root p d ∧ ∃ raw ∈ raws, Uses w root.comps raw d) ∧ (∀ d, ∀ raw ∈ raws, Uses w root.comps raw d → ∃ p ∈ out, Added root p d) ∧
    ((∀ raw ∈ raws, Relative raw) → ∀ p ∈ out, p.abs = false) := by
  simp only [parseGoWork, Option.map_eq_some_iff] at h
  obtain ⟨l, hl, rfl⟩ := h
  have hm := entries_mem hl
  have hall : ∀ p ∈ l, ∃ d, Added root p d ∧ ∃ raw ∈ raws, Uses w root.comps raw d := by
    intro p hp
    obtain ⟨raw, h1, a, h2, h3⟩ := (hm p).mp hp
    obtain ⟨d, q1, q2⟩ := (entry_spec hw hr (hn raw h1) h2).1 p h3
    exact ⟨d, q1, raw, h1, q2⟩
  have hid : l.map (fun p => mkP p.abs p.comps) = l := by
    conv => rhs; rw [← List.map_id l]
    apply List.map_congr_left
    intro p hp
    obtain ⟨d, hd, -⟩ := hall p hp
    exact added_mkP hd
  rw [hid]
  refine ⟨?_, ?_, ?_⟩
  · intro p hp; exact hall p ((mem_sortedSet _ _ _).mp hp)
  · intro d raw hraw hu
    have : ∃ a, entry w root raw = some a ∧ ∀ p ∈ a, p ∈ l := by
      have key : ∀ {raws : List Bytes} {l : List Pth}, entries w root raws = some l → raw ∈ raws → ∃ a, entry w root raw = some a := by
        intro raws
        induction raws with
        | nil => intro l _ h; simp at h
        | cons r rs ih =>
          intro l he hr
          simp only [entries] at he
          cases ha : entry w root r with
          | none => rw [ha] at he; simp at he
          | some a =>
            rw [ha] at he
            simp only [Option.map_eq_some_iff] at he
            obtain ⟨b, hb, -⟩ := he
            rcases List.mem_cons.mp hr with rfl | hr
            · exact ⟨a, ha⟩
            · exact ih hb hr
      obtain ⟨a, ha⟩ := key hl hraw
      exact ⟨a, ha, fun p hp => (hm p).mpr ⟨raw, hraw, a, ha, hp⟩⟩
    obtain ⟨a, ha, hsub⟩ := this
    obtain ⟨p, hp, hA⟩ := (entry_spec hw hr (hn raw hraw) ha).2.1 d hu
    exact ⟨p, (mem_sortedSet _ _ _).mpr (hsub p hp), hA⟩
  · intro hrel p hp
    obtain ⟨raw, h1, a, h2, h3⟩ := (hm p).mp ((mem_sortedSet _ _ _).mp hp)
    exact (entry_spec hw hr (hn raw h1) h2).2.2 (hrel raw h1) p h3

theorem entry_added {w : World} (hw : Sane w) {root : Pth} (hr : Rooted root) {raw : Bytes} {l : List Pth} (h : entry w root raw = some l) :
    ∀ p ∈ l, ∃ d, Added root p d := by
  by_cases hn : AbsEllipsis raw
  · have he := (dots_suffix raw).mpr hn.2
    have ha : isAbs raw = true := by simpa [isAbs] using hn.1
    unfold entry at h
    rw [if_pos ha, if_pos he, join_eq hr] at h
    have hst : Rooted ⟨true, clean (root.comps ++ splitPath (trimEllipsis raw))⟩ := by
      refine ⟨rfl, clean_names ?_⟩
      intro c hc
      rcases List.mem_append.mp hc with hc | hc
      · exact (hr.2 c hc).2.2.2
      · exact splitPath_no_slash _ c hc
    intro p hp
    obtain ⟨h1, -, h3, -⟩ := (mem_walk hw hst h p).mp hp
    exact ⟨p.comps, hw.dirs _ h3, Or.inl (by cases p; simp_all)⟩
  · intro p hp
    obtain ⟨d, hd, -⟩ := (entry_spec hw hr hn h).1 p hp
    exact ⟨d, hd⟩

theorem parse_added {w : World} (hw : Sane w) {root : Pth} (hr : Rooted root) {f : WorkFile} {out : List Pth}
    (h : parseGoWork w root f = some out) : ∀ p ∈ out, ∃ d, Added root p d := by
  cases f with
  | absent => simp [parseGoWork] at h
  | broken => simp [parseGoWork] at h
  | use raws =>
    simp only [parseGoWork, Option.map_eq_some_iff] at h
    obtain ⟨l, hl, rfl⟩ := h
    intro p hp
    rw [mem_sortedSet, List.mem_map] at hp
    obtain ⟨q, hq, rfl⟩ := hp
    obtain ⟨raw, h1, a, h2, h3⟩ := (entries_mem hl q).mp hq
    obtain ⟨d, hd⟩ := entry_added hw hr h2 q h3
    rw [added_mkP hd]
    exact ⟨d, hd⟩

/-! ### go.mod files and patterns -/

theorem mem_goModDirs {w : World} {proj : Pth} {work : WorkFile} {out : List Pth} (h : goModDirs w proj work = some out) (d : Pth) :
    d ∈ out ↔ (d = proj ∧ w.hasMod proj = true) ∨ ∃ ds, parseGoWork w proj work = some ds ∧ ∃ p ∈ ds, resolve proj p = d ∧ w.hasMod d = true := by
  have root : ∀ d, d ∈ (if w.hasMod proj then [proj] else []) ↔ d = proj ∧ w.hasMod proj = true := by
    intro d; by_cases hm : w.hasMod proj = true <;> simp [hm]
  cases work with
  | absent =>
    simp only [goModDirs] at h
    split at h
    · simp only [Option.some.injEq] at h; subst h
      rename_i hm
      rw [mem_sortedSet]
      simp [parseGoWork, hm]
    · simp at h
  | broken => simp [goModDirs, parseGoWork] at h
  | use raws =>
    simp only [goModDirs] at h
    cases hp : parseGoWork w proj (.use raws) with
    | none => rw [hp] at h; simp at h
    | some ds =>
      rw [hp] at h
      simp only [Option.some.injEq] at h; subst h
      rw [mem_sortedSet, List.mem_append, root, List.mem_filter, List.mem_map]
      simp only [Option.some.injEq, exists_eq_left']
      constructor
      · rintro (q | ⟨⟨p, h1, h2⟩, h3⟩)
        · exact Or.inl q
        · exact Or.inr ⟨p, h1, h2, h3⟩
      · rintro (q | ⟨p, h1, h2, h3⟩)
        · exact Or.inl q
        · exact Or.inr ⟨⟨p, h1, h2⟩, h3⟩

theorem goModDirs_form {w : World} {proj : Pth} {work : WorkFile} {out : List Pth} (h : goModDirs w proj work = some out) :
    ∃ ps, out = sortedSet (fun d => render (d.join [goMod])) ps := by
  cases work with
  | absent =>
    simp only [goModDirs] at h
    split at h
    · simp only [Option.some.injEq] at h; exact ⟨_, h.symm⟩
    · simp at h
  | broken => simp [goModDirs, parseGoWork] at h
  | use raws =>
    simp only [goModDirs] at h
    cases hp : parseGoWork w proj (.use raws) with
    | none => rw [hp] at h; simp at h
    | some ds => rw [hp] at h; simp only [Option.some.injEq] at h; exact ⟨_, h.symm⟩

theorem goModDirs_rooted {w : World} (hw : Sane w) {proj : Pth} (hr : Rooted proj) {work : WorkFile} {out : List Pth} (h : goModDirs w proj work = some out) :
    ∀ d ∈ out, Rooted d := by
  intro d hd
  rcases (mem_goModDirs h d).mp hd with ⟨rfl, -⟩ | ⟨ds, h1, p, h2, rfl, -⟩
  · exact hr
  · obtain ⟨e, he⟩ := parse_added hw hr h1 p h2
    rw [added_resolve hr he]
    exact ⟨rfl, he.1⟩

theorem split_slash : ∀ {c : Bytes} (s : Bytes), (47 : UInt8) ∉ c → splitPath (c ++ 47 :: s) = c :: splitPath s
  | [], s, _ => by simp [splitPath]
  | b :: c, s, h => by
    simp only [List.mem_cons, not_or] at h
    have ih := split_slash (c := c) s h.2
    simp only [List.cons_append]
    conv => lhs; unfold splitPath
    rw [if_neg (Ne.symm h.1), ih]

theorem split_join : ∀ {cs : List Bytes} (s : Bytes), cs ≠ [] → Names cs → splitPath (joinPath cs ++ 47 :: s) = cs ++ splitPath s
  | [], _, h, _ => absurd rfl h
  | [c], s, _, hn => by simpa [joinPath] using split_slash s (hn c (by simp)).2.2.2
  | c :: d :: cs, s, _, hn => by
    rw [joinPath_cons (by simp), List.append_assoc, List.cons_append, split_slash _ (hn c (by simp)).2.2.2,
      split_join s (by simp) (fun x hx => hn x (by simp [hx]))]
    rfl

theorem join_snoc : ∀ {cs : List Bytes} (c : Bytes), cs ≠ [] → joinPath (cs ++ [c]) = joinPath cs ++ 47 :: c
  | [], _, h => absurd rfl h
  | [d], c, _ => by simp [joinPath]
  | d :: e :: cs, c, _ => by
    have := join_snoc (cs := e :: cs) c (by simp)
    simp only [List.cons_append] at this ⊢
    rw [joinPath_cons (cs := e :: (cs ++ [c])) (by simp), this, joinPath_cons (cs := e :: cs) (by simp)]
    simp

theorem name_dots : Name dots := by unfold Name dots; decide

theorem names_snoc {cs : List Bytes} (h : Names cs) : Names (cs ++ [dots]) := by
  intro c hc
  rcases List.mem_append.mp hc with hc | hc
  · exact h c hc
  · rw [List.mem_singleton.mp hc]; exact name_dots

theorem clean_trailing {cs : List Bytes} (h : Names cs) (d : List Bytes) (hd : ∀ c ∈ d, c = [] ∨ c = [46]) (e : List Bytes) (he : Names e) :
    clean (cs ++ (d ++ e ++ [[]])) = cs ++ e := by
  rw [clean_append h]
  have skip : ∀ (d acc rest : List Bytes), (∀ c ∈ d, c = [] ∨ c = [46]) → cleanRev acc (d ++ rest) = cleanRev acc rest := by
    intro d
    induction d with
    | nil => simp
    | cons c d ih =>
      intro acc rest hd
      simp only [List.cons_append]
      conv => lhs; unfold cleanRev
      rw [if_pos (hd c (by simp)), ih acc rest (fun x hx => hd x (by simp [hx]))]
  rw [List.append_assoc, skip d _ _ hd, cleanRev_append, cleanRev_keep e _ he]
  simp [cleanRev]

theorem pattern_means {proj dir : Pth} (hp : Rooted proj) (hd : Rooted dir) : Means proj.comps (pattern proj dir) dir.comps := by
  unfold pattern
  split
  · rename_i h; subst h
    refine ⟨[46], rfl, Or.inr (Or.inl ⟨dots, rfl⟩), ?_⟩
    have : absClean dir.comps ([46] ++ [47]) = clean (dir.comps ++ ([[46]] ++ [] ++ [[]])) := rfl
    rw [this, clean_trailing hp.2 [[46]] (by simp) [] (by simp [Names])]
    simp
  · rename_i hne
    split
    · rename_i h
      have hpre : proj.comps <+: dir.comps := by
        by_contra hc
        obtain ⟨cs, hcs⟩ := rel_outside _ _ hc
        rw [hcs] at h
        exact h.2 (joinPath_prefix _ _)
      obtain ⟨rest, hrest⟩ := hpre
      rw [← hrest, rel_below]
      have hrn : Names rest := fun x hx => hd.2 x (by rw [← hrest]; simp [hx])
      have hr0 : rest ≠ [] := by
        intro h0; subst h0
        apply hne
        cases proj; cases dir; simp_all [Rooted]
      have hm : mkP false (rest ++ [dots]) = ⟨false, rest ++ [dots]⟩ := by
        unfold mkP; rw [if_neg (by simp), cleanRelRev_keep _ _ (names_snoc hrn)]; simp
      rw [hm]
      simp only [render, Bool.false_eq_true, if_false, join_snoc dots hr0]
      refine ⟨[46, 47] ++ joinPath rest, by simp, Or.inr (Or.inl ⟨_, rfl⟩), ?_⟩
      have e1 : absClean proj.comps ([46, 47] ++ joinPath rest ++ [47]) = clean (proj.comps ++ splitPath ([46] ++ 47 :: (joinPath rest ++ 47 :: []))) := by
        simp [absClean]
      rw [e1, split_slash _ (by decide), split_join _ hr0 hrn]
      have := clean_trailing hp.2 [[46]] (by simp) rest hrn
      simpa [splitPath] using this
    · rw [join_eq hd, clean_keep (names_snoc hd.2)]
      simp only [render, if_true, List.append_eq_nil_iff, List.cons_ne_self, and_false, if_false]
      by_cases h0 : dir.comps = []
      · rw [h0]
        refine ⟨[], by simp [joinPath], Or.inl rfl, by simp [absClean, splitPath, clean, cleanRev]⟩
      · rw [join_snoc dots h0]
        refine ⟨[47] ++ joinPath dir.comps, by simp, Or.inl rfl, ?_⟩
        have e1 : absClean proj.comps ([47] ++ joinPath dir.comps ++ [47]) = clean (splitPath ([] ++ 47 :: (joinPath dir.comps ++ 47 :: []))) := by
          simp [absClean]
        rw [e1, split_slash _ (by simp), split_join _ h0 hd.2]
        have := clean_trailing (cs := []) (by simp [Names]) [[]] (by simp) dir.comps hd.2
        simpa [splitPath] using this

/-! ### Comparison -/

theorem mem_compareDirs {w : World} {proj newRoot : Pth} : ∀ {ds : List Pth} {cs : List Module.Change}, compareDirs w proj newRoot ds = some cs →
    ∀ c, c ∈ cs ↔ ∃ d ∈ ds, ∃ a b, w.mods (w.place (resolve proj d)) = .reqs a ∧ w.mods (w.place (resolve newRoot d)) = .reqs b ∧ c ∈ Module.diffMods a b
  | [], cs, h => by simp only [compareDirs, Option.some.injEq] at h; subst h; simp
  | d :: ds, cs, h => by
    intro c
    simp only [compareDirs] at h
    simp only [List.mem_cons, exists_eq_or_imp]
    cases ho : w.mods (w.place (resolve proj d)) with
    | absent => rw [ho] at h; simp only at h; rw [mem_compareDirs h c]; simp
    | broken =>
      cases hn : w.mods (w.place (resolve newRoot d)) with
      | absent => rw [ho, hn] at h; simp only at h; rw [mem_compareDirs h c]; simp
      | broken => rw [ho, hn] at h; simp at h
      | reqs b => rw [ho, hn] at h; simp at h
    | reqs a =>
      cases hn : w.mods (w.place (resolve newRoot d)) with
      | absent => rw [ho, hn] at h; simp only at h; rw [mem_compareDirs h c]; simp
      | broken => rw [ho, hn] at h; simp at h
      | reqs b =>
        rw [ho, hn] at h
        simp only [Option.map_eq_some_iff] at h
        obtain ⟨rest, hr, rfl⟩ := h
        rw [List.mem_append, mem_compareDirs hr c]
        simp

theorem compareDirs_none {w : World} {proj newRoot : Pth} : ∀ {ds : List Pth}, compareDirs w proj newRoot ds = none →
    ∃ d ∈ ds, w.mods (w.place (resolve proj d)) = .broken ∨ w.mods (w.place (resolve newRoot d)) = .broken
  | [], h => by simp [compareDirs] at h
  | d :: ds, h => by
    have lift : (∃ d ∈ ds, w.mods (w.place (resolve proj d)) = .broken ∨ w.mods (w.place (resolve newRoot d)) = .broken) →
        ∃ e ∈ d :: ds, w.mods (w.place (resolve proj e)) = .broken ∨ w.mods (w.place (resolve newRoot e)) = .broken := by
      rintro ⟨e, h1, h2⟩; exact ⟨e, List.mem_cons_of_mem _ h1, h2⟩
    simp only [compareDirs] at h
    cases ho : w.mods (w.place (resolve proj d)) with
    | absent => rw [ho] at h; simp only at h; exact lift (compareDirs_none h)
    | broken => exact ⟨d, by simp, Or.inl ho⟩
    | reqs a =>
      cases hn : w.mods (w.place (resolve newRoot d)) with
      | absent => rw [ho, hn] at h; simp only at h; exact lift (compareDirs_none h)
      | broken => exact ⟨d, by simp, Or.inr hn⟩
      | reqs b => rw [ho, hn] at h; simp only [Option.map_eq_none_iff] at h; exact lift (compareDirs_none h)

theorem diff_self {a : List Module.Req} (h : (a.map Module.Req.path).Nodup) (c : Module.Change) : c ∉ Module.diffMods a a := by
  intro hc
  obtain ⟨r, hr, h1, h2, -, ⟨x, r', y, e, e1, e2, e3⟩, h5⟩ := (Module.C34_exact a a c).mp hc
  have : r = r' := by
    have hr' : r' ∈ a := by rw [e]; simp
    exact List.inj_on_of_nodup_map h hr hr' e1.symm
  subst this
  exact h5 (e2.symm.trans h2.symm)

/-! ### Versions -/

theorem findVersion_some {w : World} {name : Bytes} : ∀ {ds : List Pth} {r : Module.Req}, findVersion w name ds = some (some r) →
    r.path = name ∧ r.version ≠ [] ∧ ∃ d ∈ ds, ∃ rs, w.mods (w.place d) = .reqs rs ∧ r ∈ rs
  | [], r, h => by simp [findVersion] at h
  | d :: ds, r, h => by
    have lift : (r.path = name ∧ r.version ≠ [] ∧ ∃ d ∈ ds, ∃ rs, w.mods (w.place d) = .reqs rs ∧ r ∈ rs) →
        r.path = name ∧ r.version ≠ [] ∧ ∃ e ∈ d :: ds, ∃ rs, w.mods (w.place e) = .reqs rs ∧ r ∈ rs := by
      rintro ⟨h1, h2, e, h3, h4⟩; exact ⟨h1, h2, e, List.mem_cons_of_mem _ h3, h4⟩
    simp only [findVersion] at h
    cases hm : w.mods (w.place d) with
    | absent => rw [hm] at h; simp [versionIn] at h
    | broken => rw [hm] at h; simp [versionIn] at h
    | reqs rs =>
      rw [hm] at h
      simp only [versionIn] at h
      cases hf : rs.find? (fun r => r.path = name) with
      | none => rw [hf] at h; exact lift (findVersion_some h)
      | some r' =>
        rw [hf] at h
        simp only at h
        split at h
        · exact lift (findVersion_some h)
        · rename_i hv
          simp only [Option.some.injEq] at h
          subst h
          refine ⟨by simpa using List.find?_some hf, hv, d, by simp, rs, hm, List.mem_of_find?_eq_some hf⟩

theorem findVersion_none {w : World} {name : Bytes} : ∀ {ds : List Pth}, findVersion w name ds = some none → GoodMods w (ds.map w.place) →
    ∀ v, ¬ RequiredIn w (ds.map w.place) name v
  | [], _, _, v => by rintro ⟨d, hd, -⟩; simp at hd
  | d :: ds, h, hg, v => by
    have hg' : GoodMods w (ds.map w.place) := fun e he => hg e (by simp only [List.map_cons, List.mem_cons]; exact Or.inr he)
    rintro ⟨e, he, rs, hm, r, hr, h1, h2⟩
    simp only [findVersion] at h
    cases hmd : w.mods (w.place d) with
    | absent => rw [hmd] at h; simp [versionIn] at h
    | broken => rw [hmd] at h; simp [versionIn] at h
    | reqs rs' =>
      rw [hmd] at h
      simp only [versionIn] at h
      cases hf : rs'.find? (fun r => r.path = name) with
      | none =>
        rw [hf] at h
        simp only [List.map_cons, List.mem_cons] at he
        rcases he with rfl | he
        · rw [hmd] at hm
          simp only [Module.ModFile.reqs.injEq] at hm
          subst hm
          have := List.find?_eq_none.mp hf r hr
          simp [h1] at this
        · exact findVersion_none h hg' v ⟨e, he, rs, hm, r, hr, h1, h2⟩
      | some r' =>
        rw [hf] at h
        simp only at h
        split at h
        · rename_i hv
          exact (hg (w.place d) (by simp) rs' hmd).2 r' (List.mem_of_find?_eq_some hf) hv
        · simp at h

/-! ### Patterns of the call graph -/

theorem split_join' : ∀ {cs : List Bytes} (s : Bytes), cs ≠ [] → (∀ c ∈ cs, (47 : UInt8) ∉ c) → splitPath (joinPath cs ++ 47 :: s) = cs ++ splitPath s
  | [], _, h, _ => absurd rfl h
  | [c], s, _, hn => by simpa [joinPath] using split_slash s (hn c (by simp))
  | c :: d :: cs, s, _, hn => by
    rw [joinPath_cons (by simp), List.append_assoc, List.cons_append, split_slash _ (hn c (by simp)),
      split_join' s (by simp) (fun x hx => hn x (by simp [hx]))]
    rfl

theorem clean_around {a : List Bytes} (h : Names a) (b : List Bytes) : clean (a ++ [46] :: (b ++ [[]])) = clean (a ++ b) := by
  rw [clean_append h, clean_append h]
  conv => lhs; unfold cleanRev
  rw [if_pos (.inr rfl), cleanRev_append]
  simp [cleanRev]

theorem graph_means {proj p : Pth} (hp : Rooted proj) {d : List Bytes} (h : Added proj p d) : Means proj.comps (graphPattern p) d := by
  rcases h with ⟨hd, rfl | rfl⟩
  · have hr : Rooted ⟨true, d⟩ := ⟨rfl, hd⟩
    unfold graphPattern
    rw [if_pos rfl, join_eq hr, clean_keep (names_snoc hd)]
    simp only [render, if_true, List.append_eq_nil_iff, List.cons_ne_self, and_false, if_false]
    by_cases h0 : d = []
    · rw [h0]
      refine ⟨[], by simp [joinPath], Or.inl rfl, by simp [absClean, splitPath, clean, cleanRev]⟩
    · rw [join_snoc dots h0]
      refine ⟨[47] ++ joinPath d, by simp, Or.inl rfl, ?_⟩
      have e1 : absClean proj.comps ([47] ++ joinPath d ++ [47]) = clean (splitPath ([] ++ 47 :: (joinPath d ++ 47 :: []))) := by
        simp [absClean]
      rw [e1, split_slash _ (by simp), split_join _ h0 hd]
      have := clean_trailing (cs := []) (by simp [Names]) [[]] (by simp) d hd
      simpa [splitPath] using this
  · obtain ⟨n, cs, h1, h2⟩ := rel_shape proj.comps d hd
    have hm : mkP false (relComps proj.comps d ++ [dots]) = ⟨false, relComps proj.comps d ++ [dots]⟩ := by
      unfold mkP
      rw [if_neg (by simp), h1, List.append_assoc]
      have := cleanRelRev_dotdots n 0 (cs ++ [dots])
      simp only [List.replicate_zero] at this
      rw [this, cleanRelRev_keep _ _ (names_snoc h2)]
      simp [dotdot]
    have hslash : ∀ c ∈ relComps proj.comps d, (47 : UInt8) ∉ c := by
      rw [h1]
      intro c hc
      rcases List.mem_append.mp hc with hc | hc
      · rw [List.eq_of_mem_replicate hc]; decide
      · exact (h2 c hc).2.2.2
    unfold graphPattern Pth.join
    rw [if_neg (by simp), hm]
    simp only [render, Bool.false_eq_true, if_false]
    by_cases h0 : relComps proj.comps d = []
    · rw [h0]
      refine ⟨[46], by simp [joinPath], Or.inr (Or.inl ⟨_, rfl⟩), ?_⟩
      have e := clean_around hp.2 (relComps proj.comps d)
      rw [clean_rel hp.2 hd, h0] at e
      simpa [absClean, splitPath] using e
    · rw [join_snoc dots h0]
      refine ⟨[46, 47] ++ joinPath (relComps proj.comps d), by simp, Or.inr (Or.inl ⟨_, rfl⟩), ?_⟩
      have e1 : absClean proj.comps ([46, 47] ++ joinPath (relComps proj.comps d) ++ [47]) =
          clean (proj.comps ++ splitPath ([46] ++ 47 :: (joinPath (relComps proj.comps d) ++ 47 :: []))) := by
        simp [absClean]
      rw [e1, split_slash _ (by decide), split_join' _ h0 hslash]
      have e := clean_around hp.2 (relComps proj.comps d)
      rw [clean_rel hp.2 hd] at e
      simpa [splitPath] using e

theorem means_root {proj : Pth} (hp : Rooted proj) : Means proj.comps ([46, 47] ++ dots) proj.comps := by
  have := pattern_means hp hp
  unfold pattern at this
  rwa [if_pos rfl] at this

theorem means_unique {root : List Bytes} {pat : Bytes} {d d' : List Bytes} (h : Means root pat d) (h' : Means root pat d') : d = d' := by
  obtain ⟨q, e, _, rfl⟩ := h
  obtain ⟨q', e', _, rfl⟩ := h'
  rw [e] at e'
  rw [List.append_cancel_right e']

end Verif.Workspace
