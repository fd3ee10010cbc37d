import Verif.Pkgs.Spec

namespace Verif.Pkgs

theorem endsIn_iff (f : File) (s : Bytes) : s.isSuffixOf f.name = true ↔ EndsIn f s := by
  rw [List.isSuffixOf_iff_suffix]
  unfold EndsIn
  constructor
  · rintro ⟨b, h⟩; exact ⟨b, h.symm⟩
  · rintro ⟨b, h⟩; exact ⟨b, h.symm⟩

theorem filter_iff (f : File) : filter f = true ↔ ¬ EndsIn f testSuffix ∧ f.fits = some true := by
  unfold filter
  rw [← endsIn_iff]
  cases testSuffix.isSuffixOf f.name
  · cases f.fits with
    | none => simp
    | some b => cases b <;> simp
  · simp

/-- What the loop has collected. -/
structure Collected (seen : List File) (pkgs : Found) : Prop where
  nodup : pkgs.keys.Nodup
  mem : ∀ p fs, pkgs.get p = some fs → fs ≠ [] ∧ ∀ f, f ∈ fs ↔ f ∈ seen ∧ Source f ∧ f.pkg = some p
  all : ∀ f ∈ seen, Source f → ∀ p, f.pkg = some p → (pkgs.get p).isSome
  sub : ∀ p fs, pkgs.get p = some fs → fs.Sublist seen

theorem Collected.skip {seen : List File} {pkgs : Found} (h : Collected seen pkgs) {f : File} (hf : ¬ Source f) : Collected (seen ++ [f]) pkgs where
  nodup := h.nodup
  mem := by
    intro p fs hp
    refine ⟨(h.mem p fs hp).1, fun g => ?_⟩
    rw [(h.mem p fs hp).2]
    constructor
    · rintro ⟨h1, h2⟩; exact ⟨by simp [h1], h2⟩
    · rintro ⟨h1, h2⟩
      rcases List.mem_append.mp h1 with h1 | h1
      · exact ⟨h1, h2⟩
      · rw [List.mem_singleton.mp h1] at h2; exact absurd h2.1 hf
  all := by
    intro g hg hs
    rcases List.mem_append.mp hg with hg | hg
    · exact h.all g hg hs
    · rw [List.mem_singleton.mp hg] at hs; exact absurd hs hf
  sub := fun p fs hp => (h.sub p fs hp).trans (List.sublist_append_left _ _)

theorem Collected.add {seen : List File} {pkgs : Found} (h : Collected seen pkgs) {f : File} (hf : Source f) {p : Bytes} (hp : f.pkg = some p) :
    Collected (seen ++ [f]) (pkgs.set p ((pkgs.get p).getD [] ++ [f])) where
  nodup := AMap.nodup_set h.nodup _ _
  mem := by
    intro q fs hq
    by_cases e : q = p
    · subst e
      rw [AMap.get_set, if_pos rfl] at hq
      cases hq
      refine ⟨by simp, fun g => ?_⟩
      cases hg : pkgs.get q with
      | none =>
          simp only [Option.getD_none, List.nil_append, List.mem_singleton, List.mem_append]
          constructor
          · rintro rfl; exact ⟨Or.inr rfl, hf, hp⟩
          · rintro ⟨h1 | h1, h2, h3⟩
            · have := h.all g h1 h2 q h3
              rw [hg] at this; cases this
            · exact h1
      | some fs =>
          simp only [Option.getD_some, List.mem_append, List.mem_singleton, (h.mem q fs hg).2]
          constructor
          · rintro (h1 | rfl)
            · exact ⟨Or.inl h1.1, h1.2⟩
            · exact ⟨Or.inr rfl, hf, hp⟩
          · rintro ⟨h1 | h1, h2⟩
            · exact Or.inl ⟨h1, h2⟩
            · exact Or.inr h1
    · rw [AMap.get_set, if_neg e] at hq
      refine ⟨(h.mem q fs hq).1, fun g => ?_⟩
      rw [(h.mem q fs hq).2]
      constructor
      · rintro ⟨h1, h2⟩; exact ⟨by simp [h1], h2⟩
      · rintro ⟨h1, h2, h3⟩
        rcases List.mem_append.mp h1 with h1 | h1
        · exact ⟨h1, h2, h3⟩
        · rw [List.mem_singleton.mp h1, hp] at h3
          cases h3; exact absurd rfl e
  all := by
    intro g hg hs q hq
    by_cases e : q = p
    · subst e; rw [AMap.get_set, if_pos rfl]; rfl
    · rw [AMap.get_set, if_neg e]
      rcases List.mem_append.mp hg with hg | hg
      · exact h.all g hg hs q hq
      · rw [List.mem_singleton.mp hg, hp] at hq
        cases hq; exact absurd rfl e
  sub := by
    intro q fs hq
    by_cases e : q = p
    · subst e
      rw [AMap.get_set, if_pos rfl] at hq
      cases hq
      refine List.Sublist.append ?_ (List.Sublist.refl _)
      cases hg : pkgs.get q with
      | none => simp
      | some fs => exact h.sub q fs hg
    · rw [AMap.get_set, if_neg e] at hq
      exact (h.sub q fs hq).trans (List.sublist_append_left _ _)

theorem parseLoop_spec : ∀ (fs seen : List File) (pkgs : Found), Collected seen pkgs →
    (∀ out, parseLoop fs pkgs = some out → Collected (seen ++ fs) out) ∧ (parseLoop fs pkgs = none ↔ ¬ Readable fs)
  | [], seen, pkgs, h => by
      refine ⟨fun out ho => ?_, ?_⟩
      · cases ho; simpa using h
      · simp [parseLoop, Readable]
  | f :: fs, seen, pkgs, h => by
      have hcons : Readable (f :: fs) ↔ ((f.isDir = false → EndsIn f dotGo → f.info = true) ∧ (Source f → f.pkg ≠ none)) ∧ Readable fs := by
        unfold Readable
        simp only [List.mem_cons, forall_eq_or_imp]
        tauto
      have happ : seen ++ f :: fs = (seen ++ [f]) ++ fs := by simp
      unfold parseLoop
      by_cases hd : (f.isDir || !goSuffix.isSuffixOf f.name) = true
      · rw [if_pos hd]
        have hns : ¬ (f.isDir = false ∧ EndsIn f goSuffix) := by
          rintro ⟨h1, h2⟩
          rw [← endsIn_iff] at h2
          simp [h1, h2] at hd
        have hs : ¬ Source f := fun hs => hns ⟨hs.1, hs.2.1⟩
        obtain ⟨q1, q2⟩ := parseLoop_spec fs (seen ++ [f]) pkgs (h.skip hs)
        rw [happ]
        refine ⟨q1, q2.trans (not_congr ?_)⟩
        rw [hcons]
        exact ⟨fun h => ⟨⟨fun h1 h2 => absurd ⟨h1, h2⟩ hns, fun h1 => absurd h1 hs⟩, h⟩, fun h => h.2⟩
      · rw [if_neg hd]
        have hy : f.isDir = false ∧ EndsIn f goSuffix := by
          rw [← endsIn_iff]
          cases h1 : f.isDir <;> cases h2 : goSuffix.isSuffixOf f.name <;> simp [h1, h2] at hd ⊢
        cases hi : f.info with
        | false =>
            refine ⟨fun out ho => by simp at ho, ?_⟩
            simp only [true_iff, hcons]
            intro hr
            have := hr.1.1 hy.1 hy.2
            rw [hi] at this; cases this
        | true =>
            dsimp only
            by_cases hf : filter f = true
            · rw [if_neg (by simp [hf])]
              have hs : Source f := ⟨hy.1, hy.2, ((filter_iff f).mp hf).1, ((filter_iff f).mp hf).2⟩
              cases hp : f.pkg with
              | none =>
                  refine ⟨fun out ho => by simp at ho, ?_⟩
                  simp only [true_iff, hcons]
                  intro hr
                  exact hr.1.2 hs hp
              | some p =>
                  obtain ⟨q1, q2⟩ := parseLoop_spec fs (seen ++ [f]) _ (h.add hs hp)
                  rw [happ]
                  refine ⟨q1, q2.trans (not_congr ?_)⟩
                  rw [hcons]
                  exact ⟨fun h => ⟨⟨fun _ _ => hi, fun _ => by simp [hp]⟩, h⟩, fun h => h.2⟩
            · rw [if_pos (by simpa using hf)]
              have hs : ¬ Source f := fun hs => hf ((filter_iff f).mpr ⟨hs.2.2.1, hs.2.2.2⟩)
              obtain ⟨q1, q2⟩ := parseLoop_spec fs (seen ++ [f]) pkgs (h.skip hs)
              rw [happ]
              refine ⟨q1, q2.trans (not_congr ?_)⟩
              rw [hcons]
              exact ⟨fun h => ⟨⟨fun _ _ => hi, fun h1 => absurd h1 hs⟩, h⟩, fun h => h.2⟩

theorem parseDir_spec (fs : List File) : (∀ out, parseDir fs = some out → Collected fs out) ∧ (parseDir fs = none ↔ ¬ Readable fs) := by
  obtain ⟨h1, h2⟩ := parseLoop_spec fs [] [] ⟨by simp [AMap.keys], by simp, by simp, by simp⟩
  exact ⟨by simpa [parseDir] using h1, h2⟩

end Verif.Pkgs
