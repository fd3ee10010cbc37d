import Verif.Advice.Spec

namespace Verif.Advice

open Verif.Module (Bytes Change cacheDir escapePath)

theorem contains_iff (t : Bytes) : ∀ s, contains s t = true ↔ Occurs t s
  | [] => by
    simp only [contains, List.isEmpty_iff, Occurs]
    constructor
    · rintro rfl; exact ⟨[], [], rfl⟩
    · rintro ⟨a, b, h⟩
      have := congrArg List.length h
      simp at this
      exact List.length_eq_zero_iff.1 (by omega)
  | b :: s => by
    simp only [contains, Bool.or_eq_true, List.isPrefixOf_iff_prefix, contains_iff t s, Occurs]
    constructor
    · rintro (⟨r, h⟩ | ⟨x, y, h⟩)
      · exact ⟨[], r, by simp [h]⟩
      · exact ⟨b :: x, y, by simp [h]⟩
    · rintro ⟨x, y, h⟩
      cases x with
      | nil => exact Or.inl ⟨y, by simpa using h.symm⟩
      | cons z x =>
        simp only [List.cons_append, List.cons.injEq] at h
        exact Or.inr ⟨x, y, h.2⟩

/-- What occurs in a text with a separator that it does not have occurs before or behind the separator. -/
theorem occurs_sep {t a b : Bytes} {s : UInt8} (ht : s ∉ t) (h : Occurs t (a ++ s :: b)) : Occurs t a ∨ Occurs t b := by
  obtain ⟨x, y, h⟩ := h
  rw [List.append_assoc] at h
  rcases List.append_eq_append_iff.1 h with ⟨r, hx, hr⟩ | ⟨r, ha, hr⟩
  · -- x = a ++ r
    cases r with
    | nil =>
      simp only [List.nil_append] at hr
      cases t with
      | nil => exact Or.inl ⟨a, [], by simp⟩
      | cons c t =>
        simp only [List.cons_append, List.cons.injEq] at hr
        exact absurd (by simp [hr.1]) ht
    | cons c r =>
      simp only [List.cons_append, List.cons.injEq] at hr
      exact Or.inr ⟨r, y, by simp [hr.2]⟩
  · -- a = x ++ r, t ++ y = r ++ s :: b
    rcases List.append_eq_append_iff.1 hr with ⟨q, hq, hq'⟩ | ⟨q, hq, hq'⟩
    · exact Or.inl ⟨x, q, by rw [ha, hq, List.append_assoc]⟩
    · cases q with
      | nil =>
        simp only [List.append_nil] at hq
        exact Or.inl ⟨x, [], by rw [ha, hq]; simp⟩
      | cons c q =>
        simp only [List.cons_append, List.cons.injEq] at hq'
        exact absurd (by rw [hq, hq'.1]; simp) ht

theorem occurs_nil {t : Bytes} (h : Occurs t []) : t = [] := by
  obtain ⟨a, b, h⟩ := h
  have := congrArg List.length h
  simp at this
  exact List.length_eq_zero_iff.1 (by omega)

/-- The text of the error about a missing version, with the separators. -/
def absentText (cache m e v : Bytes) : Bytes :=
  utf "failure" ++ 32 :: (utf "loading" ++ 32 :: (utf "module" ++ 32 :: (m ++ 64 :: (v ++ 58 :: ([] ++ 32 :: (utf "failed" ++ 32 :: (utf "to" ++ 32 ::
    (utf "stat" ++ 32 :: ((cache ++ utf "/" ++ e) ++ 64 :: (v ++ 58 :: ([] ++ 32 :: (utf "stat" ++ 32 :: ((cache ++ utf "/" ++ e) ++ 64 :: (v ++ 58 :: ([] ++ 32 ::
    (utf "no" ++ 32 :: (utf "such" ++ 32 :: (utf "file" ++ 32 :: (utf "or" ++ 32 :: utf "directory")))))))))))))))))))

theorem failure_absent {cache m v e dir : Bytes} (he : escapePath m = some e) (hd : cacheDir cache m v = some dir) :
    failure m v (utf "failed to stat " ++ dir ++ utf ": stat " ++ dir ++ utf ": no such file or directory") = absentText cache m e v := by
  simp only [cacheDir, he, Option.map_some, Option.some.injEq] at hd
  subst hd
  have h1 : utf "failure loading module " = utf "failure" ++ 32 :: (utf "loading" ++ 32 :: (utf "module" ++ [32])) := by decide +kernel
  have h2 : utf "@" = [64] := by decide +kernel
  have h3 : utf ": " = [58, 32] := by decide +kernel
  have h4 : utf "failed to stat " = utf "failed" ++ 32 :: (utf "to" ++ 32 :: (utf "stat" ++ [32])) := by decide +kernel
  have h5 : utf ": stat " = 58 :: 32 :: (utf "stat" ++ [32]) := by decide +kernel
  have h6 : utf ": no such file or directory" = 58 :: 32 :: (utf "no" ++ 32 :: (utf "such" ++ 32 :: (utf "file" ++ 32 :: (utf "or" ++ 32 :: utf "directory")))) := by
    decide +kernel
  have h7 : utf "/" = [47] := by decide +kernel
  simp only [failure, absentText, h1, h2, h3, h4, h5, h6, h7, List.append_assoc, List.cons_append, List.nil_append]

theorem occurs_absent {cache m v e t : Bytes} (he : escapePath m = some e) (ht : Plain t) (h : Occurs t (absentText cache m e v)) :
    ∃ w ∈ wordsOf cache m v, Occurs t w := by
  obtain ⟨h0, h32, h58, h64⟩ := ht
  have fin : ∀ w, w ∈ wordsOf cache m v → Occurs t w → ∃ w ∈ wordsOf cache m v, Occurs t w := fun w a b => ⟨w, a, b⟩
  have emp : Occurs t [] → ∃ w ∈ wordsOf cache m v, Occurs t w := fun h => absurd (occurs_nil h) h0
  unfold absentText at h
  rcases occurs_sep h32 h with h | h; · exact fin _ (by simp [wordsOf]) h
  rcases occurs_sep h32 h with h | h; · exact fin _ (by simp [wordsOf]) h
  rcases occurs_sep h32 h with h | h; · exact fin _ (by simp [wordsOf]) h
  rcases occurs_sep h64 h with h | h; · exact fin m (by simp [wordsOf]) h
  rcases occurs_sep h58 h with h | h; · exact fin v (by simp [wordsOf]) h
  rcases occurs_sep h32 h with h | h; · exact emp h
  rcases occurs_sep h32 h with h | h; · exact fin _ (by simp [wordsOf]) h
  rcases occurs_sep h32 h with h | h; · exact fin (utf "to") (by simp [wordsOf]) h
  rcases occurs_sep h32 h with h | h; · exact fin (utf "stat") (by simp [wordsOf]) h
  rcases occurs_sep h64 h with h | h; · exact fin (cache ++ utf "/" ++ e) (by simp [wordsOf, he]) h
  rcases occurs_sep h58 h with h | h; · exact fin v (by simp [wordsOf]) h
  rcases occurs_sep h32 h with h | h; · exact emp h
  rcases occurs_sep h32 h with h | h; · exact fin (utf "stat") (by simp [wordsOf]) h
  rcases occurs_sep h64 h with h | h; · exact fin (cache ++ utf "/" ++ e) (by simp [wordsOf, he]) h
  rcases occurs_sep h58 h with h | h; · exact fin v (by simp [wordsOf]) h
  rcases occurs_sep h32 h with h | h; · exact emp h
  rcases occurs_sep h32 h with h | h; · exact fin (utf "no") (by simp [wordsOf]) h
  rcases occurs_sep h32 h with h | h; · exact fin (utf "such") (by simp [wordsOf]) h
  rcases occurs_sep h32 h with h | h; · exact fin (utf "file") (by simp [wordsOf]) h
  rcases occurs_sep h32 h with h | h; · exact fin (utf "or") (by simp [wordsOf]) h
  exact fin (utf "directory") (by simp [wordsOf]) h

theorem occurs_name (cache m e v : Bytes) : Occurs m (absentText cache m e v) :=
  ⟨utf "failure" ++ 32 :: (utf "loading" ++ 32 :: (utf "module" ++ [32])), _, by
    simp only [absentText, List.append_assoc, List.cons_append, List.nil_append]; rfl⟩

theorem occurs_version (cache m e v : Bytes) : Occurs v (absentText cache m e v) :=
  ⟨utf "failure" ++ 32 :: (utf "loading" ++ 32 :: (utf "module" ++ 32 :: (m ++ [64]))), _, by
    simp only [absentText, List.append_assoc, List.cons_append, List.nil_append]; rfl⟩

/-- Of an error about a missing version the reading skips all other modules. -/
theorem advice_skip {cache : Bytes} {d : Change} {v e : Bytes} (he : escapePath d.name = some e) : ∀ {l r : List Change},
    (∀ c ∈ l, Plain c.name ∧ ∀ w ∈ wordsOf cache d.name v, ¬ Occurs c.name w) →
    advice (absentText cache d.name e v) (l ++ r) = advice (absentText cache d.name e v) r
  | [], _, _ => rfl
  | c :: l, r, h => by
    have hc : contains (absentText cache d.name e v) c.name = false := by
      rw [← Bool.not_eq_true, contains_iff]
      intro ho
      obtain ⟨w, hw, ho⟩ := occurs_absent he (h c (by simp)).1 ho
      exact (h c (by simp)).2 w hw ho
    simp only [List.cons_append, advice, hc]
    exact advice_skip he fun c hc => h c (by simp [hc])

theorem analyse_some {cache : Bytes} {disk : Disk} {err : Bytes} : ∀ {cs : List Change} {visited : List Bytes}, analyse cache disk visited cs = some err →
    ∃ before c after, cs = before ++ c :: after ∧ c.name ∉ visited ∧ (∀ d ∈ before, d.name ≠ c.name) ∧ attempt cache disk c = some err
  | [], _, h => by simp [analyse] at h
  | c :: cs, visited, h => by
    simp only [analyse] at h
    split at h
    · rename_i hin
      obtain ⟨b, d, a, rfl, hv, hb, ha⟩ := analyse_some h
      refine ⟨c :: b, d, a, rfl, hv, fun x hx => ?_, ha⟩
      rcases List.mem_cons.1 hx with rfl | hx
      · exact fun e => hv (e ▸ hin)
      · exact hb x hx
    · rename_i hin
      cases hat : attempt cache disk c with
      | some e =>
        simp only [hat, Option.some.injEq] at h
        exact ⟨[], c, cs, rfl, hin, by simp, by rw [hat, h]⟩
      | none =>
        simp only [hat] at h
        obtain ⟨b, d, a, rfl, hv, hb, ha⟩ := analyse_some h
        simp only [List.mem_cons, not_or] at hv
        refine ⟨c :: b, d, a, rfl, hv.2, fun x hx => ?_, ha⟩
        rcases List.mem_cons.1 hx with rfl | hx
        · exact Ne.symm hv.1
        · exact hb x hx

theorem analyse_skip {cache : Bytes} {disk : Disk} {c : Change} {after : List Change} {err : Bytes} (hc : attempt cache disk c = some err) :
    ∀ {before : List Change} {visited : List Bytes}, c.name ∉ visited → (∀ d ∈ before, d.name ≠ c.name ∧ attempt cache disk d = none) →
      analyse cache disk visited (before ++ c :: after) = some err
  | [], visited, hv, _ => by simp [analyse, hv, hc]
  | d :: before, visited, hv, hb => by
    simp only [List.cons_append, analyse]
    split
    · exact analyse_skip hc hv fun x hx => hb x (by simp [hx])
    · rw [(hb d (by simp)).2]
      refine analyse_skip hc ?_ fun x hx => hb x (by simp [hx])
      simp only [List.mem_cons, not_or]
      exact ⟨Ne.symm (hb d (by simp)).1, hv⟩

theorem analyse_none {cache : Bytes} {disk : Disk} : ∀ {cs : List Change} {visited : List Bytes}, (cs.map (·.name)).Nodup → (∀ c ∈ cs, c.name ∉ visited) →
    (analyse cache disk visited cs = none ↔ ∀ c ∈ cs, attempt cache disk c = none)
  | [], _, _, _ => by simp [analyse]
  | c :: cs, visited, hn, hv => by
    simp only [List.map_cons, List.nodup_cons] at hn
    simp only [analyse, if_neg (hv c (by simp)), List.forall_mem_cons]
    cases hat : attempt cache disk c with
    | some e => simp
    | none =>
      simp only [true_and]
      refine analyse_none hn.2 fun d hd => ?_
      simp only [List.mem_cons, not_or]
      refine ⟨fun e => hn.1 ?_, hv d (by simp [hd])⟩
      rw [← e]
      exact List.mem_map_of_mem hd

theorem loadText_none {cache : Bytes} {disk : Disk} {m v : Bytes} (he : (escapePath m).isSome) : loadText cache disk m v = none ↔ disk m v = .good := by
  obtain ⟨e, he⟩ := Option.isSome_iff_exists.1 he
  simp only [loadText, cacheDir, he, Option.map_some]
  cases disk m v <;> simp

theorem attempt_none {cache : Bytes} {disk : Disk} {c : Change} (he : (escapePath c.name).isSome) :
    attempt cache disk c = none ↔ disk c.name c.new = .good ∧ disk c.name c.prior = .good := by
  simp only [attempt]
  cases h1 : loadText cache disk c.name c.new with
  | some t =>
    have : disk c.name c.new ≠ .good := fun h => by rw [(loadText_none he).2 h] at h1; cases h1
    simp [this]
  | none =>
    have g1 := (loadText_none he).1 h1
    cases h2 : loadText cache disk c.name c.prior with
    | some t =>
      have : disk c.name c.prior ≠ .good := fun h => by rw [(loadText_none he).2 h] at h2; cases h2
      simp [this]
    | none => simp [g1, (loadText_none he).1 h2]

theorem attempt_absent {cache : Bytes} {disk : Disk} {c : Change} {v e : Bytes} (he : escapePath c.name = some e)
    (hw : v = c.new ∨ v = c.prior ∧ disk c.name c.new = .good) (ha : disk c.name v = .absent) : attempt cache disk c = some (absentText cache c.name e v) := by
  have hl : ∀ v, disk c.name v = .absent → ∃ t, loadText cache disk c.name v = some t ∧ failure c.name v t = absentText cache c.name e v := by
    intro v hv
    have hd : cacheDir cache c.name v = some (cache ++ 47 :: (e ++ 64 :: v)) := by simp only [cacheDir, he, Option.map_some]
    refine ⟨_, ?_, failure_absent he hd⟩
    simp only [loadText, cacheDir, he, Option.map_some, hv]
  rcases hw with rfl | ⟨rfl, hg⟩
  · obtain ⟨t, h1, h2⟩ := hl _ ha
    simp only [attempt, h1, h2]
  · obtain ⟨t, h1, h2⟩ := hl _ ha
    simp only [attempt, (loadText_none (by simp [he])).2 hg, h1, h2]

/-- Where no directory is broken an error is about a missing version. -/
theorem absent_of_attempt {cache : Bytes} {disk : Disk} {c : Change} {err e : Bytes} (he : escapePath c.name = some e)
    (hb : ∀ v, v = c.new ∨ v = c.prior → ∀ t, disk c.name v ≠ .broken t) (h : attempt cache disk c = some err) :
    ∃ v, (v = c.new ∨ v = c.prior ∧ disk c.name c.new = .good) ∧ disk c.name v = .absent ∧ err = absentText cache c.name e v := by
  cases h1 : disk c.name c.new with
  | absent =>
    rw [attempt_absent he (Or.inl rfl) h1, Option.some.injEq] at h
    exact ⟨_, Or.inl rfl, h1, h.symm⟩
  | broken t => exact absurd h1 (hb _ (Or.inl rfl) t)
  | good =>
    cases h2 : disk c.name c.prior with
    | absent =>
      rw [attempt_absent he (Or.inr ⟨rfl, h1⟩) h2, Option.some.injEq] at h
      exact ⟨_, Or.inr ⟨rfl, rfl⟩, h2, h.symm⟩
    | broken t => exact absurd h2 (hb _ (Or.inr rfl) t)
    | good => rw [(attempt_none (by simp [he])).2 ⟨h1, h2⟩] at h; cases h

/-- The reading of the error about a missing version of a requested module. -/
theorem advice_own {cache : Bytes} {requested more : List Change} (hc : Clear cache requested more) {c : Change} {l r : List Change} {v e : Bytes}
    (hr : requested = l ++ c :: r) (hl : ∀ d ∈ l, d.name ≠ c.name) (hv : v = c.new ∨ v = c.prior) (he : escapePath c.name = some e) :
    advice (absentText cache c.name e v) requested = .missing c.name v := by
  have hm : c ∈ requested := by rw [hr]; simp
  have hskip : advice (absentText cache c.name e v) requested = advice (absentText cache c.name e v) (c :: r) := by
    conv => lhs; rw [hr]
    refine advice_skip he fun d hd => ?_
    have hd' : d ∈ requested := by rw [hr]; simp [hd]
    exact ⟨(hc.names d (by simp [hd'])).1, hc.apart d hd' c (by simp [hm]) (hl d hd) v hv⟩
  rw [hskip]
  have hn : contains (absentText cache c.name e v) c.name = true := (contains_iff _ _).2 (occurs_name ..)
  have hvv : contains (absentText cache c.name e v) v = true := (contains_iff _ _).2 (occurs_version ..)
  rcases hv with rfl | rfl
  · have hp : contains (absentText cache c.name e c.new) c.prior = false := by
      rw [← Bool.not_eq_true, contains_iff]
      intro ho
      obtain ⟨w, hw, ho⟩ := occurs_absent he (hc.names c (by simp [hm])).2.2.1 ho
      exact hc.versions c hm w hw ho
    simp [advice, hn, hvv, hp]
  · simp [advice, hn, hvv]

/-- The reading of the error about a missing version of another module. -/
theorem advice_more {cache : Bytes} {requested more : List Change} (hc : Clear cache requested more) {c : Change} {v e : Bytes}
    (hm : c ∈ requested ++ more) (hl : ∀ d ∈ requested, d.name ≠ c.name) (hv : v = c.new ∨ v = c.prior) (he : escapePath c.name = some e) :
    advice (absentText cache c.name e v) requested = .other (absentText cache c.name e v) := by
  have := advice_skip (cache := cache) (v := v) he (l := requested) (r := []) fun d hd =>
    ⟨(hc.names d (by simp [hd])).1, hc.apart d hd c hm (hl d hd) v hv⟩
  simpa [advice] using this

end Verif.Advice
