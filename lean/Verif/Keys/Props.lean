import Verif.Keys.Spec

/-! # C160: reports and the methods of keys -/

namespace Verif.Keys

theorem each_some {α β : Type} {f : α → Option (List β)} : ∀ {l : List α} {xs : List β}, each f l = some xs → (∀ a ∈ l, ∃ y, f a = some y) ∧ ∀ n, n ∈ xs ↔ ∃ a ∈ l, ∃ y, f a = some y ∧ n ∈ y
  | [], xs, h => by cases h; simp
  | a :: l, xs, h => by
    rw [each] at h
    cases hf : f a with
    | none => rw [hf] at h; cases h
    | some x =>
      rw [hf] at h
      cases hl : each f l with
      | none => rw [hl] at h; cases h
      | some ys =>
        rw [hl] at h
        cases h
        obtain ⟨h1, h2⟩ := each_some hl
        refine ⟨fun b hb => ?_, fun n => ?_⟩
        · rcases List.mem_cons.mp hb with rfl | hb
          · exact ⟨x, hf⟩
          · exact h1 b hb
        · rw [List.mem_append, h2]
          constructor
          · rintro (h | ⟨b, hb, y, hy⟩)
            · exact ⟨a, .head _, x, hf, h⟩
            · exact ⟨b, .tail _ hb, y, hy⟩
          · rintro ⟨b, hb, y, hy, hn⟩
            rcases List.mem_cons.mp hb with rfl | hb
            · rw [hf] at hy; cases hy; exact .inl hn
            · exact .inr ⟨b, hb, y, hy, hn⟩

theorem each_none {α β : Type} {f : α → Option (List β)} : ∀ {l : List α} {a : α}, a ∈ l → f a = none → each f l = none
  | b :: l, a, h, hf => by
    rw [each]
    rcases List.mem_cons.mp h with rfl | h
    · rw [hf]; rfl
    · rw [each_none h hf]
      cases f b <;> rfl

theorem each_ends {α β : Type} {f : Nat → α → Option (List β)} : ∀ {l : List α}, (∀ a ∈ l, ∃ N, ∀ n, N ≤ n → (f n a).isSome) → ∃ N, ∀ n, N ≤ n → (each (f n) l).isSome
  | [], _ => ⟨0, fun _ _ => rfl⟩
  | a :: l, h => by
    obtain ⟨N1, h1⟩ := h a (.head _)
    obtain ⟨N2, h2⟩ := each_ends fun b hb => h b (.tail _ hb)
    refine ⟨max N1 N2, fun n hn => ?_⟩
    obtain ⟨x, hx⟩ := Option.isSome_iff_exists.mp (h1 n (by omega))
    obtain ⟨y, hy⟩ := Option.isSome_iff_exists.mp (h2 n (by omega))
    rw [each, hx, hy]
    rfl

/-- A method of a key shows something. -/
def Shows (c : Cfg) (ms : Methods) (t k n : Nat) : Prop := ∃ m, ms t = some m ∧ (.effect n ∈ m k ∨ ∃ w, .report w ∈ m k ∧ Notices c ms 0 w n)

theorem notices_iff {c : Cfg} {ms : Methods} {d : Nat} {v : Val} {n : Nat} : Notices c ms d v n ↔ ∃ t k, Has c d v t k ∧ Shows c ms t k n := by
  constructor
  · rintro (⟨h, hm, he⟩ | ⟨h, hm, he, hn⟩)
    · exact ⟨_, _, h, _, hm, .inl he⟩
    · exact ⟨_, _, h, _, hm, .inr ⟨_, he, hn⟩⟩
  · rintro ⟨t, k, h, m, hm, he | ⟨w, he, hn⟩⟩
    · exact .effect h hm he
    · exact .nested h hm he hn

theorem capture_succ (c : Cfg) (ms : Methods) (fuel d : Nat) (v : Val) : capture c ms (fuel + 1) d v =
    if c.depth ≤ d then some []
    else match v with
      | .other => some []
      | .struct fields => each (capture c ms fuel (d + 1)) fields
      | .map type entries => each (fun e => (sprint c ms fuel type e.1).bind fun x => (capture c ms fuel (d + 1) e.2).map (x ++ ·)) (entries.take c.len) := by
  cases v <;> rw [capture]

theorem exact_aux (c : Cfg) (ms : Methods) : ∀ fuel : Nat, (∀ d v xs, capture c ms fuel d v = some xs → ∀ n, n ∈ xs ↔ Notices c ms d v n) ∧
    (∀ t k xs, sprint c ms fuel t k = some xs → ∀ n, n ∈ xs ↔ Shows c ms t k n)
  | 0 => ⟨fun _ _ _ h => (by rw [capture] at h; cases h), fun _ _ _ h => (by rw [sprint] at h; cases h)⟩
  | fuel + 1 => by
    obtain ⟨ih1, ih2⟩ := exact_aux c ms fuel
    refine ⟨fun d v xs h n => ?_, fun t k xs h n => ?_⟩
    · rw [capture_succ] at h
      split at h
      · next hd =>
        cases h
        refine ⟨fun h => (by cases h), fun h => ?_⟩
        obtain ⟨t, k, h, -⟩ := notices_iff.mp h
        cases h <;> omega
      · next hd =>
        have hd : d < c.depth := by omega
        split at h
        · cases h
          refine ⟨fun h => (by cases h), fun h => ?_⟩
          obtain ⟨t, k, h, -⟩ := notices_iff.mp h
          cases h
        · next fields =>
          obtain ⟨h1, h2⟩ := each_some h
          rw [h2]
          constructor
          · rintro ⟨a, ha, y, hy, hn⟩
            obtain ⟨t, k, h', hs⟩ := notices_iff.mp ((ih1 _ _ _ hy n).mp hn)
            exact notices_iff.mpr ⟨t, k, .field hd ha h', hs⟩
          · intro hn
            obtain ⟨t, k, h', hs⟩ := notices_iff.mp hn
            cases h' with
            | field hd ha hv =>
              obtain ⟨y, hy⟩ := h1 _ ha
              exact ⟨_, ha, y, hy, (ih1 _ _ _ hy n).mpr (notices_iff.mpr ⟨t, k, hv, hs⟩)⟩
        · next type entries =>
          obtain ⟨h1, h2⟩ := each_some h
          have parts : ∀ e : Nat × Val, ∀ y, ((sprint c ms fuel type e.1).bind fun x => (capture c ms fuel (d + 1) e.2).map (x ++ ·)) = some y →
              (n ∈ y ↔ Shows c ms type e.1 n ∨ Notices c ms (d + 1) e.2 n) := fun e y hy => by
            cases hs : sprint c ms fuel type e.1 with
            | none => rw [hs] at hy; cases hy
            | some x =>
              rw [hs] at hy
              cases hc : capture c ms fuel (d + 1) e.2 with
              | none => rw [hc] at hy; cases hy
              | some z =>
                rw [hc] at hy
                cases hy
                rw [List.mem_append, ih2 _ _ _ hs, ih1 _ _ _ hc]
          rw [h2]
          constructor
          · rintro ⟨⟨k, v⟩, ha, y, hy, hn⟩
            rcases (parts _ _ hy).mp hn with hs | hn
            · exact notices_iff.mpr ⟨type, k, .key hd ha, hs⟩
            · obtain ⟨t, k', h', hs⟩ := notices_iff.mp hn
              exact notices_iff.mpr ⟨t, k', .value hd ha h', hs⟩
          · intro hn
            obtain ⟨t, k, h', hs⟩ := notices_iff.mp hn
            cases h' with
            | key hd ha =>
              obtain ⟨y, hy⟩ := h1 _ ha
              exact ⟨_, ha, y, hy, (parts _ _ hy).mpr (.inl hs)⟩
            | value hd ha hv =>
              obtain ⟨y, hy⟩ := h1 _ ha
              exact ⟨_, ha, y, hy, (parts _ _ hy).mpr (.inr (notices_iff.mpr ⟨t, k, hv, hs⟩))⟩
    · rw [sprint] at h
      split at h
      · next hm =>
        cases h
        exact ⟨fun h => (by cases h), fun ⟨m, h, _⟩ => (by rw [hm] at h; cases h)⟩
      · next m hm =>
        obtain ⟨h1, h2⟩ := each_some h
        rw [h2]
        constructor
        · rintro ⟨a, ha, y, hy, hn⟩
          cases a with
          | effect i => cases hy; cases List.mem_singleton.mp hn; exact ⟨m, hm, .inl ha⟩
          | report w => exact ⟨m, hm, .inr ⟨w, ha, (ih1 _ _ _ hy n).mp hn⟩⟩
        · rintro ⟨m', hm', he | ⟨w, he, hn⟩⟩
          · rw [hm] at hm'; cases hm'
            exact ⟨_, he, [n], rfl, .head _⟩
          · rw [hm] at hm'; cases hm'
            obtain ⟨y, hy⟩ := h1 _ he
            exact ⟨_, he, y, hy, (ih1 _ _ _ hy n).mpr hn⟩

/-- C160 (exact): what the program notices of a report that ends is just what the methods of the reported keys do, with all reports these make in turn. -/
theorem C160_exact (c : Cfg) (ms : Methods) (fuel : Nat) (v : Val) (xs : List Nat) (h : report c ms fuel v = some xs) (n : Nat) : n ∈ xs ↔ Notices c ms 0 v n :=
  (exact_aux c ms fuel).1 0 v xs h n

theorem capture_ends {c : Cfg} {ms : Methods} : ∀ j d v, c.depth - d ≤ j → (∀ t k, Has c d v t k → ∃ N, ∀ n, N ≤ n → (sprint c ms n t k).isSome) →
    ∃ N, ∀ n, N ≤ n → (capture c ms n d v).isSome := by
  intro j
  induction j with
  | zero =>
    intro d v hj h
    refine ⟨1, fun n hn => ?_⟩
    obtain ⟨n, rfl⟩ : ∃ m, n = m + 1 := ⟨n - 1, by omega⟩
    rw [capture_succ, if_pos (by omega)]
    rfl
  | succ j ihj =>
    intro d v hj h
    by_cases hd : c.depth ≤ d
    · refine ⟨1, fun n hn => ?_⟩
      obtain ⟨n, rfl⟩ : ∃ m, n = m + 1 := ⟨n - 1, by omega⟩
      rw [capture_succ, if_pos hd]
      rfl
    · have hd' : d < c.depth := by omega
      cases v with
      | other =>
        refine ⟨1, fun n hn => ?_⟩
        obtain ⟨n, rfl⟩ : ∃ m, n = m + 1 := ⟨n - 1, by omega⟩
        rw [capture_succ, if_neg hd]
        rfl
      | struct fields =>
        obtain ⟨N, hN⟩ := each_ends (f := fun n => capture c ms n (d + 1)) (l := fields) fun a ha => ihj (d + 1) a (by omega) fun t k hh => h t k (.field hd' ha hh)
        refine ⟨N + 1, fun n hn => ?_⟩
        obtain ⟨n, rfl⟩ : ∃ m, n = m + 1 := ⟨n - 1, by omega⟩
        rw [capture_succ, if_neg hd]
        exact hN n (by omega)
      | map type entries =>
        obtain ⟨N, hN⟩ := each_ends (f := fun n (e : Nat × Val) => (sprint c ms n type e.1).bind fun x => (capture c ms n (d + 1) e.2).map (x ++ ·)) (l := entries.take c.len) fun e he => by
          obtain ⟨N1, h1⟩ := ihj (d + 1) e.2 (by omega) fun t k hh => h t k (.value hd' he hh)
          obtain ⟨N2, h2⟩ := h type e.1 (.key hd' he)
          refine ⟨max N1 N2, fun n hn => ?_⟩
          obtain ⟨x, hx⟩ := Option.isSome_iff_exists.mp (h2 n (by omega))
          obtain ⟨y, hy⟩ := Option.isSome_iff_exists.mp (h1 n (by omega))
          rw [hx]
          simp [hy]
        refine ⟨N + 1, fun n hn => ?_⟩
        obtain ⟨n, rfl⟩ : ∃ m, n = m + 1 := ⟨n - 1, by omega⟩
        rw [capture_succ, if_neg hd]
        exact hN n (by omega)

theorem sprint_none {c : Cfg} {ms : Methods} {t : Nat} (k : Nat) (h : ms t = none) : ∃ N, ∀ n, N ≤ n → (sprint c ms n t k).isSome := by
  refine ⟨1, fun n hn => ?_⟩
  obtain ⟨n, rfl⟩ : ∃ m, n = m + 1 := ⟨n - 1, by omega⟩
  rw [sprint, h]
  rfl

theorem sprint_ends {c : Cfg} {ms : Methods} {rank : Nat → Nat} (hr : ∀ t m k w, ms t = some m → .report w ∈ m k → ∀ t' k', Has c 0 w t' k' → ms t' ≠ none → rank t' < rank t) :
    ∀ R t k, rank t < R → ∃ N, ∀ n, N ≤ n → (sprint c ms n t k).isSome
  | 0, _, _, h => by omega
  | R + 1, t, k, h => by
    cases hm : ms t with
    | none => exact sprint_none k hm
    | some m =>
      obtain ⟨N, hN⟩ := each_ends (f := fun n (a : Act) => match a with
          | .effect i => some [i]
          | .report v => capture c ms n 0 v) (l := m k) fun a ha => by
        cases a with
        | effect i => exact ⟨0, fun _ _ => rfl⟩
        | report w =>
          refine capture_ends (c.depth - 0) 0 w (Nat.le_refl _) fun t' k' hh => ?_
          by_cases hn : ms t' = none
          · exact sprint_none k' hn
          · exact sprint_ends hr R t' k' (by have := hr t m k w hm ha t' k' hh hn; omega)
      refine ⟨N + 1, fun n hn => ?_⟩
      obtain ⟨n, rfl⟩ : ∃ m, n = m + 1 := ⟨n - 1, by omega⟩
      rw [sprint, hm]
      exact hN n (by omega)

/-- C160 (ends): every report ends if the methods of keys do not come back to themselves by the keys of what they report. Missing: methods that do, see `C160_endless_violated`. -/
theorem C160_ends_partial {c : Cfg} {ms : Methods} (h : Ranked c ms) (v : Val) : ∃ fuel xs, report c ms fuel v = some xs := by
  obtain ⟨rank, hr⟩ := h
  obtain ⟨N, hN⟩ := capture_ends (c := c) (ms := ms) (c.depth - 0) 0 v (Nat.le_refl _) fun t k _ => sprint_ends hr (rank t + 1) t k (by omega)
  exact ⟨N, Option.isSome_iff_exists.mp (hN N (Nat.le_refl _))⟩

/-- C160 (quiet): a report ends and the program notices nothing of it if no type of the reported keys has a method for printing. Missing: types with such methods. -/
theorem C160_quiet_partial {c : Cfg} {ms : Methods} {v : Val} (h : ∀ t k, Has c 0 v t k → ms t = none) : ∃ fuel, report c ms fuel v = some [] := by
  obtain ⟨N, hN⟩ := capture_ends (c := c) (ms := ms) (c.depth - 0) 0 v (Nat.le_refl _) fun t k hh => sprint_none k (h t k hh)
  obtain ⟨xs, hx⟩ := Option.isSome_iff_exists.mp (hN N (Nat.le_refl _))
  refine ⟨N, ?_⟩
  have : xs = [] := List.eq_nil_iff_forall_not_mem.mpr fun n hn => by
    obtain ⟨t, k, hh, m, hm, -⟩ := notices_iff.mp ((C160_exact c ms N v xs hx n).mp hn)
    rw [h t k hh] at hm
    cases hm
  rw [← this]
  exact hx

theorem endless {c : Cfg} {ms : Methods} {K : Nat} {m : Nat → List Act} (hm : ms K = some m) (h : ∀ k, ∃ w k', .report w ∈ m k ∧ Has c 0 w K k') :
    ∀ fuel, (∀ d v k, Has c d v K k → capture c ms fuel d v = none) ∧ ∀ k, sprint c ms fuel K k = none
  | 0 => ⟨fun _ _ _ _ => (by rw [capture]), fun _ => (by rw [sprint])⟩
  | fuel + 1 => by
    obtain ⟨ih1, ih2⟩ := endless hm h fuel
    refine ⟨fun d v k hh => ?_, fun k => ?_⟩
    · rw [capture_succ]
      cases hh with
      | key hd he =>
        rw [if_neg (by omega)]
        exact each_none he (by rw [ih2]; rfl)
      | value hd he hv =>
        rw [if_neg (by omega)]
        exact each_none he (by rw [ih1 _ _ _ hv]; cases sprint c ms fuel _ _ <;> rfl)
      | field hd he hv =>
        rw [if_neg (by omega)]
        exact each_none he (ih1 _ _ _ hv)
    · rw [sprint, hm]
      obtain ⟨w, k', h1, h2⟩ := h k
      exact each_none h1 (ih1 _ _ _ h2)

/-- `type Color int; func (c Color) String() string { names := map[Color]string{0: "red", 1: "green"}; return names[c] }`, instrumented: the report before its return has `names`. -/
def colors : Methods := fun t => if t = 7 then some fun _ => [.report (.struct [.map 7 [(0, .other), (1, .other)]])] else none

/-- Counting how often it is printed. -/
def counted : Methods := fun t => if t = 7 then some fun k => [.effect k] else none

def cfg : Cfg := ⟨8, 100⟩

example : Ranked cfg counted ∧ report cfg counted 9 (.struct [.other, .map 7 [(3, .other), (4, .map 7 [(5, .other)])]]) = some [3, 4, 5] := by
  refine ⟨⟨fun _ => 0, fun t m k w hm hw => ?_⟩, rfl⟩
  unfold counted at hm
  split at hm
  · cases hm
    simp at hw
  · cases hm

example : ∀ t k, Has cfg 0 (.map 5 [(1, .other)]) t k → counted t = none := by
  intro t k h
  cases h with
  | key => rfl
  | value hd he hv =>
    have : (_, _) ∈ [(1, Val.other)] := he
    cases List.mem_singleton.mp this
    cases hv

/-- The program notices reports of maps whose keys have a method that does something. -/
theorem C160_effects_violated : ∃ ms v, Ranked cfg ms ∧ ∃ n, Notices cfg ms 0 v n := by
  refine ⟨counted, .map 7 [(3, .other)], ⟨fun _ => 0, fun t m k w hm hw => ?_⟩, 3, .effect (t := 7) (k := 3) (m := fun k => [.effect k]) (.key (v := .other) (by decide) (by simp [cfg])) rfl (.head _)⟩
  unfold counted at hm
  split at hm
  · cases hm
    simp at hw
  · cases hm

/-- A report of a map whose keys print themselves by a table never ends if that method is instrumented: its report has the table, whose keys are printed by the method. -/
theorem C160_endless_violated : ∀ fuel, report cfg colors fuel (.map 7 [(0, .other)]) = none := fun fuel =>
  (endless (c := cfg) (ms := colors) (K := 7) rfl (fun k => ⟨_, 0, .head _, .field (by decide) (.head _) (.key (v := .other) (by decide) (by simp [cfg]))⟩) fuel).1 0 _ 0
    (.key (v := .other) (by decide) (by simp [cfg]))

/-- The same for a panic with such a value. -/
theorem C160_panic_violated : ∀ fuel k, reportPanic cfg colors fuel 7 k = none := fun fuel k =>
  (endless (c := cfg) (ms := colors) (K := 7) rfl (fun k => ⟨_, 0, .head _, .field (by decide) (.head _) (.key (v := .other) (by decide) (by simp [cfg]))⟩) fuel).2 k

end Verif.Keys
