import Verif.Util.Spec
import Mathlib.Data.List.Basic

namespace Verif.Util

/-! ### limiter -/

theorem countP_set {α : Type} (p : α → Bool) : ∀ (l : List α) (i : Nat) (a b : α), l[i]? = some a →
    (l.set i b).countP p + (if p a then 1 else 0) = l.countP p + (if p b then 1 else 0)
  | [], i, a, b, h => by simp at h
  | x :: l, 0, a, b, h => by
      simp only [List.getElem?_cons_zero, Option.some.injEq] at h
      subst h
      simp only [List.set_cons_zero, List.countP_cons]
      omega
  | x :: l, i + 1, a, b, h => by
      simp only [List.getElem?_cons_succ] at h
      have := countP_set p l i a b h
      simp only [List.set_cons_succ, List.countP_cons]
      omega

/-- Work left for one goroutine. -/
def gwork : GPhase → Nat
  | .idle r => 2 * r
  | .holding r => 2 * r + 1

def work (gs : List GPhase) : Nat := (gs.map gwork).sum

theorem work_set : ∀ (l : List GPhase) (i : Nat) (a b : GPhase), l[i]? = some a →
    work (l.set i b) + gwork a = work l + gwork b
  | [], i, a, b, h => by simp at h
  | x :: l, 0, a, b, h => by
      simp only [List.getElem?_cons_zero, Option.some.injEq] at h
      subst h
      simp only [work, List.set_cons_zero, List.map_cons, List.sum_cons]
      omega
  | x :: l, i + 1, a, b, h => by
      simp only [List.getElem?_cons_succ] at h
      have := work_set l i a b h
      simp only [work, List.set_cons_succ, List.map_cons, List.sum_cons] at this ⊢
      omega

/-- Tokens are never lost or created. -/
theorem tokens_inv {limit : Nat} {c : Bool} {rounds : List Nat} {s : LState}
    (h : LReach limit c (linit limit rounds) s) : s.tokens + holders s + s.joined = limit := by
  induction h with
  | refl =>
      have : (rounds.map GPhase.idle).countP isHolding = 0 := by
        rw [List.countP_eq_zero]; intro g hg
        obtain ⟨r, _, rfl⟩ := List.mem_map.mp hg
        simp [isHolding]
      simp [linit, holders, this]
  | step _ st ih =>
      cases st with
      | take i r hi ht =>
          have := countP_set isHolding _ i _ (.holding r) hi
          simp only [holders, isHolding] at *
          simp at this
          omega
      | release i r hi ht =>
          have := countP_set isHolding _ i _ (.idle r) hi
          simp only [holders, isHolding] at *
          simp at this
          omega
      | join hj ht _ => simp only [holders] at *; omega

theorem step_gs_remaining {limit : Nat} {s s' : LState} (h : LStep limit true s s')
    (hr : ∀ g ∈ s.gs, remaining g = 0) : ∀ g ∈ s'.gs, remaining g = 0 := by
  cases h with
  | take i r hi ht =>
      have := hr _ (List.mem_of_getElem? hi)
      simp [remaining] at this
  | release i r hi ht =>
      intro g hg
      have hm := List.mem_or_eq_of_mem_set hg
      rcases hm with hm | rfl
      · exact hr g hm
      · have := hr _ (List.mem_of_getElem? hi)
        simpa [remaining] using this
  | join hj ht hc => exact hr

theorem joined_inv {limit : Nat} {rounds : List Nat} {s : LState}
    (h : LReach limit true (linit limit rounds) s) : 0 < s.joined → ∀ g ∈ s.gs, remaining g = 0 := by
  induction h with
  | refl => simp [linit]
  | step _ st ih =>
      intro hj
      cases st with
      | take i r hi ht =>
          exact step_gs_remaining (limit := limit) (LStep.take _ i r hi ht) (ih hj)
      | release i r hi ht =>
          exact step_gs_remaining (limit := limit) (LStep.release _ i r hi ht) (ih hj)
      | join _ _ hc => exact hc rfl

/-! ### striped lock -/

/-- A locked mutex has exactly one holder, and every holder's mutex is locked. -/
structure MInv {K : Type} (hash : K → Nat) (n : Nat) (s : MState K) : Prop where
  len : s.locks.length = n
  stripe : ∀ (i : Nat) k j, s.gs[i]? = some (MPhase.holds k j) → j = stripeOf hash n k
  locked : ∀ (i : Nat) k j, s.gs[i]? = some (MPhase.holds k j) → s.locks[j]? = some true
  one : ∀ (i i' : Nat) k k' j, s.gs[i]? = some (MPhase.holds k j) → s.gs[i']? = some (MPhase.holds k' j) → i = i'

theorem minv {K : Type} (hash : K → Nat) (n g : Nat) {s : MState K}
    (h : MReach hash (minit K n g) s) : MInv hash n s := by
  induction h with
  | refl =>
      have hf : ∀ (i : Nat) k j, (minit K n g).gs[i]? ≠ some (MPhase.holds k j) := by
        intro i k j hc
        have := List.mem_of_getElem? hc
        simp [minit] at this
      exact ⟨by simp [minit], fun i k j hc => absurd hc (hf i k j), fun i k j hc => absurd hc (hf i k j),
        fun i _ k _ j hc _ => absurd hc (hf i k j)⟩
  | step _ st ih =>
      cases st with
      | lock i k hi hl =>
          rename_i s _
          have hlen := ih.len
          rw [hlen] at hl ⊢
          have hget : ∀ (a : Nat) (p : MPhase K), (s.gs.set i p)[a]? = if i = a ∧ i < s.gs.length then some p else s.gs[a]? := by
            intro a p; rw [List.getElem?_set]; split <;> rename_i h1
            · subst h1; by_cases h2 : i < s.gs.length <;> simp [h2]
            · simp [h1]
          have hlt : i < s.gs.length := (List.getElem?_eq_some_iff.mp hi).1
          have hjl : stripeOf hash n k < s.locks.length := (List.getElem?_eq_some_iff.mp hl).1
          refine ⟨by simpa using hlen, ?_, ?_, ?_⟩
          · intro a k' j ha
            simp only [hget] at ha
            split at ha
            · cases ha; rfl
            · exact ih.stripe a k' j ha
          · intro a k' j ha
            simp only [hget] at ha
            rw [List.getElem?_set]
            split at ha
            · cases ha; simp [hjl]
            · have := ih.locked a k' j ha
              split
              · rename_i h2; subst h2; rw [hl] at this
              · exact this
          · intro a a' k1 k2 j ha ha'
            simp only [hget] at ha ha'
            split at ha <;> split at ha'
            · omega
            · cases ha
              have := ih.locked a' k2 _ ha'
              rw [hl] at this; simp at this
            · cases ha'
              have := ih.locked a k1 _ ha
              rw [hl] at this; simp at this
            · exact ih.one a a' k1 k2 j ha ha'
      | unlock i k j hi =>
          rename_i s _
          have hlt : i < s.gs.length := (List.getElem?_eq_some_iff.mp hi).1
          have hget : ∀ (a : Nat) k' j', (s.gs.set i .free)[a]? = some (.holds k' j') → i ≠ a ∧ s.gs[a]? = some (.holds k' j') := by
            intro a k' j' h
            rw [List.getElem?_set] at h
            split at h
            · simp at h
            · rename_i h1; exact ⟨h1, h⟩
          refine ⟨by simpa using ih.len, ?_, ?_, ?_⟩
          · intro a k' j' ha; exact ih.stripe a k' j' (hget a k' j' ha).2
          · intro a k' j' ha
            obtain ⟨hne, ha⟩ := hget a k' j' ha
            rw [List.getElem?_set]
            split
            · rename_i h1; subst h1; exact absurd (ih.one i a k k' _ hi ha) hne
            · exact ih.locked a k' j' ha
          · intro a a' k1 k2 j' ha ha'
            exact ih.one a a' k1 k2 j' (hget a _ _ ha).2 (hget a' _ _ ha').2

/-! ### tee -/

/-- The caller's writers inside a writer, in order. -/
def leaves : Writer → List (Nat × Bool)
  | .leaf i c => [(i, c)]
  | .discard => []
  | .tee a b => leaves a ++ leaves b

theorem calls_eq (resp : Nat → Nat × List Nat) (p : Bytes) : ∀ w, (writeTo resp p w).calls = (leaves w).map (fun x => (x.1, p))
  | .leaf i c => rfl
  | .discard => rfl
  | .tee a b => by
      have ha := calls_eq resp p a
      have hb := calls_eq resp p b
      by_cases hc : (writeTo resp p a).errs = [] ∧ (writeTo resp p b).errs = [] ∧ (writeTo resp p a).n ≠ (writeTo resp p b).n
      · simp only [writeTo, if_pos hc, leaves, ha, hb, List.map_append]
      · simp only [writeTo, if_neg hc, leaves, ha, hb, List.map_append]

theorem closeAll_eq : ∀ w, closeAll w = ((leaves w).filter (·.2)).map (·.1)
  | .leaf i c => by cases c <;> rfl
  | .discard => rfl
  | .tee a b => by simp only [closeAll, leaves, closeAll_eq a, closeAll_eq b, List.filter_append, List.map_append]

theorem errs_mem (resp : Nat → Nat × List Nat) (p : Bytes) : ∀ w, ∀ x ∈ leaves w, ∀ e ∈ (resp x.1).2, e ∈ (writeTo resp p w).errs
  | .leaf i c => by
      intro x hx e he
      simp only [leaves, List.mem_singleton] at hx
      subst hx; exact he
  | .discard => by simp [leaves]
  | .tee a b => by
      intro x hx e he
      have hor : e ∈ (writeTo resp p a).errs ∨ e ∈ (writeTo resp p b).errs := by
        rcases List.mem_append.mp hx with hx | hx
        · exact Or.inl (errs_mem resp p a x hx e he)
        · exact Or.inr (errs_mem resp p b x hx e he)
      by_cases hc : (writeTo resp p a).errs = [] ∧ (writeTo resp p b).errs = [] ∧ (writeTo resp p a).n ≠ (writeTo resp p b).n
      · rw [hc.1, hc.2.1] at hor; simp at hor
      · simp only [writeTo, if_neg hc, List.mem_append]; exact hor

theorem write_ok (resp : Nat → Nat × List Nat) (p : Bytes) : ∀ w, (∀ x ∈ leaves w, resp x.1 = (p.length, [])) →
    (writeTo resp p w).errs = [] ∧ (writeTo resp p w).n = p.length
  | .leaf i c, h => by
      have := h (i, c) (by simp [leaves])
      simp only at this
      simp [writeTo, this]
  | .discard, _ => by simp [writeTo]
  | .tee a b, h => by
      have ha := write_ok resp p a (fun x hx => h x (List.mem_append_left _ hx))
      have hb := write_ok resp p b (fun x hx => h x (List.mem_append_right _ hx))
      simp [writeTo, ha, hb]

theorem write_even (resp : Nat → Nat × List Nat) (p : Bytes) : ∀ w, (writeTo resp p w).errs = [] →
    ∀ x ∈ leaves w, resp x.1 = ((writeTo resp p w).n, [])
  | .leaf i c, h => by
      intro x hx
      simp only [leaves, List.mem_singleton] at hx
      subst hx
      simp only [writeTo] at h ⊢
      exact Prod.ext rfl h
  | .discard, _ => by simp [leaves]
  | .tee a b, h => by
      by_cases hc : (writeTo resp p a).errs = [] ∧ (writeTo resp p b).errs = [] ∧ (writeTo resp p a).n ≠ (writeTo resp p b).n
      · simp only [writeTo, if_pos hc] at h; simp at h
      · simp only [writeTo, if_neg hc, List.append_eq_nil_iff] at h ⊢
        have heq : (writeTo resp p a).n = (writeTo resp p b).n := by
          by_contra hne; exact hc ⟨h.1, h.2, hne⟩
        intro x hx
        rcases List.mem_append.mp hx with hx | hx
        · exact write_even resp p a h.1 x hx
        · rw [heq]; exact write_even resp p b h.2 x hx

theorem leaves_teeFold (ws : List (Option (Nat × Bool))) : ∀ (last : Option Writer),
    (teeFold last (ws.map (Option.map fun w => .leaf w.1 w.2)) = none ↔ last = none ∧ given ws = []) ∧
    ∀ w, teeFold last (ws.map (Option.map fun w => .leaf w.1 w.2)) = some w →
      leaves w = (last.map leaves).getD [] ++ given ws := by
  induction ws with
  | nil =>
      intro last
      refine ⟨by simp [teeFold, given], ?_⟩
      intro w h
      simp only [List.map_nil, teeFold] at h
      subst h; simp [given]
  | cons a ws ih =>
      intro last
      cases a with
      | none =>
          have hg : given (none :: ws) = given ws := rfl
          rw [hg]
          cases last <;> exact ih _
      | some a =>
          have hg : given (some a :: ws) = a :: given ws := rfl
          rw [hg]
          cases last with
          | none =>
              obtain ⟨h1, h2⟩ := ih (some (.leaf a.1 a.2))
              refine ⟨by simpa [teeFold] using h1, ?_⟩
              intro w h
              rw [h2 w h]; simp [leaves]
          | some l =>
              obtain ⟨h1, h2⟩ := ih (some (.tee l (.leaf a.1 a.2)))
              refine ⟨by simpa [teeFold] using h1, ?_⟩
              intro w h
              rw [h2 w h]; simp [leaves]

theorem leaves_teeOf (ws : List (Option (Nat × Bool))) (hne : given ws ≠ []) :
    ∃ w, teeOf ws = some w ∧ leaves w = given ws := by
  obtain ⟨h1, h2⟩ := leaves_teeFold ws none
  unfold teeOf teeWriter
  cases h : teeFold none (ws.map (Option.map fun w => .leaf w.1 w.2)) with
  | none => exact absurd (h1.mp h).2 hne
  | some w =>
      have := h2 w h
      simp only [Option.map_none, Option.getD_none, List.nil_append] at this
      simp only
      split
      · exact ⟨w, rfl, this⟩
      · exact ⟨_, rfl, by simp [leaves, this]⟩

/-! ### lines -/

theorem splitLines_ne : ∀ s, splitLines s ≠ []
  | [] => by simp [splitLines]
  | b :: s => by
      unfold splitLines
      split
      · simp
      · split <;> simp

theorem splitLines_length : ∀ s, (splitLines s).length = newlines s + 1
  | [] => by simp [splitLines, newlines]
  | b :: s => by
      have ih := splitLines_length s
      unfold splitLines
      split
      · rename_i h; subst h; simp [newlines] at *; omega
      · rename_i h
        have hc : newlines (b :: s) = newlines s := by simp [newlines, h]
        split
        · rename_i h2; exact absurd h2 (splitLines_ne s)
        · rename_i l ls h2; rw [hc]; rw [h2] at ih; simpa using ih

theorem joinLines_cons {l : Bytes} {ls : List Bytes} (h : ls ≠ []) : joinLines (l :: ls) = l ++ 10 :: joinLines ls := by
  cases ls with
  | nil => exact absurd rfl h
  | cons a as => rfl

theorem joinLines_append : ∀ {xs ys : List Bytes}, xs ≠ [] → ys ≠ [] →
    joinLines (xs ++ ys) = joinLines xs ++ 10 :: joinLines ys
  | [], _, h, _ => absurd rfl h
  | [x], ys, _, hy => by
      rw [show [x] ++ ys = x :: ys from rfl, joinLines_cons hy]; rfl
  | x :: y :: xs, ys, _, hy => by
      have := @joinLines_append (y :: xs) ys (by simp) hy
      rw [show (x :: y :: xs) ++ ys = x :: ((y :: xs) ++ ys) from rfl, joinLines_cons (l := x) (by simp), this,
        joinLines_cons (l := x) (ls := y :: xs) (by simp)]
      simp

theorem join_split : ∀ s, joinLines (splitLines s) = s
  | [] => rfl
  | b :: s => by
      have ih := join_split s
      unfold splitLines
      split
      · rename_i h; subst h
        rw [joinLines_cons (splitLines_ne s), ih]; rfl
      · split
        · rename_i h2; exact absurd h2 (splitLines_ne s)
        · rename_i l ls h2
          rw [h2] at ih
          cases ls with
          | nil => simp only [joinLines] at *; rw [ih]
          | cons a as => simp only [joinLines] at *; rw [← ih]; simp

theorem splitLines_no_nl : ∀ s, ∀ l ∈ splitLines s, (10 : UInt8) ∉ l
  | [] => by simp [splitLines]
  | b :: s => by
      have ih := splitLines_no_nl s
      unfold splitLines
      split
      · intro l hl
        rcases List.mem_cons.mp hl with rfl | hl
        · simp
        · exact ih l hl
      · rename_i h
        split
        · simpa using Ne.symm h
        · rename_i l ls h2
          rw [h2] at ih
          intro l' hl
          rcases List.mem_cons.mp hl with rfl | hl
          · have := ih l (by simp)
            simp only [List.mem_cons, not_or]
            exact ⟨Ne.symm h, this⟩
          · exact ih l' (List.mem_cons_of_mem _ hl)

theorem newlines_join : ∀ {ls : List Bytes}, ls ≠ [] → (∀ l ∈ ls, (10 : UInt8) ∉ l) → newlines (joinLines ls) + 1 = ls.length
  | [], h, _ => absurd rfl h
  | [l], _, h => by
      have := h l (by simp)
      simp [joinLines, newlines, List.count_eq_zero.mpr this]
  | l :: a :: as, _, h => by
      have ih := @newlines_join (a :: as) (by simp) (fun x hx => h x (List.mem_cons_of_mem _ hx))
      have hl : newlines l = 0 := List.count_eq_zero.mpr (h l (by simp))
      rw [joinLines_cons (by simp)]
      simp only [newlines, List.count_append, List.count_cons_self, List.length_cons] at *
      omega

/-! ### environment -/

theorem envKey_ld {e : Bytes} : ldPrefix <+: e ↔ ldPrefix <+: envKey e := by
  constructor
  · rintro ⟨t, rfl⟩
    exact ⟨envKey t, by simp [ldPrefix, envKey]⟩
  · intro h
    exact h.trans (List.takeWhile_prefix _)

theorem find_rev_append {α : Type} (p : α → Bool) (a b : List α) :
    (a ++ b).reverse.find? p = (b.reverse.find? p).or (a.reverse.find? p) := by
  rw [List.reverse_append, List.find?_append]

theorem find_filter_eq {α : Type} (p q : α → Bool) (l : List α) (h : ∀ x ∈ l, p x = true → q x = true) :
    (l.filter q).find? p = l.find? p := by
  induction l with
  | nil => rfl
  | cons x l ih =>
      have ih := ih (fun y hy => h y (List.mem_cons_of_mem _ hy))
      by_cases hq : q x = true
      · rw [List.filter_cons_of_pos hq, List.find?_cons, List.find?_cons, ih]
      · rw [List.filter_cons_of_neg hq, List.find?_cons, ih]
        have : p x = false := by
          cases hp : p x with
          | false => rfl
          | true => exact absurd (h x (by simp) hp) hq
        rw [this]

/-! ### paths -/

theorem splitPath_no_slash : ∀ s, ∀ l ∈ splitPath s, (47 : UInt8) ∉ l
  | [] => by simp [splitPath]
  | b :: s => by
      have ih := splitPath_no_slash s
      unfold splitPath
      split
      · intro l hl
        rcases List.mem_cons.mp hl with rfl | hl
        · simp
        · exact ih l hl
      · rename_i h
        split
        · simpa using Ne.symm h
        · rename_i l ls h2
          rw [h2] at ih
          intro l' hl
          rcases List.mem_cons.mp hl with rfl | hl
          · have := ih l (by simp)
            simp only [List.mem_cons, not_or]
            exact ⟨Ne.symm h, this⟩
          · exact ih l' (List.mem_cons_of_mem _ hl)

theorem cleanRev_names : ∀ (cs acc : List Bytes), (∀ c ∈ acc, Name c) → (∀ c ∈ cs, (47 : UInt8) ∉ c) →
    ∀ c ∈ cleanRev acc cs, Name c
  | [], acc, ha, _ => by simpa [cleanRev] using ha
  | c :: cs, acc, ha, hs => by
      have hs' : ∀ c ∈ cs, (47 : UInt8) ∉ c := fun x hx => hs x (List.mem_cons_of_mem _ hx)
      unfold cleanRev
      split
      · exact cleanRev_names cs acc ha hs'
      · rename_i h1
        split
        · exact cleanRev_names cs acc.tail (fun x hx => ha x (List.mem_of_mem_tail hx)) hs'
        · rename_i h2
          refine cleanRev_names cs _ ?_ hs'
          intro x hx
          rcases List.mem_cons.mp hx with rfl | hx
          · simp only [not_or] at h1
            exact ⟨h1.1, h1.2, h2, hs x (by simp)⟩
          · exact ha x hx

theorem absClean_names {cwd : List Bytes} (hc : ∀ c ∈ cwd, Name c) (p : Bytes) : ∀ c ∈ absClean cwd p, Name c := by
  intro c h
  unfold absClean clean at h
  split at h
  · exact cleanRev_names _ [] (by simp) (splitPath_no_slash _) c (List.mem_reverse.mp h)
  · refine cleanRev_names _ [] (by simp) ?_ c (List.mem_reverse.mp h)
    intro x hx
    rcases List.mem_append.mp hx with hx | hx
    · exact (hc x hx).2.2.2
    · exact splitPath_no_slash _ x hx

theorem joinPath_cons {c : Bytes} {cs : List Bytes} (h : cs ≠ []) : joinPath (c :: cs) = c ++ 47 :: joinPath cs := by
  cases cs with
  | nil => exact absurd rfl h
  | cons a as => rfl

theorem joinPath_prefix (c : Bytes) (cs : List Bytes) : c <+: joinPath (c :: cs) := by
  cases cs with
  | nil => exact List.prefix_refl _
  | cons a as => rw [joinPath_cons (by simp)]; exact List.prefix_append _ _

/-- The result of `Rel` starts with ".." exactly if it goes up or the first name below starts with "..". -/
theorem rel_below : ∀ (d rest : List Bytes), relComps d (d ++ rest) = rest
  | [], rest => by cases rest <;> simp [relComps]
  | c :: d, rest => by simp [relComps, rel_below d rest]

theorem rel_outside : ∀ (d f : List Bytes), ¬ d <+: f → ∃ cs, relComps d f = [46, 46] :: cs
  | [], f, h => absurd (List.nil_prefix) h
  | c :: d, [], _ => ⟨List.replicate d.length [46, 46], by simp [relComps, List.replicate_succ]⟩
  | c :: d, x :: f, h => by
      unfold relComps
      split
      · rename_i he; subst he
        exact rel_outside d f (fun h2 => h (by simpa using h2))
      · exact ⟨List.replicate d.length [46, 46] ++ x :: f, by simp only [List.replicate_succ, List.cons_append]⟩

theorem dotdot_prefix_join {c : Bytes} {cs : List Bytes} (hn : Name c) :
    [46, 46] <+: joinPath (c :: cs) ↔ [46, 46] <+: c := by
  constructor
  · intro h
    cases cs with
    | nil => exact h
    | cons a as =>
        rw [joinPath_cons (by simp)] at h
        match c, hn with
        | [], hn => exact absurd rfl hn.1
        | [x], hn =>
            obtain ⟨t, ht⟩ := h
            simp at ht
        | x :: y :: c, hn =>
            obtain ⟨t, ht⟩ := h
            simp at ht
            exact ⟨c, by simp [← ht.1, ← ht.2.1]⟩
  · intro h; exact h.trans (joinPath_prefix c cs)

end Verif.Util
