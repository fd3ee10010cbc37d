import Verif.Fields.Spec
import Verif.Result.TreeLemmas

namespace Verif.Fields

open Verif.Wire (Val Field)
open Verif.Result (Bytes FMap leafAt WF ValueOnLeaves find_none_iff)

/-! ### The map -/

theorem find_put (k v : Bytes) (kids : FMap) : ∀ (m : FMap) (x : Bytes), (put k v kids m).find x = if k = x then some (v, kids) else m.find x
  | .cons k2 v2 kids2 rest, x => by
    unfold put
    by_cases h : k2 = k
    · subst h
      by_cases hx : k2 = x <;> simp [FMap.find, hx]
    · simp only [h, if_false, FMap.find, find_put k v kids rest x]
      by_cases hx : k2 = x
      · subst hx; simp [Ne.symm h]
      · simp [hx]
  | .goNil, x => by simp [put, FMap.find]
  | .empty, x => by simp [put, FMap.find]

theorem find_nil_iff (m : FMap) : m.isEmpty = true ↔ ∀ x, m.find x = none := by
  cases m with
  | goNil => simp [FMap.isEmpty, FMap.find]
  | empty => simp [FMap.isEmpty, FMap.find]
  | cons k v kids rest =>
    simp only [FMap.isEmpty, Bool.false_eq_true, false_iff, not_forall]
    exact ⟨k, by simp [FMap.find]⟩

theorem wf_put {k v : Bytes} {kids : FMap} (hk : WF kids) : ∀ {m : FMap}, WF m → WF (put k v kids m)
  | .cons k2 v2 kids2 rest, h => by
    unfold put
    by_cases hx : k2 = k
    · subst hx; simpa [WF, hk] using ⟨h.1, h.2.2⟩
    · rw [if_neg hx]
      refine ⟨?_, h.2.1, wf_put hk h.2.2⟩
      rw [← find_none_iff, find_put, if_neg (Ne.symm hx), find_none_iff]
      exact h.1
  | .goNil, _ => by simpa [put, WF, FMap.names] using hk
  | .empty, _ => by simpa [put, WF, FMap.names] using hk

theorem vol_put {k v : Bytes} {kids : FMap} (hv : kids.isEmpty = false → v = []) (hk : ValueOnLeaves kids) :
    ∀ {m : FMap}, ValueOnLeaves m → ValueOnLeaves (put k v kids m)
  | .cons k2 v2 kids2 rest, h => by
    unfold put
    by_cases hx : k2 = k
    · rw [if_pos hx]; exact ⟨hv, hk, h.2.2⟩
    · rw [if_neg hx]; exact ⟨h.1, h.2.1, vol_put hv hk h.2.2⟩
  | .goNil, _ => ⟨hv, hk, trivial⟩
  | .empty, _ => ⟨hv, hk, trivial⟩

/-! ### One field -/

theorem capture_iff (parent : Bytes) (f : Field) : shouldCapture (nameOf f) (typeOf f) parent = true ↔ ¬ Internal parent f := by
  have h1 : "reflect.Value".toUTF8.toList = reflectValue := by decide +kernel
  have h2 : "typ_".toUTF8.toList = nameTyp := by decide +kernel
  have h3 : "flag".toUTF8.toList = nameFlag := by decide +kernel
  have h4 : "ptr".toUTF8.toList = namePtr := by decide +kernel
  have h5 : "reflect.rtype".toUTF8.toList = reflectRtype := by decide +kernel
  have h6 : "reflect.flag".toUTF8.toList = reflectFlag := by decide +kernel
  unfold shouldCapture Internal
  rw [h1, h2, h3, h4, h5, h6]
  simp only [List.mem_cons, List.not_mem_nil, or_false]
  split
  · simp_all
  · split <;> simp_all

theorem kept_iff (c : Lib) (typ text s : Bytes) : Kept c typ text s ↔ s = stored c typ text := by
  have h1 : "string".toUTF8.toList = stringText := by decide +kernel
  have h2 : "vsha1-".toUTF8.toList = Compare.hashPrefix := by decide +kernel
  unfold Kept stored
  rw [h1, h2, ← List.isSuffixOf_iff_suffix]
  by_cases ha : stringText.isSuffixOf typ = true
  · simp [ha]
  · by_cases hb : text.length ≤ 128
    · have : ¬ 128 < text.length := by omega
      simp [ha, hb, this]
    · have : 128 < text.length := by omega
      simp [ha, this]

/-- What is put into the map for a field. -/
def cell (c : Lib) : Field → Bytes × FMap
  | .leaf _ t v => (stored c t (sprint c v), .goNil)
  | .node _ t [] => (stored c t nilText, .goNil)
  | .node _ t (f :: fs) => ([], collectAll c t (f :: fs) .empty)

theorem collect_eq (c : Lib) (parent : Bytes) (f : Field) (dst : FMap) :
    collect c parent f dst = if shouldCapture (nameOf f) (typeOf f) parent then put (nameOf f) (cell c f).1 (cell c f).2 dst else dst := by
  match f with
  | .leaf .. => rw [collect]; rfl
  | .node _ _ [] => rw [collect]; rfl
  | .node _ _ (_ :: _) => rw [collect]; rfl

/-! ### All fields -/

theorem find_other {c : Lib} {parent x : Bytes} : ∀ {fs : List Field} {dst : FMap}, (∀ f ∈ fs, nameOf f = x → Internal parent f) →
    (collectAll c parent fs dst).find x = dst.find x
  | [], _, _ => by simp [collectAll]
  | f :: fs, dst, h => by
    rw [collectAll, find_other fun g hg => h g (List.mem_cons_of_mem _ hg), collect_eq]
    by_cases hc : shouldCapture (nameOf f) (typeOf f) parent = true
    · have : nameOf f ≠ x := fun hx => (capture_iff parent f).mp hc (h f List.mem_cons_self hx)
      rw [if_pos hc, find_put, if_neg this]
    · rw [if_neg hc]

theorem collectAll_append {c : Lib} {parent : Bytes} : ∀ {a b : List Field} {dst : FMap},
    collectAll c parent (a ++ b) dst = collectAll c parent b (collectAll c parent a dst)
  | [], _, _ => by simp [collectAll]
  | f :: a, b, dst => by rw [List.cons_append, collectAll, collectAll_append, collectAll]

theorem find_last {c : Lib} {parent : Bytes} {fs : List Field} {f : Field} {dst : FMap} (h : Last parent fs f) :
    (collectAll c parent fs dst).find (nameOf f) = some (cell c f) := by
  obtain ⟨h1, a, b, rfl, h2⟩ := h
  rw [collectAll_append, collectAll, find_other h2, collect_eq, if_pos ((capture_iff parent f).mpr h1), find_put, if_pos rfl]

theorem last_or (parent x : Bytes) : ∀ fs : List Field, (∃ f, Last parent fs f ∧ nameOf f = x) ∨ ∀ f ∈ fs, nameOf f = x → Internal parent f
  | [] => Or.inr (by simp)
  | f :: fs => by
    rcases last_or parent x fs with ⟨g, ⟨h1, a, b, rfl, h2⟩, h3⟩ | h
    · exact Or.inl ⟨g, ⟨h1, f :: a, b, rfl, h2⟩, h3⟩
    · by_cases hf : nameOf f = x ∧ ¬ Internal parent f
      · exact Or.inl ⟨f, ⟨hf.2, [], fs, rfl, fun g hg hn => h g hg (by rw [hn, hf.1])⟩, hf.1⟩
      · right
        intro g hg hn
        rcases List.mem_cons.mp hg with rfl | hg
        · by_contra hc; exact hf ⟨hn, hc⟩
        · exact h g hg hn

theorem empty_iff {c : Lib} {parent : Bytes} {fs : List Field} :
    (collectAll c parent fs .empty).isEmpty = true ↔ ∀ f ∈ fs, Internal parent f := by
  rw [find_nil_iff]
  constructor
  · intro h f hf
    rcases last_or parent (nameOf f) fs with ⟨g, h1, h2⟩ | h1
    · have := find_last (c := c) (dst := .empty) h1
      rw [h] at this
      simp at this
    · exact h1 f hf rfl
  · intro h x
    rw [find_other fun f hf _ => h f hf]
    rfl

theorem at_ne {c : Lib} {Sel parent fs p s} (h : At c Sel parent fs p s) : p ≠ [] := by cases h <;> simp

theorem last_nil {parent : Bytes} {f : Field} : ¬ Last parent [] f := by
  rintro ⟨-, a, b, h, -⟩
  simp at h

theorem at_nil {c : Lib} {parent p s} : ¬ At c Last parent [] p s := by
  intro h
  cases h with
  | leaf h1 _ => exact last_nil h1
  | void h1 _ => exact last_nil h1
  | hollow h1 _ _ => exact last_nil h1
  | inner h1 _ => exact last_nil h1

theorem nilText_eq : "<nil>".toUTF8.toList = nilText := by decide +kernel

/-- The recorded tree, path by path. -/
theorem leafAt_iff (c : Lib) : ∀ (p : List Bytes) (parent : Bytes) (fs : List Field) (s : Bytes),
    leafAt p (collectAll c parent fs .empty) = some s ↔ At c Last parent fs p s
  | [], parent, fs, s => by
    simp only [leafAt, reduceCtorEq, false_iff]
    exact fun h => at_ne h rfl
  | [k], parent, fs, s => by
    rw [leafAt]
    rcases last_or parent k fs with ⟨f, hl, rfl⟩ | hn
    · rw [find_last hl]
      simp only [Option.bind_some]
      constructor
      · intro h
        match f, hl, h with
        | .leaf n t v, hl, h => exact .leaf hl ((kept_iff ..).mpr (by simpa [cell, FMap.isEmpty] using h.symm))
        | .node n t [], hl, h => exact .void hl ((kept_iff ..).mpr (by rw [nilText_eq]; simpa [cell, FMap.isEmpty] using h.symm))
        | .node n t (g :: gs), hl, h =>
          by_cases he : (collectAll c t (g :: gs) .empty).isEmpty = true
          · have h' : some [] = some s := (if_pos he).symm.trans h
            rw [← Option.some.inj h']
            exact .hollow hl (by simp) (empty_iff.mp he)
          · cases (if_neg he).symm.trans h
      · intro h
        have uniq : ∀ g, Last parent fs g → nameOf g = nameOf f → cell c g = cell c f := by
          intro g hg hn
          have h1 := find_last (c := c) (dst := .empty) hg
          rw [hn, find_last hl] at h1
          exact (Option.some.inj h1).symm
        generalize hk : nameOf f = k at *
        generalize hq : [k] = q at h
        cases h with
        | leaf h1 h2 =>
          obtain rfl := List.singleton_inj.mp hq
          rw [← uniq _ h1 rfl, (kept_iff ..).mp h2]; simp [cell, FMap.isEmpty]
        | void h1 h2 =>
          obtain rfl := List.singleton_inj.mp hq
          rw [← uniq _ h1 rfl, (kept_iff ..).mp h2, nilText_eq]; simp [cell, FMap.isEmpty]
        | @hollow _ _ n t cs h1 h2 h3 =>
          obtain rfl := List.singleton_inj.mp hq
          rw [← uniq _ h1 rfl]
          cases cs with
          | nil => exact absurd rfl h2
          | cons g gs =>
            exact if_pos (empty_iff.mpr h3)
        | inner h1 h2 =>
          have := at_ne h2
          simp_all
    · rw [find_other hn]
      simp only [FMap.find, Option.bind_none, reduceCtorEq, false_iff]
      intro h
      generalize hq : [k] = q at h
      cases h with
      | leaf h1 h2 => obtain rfl := List.singleton_inj.mp hq; obtain ⟨h3, a, b, rfl, -⟩ := h1; exact h3 (hn _ (by simp) rfl)
      | void h1 h2 => obtain rfl := List.singleton_inj.mp hq; obtain ⟨h3, a, b, rfl, -⟩ := h1; exact h3 (hn _ (by simp) rfl)
      | hollow h1 h2 h4 => obtain rfl := List.singleton_inj.mp hq; obtain ⟨h3, a, b, rfl, -⟩ := h1; exact h3 (hn _ (by simp) rfl)
      | inner h1 h2 => have := at_ne h2; simp_all
  | k :: k' :: ks, parent, fs, s => by
    rw [leafAt]
    rcases last_or parent k fs with ⟨f, hl, rfl⟩ | hn
    · rw [find_last hl]
      simp only [Option.bind_some]
      constructor
      · intro h
        match f, hl, h with
        | .leaf n t v, hl, h => exact absurd ((Result.leafAt_empty (a := .goNil) rfl _).symm.trans h) (by simp)
        | .node n t [], hl, h => exact absurd ((Result.leafAt_empty (a := .goNil) rfl _).symm.trans h) (by simp)
        | .node n t (g :: gs), hl, h => exact .inner hl ((leafAt_iff c (k' :: ks) t (g :: gs) s).mp h)
      · intro h
        have uniq : ∀ g, Last parent fs g → nameOf g = nameOf f → cell c g = cell c f := by
          intro g hg hn
          have h1 := find_last (c := c) (dst := .empty) hg
          rw [hn, find_last hl] at h1
          exact (Option.some.inj h1).symm
        generalize hk : nameOf f = k at *
        generalize hq : k :: k' :: ks = q at h
        cases h with
        | leaf h1 h2 => simp at hq
        | void h1 h2 => simp at hq
        | hollow h1 h2 h3 => simp at hq
        | @inner _ _ n t cs p _ h1 h2 =>
          obtain ⟨rfl, rfl⟩ := List.cons.inj hq
          rw [← uniq _ h1 rfl]
          cases cs with
          | nil =>
            exact absurd h2 at_nil
          | cons g gs => exact (leafAt_iff c (k' :: ks) t (g :: gs) s).mpr h2
    · rw [find_other hn]
      simp only [FMap.find, Option.bind_none, reduceCtorEq, false_iff]
      intro h
      generalize hq : k :: k' :: ks = q at h
      cases h with
      | leaf h1 h2 => simp at hq
      | void h1 h2 => simp at hq
      | hollow h1 h2 h3 => simp at hq
      | inner h1 h2 =>
        obtain ⟨rfl, rfl⟩ := List.cons.inj hq
        obtain ⟨h3, a, b, rfl, -⟩ := h1
        exact h3 (hn _ (by simp) rfl)

/-! ### The tree is well formed -/

mutual
theorem wf_collect (c : Lib) (parent : Bytes) : ∀ (f : Field) {dst : FMap}, WF dst → ValueOnLeaves dst →
    WF (collect c parent f dst) ∧ ValueOnLeaves (collect c parent f dst)
  | .leaf n t v, dst, h1, h2 => by
    rw [collect]
    split
    · exact ⟨wf_put (kids := .goNil) trivial h1, vol_put (kids := .goNil) (by simp [FMap.isEmpty]) trivial h2⟩
    · exact ⟨h1, h2⟩
  | .node n t [], dst, h1, h2 => by
    rw [collect]
    split
    · exact ⟨wf_put (kids := .goNil) trivial h1, vol_put (kids := .goNil) (by simp [FMap.isEmpty]) trivial h2⟩
    · exact ⟨h1, h2⟩
  | .node n t (f :: fs), dst, h1, h2 => by
    rw [collect]
    have := wf_collectAll c t (f :: fs) (dst := .empty) trivial trivial
    split
    · exact ⟨wf_put this.1 h1, vol_put (fun _ => rfl) this.2 h2⟩
    · exact ⟨h1, h2⟩

theorem wf_collectAll (c : Lib) (parent : Bytes) : ∀ (fs : List Field) {dst : FMap}, WF dst → ValueOnLeaves dst →
    WF (collectAll c parent fs dst) ∧ ValueOnLeaves (collectAll c parent fs dst)
  | [], dst, h1, h2 => by rw [collectAll]; exact ⟨h1, h2⟩
  | f :: fs, dst, h1, h2 => by
    rw [collectAll]
    have := wf_collect c parent f h1 h2
    exact wf_collectAll c parent fs this.1 this.2
end

/-! ### Distinct names -/

theorem last_iff_any {parent : Bytes} {fs : List Field} (h : (fs.map nameOf).Nodup) (f : Field) : Last parent fs f ↔ Any parent fs f := by
  constructor
  · rintro ⟨h1, a, b, rfl, -⟩; exact ⟨h1, by simp⟩
  · rintro ⟨h1, h2⟩
    obtain ⟨a, b, rfl⟩ := List.append_of_mem h2
    refine ⟨h1, a, b, rfl, ?_⟩
    intro g hg hn
    exfalso
    rw [List.map_append, List.map_cons] at h
    have h3 := (List.nodup_append.mp h).2.1
    rw [List.nodup_cons] at h3
    exact h3.1 (List.mem_map.mpr ⟨g, hg, hn⟩)

theorem at_any {c : Lib} : ∀ (p : List Bytes) {parent : Bytes} {fs : List Field} {s : Bytes}, Distinct fs →
    (At c Last parent fs p s ↔ At c Any parent fs p s)
  | p, parent, fs, s, .mk hn hc => by
    have la := last_iff_any (parent := parent) hn
    constructor
    · intro h
      cases h with
      | leaf h1 h2 => exact .leaf ((la _).mp h1) h2
      | void h1 h2 => exact .void ((la _).mp h1) h2
      | hollow h1 h2 h3 => exact .hollow ((la _).mp h1) h2 h3
      | @inner _ _ n t cs p _ h1 h2 =>
        have h1' := (la _).mp h1
        exact .inner h1' ((at_any p (hc _ _ _ h1'.2)).mp h2)
    · intro h
      cases h with
      | leaf h1 h2 => exact .leaf ((la _).mpr h1) h2
      | void h1 h2 => exact .void ((la _).mpr h1) h2
      | hollow h1 h2 h3 => exact .hollow ((la _).mpr h1) h2 h3
      | @inner _ _ n t cs p _ h1 h2 => exact .inner ((la _).mpr h1) ((at_any p (hc _ _ _ h1.2)).mpr h2)

/-! ### Order -/

theorem shuffled_refl : ∀ fs : List Field, Shuffled fs fs
  | [] => .nil
  | .leaf _ _ _ :: fs => .leaf (shuffled_refl fs)
  | .node _ _ cs :: fs => .node (shuffled_refl cs) (shuffled_refl fs)

theorem shuffled_symm {fs gs : List Field} (h : Shuffled fs gs) : Shuffled gs fs := by
  induction h with
  | nil => exact .nil
  | leaf _ ih => exact .leaf ih
  | node _ _ ih1 ih2 => exact .node ih1 ih2
  | swap => exact .swap
  | trans _ _ ih1 ih2 => exact .trans ih2 ih1

/-- A leaf stays; a container stays with its content shuffled. -/
theorem shuffled_mem {fs gs : List Field} (h : Shuffled fs gs) : (∀ n t v, .leaf n t v ∈ fs → .leaf n t v ∈ gs) ∧
    ∀ n t cs, .node n t cs ∈ fs → ∃ ds, .node n t ds ∈ gs ∧ Shuffled cs ds := by
  induction h with
  | nil => simp
  | leaf _ ih =>
    constructor
    · intro n t v h
      rcases List.mem_cons.mp h with h | h
      · rw [h]; exact List.mem_cons_self
      · exact List.mem_cons_of_mem _ (ih.1 n t v h)
    · intro n t cs h
      rcases List.mem_cons.mp h with h | h
      · cases h
      · obtain ⟨ds, h1, h2⟩ := ih.2 n t cs h
        exact ⟨ds, List.mem_cons_of_mem _ h1, h2⟩
  | @node n' t' cs' ds' _ _ hs _ _ ih2 =>
    constructor
    · intro n t v h
      rcases List.mem_cons.mp h with h | h
      · cases h
      · exact List.mem_cons_of_mem _ (ih2.1 n t v h)
    · intro n t cs h
      rcases List.mem_cons.mp h with h | h
      · cases h; exact ⟨ds', List.mem_cons_self, hs⟩
      · obtain ⟨ds, h1, h2⟩ := ih2.2 n t cs h
        exact ⟨ds, List.mem_cons_of_mem _ h1, h2⟩
  | @swap f g fs =>
    have hm : ∀ x, x ∈ f :: g :: fs → x ∈ g :: f :: fs := by
      intro x hx
      simp only [List.mem_cons] at hx ⊢
      tauto
    exact ⟨fun n t v h => hm _ h, fun n t cs h => ⟨cs, hm _ h, shuffled_refl cs⟩⟩
  | trans _ _ ih1 ih2 =>
    constructor
    · intro n t v h; exact ih2.1 _ _ _ (ih1.1 _ _ _ h)
    · intro n t cs h
      obtain ⟨ds, h1, h2⟩ := ih1.2 n t cs h
      obtain ⟨es, h3, h4⟩ := ih2.2 n t ds h1
      exact ⟨es, h3, .trans h2 h4⟩

theorem shuffled_internal {parent : Bytes} {fs gs : List Field} (h : Shuffled fs gs) (hi : ∀ f ∈ gs, Internal parent f) :
    ∀ f ∈ fs, Internal parent f := by
  intro f hf
  cases f with
  | leaf n t v => exact hi _ ((shuffled_mem h).1 _ _ _ hf)
  | node n t cs =>
    obtain ⟨ds, h1, -⟩ := (shuffled_mem h).2 _ _ _ hf
    exact (show Internal parent (.node n t ds) from hi _ h1)

theorem shuffled_empty {fs gs : List Field} (h : Shuffled fs gs) (he : gs = []) : fs = [] := by
  subst he
  cases fs with
  | nil => rfl
  | cons f fs =>
    cases f with
    | leaf n t v => exact absurd ((shuffled_mem h).1 _ _ _ List.mem_cons_self) (by simp)
    | node n t cs =>
      obtain ⟨ds, h1, -⟩ := (shuffled_mem h).2 _ _ _ List.mem_cons_self
      exact absurd h1 (by simp)

theorem at_shuffled {c : Lib} : ∀ {p : List Bytes} {parent : Bytes} {fs gs : List Field} {s : Bytes}, Shuffled fs gs →
    At c Any parent fs p s → At c Any parent gs p s := by
  intro p parent fs gs s h ha
  induction ha generalizing gs with
  | leaf h1 h2 => exact .leaf ⟨h1.1, (shuffled_mem h).1 _ _ _ h1.2⟩ h2
  | void h1 h2 =>
    obtain ⟨ds, h3, h4⟩ := (shuffled_mem h).2 _ _ _ h1.2
    obtain rfl := shuffled_empty (shuffled_symm h4) rfl
    exact .void ⟨h1.1, h3⟩ h2
  | hollow h1 h2 h5 =>
    obtain ⟨ds, h3, h4⟩ := (shuffled_mem h).2 _ _ _ h1.2
    exact .hollow (cs := ds) ⟨h1.1, h3⟩ (fun he => h2 (shuffled_empty h4 he)) (shuffled_internal (shuffled_symm h4) h5)
  | inner h1 h2 ih =>
    obtain ⟨ds, h3, h4⟩ := (shuffled_mem h).2 _ _ _ h1.2
    exact .inner (cs := ds) ⟨h1.1, h3⟩ (ih h4)

theorem shuffled_names {fs gs : List Field} (h : Shuffled fs gs) : (fs.map nameOf).Perm (gs.map nameOf) := by
  induction h with
  | nil => exact .nil
  | leaf _ ih => exact ih.cons _
  | node _ _ _ ih => exact ih.cons _
  | swap => exact .swap _ _ _
  | trans _ _ ih1 ih2 => exact ih1.trans ih2

theorem shuffled_distinct {fs gs : List Field} (hd : Distinct fs) (h : Shuffled fs gs) : Distinct gs := by
  induction hd generalizing gs with
  | mk hn hc ih =>
    refine .mk ((shuffled_names h).nodup_iff.mp hn) ?_
    intro n t cs hm
    obtain ⟨ds, h1, h2⟩ := (shuffled_mem (shuffled_symm h)).2 n t cs hm
    exact ih n t ds h1 (shuffled_symm h2)

/-! ### Texts -/

theorem intText_inj {a b : Int} (h : intText a = intText b) : a = b := by
  have hd : ∀ n m, itoaBytes n ≠ 45 :: itoaBytes m := by
    intro n m hc
    have := itoaBytes_digit n 45 (by rw [hc]; simp)
    simp at this
  cases a <;> cases b <;> simp only [intText] at h
  · exact congrArg _ (itoaBytes_injective h)
  · exact absurd h (hd _ _)
  · exact absurd h.symm (hd _ _)
  · have := itoaBytes_injective (List.cons.inj h).2
    congr 1; omega

theorem word_itoa (n : Nat) : Word (itoaBytes n) := by
  refine ⟨itoaBytes_ne_nil n, fun h => ?_⟩
  have := itoaBytes_digit n 32 h
  simp at this

theorem word_int (i : Int) : Word (intText i) := by
  cases i with
  | ofNat n => exact word_itoa n
  | negSucc n =>
    refine ⟨by simp [intText], fun h => ?_⟩
    rcases List.mem_cons.mp h with h | h
    · cases h
    · exact (word_itoa _).2 h

theorem word_bool (b : Bool) : Word (boolText b) := by cases b <;> exact ⟨by decide, by decide⟩

theorem boolText_inj {a b : Bool} (h : boolText a = boolText b) : a = b := by revert h; cases a <;> cases b <;> decide

theorem spaced_inj : ∀ {l m : List Bytes}, (∀ x ∈ l, Word x) → (∀ x ∈ m, Word x) → spaced l = spaced m → l = m := by
  have split : ∀ (x : Bytes) (r : Bytes) (y : Bytes) (q : Bytes), 32 ∉ x → 32 ∉ y → x ++ 32 :: r = y ++ 32 :: q → x = y ∧ r = q := by
    intro x
    induction x with
    | nil =>
      intro r y q _ hy h
      cases y with
      | nil => simpa using h
      | cons b y => simp at h; exact absurd h.1 (fun hb => hy (by simp [hb]))
    | cons a x ih =>
      intro r y q hx hy h
      cases y with
      | nil => simp at h; exact absurd h.1 (fun hb => hx (by simp [hb]))
      | cons b y =>
        simp only [List.cons_append, List.cons.injEq] at h
        obtain ⟨h1, h2⟩ := ih r y q (fun hc => hx (List.mem_cons_of_mem _ hc)) (fun hc => hy (List.mem_cons_of_mem _ hc)) h.2
        exact ⟨by rw [h.1, h1], h2⟩
  intro l
  induction l with
  | nil =>
    intro m _ hm h
    match m with
    | [] => rfl
    | [x] => exact absurd h.symm (hm x (by simp)).1
    | x :: y :: m => simp [spaced] at h
  | cons x l ih =>
    intro m hl hm h
    match l, m with
    | [], [] => exact absurd h (hl x (by simp)).1
    | [], [y] => simp only [spaced] at h; rw [h]
    | [], y :: z :: m =>
      simp only [spaced] at h
      exact absurd (by rw [h]; simp) (hl x (by simp)).2
    | z :: l, [] => simp [spaced] at h
    | z :: l, [y] =>
      simp only [spaced] at h
      exact absurd (by rw [← h]; simp) (hm y (by simp)).2
    | z :: l, y :: w :: m =>
      simp only [spaced] at h
      obtain ⟨h1, h2⟩ := split _ _ _ _ (hl x (by simp)).2 (hm y (by simp)).2 h
      rw [h1, ih (fun a ha => hl a (List.mem_cons_of_mem _ ha)) (fun a ha => hm a (List.mem_cons_of_mem _ ha)) h2]

theorem sliceText_inj {l m : List Bytes} (hl : ∀ x ∈ l, Word x) (hm : ∀ x ∈ m, Word x) (h : sliceText l = sliceText m) : l = m := by
  unfold sliceText at h
  exact spaced_inj hl hm (List.append_cancel_right (List.cons.inj h).2)

theorem slice_map_inj {α : Type} {f : α → Bytes} {P : α → Prop} (hw : ∀ a, Word (f a)) (hi : ∀ a b, P a → P b → f a = f b → a = b)
    {l m : List α} (hl : ∀ a ∈ l, P a) (hm : ∀ a ∈ m, P a) (h : sliceText (l.map f) = sliceText (m.map f)) : l = m := by
  refine map_injOn_eq hi hl hm (sliceText_inj ?_ ?_ h)
  · intro x hx; obtain ⟨a, -, rfl⟩ := List.mem_map.mp hx; exact hw a
  · intro x hx; obtain ⟨a, -, rfl⟩ := List.mem_map.mp hx; exact hw a

theorem sprint_inj {c : Lib} (hc : LibOK c) {v w : Val} (hk : kind v = kind w) (hv : Plain v) (hw : Plain w) (h : sprint c v = sprint c w) : v = w := by
  have bv : ∀ {n} (a b : BitVec n), True → True → intText a.toInt = intText b.toInt → a = b :=
    fun a b _ _ h => BitVec.eq_of_toInt_eq (intText_inj h)
  have u32 : ∀ (a b : UInt32), True → True → itoaBytes a.toNat = itoaBytes b.toNat → a = b :=
    fun a b _ _ h => UInt32.toNat_inj.mp (itoaBytes_injective h)
  have u64 : ∀ (a b : UInt64), True → True → itoaBytes a.toNat = itoaBytes b.toNat → a = b :=
    fun a b _ _ h => UInt64.toNat_inj.mp (itoaBytes_injective h)
  have u8 : ∀ (a b : UInt8), True → True → itoaBytes a.toNat = itoaBytes b.toNat → a = b :=
    fun a b _ _ h => UInt8.toNat_inj.mp (itoaBytes_injective h)
  cases v <;> cases w <;> first | (exfalso; revert hk; simp [kind]; done) | skip
  · rfl
  · rw [boolText_inj h]
  · rw [bv _ _ trivial trivial h]
  · rw [bv _ _ trivial trivial h]
  · rw [u32 _ _ trivial trivial h]
  · rw [u64 _ _ trivial trivial h]
  · rw [hc.inj32 _ _ hv hw h]
  · rw [hc.inj64 _ _ hv hw h]
  · obtain ⟨h1, h2⟩ := hc.injc _ _ _ _ hv.1 hv.2 hw.1 hw.2 h
    rw [h1, h2]
  · exact congrArg _ h
  · rw [slice_map_inj (P := fun _ => True) word_bool (fun _ _ _ _ h => boolText_inj h) (by simp) (by simp) h]
  · rw [slice_map_inj (P := fun _ => True) (fun _ => word_itoa _) u8 (by simp) (by simp) h]
  · rw [slice_map_inj (P := fun _ => True) (fun _ => word_int _) bv (by simp) (by simp) h]
  · rw [slice_map_inj (P := fun _ => True) (fun _ => word_int _) bv (by simp) (by simp) h]
  · rw [slice_map_inj (P := fun _ => True) (fun _ => word_itoa _) u32 (by simp) (by simp) h]
  · rw [slice_map_inj (P := fun _ => True) (fun _ => word_itoa _) u64 (by simp) (by simp) h]
  · rw [slice_map_inj hc.word32 hc.inj32 hv hw h]
  · rw [slice_map_inj hc.word64 hc.inj64 hv hw h]
  · rw [sliceText_inj hv hw h]

theorem holds_at {c : Lib} {parent : Bytes} {fs : List Field} {p : List Bytes} {t : Bytes} {v : Val} (h : Holds parent fs p t v) :
    At c Any parent fs p (stored c t (sprint c v)) := by
  induction h with
  | leaf h => exact .leaf h ((kept_iff ..).mpr rfl)
  | inner h _ ih => exact .inner h ih

end Verif.Fields
