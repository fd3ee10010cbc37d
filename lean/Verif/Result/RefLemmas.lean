import Verif.Result.TreeLemmas

/-!
Flattening, flat maps, and references of encoded data.
-/

namespace Verif.Result

/-! ### Flattening -/

/-- The key under which a path below `pfx` is stored. -/
def extend (pfx : Bytes) : List Bytes → Bytes
  | [] => pfx
  | k :: ks => extend (if pfx = [] then k else pfx ++ 46 :: k) ks

theorem leafAt_names {m : FMap} {k : Bytes} {ks : List Bytes} {v : Bytes} (h : leafAt (k :: ks) m = some v) : k ∈ m.names := by
  by_contra hn
  have := (find_none_iff m k).mpr hn
  cases ks <;> simp [leafAt, this] at h

theorem leafAt_ne_nil {m : FMap} {p : List Bytes} {v : Bytes} (h : leafAt p m = some v) : p ≠ [] := by
  rintro rfl; simp [leafAt] at h

theorem leafAt_cons_ne {k v x : Bytes} {kids rest : FMap} {ks : List Bytes} (h : k ≠ x) :
    leafAt (x :: ks) (.cons k v kids rest) = leafAt (x :: ks) rest := by
  cases ks <;> simp [leafAt, FMap.find, h]

theorem leafAt_kids {k v : Bytes} {kids rest : FMap} {p : List Bytes} (hp : p ≠ []) :
    leafAt (k :: p) (.cons k v kids rest) = leafAt p kids := by
  cases p with
  | nil => exact absurd rfl hp
  | cons => simp [leafAt, FMap.find]

theorem mem_flatWrites : ∀ (m : FMap) (pfx : Bytes), WF m → ∀ w,
    w ∈ flatWrites pfx m ↔ ∃ p, leafAt p m = some w.2 ∧ w.1 = extend pfx p
  | .goNil, pfx, _, w => by
      constructor
      · intro h; simp [flatWrites] at h
      · rintro ⟨p, h, _⟩; rw [leafAt_empty rfl] at h; cases h
  | .empty, pfx, _, w => by
      constructor
      · intro h; simp [flatWrites] at h
      · rintro ⟨p, h, _⟩; rw [leafAt_empty rfl] at h; cases h
  | .cons k v kids rest, pfx, hwf, w => by
      obtain ⟨h1, h2, h3⟩ := hwf
      have ihr := mem_flatWrites rest pfx h3 w
      have ihk := mem_flatWrites kids (if pfx = [] then k else pfx ++ 46 :: k) h2 w
      simp only [flatWrites, List.mem_append, ihr]
      constructor
      · rintro (h | ⟨p, hp, hw⟩)
        · by_cases hk : kids.isEmpty = true
          · rw [if_pos hk] at h
            simp only [List.mem_singleton] at h
            subst h
            exact ⟨[k], by simp [leafAt, FMap.find, hk], rfl⟩
          · rw [if_neg hk, ihk] at h
            obtain ⟨p, hp, hw⟩ := h
            exact ⟨k :: p, by rw [leafAt_kids (leafAt_ne_nil hp)]; exact hp, hw⟩
        · refine ⟨p, ?_, hw⟩
          cases p with
          | nil => simp [leafAt] at hp
          | cons x xs =>
              rw [leafAt_cons_ne, hp]
              rintro rfl; exact h1 (leafAt_names hp)
      · rintro ⟨p, hp, hw⟩
        cases p with
        | nil => simp [leafAt] at hp
        | cons x xs =>
            by_cases hx : k = x
            · subst hx
              left
              cases xs with
              | nil =>
                  simp only [leafAt, find_head, Option.bind_some] at hp
                  split at hp
                  · rename_i hk
                    rw [if_pos hk]
                    simp only [Option.some.injEq] at hp
                    simp only [extend] at hw
                    rw [List.mem_singleton, Prod.ext_iff]; exact ⟨hw, hp.symm⟩
                  · cases hp
              | cons y ys =>
                  rw [leafAt_kids (by simp)] at hp
                  have hk : ¬ kids.isEmpty = true := by
                    intro hk; rw [leafAt_empty hk] at hp; cases hp
                  rw [if_neg hk, ihk]
                  exact ⟨_, hp, hw⟩
            · right
              rw [leafAt_cons_ne hx] at hp
              exact ⟨_, hp, hw⟩

theorem foldl_get (ws : List (Bytes × Bytes)) : ∀ (a : AMap Bytes Bytes) (k v : Bytes),
    (ws.foldl (fun (a : AMap Bytes Bytes) w => a.set w.1 w.2) a).get k = some v → (k, v) ∈ ws ∨ a.get k = some v := by
  induction ws with
  | nil => intro a k v h; exact Or.inr h
  | cons w ws ih =>
      intro a k v h
      rcases ih _ k v h with h | h
      · exact Or.inl (List.mem_cons_of_mem _ h)
      · rw [AMap.get_set] at h
        split at h
        · rename_i hk
          left; simp only [Option.some.injEq] at h
          rw [List.mem_cons]; left; rw [Prod.ext_iff]; exact ⟨hk.symm ▸ rfl, h.symm⟩
        · exact Or.inr h

theorem foldl_isSome (ws : List (Bytes × Bytes)) : ∀ (a : AMap Bytes Bytes) (k : Bytes),
    (a.get k ≠ none ∨ k ∈ ws.map (·.1)) → (ws.foldl (fun (a : AMap Bytes Bytes) w => a.set w.1 w.2) a).get k ≠ none := by
  induction ws with
  | nil => intro a k h; simpa using h
  | cons w ws ih =>
      intro a k h
      apply ih
      rw [AMap.get_set]
      by_cases hk : k = w.1
      · left; simp [hk]
      · rcases h with h | h
        · left
          split
          · simp
          · exact h
        · right
          simp only [List.map_cons, List.mem_cons] at h
          exact h.resolve_left hk

theorem flatten_get {m : FMap} (hw : WF m) {k v : Bytes} (h : (flatten m).get k = some v) :
    ∃ p, leafAt p m = some v ∧ k = extend [] p := by
  rcases foldl_get _ _ _ _ h with h | h
  · exact (mem_flatWrites m [] hw (k, v)).mp h
  · simp [AMap.get_nil] at h

theorem flatten_isSome {m : FMap} (hw : WF m) {p : List Bytes} {v : Bytes} (h : leafAt p m = some v) :
    (flatten m).get (extend [] p) ≠ none :=
  foldl_isSome _ _ _ (Or.inr (List.mem_map.mpr ⟨(extend [] p, v), (mem_flatWrites m [] hw _).mpr ⟨p, h, rfl⟩, rfl⟩))

theorem extend_dotted : ∀ (ks : List Bytes) (pfx : Bytes), pfx ≠ [] →
    extend pfx ks = dotted (pfx :: ks)
  | [], pfx, h => rfl
  | k :: ks, pfx, h => by
      rw [extend, if_neg h, extend_dotted ks _ (by simp)]
      cases ks <;> simp [dotted]

theorem extend_nil {p : List Bytes} (h : ∀ k ∈ p, k ≠ []) : extend [] p = dotted p := by
  cases p with
  | nil => rfl
  | cons k ks =>
      rw [extend, if_pos rfl, extend_dotted ks k (h k (by simp))]

theorem leafAt_names_all {P : Bytes → Prop} : ∀ (p : List Bytes) (m : FMap) (v : Bytes), NamesAll P m →
    leafAt p m = some v → ∀ k ∈ p, P k
  | [], m, v, _, h => by simp
  | k :: ks, m, v, hm, h => by
      have hfind : ∀ (m : FMap) n, NamesAll P m → m.find k = some n → P k ∧ NamesAll P n.2 := by
        intro m
        induction m with
        | goNil => intro n _ h; simp [FMap.find] at h
        | empty => intro n _ h; simp [FMap.find] at h
        | cons k2 v2 kids rest _ ih =>
            intro n hm h
            simp only [FMap.find] at h
            split at h
            · rename_i he; cases h; exact ⟨he ▸ hm.1, hm.2.1⟩
            · exact ih n hm.2.2 h
      cases hf : m.find k with
      | none => cases ks <;> simp [leafAt, hf] at h
      | some n =>
          obtain ⟨h1, h2⟩ := hfind m n hm hf
          intro x hx
          rw [List.mem_cons] at hx
          rcases hx with rfl | hx
          · exact h1
          · cases ks with
            | nil => cases hx
            | cons y ys =>
                simp only [leafAt, hf, Option.bind_some] at h
                exact leafAt_names_all (y :: ys) n.2 v h2 h x hx

theorem dotted_inj : ∀ {p q : List Bytes}, p ≠ [] → q ≠ [] → (∀ k ∈ p, (46 : UInt8) ∉ k) → (∀ k ∈ q, (46 : UInt8) ∉ k) →
    dotted p = dotted q → p = q
  | [], _, h, _, _, _, _ => absurd rfl h
  | _, [], _, h, _, _, _ => absurd rfl h
  | [k], [k2], _, _, _, _, h => by simpa [dotted] using h
  | [k], k2 :: y :: ys, _, _, h1, _, h => by
      simp only [dotted] at h
      exact absurd (by rw [h]; simp) (h1 k (by simp))
  | k :: x :: xs, [k2], _, _, _, h2, h => by
      simp only [dotted] at h
      exact absurd (by rw [← h]; simp) (h2 k2 (by simp))
  | k :: x :: xs, k2 :: y :: ys, _, _, h1, h2, h => by
      simp only [dotted] at h
      have key : ∀ (a b : Bytes) (s t : Bytes), (46 : UInt8) ∉ a → (46 : UInt8) ∉ b → a ++ 46 :: s = b ++ 46 :: t → a = b ∧ s = t := by
        intro a
        induction a with
        | nil =>
            intro b s t _ hb h
            cases b with
            | nil => exact ⟨rfl, by simpa using h⟩
            | cons c cs => simp at h; exact absurd (by simp [h.1]) hb
        | cons c cs ih =>
            intro b s t ha hb h
            cases b with
            | nil => simp at h; exact absurd (by simp [h.1]) ha
            | cons d ds =>
                simp only [List.cons_append, List.cons.injEq] at h
                obtain ⟨r1, r2⟩ := ih ds s t (fun hc => ha (by simp [hc])) (fun hc => hb (by simp [hc])) h.2
                exact ⟨by rw [h.1, r1], r2⟩
      obtain ⟨e1, e2⟩ := key k k2 _ _ (h1 k (by simp)) (h2 k2 (by simp)) h
      have := dotted_inj (p := x :: xs) (q := y :: ys) (by simp) (by simp) (fun k hk => h1 k (by simp [hk]))
        (fun k hk => h2 k (by simp [hk])) e2
      rw [e1, this]

/-! ### Flat maps -/

theorem flat_insertE {k v : Bytes} {kids : FMap} (hk : kids.isEmpty = true) : ∀ {m}, Flat m → Flat (insertE k v kids m)
  | .goNil, _ => ⟨hk, trivial⟩
  | .empty, _ => ⟨hk, trivial⟩
  | .cons k2 v2 kids2 rest, h => by
      unfold insertE
      split
      · exact ⟨hk, h⟩
      · exact ⟨h.1, flat_insertE hk h.2⟩

theorem flat_canon : ∀ {m}, Flat m → Flat (canon m)
  | .goNil, _ => trivial
  | .empty, _ => trivial
  | .cons _ _ kids _, h => flat_insertE (by rw [canon_isEmpty]; exact h.1) (flat_canon h.2)

theorem raw_cons_ne (k v : Bytes) (kids rest : FMap) : raw (.cons k v kids rest) ≠ [] := by
  intro h
  have := congrArg List.length h
  simp [raw, framed, le64_length] at this

/-- A flat map is determined by its bytes, among all maps. -/
theorem raw_inj_flat : ∀ (a b : FMap), Flat a → Fits a → Fits b → raw a = raw b → Same a b
  | .goNil, b, _, _, _, h => by
      cases b with
      | cons => exact absurd h.symm (raw_cons_ne _ _ _ _)
      | _ => exact same_empties rfl rfl
  | .empty, b, _, _, _, h => by
      cases b with
      | cons => exact absurd h.symm (raw_cons_ne _ _ _ _)
      | _ => exact same_empties rfl rfl
  | .cons k v kids rest, b, hf, fa, fb, h => by
      cases b with
      | goNil => exact absurd h (raw_cons_ne _ _ _ _)
      | empty => exact absurd h (raw_cons_ne _ _ _ _)
      | cons k2 v2 kids2 rest2 =>
          simp only [raw] at h
          obtain ⟨hk, h1⟩ := framed_inj fa.1 fb.1 h
          clear h
          subst hk
          rw [if_pos hf.1] at h1
          by_cases hk2 : kids2.isEmpty = true
          · rw [if_pos hk2] at h1
            simp only [List.cons_append, List.cons.injEq, true_and] at h1
            obtain ⟨hv, h2⟩ := framed_inj fa.2.1 fb.2.1 h1
            clear h1
            subst hv
            exact same_cons _ _ (same_empties hf.1 hk2) (raw_inj_flat rest rest2 hf.2 fa.2.2.2 fb.2.2.2 h2)
          · rw [if_neg hk2] at h1
            simp at h1

theorem stream_flat {a b : FMap} (hf : Flat a) (wa : WF a) (wb : WF b) (fa : Fits a) (fb : Fits b)
    (h : stream a = stream b) : Same a b :=
  ((canon_same wa).symm.trans (raw_inj_flat _ _ (flat_canon hf) (fits_canon fa) (fits_canon fb) h)).trans (canon_same wb)

theorem flat_subMaps {m : FMap} (h : Flat m) : ∀ x ∈ subMaps m, x.isEmpty = true := by
  induction m with
  | goNil => simp [subMaps]
  | empty => simp [subMaps]
  | cons k v kids rest _ ih =>
      intro x hx
      have hk : subMaps kids = [] := by
        have := h.1
        cases kids <;> simp [FMap.isEmpty] at this <;> rfl
      simp only [subMaps, hk, List.nil_append, List.mem_cons] at hx
      rcases hx with rfl | hx
      · exact h.1
      · exact ih h.2 x hx

/-! ### References -/

theorem bind_ok {α β : Type} {x : Except DErr α} {f : α → Except DErr β} {b : β} (h : (x >>= f) = .ok b) :
    ∃ a, x = .ok a ∧ f a = .ok b := by
  cases x with
  | error e => cases h
  | ok a => exact ⟨a, rfl, h⟩

theorem decEntries_refs {jn : Int → Except DErr (Bytes × FMap)} {jm : Int → Except DErr FMap} : ∀ (e : EMap) (m : FMap),
    decEntries jn jm e = .ok m → (∀ i ∈ nodeRefs e, ∃ n, jn i = .ok n) ∧ (∀ i ∈ mapRefs e, ∃ n, jm i = .ok n)
  | .goNil, m, _ => by simp [nodeRefs, mapRefs]
  | .empty, m, _ => by simp [nodeRefs, mapRefs]
  | .cons k ni v ci cvl rest, m, h => by
      cases ni with
      | some i =>
          simp only [decEntries] at h
          obtain ⟨n, h1, h⟩ := bind_ok h
          obtain ⟨r, h2, _⟩ := bind_ok h
          have ihr := decEntries_refs rest r h2
          constructor
          · intro j hj
            simp only [nodeRefs, List.mem_cons] at hj
            rcases hj with rfl | hj
            · exact ⟨n, h1⟩
            · exact ihr.1 j hj
          · intro j hj
            exact ihr.2 j (by simpa [mapRefs] using hj)
      | none =>
          cases ci with
          | some i =>
              simp only [decEntries] at h
              obtain ⟨kids, h3, h⟩ := bind_ok h
              obtain ⟨n, _, h⟩ := bind_ok h
              obtain ⟨r, h2, _⟩ := bind_ok h
              have ihr := decEntries_refs rest r h2
              constructor
              · intro j hj
                exact ihr.1 j (by simpa [nodeRefs] using hj)
              · intro j hj
                simp only [mapRefs, List.mem_cons] at hj
                rcases hj with rfl | hj
                · exact ⟨kids, h3⟩
                · exact ihr.2 j hj
          | none =>
              simp only [decEntries] at h
              obtain ⟨kids, h3, h⟩ := bind_ok h
              obtain ⟨n, _, h⟩ := bind_ok h
              obtain ⟨r, h2, _⟩ := bind_ok h
              have ihr := decEntries_refs rest r h2
              have ihk := decEntries_refs cvl kids h3
              constructor
              · intro j hj
                simp only [nodeRefs, List.mem_append] at hj
                rcases hj with hj | hj
                · exact ihk.1 j hj
                · exact ihr.1 j hj
              · intro j hj
                simp only [mapRefs, List.mem_append] at hj
                rcases hj with hj | hj
                · exact ihk.2 j hj
                · exact ihr.2 j hj

/-- The reference is decoded within some fuel. -/
def RefDecodes (d : Dicts) : Ref → Prop
  | .node i => ∃ f n, (jumps d f).1 i = .ok n
  | .map i => ∃ f m, (jumps d f).2 i = .ok m

theorem uses_decodes {d : Dicts} {e : EMap} {r : Ref} (h : Uses d e r) :
    (∃ f m, decEntries (jumps d f).1 (jumps d f).2 e = .ok m) → RefDecodes d r := by
  induction h with
  | node hi =>
      rintro ⟨f, m, h⟩
      obtain ⟨n, hn⟩ := (decEntries_refs _ _ h).1 _ hi
      exact ⟨f, n, hn⟩
  | map hi =>
      rintro ⟨f, m, h⟩
      obtain ⟨n, hn⟩ := (decEntries_refs _ _ h).2 _ hi
      exact ⟨f, n, hn⟩
  | @viaNode e i n r h0 hpos hg _ ih1 ih2 =>
      intro h
      obtain ⟨f, nn, hf⟩ := ih1 h
      apply ih2
      cases f with
      | zero => cases hf
      | succ f =>
          refine ⟨f, .cons [] nn.1 nn.2 .empty, ?_⟩
          have hd : dictGet d.fvn i = some (some n) := by unfold dictGet; rw [if_pos hpos, hg]
          simp only [jumps, hd, slotNode, Option.getD_some] at hf
          unfold ENode.asMap
          simp only [decEntries]
          cases hni : n.ni with
          | some i' =>
              rw [hni] at hf
              simp only at hf ⊢
              rw [hf]; rfl
          | none =>
              rw [hni] at hf
              cases hci : n.ci with
              | none =>
                  rw [hci] at hf
                  simp only at hf ⊢
                  obtain ⟨kids, h3, h4⟩ := bind_ok hf
                  rw [h3]; cases h4; rfl
              | some j =>
                  rw [hci] at hf
                  simp only at hf ⊢
                  obtain ⟨kids, h3, h4⟩ := bind_ok hf
                  rw [h3]; cases h4; rfl
  | @viaMap e i m r h0 hpos hg _ ih1 ih2 =>
      intro h
      obtain ⟨f, mm, hf⟩ := ih1 h
      apply ih2
      cases f with
      | zero => cases hf
      | succ f =>
          refine ⟨f, mm, ?_⟩
          have hd : dictGet d.fv i = some (some m) := by unfold dictGet; rw [if_pos hpos, hg]
          simpa only [jumps, hd, slotMap, Option.getD_some] using hf

theorem dictGet_inRange {α : Type} {l : List (Option α)} {i : Int} {o : Option α} (h : dictGet l i = some o) :
    0 ≤ i ∧ i.toNat < l.length := by
  unfold dictGet at h
  split at h
  · rename_i hp
    obtain ⟨hl, _⟩ := List.getElem?_eq_some_iff.mp h
    exact ⟨hp, hl⟩
  · cases h

theorem RefDecodes.inRange {d : Dicts} {r : Ref} (h : RefDecodes d r) : r.inRange d := by
  cases r with
  | node i =>
      obtain ⟨f, n, hf⟩ := h
      cases f with
      | zero => cases hf
      | succ f =>
          simp only [jumps] at hf
          cases hd : dictGet d.fvn i with
          | none => rw [hd] at hf; cases hf
          | some o => exact dictGet_inRange hd
  | map i =>
      obtain ⟨f, n, hf⟩ := h
      cases f with
      | zero => cases hf
      | succ f =>
          simp only [jumps] at hf
          cases hd : dictGet d.fv i with
          | none => rw [hd] at hf; cases hf
          | some o => exact dictGet_inRange hd

theorem decFrame_refs {d : Dicts} {fuel : Nat} {f : EFrame} {g : CallFrame} (h : decFrame d fuel f = .ok g) :
    FrameRefsOK d f := by
  unfold decFrame at h
  obtain ⟨fv, h1, h⟩ := bind_ok h
  obtain ⟨st, h2, _⟩ := bind_ok h
  constructor
  · intro i hi
    unfold decStack at h2
    rw [hi] at h2
    simp only at h2
    split at h2
    · rename_i hp
      cases hg : d.st[i.toNat]? with
      | none => rw [hg] at h2; cases h2
      | some s => exact ⟨hp, (List.getElem?_eq_some_iff.mp hg).1⟩
    · cases h2
  · unfold decFV at h1
    cases hi : f.fvi with
    | none =>
        rw [hi] at h1
        intro r hr
        exact (uses_decodes hr ⟨fuel, fv, h1⟩).inRange
    | some i =>
        rw [hi] at h1
        simp only at h1 ⊢
        have hdec : RefDecodes d (.map i) := ⟨fuel, fv, h1⟩
        refine ⟨hdec.inRange, ?_⟩
        intro m hm r hr
        apply (uses_decodes hr ?_).inRange
        cases fuel with
        | zero => cases h1
        | succ f =>
            have hd : dictGet d.fv i = some (some m) := by unfold dictGet; rw [if_pos hdec.inRange.1, hm]
            exact ⟨f, fv, by simpa only [jumps, hd, slotMap, Option.getD_some] using h1⟩

theorem decFrames_refs {d : Dicts} {fuel : Nat} : ∀ (fs : List EFrame) (gs : List CallFrame),
    decFrames d fuel fs = .ok gs → ∀ f ∈ fs, FrameRefsOK d f
  | [], _, _ => by simp
  | f :: fs, gs, h => by
      rw [decFrames] at h
      obtain ⟨a, h1, h⟩ := bind_ok h
      obtain ⟨as, h2, _⟩ := bind_ok h
      intro x hx
      rw [List.mem_cons] at hx
      rcases hx with rfl | hx
      · exact decFrame_refs h1
      · exact decFrames_refs fs as h2 x hx

theorem decFrameMap_refs {d : Dicts} {fuel : Nat} : ∀ (m : List (Bytes × List EFrame)) (gs : List (Bytes × List CallFrame)),
    decFrameMap d fuel m = .ok gs → ∀ kv ∈ m, ∀ f ∈ kv.2, FrameRefsOK d f
  | [], _, _ => by simp
  | (k, fs) :: m, gs, h => by
      rw [decFrameMap] at h
      obtain ⟨a, h1, h⟩ := bind_ok h
      obtain ⟨as, h2, _⟩ := bind_ok h
      intro x hx
      rw [List.mem_cons] at hx
      rcases hx with rfl | hx
      · exact decFrames_refs _ _ h1
      · exact decFrameMap_refs m as h2 x hx

end Verif.Result
