import Verif.Result.EncLemmas

/-!
From the encoder's output through msgpack to the decoder.
-/

namespace Verif.Result

/-! ### Decoding runs -/

theorem dec_single {jn : Int → Except DErr (Bytes × FMap)} {jm : Int → Except DErr FMap} {n : ENode} {v : Bytes} {kids : FMap}
    (h : decEntries jn jm (single n) = .ok (.cons [] v kids .empty)) :
    (match n.ni with
      | some i' => jn i'
      | none => do
        let kids ← match n.ci with
          | some i' => jm i'
          | none => decEntries jn jm n.cvl
        pure (n.v, kids)) = .ok (v, kids) := by
  obtain ⟨ni, nv, ci, cvl⟩ := n
  cases ni with
  | some i =>
      simp only [single, decEntries] at h ⊢
      cases hj : jn i with
      | error e => rw [hj] at h; cases h
      | ok r => rw [hj] at h; obtain ⟨r1, r2⟩ := r; cases h; rfl
  | none =>
      cases ci with
      | some i =>
          simp only [single, decEntries] at h ⊢
          cases hj : jm i with
          | error e => rw [hj] at h; cases h
          | ok r => rw [hj] at h; cases h; rfl
      | none =>
          simp only [single, decEntries] at h ⊢
          cases hj : decEntries jn jm cvl with
          | error e => rw [hj] at h; cases h
          | ok r => rw [hj] at h; cases h; rfl

theorem Dec.run {D : Dicts} {e : EMap} {m : FMap} (h : Dec D e m) :
    ∃ f0, ∀ f, f0 ≤ f → decEntries (jumps D f).1 (jumps D f).2 e = .ok m := by
  induction h with
  | goNil => exact ⟨0, fun _ _ => rfl⟩
  | empty => exact ⟨0, fun _ _ => rfl⟩
  | @node k i v ci cvl rest n v' kids rest' hn _ _ ih1 ih2 =>
      obtain ⟨f1, h1⟩ := ih1
      obtain ⟨f2, h2⟩ := ih2
      refine ⟨max (f1 + 1) f2, ?_⟩
      intro f hf
      obtain ⟨g, rfl⟩ : ∃ g, f = g + 1 := ⟨f - 1, by omega⟩
      have hj : (jumps D (g + 1)).1 i = .ok (v', kids) := by
        have := dec_single (h1 g (by omega))
        simp only [jumps, hn, slotNode, Option.getD_some]
        exact this
      have hr := h2 (g + 1) (by omega)
      simp only [decEntries, hj, hr]
      rfl
  | @kidsDict k v i cvl rest e kids rest' hn _ _ ih1 ih2 =>
      obtain ⟨f1, h1⟩ := ih1
      obtain ⟨f2, h2⟩ := ih2
      refine ⟨max (f1 + 1) f2, ?_⟩
      intro f hf
      obtain ⟨g, rfl⟩ : ∃ g, f = g + 1 := ⟨f - 1, by omega⟩
      have hj : (jumps D (g + 1)).2 i = .ok kids := by
        simp only [jumps, hn, slotMap, Option.getD_some]
        exact h1 g (by omega)
      have hr := h2 (g + 1) (by omega)
      simp only [decEntries, hj, hr]
      rfl
  | @inline k v cvl rest kids rest' _ _ ih1 ih2 =>
      obtain ⟨f1, h1⟩ := ih1
      obtain ⟨f2, h2⟩ := ih2
      refine ⟨max f1 f2, ?_⟩
      intro f hf
      have ha := h1 f (by omega)
      have hb := h2 f (by omega)
      simp only [decEntries, ha, hb]
      rfl

/-! ### msgpack -/

/-- Equal up to nil and empty maps. -/
inductive Eqv : FMap → FMap → Prop
  | empties {a b} : a.isEmpty = true → b.isEmpty = true → Eqv a b
  | cons {k v a b r s} : Eqv a b → Eqv r s → Eqv (.cons k v a r) (.cons k v b s)

theorem Dec.omit {D : Dicts} {e : EMap} {m : FMap} (h : Dec D e m) : ∃ m', Dec D e.omitEmpty m' ∧ Eqv m' m := by
  cases h with
  | goNil => exact ⟨_, Dec.goNil, .empties rfl rfl⟩
  | empty => exact ⟨_, Dec.goNil, .empties rfl rfl⟩
  | node h1 h2 h3 =>
      refine ⟨_, Dec.node h1 h2 h3, ?_⟩
      have : ∀ m, Eqv m m := by
        intro m; induction m with
        | goNil => exact .empties rfl rfl
        | empty => exact .empties rfl rfl
        | cons k v a b iha ihb => exact .cons iha ihb
      exact this _
  | kidsDict h1 h2 h3 =>
      refine ⟨_, Dec.kidsDict h1 h2 h3, ?_⟩
      have : ∀ m, Eqv m m := by
        intro m; induction m with
        | goNil => exact .empties rfl rfl
        | empty => exact .empties rfl rfl
        | cons k v a b iha ihb => exact .cons iha ihb
      exact this _
  | inline h1 h2 =>
      refine ⟨_, Dec.inline h1 h2, ?_⟩
      have : ∀ m, Eqv m m := by
        intro m; induction m with
        | goNil => exact .empties rfl rfl
        | empty => exact .empties rfl rfl
        | cons k v a b iha ihb => exact .cons iha ihb
      exact this _

theorem Eqv.trans {a b : FMap} (h : Eqv a b) : ∀ {c}, Eqv b c → Eqv a c := by
  induction h with
  | empties ha hb =>
      intro c h'
      cases h' with
      | empties _ hc => exact .empties ha hc
      | cons => simp [FMap.isEmpty] at hb
  | cons h1 h2 ih1 ih2 =>
      intro c h'
      cases h' with
      | empties hb _ => simp [FMap.isEmpty] at hb
      | cons h3 h4 => exact .cons (ih1 h3) (ih2 h4)

theorem wire_single (n : ENode) : (single n).wire = single n.wire := rfl

theorem Dicts.wire_fv {D : Dicts} {i : Int} {e : EMap} (h : dictGet D.fv i = some (some e)) :
    dictGet D.wire.fv i = some (some e.wire) := by
  unfold dictGet at *
  split at h
  · rename_i h0
    rw [if_pos h0]
    simp only [Dicts.wire, List.getElem?_map, h]
    rfl
  · simp at h

theorem Dicts.wire_fvn {D : Dicts} {i : Int} {e : ENode} (h : dictGet D.fvn i = some (some e)) :
    dictGet D.wire.fvn i = some (some e.wire) := by
  unfold dictGet at *
  split at h
  · rename_i h0
    rw [if_pos h0]
    simp only [Dicts.wire, List.getElem?_map, h]
    rfl
  · simp at h

theorem Dec.wire {D : Dicts} {e : EMap} {m : FMap} (h : Dec D e m) : ∃ m', Dec D.wire e.wire m' ∧ Eqv m' m := by
  induction h with
  | goNil => exact ⟨_, Dec.goNil, .empties rfl rfl⟩
  | empty => exact ⟨_, Dec.empty, .empties rfl rfl⟩
  | @node k i v ci cvl rest n v' kids rest' hn _ _ ih1 ih2 =>
      obtain ⟨m1, h1, e1⟩ := ih1
      obtain ⟨m2, h2, e2⟩ := ih2
      rw [wire_single] at h1
      cases e1 with
      | empties _ hb => simp [FMap.isEmpty] at hb
      | @cons _ _ a _ r _ ea er =>
          have : r = .empty := by
            revert h1
            generalize n.wire = w
            obtain ⟨wi, wv, wc, wl⟩ := w
            intro h1
            unfold single at h1
            cases h1 <;> (rename_i hr; cases hr; rfl)
          subst this
          exact ⟨_, Dec.node (Dicts.wire_fvn hn) h1 h2, .cons ea e2⟩
  | kidsDict hn _ _ ih1 ih2 =>
      obtain ⟨m1, h1, e1⟩ := ih1
      obtain ⟨m2, h2, e2⟩ := ih2
      exact ⟨_, Dec.kidsDict (Dicts.wire_fv hn) h1 h2, .cons e1 e2⟩
  | inline _ _ ih1 ih2 =>
      obtain ⟨m1, h1, e1⟩ := ih1
      obtain ⟨m2, h2, e2⟩ := ih2
      obtain ⟨m3, h3, e3⟩ := h1.omit
      exact ⟨_, Dec.inline h3 h2, .cons (e3.trans e1) e2⟩

/-! ### Frames -/

section
variable {c : Cfg} {ms : List FMap} {ns : List (Bytes × FMap)} {Q : FMap → FMap → Prop}

/-- State between frames: every key has a filled slot, every stack key its stack. -/
structure FrameInv (c : Cfg) (ms : List FMap) (ns : List (Bytes × FMap)) (Q : FMap → FMap → Prop)
    (sts : List (List StackFrame)) (s : EncState) : Prop where
  pre : ∀ R, Pre c ms ns Q s R R
  st : ∀ key pos, s.stIdx.get key = some pos → ∃ x ∈ sts, c.stackKey x = key ∧ s.d.st[pos]? = some x

/-- An encoded frame stands for a frame. -/
structure FrameRep (Q : FMap → FMap → Prop) (D : Dicts) (e : EFrame) (f : CallFrame) : Prop where
  fields : ∃ d, DecIdx D e.fv e.fvi d ∧ Q d f.fields
  stack : match e.si with
    | none => e.st = f.stack
    | some i => 0 ≤ i ∧ D.st[i.toNat]? = some f.stack
  time : e.t = f.time

/-- Filled slots and stacks stay. -/
structure DLeS (D D' : Dicts) : Prop extends DLe D D' where
  st : ∀ (i : Nat) x, D.st[i]? = some x → D'.st[i]? = some x

theorem DLeS.trans {A B C : Dicts} (h : DLeS A B) (h' : DLeS B C) : DLeS A C :=
  ⟨h.toDLe.trans h'.toDLe, fun i x hx => h'.st i x (h.st i x hx)⟩

theorem DLeS.refl (A : Dicts) : DLeS A A := ⟨DLe.refl A, fun _ _ h => h⟩

theorem FrameRep.mono {D D' : Dicts} (h : DLeS D D') {e f} (hr : FrameRep Q D e f) : FrameRep Q D' e f where
  fields := by
    obtain ⟨d, hd, hq⟩ := hr.fields
    refine ⟨d, ?_, hq⟩
    unfold DecIdx at *
    cases hi : e.fvi with
    | none => rw [hi] at hd; exact hd.mono h.toDLe
    | some i =>
        rw [hi] at hd
        obtain ⟨e', h1, h2⟩ := hd
        exact ⟨e', h.getFv h1, h2.mono h.toDLe⟩
  stack := by
    have := hr.stack
    cases hi : e.si with
    | none => rw [hi] at this; exact this
    | some i => rw [hi] at this; exact ⟨this.1, h.st _ _ this.2⟩
  time := hr.time

theorem encFrame_ok (hQ : MatchOK c.H ms ns Q) {sts : List (List StackFrame)} (hst : StackKeysOK c.stackKey sts) (f : CallFrame)
    (hm : f.fields ∈ ms) (hms : ∀ k ∈ subMaps f.fields, k ∈ ms) (hns : ∀ n ∈ subNodes f.fields, n ∈ ns) (hs : f.stack ∈ sts)
    (s : EncState) (hi : FrameInv c ms ns Q sts s) :
    FrameInv c ms ns Q sts (encFrame c f s).2 ∧ DLeS s.d (encFrame c f s).2.d ∧
      FrameRep Q (encFrame c f s).2.d (encFrame c f s).1 f := by
  obtain ⟨hpost, d, hd, hq⟩ := encFV_ok (c := c) hQ f.fields hm (encEntries c f.fields)
    (fun s hp => encEntries_ok hQ f.fields hms hns _ (stream_kids_lt f.fields) s hp) s
    ((stream f.fields).length + 1) ((stream f.fields).length + 1) (hi.pre _) (by omega) (by omega)
  unfold encFrame encodeFV
  generalize encFVWith c (encEntries c f.fields) f.fields s = r at hpost hd ⊢
  obtain ⟨e, i, s1⟩ := r
  simp only at hpost hd ⊢
  have hpre1 : ∀ R, Pre c ms ns Q s1 R R := fun R => (hi.pre R).post hpost
  have hle1 : DLeS s.d s1.d := ⟨hpost.dle, fun i x hx => by rw [hpost.st]; exact hx⟩
  have hst1 : ∀ key pos, s1.stIdx.get key = some pos → ∃ x ∈ sts, c.stackKey x = key ∧ s1.d.st[pos]? = some x := by
    rw [hpost.stIdx, hpost.st]; exact hi.st
  split
  · split
    · rename_i pos hpos
      obtain ⟨x, hx, hk, hg⟩ := hst1 _ _ hpos
      have : x = f.stack := hst x hx _ hs hk
      subst this
      exact ⟨⟨hpre1, hst1⟩, hle1, ⟨d, hd, hq⟩, ⟨by omega, by simpa using hg⟩, rfl⟩
    · rename_i hnone
      have hle2 : DLeS s1.d { s1.d with st := s1.d.st ++ [f.stack] } :=
        ⟨⟨fun _ _ h => h, fun _ _ h => h⟩, fun i x hx => prefix_getElem? (List.prefix_append _ _) hx⟩
      refine ⟨⟨?_, ?_⟩, hle1.trans hle2, ?_⟩
      · intro R
        exact ⟨fun key pos hk a ha he hr => ((hpre1 R).m key pos hk a ha he hr).mono hle2.toDLe,
          fun key pos hk a ha he hr => ((hpre1 R).n key pos hk a ha he hr).mono hle2.toDLe⟩
      · intro key pos hk
        simp only [AMap.get_set] at hk
        split at hk
        · rename_i hkey
          cases hk
          exact ⟨f.stack, hs, hkey.symm, by simp⟩
        · obtain ⟨x, hx, h1, h2⟩ := hst1 key pos hk
          exact ⟨x, hx, h1, prefix_getElem? (List.prefix_append _ _) h2⟩
      · refine FrameRep.mk ?_ ?_ rfl
        · refine ⟨d, ?_, hq⟩
          unfold DecIdx at *
          cases i with
          | none => exact hd.mono hle2.toDLe
          | some i =>
              obtain ⟨e', h1, h2⟩ := hd
              exact ⟨e', h1, h2.mono hle2.toDLe⟩
        · exact ⟨by omega, by simp⟩
  · exact ⟨⟨hpre1, hst1⟩, hle1, ⟨d, hd, hq⟩, rfl, rfl⟩

/-- A frame all of whose parts are known. -/
def FrameIn (ms : List FMap) (ns : List (Bytes × FMap)) (sts : List (List StackFrame)) (f : CallFrame) : Prop :=
  f.fields ∈ ms ∧ (∀ k ∈ subMaps f.fields, k ∈ ms) ∧ (∀ n ∈ subNodes f.fields, n ∈ ns) ∧ f.stack ∈ sts

theorem encFrames_ok (hQ : MatchOK c.H ms ns Q) {sts : List (List StackFrame)} (hst : StackKeysOK c.stackKey sts) :
    ∀ (fs : List CallFrame) (_ : ∀ f ∈ fs, FrameIn ms ns sts f) (s : EncState) (_ : FrameInv c ms ns Q sts s),
    FrameInv c ms ns Q sts (encFrames c fs s).2 ∧ DLeS s.d (encFrames c fs s).2.d ∧
      List.Forall₂ (FrameRep Q (encFrames c fs s).2.d) (encFrames c fs s).1 fs
  | [], _, s, hi => ⟨hi, DLeS.refl _, .nil⟩
  | f :: fs, hf, s, hi => by
      obtain ⟨h1, h2, h3, h4⟩ := hf f (by simp)
      obtain ⟨i1, l1, r1⟩ := encFrame_ok hQ hst f h1 h2 h3 h4 s hi
      obtain ⟨i2, l2, r2⟩ := encFrames_ok hQ hst fs (fun x hx => hf x (List.mem_cons_of_mem _ hx)) (encFrame c f s).2 i1
      exact ⟨i2, l1.trans l2, .cons (r1.mono l2) r2⟩

theorem encFrameMap_ok (hQ : MatchOK c.H ms ns Q) {sts : List (List StackFrame)} (hst : StackKeysOK c.stackKey sts) :
    ∀ (m : List (Bytes × List CallFrame)) (_ : ∀ kv ∈ m, ∀ f ∈ kv.2, FrameIn ms ns sts f) (s : EncState)
      (_ : FrameInv c ms ns Q sts s),
    FrameInv c ms ns Q sts (encFrameMap c m s).2 ∧ DLeS s.d (encFrameMap c m s).2.d ∧
      List.Forall₂ (fun x y => x.1 = y.1 ∧ List.Forall₂ (FrameRep Q (encFrameMap c m s).2.d) x.2 y.2) (encFrameMap c m s).1 m
  | [], _, s, hi => ⟨hi, DLeS.refl _, .nil⟩
  | (k, fs) :: m, hf, s, hi => by
      obtain ⟨i1, l1, r1⟩ := encFrames_ok hQ hst fs (hf (k, fs) (by simp)) s hi
      obtain ⟨i2, l2, r2⟩ := encFrameMap_ok hQ hst m (fun x hx => hf x (List.mem_cons_of_mem _ hx)) (encFrames c fs s).2 i1
      exact ⟨i2, l1.trans l2, .cons ⟨rfl, r1.imp fun _ _ h => h.mono l2⟩ r2⟩

/-! ### Decoding of frames -/

/-- A decoded frame matches. -/
def QFrame (Q : FMap → FMap → Prop) (a b : CallFrame) : Prop := Q a.fields b.fields ∧ a.stack = b.stack ∧ a.time = b.time

theorem decFrame_ok (hE : ∀ a b m, Eqv a b → Q b m → Q a m) {D : Dicts} {e : EFrame} {f : CallFrame} (h : FrameRep Q D e f) :
    ∃ g f0, (∀ fuel, f0 ≤ fuel → decFrame D.wire fuel e.wire = .ok g) ∧ QFrame Q g f := by
  obtain ⟨d, hd, hq⟩ := h.fields
  have hst : decStack D.wire e.wire = .ok f.stack := by
    have := h.stack
    unfold decStack
    show (match e.si with | none => _ | some i => _) = _
    cases hi : e.si with
    | none => rw [hi] at this; simp only at this ⊢; rw [← this]; rfl
    | some i =>
        rw [hi] at this
        simp only
        rw [if_pos this.1, show D.wire.st = D.st from rfl, this.2]
  have hfv : ∃ d' f0, (∀ fuel, f0 ≤ fuel → decFV D.wire fuel e.wire.fv e.wire.fvi = .ok d') ∧ Q d' f.fields := by
    show ∃ d' f0, (∀ fuel, f0 ≤ fuel → decFV D.wire fuel e.fv.wire.omitEmpty e.fvi = .ok d') ∧ _
    unfold DecIdx at hd
    cases hi : e.fvi with
    | none =>
        rw [hi] at hd
        obtain ⟨m1, h1, e1⟩ := hd.wire
        obtain ⟨m2, h2, e2⟩ := h1.omit
        obtain ⟨f0, hr⟩ := h2.run
        exact ⟨m2, f0, fun fuel hf => hr fuel hf, hE _ _ _ (e2.trans e1) hq⟩
    | some i =>
        rw [hi] at hd
        obtain ⟨e', h0, h1⟩ := hd
        obtain ⟨m1, h1, e1⟩ := h1.wire
        obtain ⟨f0, hr⟩ := h1.run
        refine ⟨m1, f0 + 1, ?_, hE _ _ _ e1 hq⟩
        intro fuel hf
        obtain ⟨g, rfl⟩ : ∃ g, fuel = g + 1 := ⟨fuel - 1, by omega⟩
        simp only [decFV, jumps, Dicts.wire_fv h0, slotMap, Option.getD_some]
        exact hr g (by omega)
  obtain ⟨d', f0, hf, hq'⟩ := hfv
  refine ⟨⟨d', f.stack, f.time⟩, f0, ?_, hq', rfl, rfl⟩
  intro fuel hfu
  unfold decFrame
  rw [hf fuel hfu, hst]
  show Except.ok (CallFrame.mk d' f.stack e.wire.t) = _
  rw [show e.wire.t = e.t from rfl, h.time]

theorem decFrames_ok (hE : ∀ a b m, Eqv a b → Q b m → Q a m) {D : Dicts} {es : List EFrame} {fs : List CallFrame}
    (h : List.Forall₂ (FrameRep Q D) es fs) :
    ∃ gs f0, (∀ fuel, f0 ≤ fuel → decFrames D.wire fuel (es.map EFrame.wire) = .ok gs) ∧ List.Forall₂ (QFrame Q) gs fs := by
  induction h with
  | nil => exact ⟨[], 0, fun _ _ => rfl, .nil⟩
  | cons h1 _ ih =>
      obtain ⟨g, f1, h2, h3⟩ := decFrame_ok hE h1
      obtain ⟨gs, f2, h4, h5⟩ := ih
      refine ⟨g :: gs, max f1 f2, ?_, .cons h3 h5⟩
      intro fuel hf
      simp only [List.map_cons, decFrames, h2 fuel (by omega), h4 fuel (by omega)]
      rfl

theorem decFrameMap_ok (hE : ∀ a b m, Eqv a b → Q b m → Q a m) {D : Dicts} {es : List (Bytes × List EFrame)}
    {fs : List (Bytes × List CallFrame)}
    (h : List.Forall₂ (fun x y => x.1 = y.1 ∧ List.Forall₂ (FrameRep Q D) x.2 y.2) es fs) :
    ∃ gs f0, (∀ fuel, f0 ≤ fuel → decFrameMap D.wire fuel (es.map fun kv => (kv.1, kv.2.map EFrame.wire)) = .ok gs) ∧
      List.Forall₂ (fun x y => x.1 = y.1 ∧ List.Forall₂ (QFrame Q) x.2 y.2) gs fs := by
  induction h with
  | nil => exact ⟨[], 0, fun _ _ => rfl, .nil⟩
  | @cons x y _ _ h1 _ ih =>
      obtain ⟨g, f1, h2, h3⟩ := decFrames_ok hE h1.2
      obtain ⟨gs, f2, h4, h5⟩ := ih
      refine ⟨(x.1, g) :: gs, max f1 f2, ?_, .cons ⟨h1.1, h3⟩ h5⟩
      intro fuel hf
      simp only [List.map_cons, decFrameMap, h2 fuel (by omega), h4 fuel (by omega)]
      rfl

end

theorem frameIn_of {tr : TestResult} {f : CallFrame} (h : f ∈ tr.frames) : FrameIn tr.maps tr.nodes tr.stacks f := by
  refine ⟨?_, ?_, ?_, ?_⟩
  · exact List.mem_flatMap.mpr ⟨f, h, by simp⟩
  · intro k hk; exact List.mem_flatMap.mpr ⟨f, h, List.mem_cons_of_mem _ hk⟩
  · intro n hn; exact List.mem_flatMap.mpr ⟨f, h, hn⟩
  · exact List.mem_map.mpr ⟨f, h, rfl⟩

/-- The whole way, for any matching relation. -/
theorem decode_encode_match {H : Bytes → Bytes} {Q : FMap → FMap → Prop} (tr : TestResult) (c : Cfg) (hc : c.H = H)
    (hQ : MatchOK H tr.maps tr.nodes Q) (hE : ∀ a b m, Eqv a b → Q b m → Q a m) (hst : StackKeysOK c.stackKey tr.stacks) :
    ∃ r f0, (∀ fuel, f0 ≤ fuel → decode fuel (encode c tr).wire = .ok r) ∧
      r.testIdent = tr.testIdent ∧ r.testName = tr.testName ∧ r.projectPanics = tr.projectPanics ∧
      r.modulePanics = tr.modulePanics ∧ r.changesHit = tr.changesHit ∧ r.failure = tr.failure ∧
      List.Forall₂ (fun x y => x.1 = y.1 ∧ List.Forall₂ (QFrame Q) x.2 y.2) r.callers tr.callers ∧
      List.Forall₂ (fun x y => x.1 = y.1 ∧ List.Forall₂ (QFrame Q) x.2 y.2) r.extension tr.extension := by
  subst hc
  have hi0 : FrameInv c tr.maps tr.nodes Q tr.stacks encInit :=
    ⟨fun R => ⟨fun _ _ h => by simp [encInit] at h, fun _ _ h => by simp [encInit] at h⟩,
     fun _ _ h => by simp [encInit] at h⟩
  obtain ⟨i1, _, r1⟩ := encFrameMap_ok hQ hst tr.callers
    (fun kv hkv f hf => frameIn_of (List.mem_append_left _ (List.mem_flatMap.mpr ⟨kv, hkv, hf⟩))) encInit hi0
  obtain ⟨_, l2, r2⟩ := encFrameMap_ok hQ hst tr.extension
    (fun kv hkv f hf => frameIn_of (List.mem_append_right _ (List.mem_flatMap.mpr ⟨kv, hkv, hf⟩))) _ i1
  have r1' := r1.imp fun _ _ h => And.intro h.1 (h.2.imp fun _ _ h' => FrameRep.mono l2 h')
  obtain ⟨g1, f1, d1, q1⟩ := decFrameMap_ok hE r1'
  obtain ⟨g2, f2, d2, q2⟩ := decFrameMap_ok hE r2
  refine ⟨⟨tr.testIdent, tr.testName, g1, tr.projectPanics, tr.modulePanics, tr.changesHit, tr.failure, g2⟩,
    max f1 f2, ?_, rfl, rfl, rfl, rfl, rfl, rfl, q1, q2⟩
  intro fuel hf
  have e1 := d1 fuel (by omega)
  have e2 := d2 fuel (by omega)
  unfold decode decodeInto
  have hcall : (encode c tr).wire.callers = (encFrameMap c tr.callers encInit).1.map fun kv => (kv.1, kv.2.map EFrame.wire) := rfl
  have hext : (encode c tr).wire.extension =
      (encFrameMap c tr.extension (encFrameMap c tr.callers encInit).2).1.map fun kv => (kv.1, kv.2.map EFrame.wire) := rfl
  have hd : (encode c tr).wire.dicts = (encFrameMap c tr.extension (encFrameMap c tr.callers encInit).2).2.d.wire := rfl
  have hx : decExt [] fuel (encode c tr).wire = .ok g2 := by
    unfold decExt
    rw [hext, hd]
    split
    · rename_i hemp
      rw [hemp] at e2
      cases e2; rfl
    · exact e2
  rw [hcall, hd, e1, hx]
  rfl

end Verif.Result
