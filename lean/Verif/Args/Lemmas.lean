import Verif.Args.Spec
import Verif.Temps.Lemmas
import Mathlib.Data.List.Forall2

namespace Verif.Args

open Verif.Temps (Sys Dyn Sem Name Ctx Laws declare into conv itoa pArg pRecv)

variable {S : Sys}

/-! ### Names -/

theorem argTmp_inj {pid i j : Nat} (h : argTmp pid i = argTmp pid j) : i = j := by
  have := List.append_cancel_left h
  exact Temps.itoa_inj (List.cons.inj this).2

theorem recv_arg (pid i : Nat) : recvTmp pid ≠ argTmp pid i := by
  intro h
  unfold recvTmp argTmp at h
  rw [List.append_assoc] at h
  have h' : (pRecv ++ itoa pid)[12]? = (pArg ++ (itoa pid ++ '_' :: itoa i))[12]? := by rw [h]
  rw [List.getElem?_append_left (by decide), List.getElem?_append_left (by decide)] at h'
  revert h'
  decide

/-! ### Definitions -/

/-- The variable of `n := e`. -/
def defined : Sense S → Option (S.T × Dyn S)
  | .one (.typed t v) => some (t, v)
  | .one (.untyped k) => (into (S.dflt k) (.untyped k)).map fun v => (S.dflt k, v)
  | _ => none

theorem define_eq (c : Ctx S) (n : Name) (s : Option (Sense S)) : define c n s = (s.bind defined).bind fun x => declare c n x.1 x.2 := by
  unfold define defined
  match s with
  | none => rfl
  | some (.one (.typed t v)) => rfl
  | some (.one (.untyped k)) => simp only [Option.bind_some]; cases into (S.dflt k) (.untyped k) <;> rfl
  | some (.one .nil) => rfl
  | some (.many _) => rfl
  | some .noValue => rfl

theorem defineAll_some {p : Place} : ∀ {l : List (Name × Expr S)} {c c' : Ctx S}, defineAll p c l = some c' →
    (∃ d, c' = c ++ d) ∧ ∀ q ∈ l, ∃ x, (q.2.before p).bind defined = some x ∧ c'.get q.1 = some x
  | [], c, c', h => by
    cases h
    exact ⟨⟨[], by simp⟩, by simp⟩
  | (n, e) :: l, c, c', h => by
    rw [defineAll, define_eq] at h
    obtain ⟨c1, h1, h2⟩ := Option.bind_eq_some_iff.mp h
    obtain ⟨x, hx, h1⟩ := Option.bind_eq_some_iff.mp h1
    obtain ⟨hn, rfl⟩ := Temps.declare_some h1
    obtain ⟨⟨d, rfl⟩, g⟩ := defineAll_some h2
    refine ⟨⟨(n, x.1, x.2) :: d, by simp⟩, fun q hq => ?_⟩
    rcases List.mem_cons.mp hq with rfl | hq
    · exact ⟨x, hx, Temps.get_append_some (Temps.get_snoc hn _ _)⟩
    · exact g q hq

theorem defineAll_ok {p : Place} : ∀ {l : List (Name × Expr S)} {c : Ctx S}, (∀ q ∈ l, ∃ x, (q.2.before p).bind defined = some x) → (l.map (·.1)).Nodup →
    (∀ q ∈ l, c.get q.1 = none) → ∃ c', defineAll p c l = some c'
  | [], c, _, _, _ => ⟨c, rfl⟩
  | (n, e) :: l, c, h, hd, hf => by
    obtain ⟨x, hx⟩ := h (n, e) List.mem_cons_self
    rw [List.map_cons, List.nodup_cons] at hd
    have hn := hf (n, e) List.mem_cons_self
    obtain ⟨c', hc'⟩ := defineAll_ok (p := p) (l := l) (c := c ++ [(n, x.1, x.2)]) (fun q hq => h q (List.mem_cons_of_mem _ hq)) hd.2 fun q hq =>
      Temps.get_snoc_ne (hf q (List.mem_cons_of_mem _ hq)) (by rintro rfl; exact hd.1 (List.mem_map.mpr ⟨q, hq, rfl⟩)) _ _
    refine ⟨c', ?_⟩
    rw [defineAll, define_eq, hx, Option.bind_some, Temps.declare_fresh hn, Option.bind_some]
    exact hc'

/-! ### Lists -/

theorem reported_append {p : Place} {c : Ctx S} : ∀ (a b : List (Name × RExpr S)), reported p c (a ++ b) = (reported p c a).bind fun x => (reported p c b).map (x ++ ·)
  | [], b => by simp [reported]
  | (n, e) :: a, b => by
    rw [List.cons_append, reported, reported, reported_append a b]
    cases (e.before p c).bind (taken S.top) with
    | none => rfl
    | some v => cases reported p c a <;> cases reported p c b <;> rfl

theorem forall_iff_get {α β : Type} {R : α → β → Prop} {l : List α} {m : List β} : List.Forall₂ R l m ↔ l.length = m.length ∧ ∀ (i : Nat) a b, l[i]? = some a → m[i]? = some b → R a b := by
  rw [List.forall₂_iff_get]
  constructor
  · rintro ⟨h1, h2⟩
    refine ⟨h1, fun i a b ha hb => ?_⟩
    obtain ⟨hi, rfl⟩ := List.getElem?_eq_some_iff.mp ha
    obtain ⟨hj, rfl⟩ := List.getElem?_eq_some_iff.mp hb
    exact h2 i hi hj
  · rintro ⟨h1, h2⟩
    exact ⟨h1, fun i hi hj => h2 i _ _ (List.getElem?_eq_getElem _) (List.getElem?_eq_getElem _)⟩

theorem reported_iff {p : Place} {c : Ctx S} : ∀ {l : List (Name × RExpr S)} {fs : List (Name × Dyn S)}, reported p c l = some fs ↔
    List.Forall₂ (fun q f => q.1 = f.1 ∧ (q.2.before p c).bind (taken S.top) = some f.2) l fs
  | [], fs => by simp [reported]
  | (n, e) :: l, fs => by
    rw [reported]
    constructor
    · intro h
      obtain ⟨v, hv, h⟩ := Option.bind_eq_some_iff.mp h
      obtain ⟨fs', hf, rfl⟩ := Option.map_eq_some_iff.mp h
      exact .cons ⟨rfl, hv⟩ (reported_iff.mp hf)
    · rintro (_ | ⟨⟨h1, h2⟩, h3⟩)
      rename_i f fs'
      obtain ⟨n', v⟩ := f
      cases h1
      rw [h2, Option.bind_some, reported_iff.mpr h3]
      rfl

theorem senses_iff {c : Ctx S} : ∀ {l : List (RExpr S)} {ss : List (Sense S)}, senses c l = some ss ↔ List.Forall₂ (fun e s => e.sense c = some s) l ss
  | [], ss => by simp [senses]
  | e :: l, ss => by
    rw [senses]
    constructor
    · intro h
      obtain ⟨v, hv, h⟩ := Option.bind_eq_some_iff.mp h
      obtain ⟨fs', hf, rfl⟩ := Option.map_eq_some_iff.mp h
      exact .cons hv (senses_iff.mp hf)
    · rintro (_ | ⟨h2, h3⟩)
      rw [h2, Option.bind_some, senses_iff.mpr h3]
      rfl

/-- Arguments that are values. -/
theorem takenAll_iff : ∀ {ts : List S.T} {as : List (Sense S)} {vs : List (Dyn S)}, (∀ a ∈ as, ∃ s, a = .one s) →
    (takenAll ts as = some vs ↔ ts.length = as.length ∧ List.Forall₂ (fun (q : S.T × Sense S) v => taken q.1 q.2 = some v) (ts.zip as) vs)
  | [], [], vs, _ => by simp [takenAll]
  | [], a :: as, vs, h => by
    obtain ⟨s, rfl⟩ := h a (by simp)
    simp [takenAll]
  | t :: ts, [], vs, _ => by simp [takenAll]
  | t :: ts, a :: as, vs, h => by
    obtain ⟨s, rfl⟩ := h a (by simp)
    rw [takenAll]
    · constructor
      · intro g
        obtain ⟨v, hv, g⟩ := Option.bind_eq_some_iff.mp g
        obtain ⟨vs', hf, rfl⟩ := Option.map_eq_some_iff.mp g
        obtain ⟨h1, h2⟩ := (takenAll_iff fun a ha => h a (List.mem_cons_of_mem _ ha)).mp hf
        exact ⟨by simp [h1], .cons hv h2⟩
      · rintro ⟨h1, _ | ⟨h2, h3⟩⟩
        rw [h2, Option.bind_some, (takenAll_iff fun a ha => h a (List.mem_cons_of_mem _ ha)).mpr ⟨by simpa using h1, h3⟩]
        rfl
    · rintro ss h1 -
      cases h1

theorem isConst_iff : ∀ s, isConst s = true ↔ Literal s
  | .lit => ⟨fun _ => .lit, fun _ => rfl⟩
  | .ident x => by constructor <;> intro h <;> cases h
  | .sel => by constructor <;> intro h <;> cases h
  | .other => by constructor <;> intro h <;> cases h
  | .unary e => by
    rw [isConst, isConst_iff e]
    exact ⟨.unary, fun h => by cases h; assumption⟩
  | .paren e => by
    rw [isConst, isConst_iff e]
    exact ⟨.paren, fun h => by cases h; assumption⟩
  | .binary a b => by
    rw [isConst, Bool.and_eq_true, isConst_iff a, isConst_iff b]
    exact ⟨fun h => .binary h.1 h.2, fun h => by cases h; exact ⟨by assumption, by assumption⟩⟩

theorem moved_iff (e : Expr S) : moved e = true ↔ ¬ Stays e.syn := by
  have h := isConst_iff e.syn
  unfold moved Stays
  cases he : e.syn with
  | ident x => simp
  | sel => simp
  | lit => simp [Literal.lit]
  | _ => rw [he] at h; simp [← h]

theorem lastPart_iff (p n : Name) : lastPart p = n ↔ (p = n ∨ ∃ d, p = d ++ '/' :: n) ∧ '/' ∉ n := by
  unfold lastPart
  have hsplit := List.takeWhile_append_dropWhile (p := fun x : Char => decide (x ≠ '/')) (l := p.reverse)
  constructor
  · rintro rfl
    refine ⟨?_, fun h => ?_⟩
    · cases hd : p.reverse.dropWhile (fun x => decide (x ≠ '/')) with
      | nil =>
        rw [hd, List.append_nil] at hsplit
        left
        rw [hsplit, List.reverse_reverse]
      | cons a l =>
        right
        have ha : a = '/' := by
          have := List.head?_dropWhile_not (fun x : Char => decide (x ≠ '/')) p.reverse
          rw [hd] at this
          simpa using this
        refine ⟨l.reverse, ?_⟩
        rw [hd, ha] at hsplit
        have := congrArg List.reverse hsplit
        rw [List.reverse_reverse, List.reverse_append, List.reverse_cons, List.append_assoc, List.singleton_append] at this
        exact this.symm
    · have hall := List.all_takeWhile (p := fun x : Char => decide (x ≠ '/')) (l := p.reverse)
      have := List.all_eq_true.mp hall _ (List.mem_reverse.mp h)
      simp at this
  · rintro ⟨h, hn⟩
    have htake : ∀ (a b : List Char), '/' ∉ a → (a ++ '/' :: b).takeWhile (fun x => decide (x ≠ '/')) = a ∧ a.takeWhile (fun x => decide (x ≠ '/')) = a := fun a b ha => by
      have hall : ∀ x ∈ a, decide (x ≠ '/') = true := fun x hx => decide_eq_true fun he => ha (he ▸ hx)
      rw [List.takeWhile_append_of_pos hall]
      refine ⟨by simp, ?_⟩
      have := List.takeWhile_append_of_pos (l₂ := []) hall
      simpa using this
    have hn' : '/' ∉ n.reverse := by simpa using hn
    rcases h with rfl | ⟨d, rfl⟩
    · rw [(htake p.reverse [] hn').2, List.reverse_reverse]
    · rw [List.reverse_append, List.reverse_cons, List.append_assoc, List.singleton_append, (htake n.reverse d.reverse hn').1, List.reverse_reverse]

theorem mem_packages (is : List Import) (n : Name) : n ∈ packageNames is ↔ ∃ i ∈ is, i.1 = some n ∨ (i.1 = none ∧ (i.2 = n ∨ ∃ d, i.2 = d ++ '/' :: n) ∧ '/' ∉ n) := by
  unfold packageNames
  rw [List.mem_map]
  refine exists_congr fun i => and_congr_right fun _ => ?_
  cases i.1 with
  | none => simp [lastPart_iff]
  | some m => simp

/-! ### One argument -/

theorem arg_moved (hL : Laws S) {t : S.T} {s : Sem S} {v : Dyn S} (h : into t s = some v) : (∃ x w v', defined (.one s) = some x ∧ into S.top (.typed x.1 x.2) = some w ∧
    into t (.typed x.1 x.2) = some v') ↔ Fits s ∧ Typable t s := by
  cases s with
  | typed t' u =>
    refine ⟨fun _ => ⟨fun k hk => (by cases hk), trivial⟩, fun _ => ⟨(t', u), conv u S.top, v, rfl, ?_, h⟩⟩
    simp only [into, hL.top, if_true]
  | untyped k =>
    constructor
    · rintro ⟨x, w, v', h1, _, h3⟩
      obtain ⟨u, hu, rfl⟩ := Option.map_eq_some_iff.mp h1
      have hfit : S.fits k (S.dflt k) = true := by
        simp only [into] at hu
        split at hu
        · assumption
        · cases hu
      refine ⟨fun k' hk => by cases hk; exact hfit, ?_⟩
      simp only [into] at h3
      split at h3
      · assumption
      · cases h3
    · rintro ⟨h1, h2⟩
      have hfit := h1 k rfl
      refine ⟨(S.dflt k, some (S.dflt k, S.const k (S.dflt k))), some (S.dflt k, S.const k (S.dflt k)), conv (some (S.dflt k, S.const k (S.dflt k))) t, ?_, ?_, ?_⟩
      · simp [defined, into, hfit, hL.dfltIface]
      · simp [into, hL.top, conv, hL.topIface]
      · have h2' : S.assign (S.dflt k) t = true := h2
        simp only [into, h2', if_true]
  | nil => simp [defined, Typable]

theorem into_top_fits (hL : Laws S) {s : Sem S} {w : Dyn S} (h : into S.top s = some w) : Fits s := by
  rintro k rfl
  simp only [into] at h
  split at h
  · exact (hL.ifaceFits k S.top hL.topIface (by assumption)).1
  · cases h

theorem into_top_ok (hL : Laws S) (hN : S.nilable S.top = true) {s : Sem S} (h : Fits s) : ∃ w, into S.top s = some w := by
  cases s with
  | typed t v => exact ⟨_, by simp only [into, hL.top, if_true]; rfl⟩
  | untyped k => exact ⟨_, by simp only [into, hL.topFits k (h k rfl), if_true]; rfl⟩
  | nil => exact ⟨_, by simp only [into, hN, if_true]; rfl⟩

/-- The variable has the value of the argument. -/
theorem moved_value (hL : Laws S) {t : S.T} {s : Sem S} {x : S.T × Dyn S} {v v' : Dyn S} (h : into t s = some v) (hx : defined (.one s) = some x)
    (h' : into t (.typed x.1 x.2) = some v') : v' = v := by
  cases s with
  | typed t' u =>
    cases hx
    exact Option.some.inj (h'.symm.trans h)
  | untyped k =>
    obtain ⟨u, hu, rfl⟩ := Option.map_eq_some_iff.mp hx
    exact Temps.into_dflt hL h hu h'
  | nil => cases hx

theorem moved_top (hL : Laws S) {s : Sem S} {x : S.T × Dyn S} (hx : defined (.one s) = some x) : into S.top s = into S.top (.typed x.1 x.2) := by
  cases s with
  | typed t' u => cases hx; rfl
  | untyped k =>
    obtain ⟨u, hu, rfl⟩ := Option.map_eq_some_iff.mp hx
    have hu' := hu
    simp only [into] at hu
    split at hu
    · rename_i hf
      rw [hL.dfltIface] at hu
      cases hu
      simp [into, hL.topFits k hf, hL.topIface, hL.top, conv]
    · cases hu
  | nil => cases hx

/-! ### The whole -/

theorem before_eq {p : Place} {e : Expr S} (h : ∀ n ∈ e.names, n ∉ p.hidden) : e.before p = some e.sense := by
  unfold Expr.before
  rw [if_neg]
  rintro ⟨n, h1, h2⟩
  exact h n h1 h2

theorem pre_mem {pid : Nat} {args : List (Expr S)} {q : Name × Expr S} : q ∈ (args.mapIdx (argPre pid)).flatten ↔
    ∃ i, args[i]? = some q.2 ∧ moved q.2 = true ∧ q.1 = argTmp pid i := by
  rw [List.mem_flatten]
  constructor
  · rintro ⟨l, hl, hq⟩
    obtain ⟨i, hi⟩ := List.getElem?_of_mem hl
    rw [List.getElem?_mapIdx] at hi
    obtain ⟨e, he, rfl⟩ := Option.map_eq_some_iff.mp hi
    unfold argPre at hq
    split at hq
    · rw [List.mem_singleton.mp hq]
      exact ⟨i, he, by assumption, rfl⟩
    · cases hq
  · rintro ⟨i, h1, h2, h3⟩
    obtain ⟨n, e⟩ := q
    refine ⟨argPre pid i e, List.mem_of_getElem? (i := i) (by rw [List.getElem?_mapIdx, h1]; rfl), ?_⟩
    unfold argPre
    rw [if_pos h2]
    exact List.mem_singleton.mpr (Prod.ext h3 rfl)

theorem pre_nodup (pid : Nat) (args : List (Expr S)) : ((args.mapIdx (argPre pid)).flatten.map (·.1)).Nodup := by
  have key : ∀ (args : List (Expr S)) (k : Nat), ((args.mapIdx fun i e => argPre pid (i + k) e).flatten.map (·.1)).Nodup ∧
      ∀ n ∈ (args.mapIdx fun i e => argPre pid (i + k) e).flatten.map (·.1), ∃ i, k ≤ i ∧ n = argTmp pid i := by
    intro args
    induction args with
    | nil => intro k; simp
    | cons e args ih =>
      intro k
      obtain ⟨h1, h2⟩ := ih (k + 1)
      have he : (fun i e => argPre (S := S) pid (i + 1 + k) e) = fun i e => argPre pid (i + (k + 1)) e := by
        funext i e
        rw [Nat.add_right_comm i 1 k]
        rfl
      rw [List.mapIdx_cons, he, List.flatten_cons, List.map_append, Nat.zero_add]
      have h0 : ∀ n ∈ (argPre pid k e).map (·.1), n = argTmp pid k := fun n hn => by
        unfold argPre at hn
        split at hn <;> simp at hn; exact hn
      refine ⟨List.nodup_append.mpr ⟨?_, h1, fun a ha b hb hab => ?_⟩, fun n hn => ?_⟩
      · unfold argPre
        split <;> simp
      · obtain ⟨i, hi, rfl⟩ := h2 b hb
        rw [h0 a ha] at hab
        exact absurd (argTmp_inj hab) (by omega)
      · rcases List.mem_append.mp hn with hn | hn
        · exact ⟨k, le_refl _, h0 n hn⟩
        · obtain ⟨i, hi, rfl⟩ := h2 n hn
          exact ⟨i, by omega, rfl⟩
  have := (key args 0).1
  simpa using this

/-! ### The arguments -/

/-- The variables of the arguments. -/
def Held (c : Ctx S) (pid : Nat) (args : List (Expr S)) : Prop := ∀ (i : Nat) e, args[i]? = some e → moved e = true → ∃ x, defined e.sense = some x ∧ c.get (argTmp pid i) = some x

theorem zip_get {α β : Type} {l : List α} {m : List β} {i : Nat} {a : α} {b : β} (h1 : l[i]? = some a) (h2 : m[i]? = some b) : (l.zip m)[i]? = some (a, b) := by
  rw [List.getElem?_zip_eq_some]
  exact ⟨h1, h2⟩

theorem args_value {p : Place} {c : Ctx S} {pid : Nat} {args : List (Expr S)} {b : List (Name × Dyn S)} (hL : Laws S) (hp : ∀ e ∈ args, ∀ n ∈ e.names, n ∉ p.hidden)
    (hc : Held c pid args) (hr : reported p c (args.mapIdx fun i e => (argName i, argNew pid i e)) = some b) : ArgFields args b := by
  obtain ⟨hlen, hr⟩ := forall_iff_get.mp (reported_iff.mp hr)
  rw [List.length_mapIdx] at hlen
  refine ⟨hlen.symm, fun i e he => ?_⟩
  obtain ⟨f, hf⟩ : ∃ f, b[i]? = some f := ⟨_, List.getElem?_eq_getElem (hlen ▸ (List.getElem?_eq_some_iff.mp he).1)⟩
  obtain ⟨h1, h2⟩ := hr i (argName i, argNew pid i e) f (by rw [List.getElem?_mapIdx, he]; rfl) hf
  have hf' : f = (['a', 'r', 'g'] ++ itoa i, f.2) := Prod.ext h1.symm rfl
  simp only [argNew] at h2
  by_cases hm : moved e = true
  · obtain ⟨x, hx, hg⟩ := hc i e he hm
    rw [if_pos hm] at h2
    simp only [RExpr.before, hg, Option.map_some, Option.bind_some, taken] at h2
    cases hs : e.sense with
    | one s =>
      rw [hs] at hx
      exact ⟨s, f.2, rfl, (moved_top hL hx).trans h2, hf.trans (congrArg some hf')⟩
    | many l => rw [hs] at hx; cases hx
    | noValue => rw [hs] at hx; cases hx
  · rw [if_neg hm, RExpr.before, before_eq (hp e (List.mem_of_getElem? he)), Option.bind_some] at h2
    cases hs : e.sense with
    | one s =>
      rw [hs] at h2
      exact ⟨s, f.2, rfl, h2, hf.trans (congrArg some hf')⟩
    | many l => rw [hs] at h2; cases h2
    | noValue => rw [hs] at h2; cases h2

theorem args_forward {c : Ctx S} {pid : Nat} {args : List (Expr S)} {b : List (Name × Dyn S)} {types : List S.T} {as : List (Sense S)} {vs vs' : List (Dyn S)} (hL : Laws S)
    (hc : Held c pid args) (hb : ArgFields args b) (hs : senses c (args.mapIdx (argNew pid)) = some as) (ht : takenAll types as = some vs')
    (hp : takenAll types (args.map (·.sense)) = some vs) : List.Forall₂ ArgOK types args ∧ vs' = vs := by
  obtain ⟨hlen, hs⟩ := forall_iff_get.mp (senses_iff.mp hs)
  rw [List.length_mapIdx] at hlen
  have hat : ∀ (i : Nat) e, args[i]? = some e → ∃ s s', e.sense = .one s ∧ as[i]? = some (.one s') ∧ (∃ w, into S.top s = some w) ∧
      (moved e = true → ∃ x, defined (.one s) = some x ∧ s' = .typed x.1 x.2) ∧ (moved e = false → s' = s) := by
    intro i e he
    obtain ⟨s, w, h1, h2, -⟩ := hb.2 i e he
    obtain ⟨a, ha⟩ : ∃ a, as[i]? = some a := ⟨_, List.getElem?_eq_getElem (hlen ▸ (List.getElem?_eq_some_iff.mp he).1)⟩
    have h3 := hs i (argNew pid i e) a (by rw [List.getElem?_mapIdx, he]; rfl) ha
    unfold argNew at h3
    by_cases hm : moved e = true
    · rw [if_pos hm] at h3
      obtain ⟨x, hx, hg⟩ := hc i e he hm
      simp only [RExpr.sense, hg, Option.map_some] at h3
      cases h3
      exact ⟨s, _, h1, ha, ⟨w, h2⟩, fun _ => ⟨x, by rw [← h1]; exact hx, rfl⟩, fun h => by rw [hm] at h; cases h⟩
    · rw [if_neg hm, RExpr.sense, h1] at h3
      cases h3
      exact ⟨s, s, h1, ha, ⟨w, h2⟩, fun h => absurd h hm, fun _ => rfl⟩
  have h1 : ∀ a ∈ as, ∃ s, a = .one s := by
    intro a ha
    obtain ⟨i, hi⟩ := List.getElem?_of_mem ha
    obtain ⟨e, he⟩ : ∃ e, args[i]? = some e := ⟨_, List.getElem?_eq_getElem (hlen ▸ (List.getElem?_eq_some_iff.mp hi).1)⟩
    obtain ⟨s, s', -, h, -⟩ := hat i e he
    rw [hi] at h
    exact ⟨s', Option.some.inj h⟩
  have h2 : ∀ a ∈ args.map (·.sense), ∃ s, a = .one s := by
    intro a ha
    obtain ⟨e, he, rfl⟩ := List.mem_map.mp ha
    obtain ⟨i, hi⟩ := List.getElem?_of_mem he
    obtain ⟨s, -, h, -⟩ := hat i e hi
    exact ⟨s, h⟩
  obtain ⟨hl1, ht⟩ := (takenAll_iff h1).mp ht
  obtain ⟨hl2, hp⟩ := (takenAll_iff h2).mp hp
  rw [List.length_map] at hl2
  obtain ⟨hv1, ht⟩ := forall_iff_get.mp ht
  obtain ⟨hv2, hp⟩ := forall_iff_get.mp hp
  rw [List.length_zip, ← hl1, Nat.min_self] at hv1
  rw [List.length_zip, List.length_map, ← hl2, Nat.min_self] at hv2
  have hall : ∀ (i : Nat) t e, types[i]? = some t → args[i]? = some e → ArgOK t e ∧ vs'[i]? = vs[i]? := by
    intro i t e hti he
    obtain ⟨s, s', hse, has, ⟨w, hw⟩, hm1, hm2⟩ := hat i e he
    have hi := (List.getElem?_eq_some_iff.mp hti).1
    have hv' : vs'[i]? = some vs'[i] := List.getElem?_eq_getElem (hv1 ▸ hi)
    have hv : vs[i]? = some vs[i] := List.getElem?_eq_getElem (hv2 ▸ hi)
    have g1 := ht i _ _ (zip_get hti has) hv'
    have g2 := hp i _ _ (zip_get hti (b := .one s) (by rw [List.getElem?_map, he, Option.map_some, hse])) hv
    simp only [taken] at g1 g2
    cases hm : moved e with
    | true =>
      obtain ⟨x, hx, rfl⟩ := hm1 hm
      obtain ⟨k1, k2⟩ := (arg_moved hL g2).mp ⟨x, w, _, hx, by rw [← moved_top hL hx]; exact hw, g1⟩
      exact ⟨⟨s, hse, k1, fun _ => k2⟩, by rw [hv', hv, moved_value hL g2 hx g1]⟩
    | false =>
      obtain rfl := hm2 hm
      rw [g1] at g2
      refine ⟨⟨s', hse, into_top_fits hL hw, fun h => ?_⟩, by rw [hv', hv]; exact g2⟩
      rw [(moved_iff e).mpr h] at hm
      cases hm
  refine ⟨forall_iff_get.mpr ⟨hl2, fun i t e h h' => (hall i t e h h').1⟩, List.ext_getElem? fun i => ?_⟩
  by_cases hi : i < types.length
  · exact (hall i _ _ (List.getElem?_eq_getElem hi) (List.getElem?_eq_getElem (hl2 ▸ hi))).2
  · rw [List.getElem?_eq_none (by omega), List.getElem?_eq_none (by omega)]

/-- Arguments that are values: those of the changed call and what is reported. -/
theorem args_backward {p : Place} {c : Ctx S} {pid : Nat} {args : List (Expr S)} {types : List S.T} {vs : List (Dyn S)} (hL : Laws S) (hN : S.nilable S.top = true)
    (hp : ∀ e ∈ args, ∀ n ∈ e.names, n ∉ p.hidden) (hc : Held c pid args) (hok : List.Forall₂ ArgOK types args) (hv : takenAll types (args.map (·.sense)) = some vs) :
    (∃ b, reported p c (args.mapIdx fun i e => (argName i, argNew pid i e)) = some b) ∧ ∃ as vs', senses c (args.mapIdx (argNew pid)) = some as ∧ takenAll types as = some vs' := by
  obtain ⟨hl, hok⟩ := forall_iff_get.mp hok
  have hone : ∀ a ∈ args.map (·.sense), ∃ s, a = .one s := by
    intro a ha
    obtain ⟨e, he, rfl⟩ := List.mem_map.mp ha
    obtain ⟨i, hi⟩ := List.getElem?_of_mem he
    obtain ⟨s, h, -⟩ := hok i _ e (List.getElem?_eq_getElem (hl ▸ (List.getElem?_eq_some_iff.mp hi).1)) hi
    exact ⟨s, h⟩
  obtain ⟨-, hv⟩ := (takenAll_iff hone).mp hv
  obtain ⟨hvl, hv⟩ := forall_iff_get.mp hv
  rw [List.length_zip, List.length_map, ← hl, Nat.min_self] at hvl
  have hat : ∀ i (hi : i < args.length), ∃ w s v, ((argNew pid i args[i]).before p c).bind (taken S.top) = some w ∧ (argNew pid i args[i]).sense c = some (.one s) ∧
      into (types[i]'(hl ▸ hi)) s = some v := by
    intro i hi
    have he : args[i]? = some args[i] := List.getElem?_eq_getElem hi
    have ht : types[i]? = some (types[i]'(hl ▸ hi)) := List.getElem?_eq_getElem (hl ▸ hi)
    obtain ⟨s, hs, hf, hty⟩ := hok i _ _ ht he
    have g := hv i _ _ (zip_get ht (b := .one s) (by rw [List.getElem?_map, he, Option.map_some, hs])) (List.getElem?_eq_getElem (hvl ▸ hl ▸ hi))
    simp only [taken] at g
    unfold argNew
    by_cases hm : moved args[i] = true
    · rw [if_pos hm]
      obtain ⟨x, w, v', h1, h2, h3⟩ := (arg_moved hL g).mpr ⟨hf, hty ((moved_iff _).mp hm)⟩
      obtain ⟨x', hx', hg⟩ := hc i _ he hm
      rw [hs, h1] at hx'
      cases hx'
      exact ⟨w, .typed x.1 x.2, v', by simp only [RExpr.before, hg, Option.map_some, Option.bind_some, taken]; exact h2, by simp only [RExpr.sense, hg, Option.map_some], h3⟩
    · rw [if_neg hm]
      obtain ⟨w, hw⟩ := into_top_ok hL hN hf
      refine ⟨w, s, _, ?_, by rw [RExpr.sense, hs], g⟩
      rw [RExpr.before, before_eq (hp _ (List.mem_of_getElem? he)), hs]
      exact hw
  refine ⟨⟨List.ofFn fun i : Fin args.length => (argName i, (hat i i.2).choose), reported_iff.mpr (forall_iff_get.mpr ⟨by simp, fun i q f h1 h2 => ?_⟩)⟩,
    List.ofFn fun i : Fin args.length => .one (hat i i.2).choose_spec.choose, List.ofFn fun i : Fin args.length => (hat i i.2).choose_spec.choose_spec.choose,
    senses_iff.mpr (forall_iff_get.mpr ⟨by simp, fun i e s h1 h2 => ?_⟩),
    (takenAll_iff (by simp)).mpr ⟨by simp [hl], forall_iff_get.mpr ⟨by simp [hl], fun i q v h1 h2 => ?_⟩⟩⟩
  · rw [List.getElem?_ofFn] at h2
    split at h2
    · rename_i hi
      rw [List.getElem?_mapIdx, List.getElem?_eq_getElem hi] at h1
      cases h1
      cases h2
      exact ⟨rfl, (hat i hi).choose_spec.choose_spec.choose_spec.1⟩
    · cases h2
  · rw [List.getElem?_ofFn] at h2
    split at h2
    · rename_i hi
      rw [List.getElem?_mapIdx, List.getElem?_eq_getElem hi] at h1
      cases h1
      cases h2
      exact (hat i hi).choose_spec.choose_spec.choose_spec.2.1
    · cases h2
  · rw [List.getElem?_ofFn] at h2
    split at h2
    · rename_i hi
      obtain ⟨h1, h1'⟩ := List.getElem?_zip_eq_some.mp h1
      rw [List.getElem?_ofFn, dif_pos hi] at h1'
      rw [List.getElem?_eq_getElem (hl ▸ hi)] at h1
      have e1 := Option.some.inj h1
      have e2 := Option.some.inj h1'
      have e3 := Option.some.inj h2
      rw [← e1, ← e2, ← e3]
      exact (hat i hi).choose_spec.choose_spec.choose_spec.2.2
    · cases h2

end Verif.Args
