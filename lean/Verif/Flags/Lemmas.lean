import Verif.Flags.Spec

/-! Lemmas about the command line. -/

namespace Verif.Flags

/-! ### Shapes -/

theorem splitEq_none : ∀ {s : Str}, '=' ∉ s → splitEq s = (s, none)
  | [], _ => rfl
  | c :: s, h => by
    have h1 : ¬ c = '=' := fun e => h (by simp [e])
    have ih := splitEq_none (s := s) fun e => h (by simp [e])
    unfold splitEq
    rw [if_neg h1, ih]

theorem splitEq_some (v : Str) : ∀ {s : Str}, '=' ∉ s → splitEq (s ++ '=' :: v) = (s, some v)
  | [], _ => by simp [splitEq]
  | c :: s, h => by
    have h1 : ¬ c = '=' := fun e => h (by simp [e])
    have ih := splitEq_some v (s := s) fun e => h (by simp [e])
    rw [List.cons_append]
    unfold splitEq
    rw [if_neg h1, ih]

/-- A name and the value joined to it, if any. -/
def glue (n : Str) : Option Str → Str
  | none => n
  | some v => n ++ '=' :: v

/-- What `splitEq` finds. -/
theorem splitEq_eq : ∀ (s : Str), '=' ∉ (splitEq s).1 ∧ s = glue (splitEq s).1 (splitEq s).2
  | [] => by simp [splitEq, glue]
  | c :: s => by
    obtain ⟨h1, h2⟩ := splitEq_eq s
    by_cases hc : c = '='
    · unfold splitEq
      rw [if_pos hc]
      simp [hc, glue]
    · unfold splitEq
      rw [if_neg hc]
      refine ⟨by simp [h1]; exact fun e => hc e.symm, ?_⟩
      dsimp only
      cases hs : (splitEq s).2 with
      | none => rw [hs] at h2; exact congrArg (c :: ·) h2
      | some v => rw [hs] at h2; exact congrArg (c :: ·) h2

theorem shape_name {n : Str} (h : NameOk n) (d : Bool) (x : Str) : shape ((if d then ['-', '-'] else ['-']) ++ n ++ x) = nameShape (n ++ x) := by
  obtain ⟨h1, h2, h3⟩ := h
  cases n with
  | nil => exact absurd rfl h1
  | cons c n =>
    have hc : c ≠ '-' := fun e => h2 (by simp [e])
    cases d
    · show shape ('-' :: c :: (n ++ x)) = _
      unfold shape
      split
      · rename_i e; simp at e; exact absurd e.1 hc
      · rename_i e; simp at e; exact absurd e.1 hc
      · rename_i e; simp at e; obtain ⟨rfl, rfl⟩ := e; rfl
      · rename_i h; exact absurd rfl (h c (n ++ x))
    · rfl

theorem nameShape_none {n : Str} (h : NameOk n) : nameShape n = .flag n none := by
  obtain ⟨h1, h2, h3⟩ := h
  cases n with
  | nil => exact absurd rfl h1
  | cons c n =>
    unfold nameShape
    have hc : ¬ (c = '-' ∨ c = '=') := by
      rintro (e | e)
      · exact h2 (by simp [e])
      · exact h3 (by simp [e])
    dsimp only
    rw [if_neg hc, splitEq_none (fun e => h3 (by simp [e]))]

theorem nameShape_some {n : Str} (h : NameOk n) (v : Str) : nameShape (n ++ '=' :: v) = .flag n (some v) := by
  obtain ⟨h1, h2, h3⟩ := h
  cases n with
  | nil => exact absurd rfl h1
  | cons c n =>
    rw [List.cons_append]
    unfold nameShape
    have hc : ¬ (c = '-' ∨ c = '=') := by
      rintro (e | e)
      · exact h2 (by simp [e])
      · exact h3 (by simp [e])
    dsimp only
    rw [if_neg hc, splitEq_some v (fun e => h3 (by simp [e]))]

theorem shape_alone {s : Setting} (h : NameOk s.name) : shape (dashes s ++ s.name) = .flag s.name none := by
  have := shape_name h s.double []
  rw [List.append_nil, List.append_nil] at this
  unfold dashes
  rw [this, nameShape_none h]

theorem shape_joined {s : Setting} (h : NameOk s.name) : shape (dashes s ++ s.name ++ '=' :: s.value) = .flag s.name (some s.value) := by
  unfold dashes
  rw [shape_name h s.double, nameShape_some h]

/-- What a flag on the command line looks like. -/
theorem nameShape_flag {s n : Str} {v : Option Str} (h : nameShape s = .flag n v) : NameOk n ∧ s = glue n v := by
  cases s with
  | nil => cases h
  | cons c s =>
    unfold nameShape at h
    dsimp only at h
    split at h
    · cases h
    · rename_i hc
      simp only [Shape.flag.injEq] at h
      obtain ⟨rfl, rfl⟩ := h
      obtain ⟨h1, h2⟩ := splitEq_eq s
      refine ⟨⟨by simp, fun e => hc (Or.inl (by simpa using e)), ?_⟩, ?_⟩
      · simp only [List.mem_cons, not_or]
        exact ⟨fun e => hc (Or.inr e.symm), h1⟩
      · cases hs : (splitEq s).2 with
        | none => rw [hs] at h2; exact congrArg (c :: ·) h2
        | some v => rw [hs] at h2; exact congrArg (c :: ·) h2

theorem shape_flag {s n : Str} {v : Option Str} (h : shape s = .flag n v) :
    NameOk n ∧ ∃ d : Bool, s = (if d then ['-', '-'] else ['-']) ++ glue n v := by
  unfold shape at h
  split at h
  · cases h
  · obtain ⟨h1, h2⟩ := nameShape_flag h
    exact ⟨h1, true, by rw [← h2]; rfl⟩
  · obtain ⟨h1, h2⟩ := nameShape_flag h
    exact ⟨h1, false, by rw [← h2]; rfl⟩
  · cases h

theorem nameShape_ne_stop (s : Str) : nameShape s ≠ .stop ∧ nameShape s ≠ .terminator := by
  cases s with
  | nil => simp [nameShape]
  | cons c s => unfold nameShape; dsimp only; split <;> simp

theorem shape_stop {s : Str} (h : shape s = .stop) : Plain s := by
  unfold shape at h
  split at h
  · cases h
  · exact absurd h (nameShape_ne_stop _).1
  · exact absurd h (nameShape_ne_stop _).1
  · rename_i h1 h2 h3
    match s with
    | [] => exact Or.inl rfl
    | [c] =>
      by_cases hc : c = '-'
      · exact Or.inr (Or.inl (by rw [hc]))
      · exact Or.inr (Or.inr (by simp [hc]))
    | c :: d :: s =>
      by_cases hc : c = '-'
      · subst hc
        exact absurd rfl (h3 d s)
      · exact Or.inr (Or.inr (by simp [hc]))

theorem shape_terminator {s : Str} (h : shape s = .terminator) : s = ['-', '-'] := by
  unfold shape at h
  split at h
  · rfl
  · exact absurd h (nameShape_ne_stop _).2
  · exact absurd h (nameShape_ne_stop _).2
  · cases h

/-! ### Definitions -/

theorem defineAll_spec : ∀ (fs : List (Decl × Val)) (ds out : List Decl), (ds.map (·.name)).Nodup → defineAll ds fs = some out →
    out = ds ++ fs.map (·.1) ∧ (out.map (·.name)).Nodup
  | [], ds, out, h, he => by
    simp only [defineAll, Option.some.injEq] at he
    subst he
    simp [h]
  | d :: fs, ds, out, h, he => by
    unfold defineAll at he
    unfold define at he
    split at he
    · rename_i ds' hd
      split at hd
      · cases hd
      · rename_i hc
        simp only [Option.some.injEq] at hd
        subst hd
        have := defineAll_spec fs (ds ++ [d.1]) out ?_ he
        · simpa using this
        · rw [List.map_append, List.nodup_append]
          refine ⟨h, by simp, ?_⟩
          intro x hx y hy e
          simp only [List.map_cons, List.map_nil, List.mem_singleton] at hy
          subst hy e
          exact hc (Or.inr (Or.inr hx))
    · cases he

theorem kindOf_spec {fs : List (Decl × Val)} {ds : List Decl} (h : defineAll [] fs = some ds) {d : Decl × Val} (hd : d ∈ fs) : kindOf ds d.1.name = some d.1.kind := by
  obtain ⟨rfl, hn⟩ := defineAll_spec fs [] ds List.nodup_nil h
  simp only [List.nil_append] at hn ⊢
  have hm : d.1 ∈ fs.map (·.1) := List.mem_map_of_mem hd
  unfold kindOf
  generalize fs.map (·.1) = l at hn hm
  induction l with
  | nil => cases hm
  | cons x l ih =>
    simp only [List.map_cons, List.nodup_cons] at hn
    rcases List.mem_cons.mp hm with e | hm
    · rw [← e]
      simp
    · have hx : ¬ x.name = d.1.name := fun e => hn.1 (e ▸ List.mem_map_of_mem hm)
      rw [List.find?_cons_of_neg (by simpa using hx)]
      exact ih hn.2 hm

theorem kindOf_mem {fs : List (Decl × Val)} {ds : List Decl} (h : defineAll [] fs = some ds) {n : Str} {k : Kind} (hk : kindOf ds n = some k) :
    ∃ d ∈ fs, d.1.name = n ∧ d.1.kind = k := by
  obtain ⟨rfl, hn⟩ := defineAll_spec fs [] ds List.nodup_nil h
  simp only [List.nil_append] at hk
  unfold kindOf at hk
  cases hf : (fs.map (·.1)).find? fun d => d.name = n with
  | none => rw [hf] at hk; cases hk
  | some e =>
    rw [hf] at hk
    have h1 := List.mem_of_find?_eq_some hf
    have h2 := List.find?_some hf
    simp only [List.mem_map] at h1
    obtain ⟨d, hd, rfl⟩ := h1
    refine ⟨d, hd, of_decide_eq_true h2, ?_⟩
    simpa using hk

/-! ### Parsing -/

theorem parseBool_iff (s : Str) (b : Bool) : parseBool s = some b ↔ SwitchText s b := by
  have h1 : ["1", "t", "T", "TRUE", "true", "True"].map String.toList =
      [['1'], ['t'], ['T'], ['T', 'R', 'U', 'E'], ['t', 'r', 'u', 'e'], ['T', 'r', 'u', 'e']] := by decide +kernel
  have h0 : ["0", "f", "F", "FALSE", "false", "False"].map String.toList =
      [['0'], ['f'], ['F'], ['F', 'A', 'L', 'S', 'E'], ['f', 'a', 'l', 's', 'e'], ['F', 'a', 'l', 's', 'e']] := by decide +kernel
  unfold SwitchText parseBool
  rw [h1, h0]
  simp only [List.mem_cons, List.not_mem_nil, or_false]
  constructor
  · intro h
    split at h
    · rename_i hs
      exact .inl ⟨(Option.some.inj h).symm, hs⟩
    · split at h
      · rename_i hs
        exact .inr ⟨(Option.some.inj h).symm, hs⟩
      · cases h
  · rintro (⟨rfl, h⟩ | ⟨rfl, h⟩)
    · rw [if_pos h]
    · rw [if_neg, if_pos h]
      rcases h with rfl | rfl | rfl | rfl | rfl | rfl <;> decide

theorem parse_setting {L : Lib} {ds : List Decl} {k : Kind} {s : Setting} {v : Val} (hn : NameOk s.name) (hk : kindOf ds s.name = some k) (hp : Proper L k s v) (rest : List Str)
    (vals : Vals) : parse L ds (render s ++ rest) vals = parse L ds rest ((s.name, v) :: vals) := by
  unfold render
  cases hf : s.form with
  | joined =>
    simp only [List.cons_append, List.nil_append]
    rw [parse.eq_def]
    dsimp only
    rw [shape_joined hn]
    dsimp only
    rw [hk]
    unfold Proper at hp
    rw [hf] at hp
    cases k with
    | text => simp only at hp; subst hp; rfl
    | int => obtain ⟨i, h1, rfl⟩ := hp; simp [setVal, h1]
    | bool => obtain ⟨i, h1, rfl⟩ := hp; simp [setVal, (parseBool_iff _ _).mpr h1]
  | apart =>
    simp only [List.cons_append, List.nil_append]
    rw [parse.eq_def]
    dsimp only
    rw [shape_alone hn]
    dsimp only
    rw [hk]
    unfold Proper at hp
    rw [hf] at hp
    cases k with
    | text => simp only at hp; subst hp; rfl
    | int => obtain ⟨i, h1, rfl⟩ := hp; simp [setVal, h1]
    | bool => exact hp.elim
  | alone =>
    simp only [List.cons_append, List.nil_append]
    rw [parse.eq_def]
    dsimp only
    rw [shape_alone hn]
    dsimp only
    rw [hk]
    unfold Proper at hp
    rw [hf] at hp
    cases k with
    | text => exact hp.elim
    | int => exact hp.elim
    | bool => simp only at hp; subst hp; simp [setVal, parseBool]

theorem parse_settings {L : Lib} {fs : List (Decl × Val)} {ds : List Decl} (h : defineAll [] fs = some ds) {ss : List Setting} {vs : List (Str × Val)}
    (hm : Meaning L fs ss vs) (rest : List Str) : ∀ vals, parse L ds (ss.flatMap render ++ rest) vals = parse L ds rest (vs.reverse ++ vals) := by
  unfold Meaning at hm
  induction hm with
  | nil => intro vals; simp
  | @cons s p ss vs hp _ ih =>
    intro vals
    obtain ⟨h1, h2, d, hd, h3, h4⟩ := hp
    rw [List.flatMap_cons, List.append_assoc, parse_setting h2 (by rw [← h3]; exact kindOf_spec h hd) h4, ih]
    simp [← h1]

theorem parse_ok {L : Lib} {fs : List (Decl × Val)} {ds : List Decl} (h : defineAll [] fs = some ds) : ∀ (args : List Str) (vals : Vals) (out : Vals) (left : List Str),
    parse L ds args vals = some (out, left) → ∃ ss vs tail, args = ss.flatMap render ++ tail ∧ Meaning L fs ss vs ∧ out = vs.reverse ++ vals ∧
      (tail = [] ∨ ∃ s r, tail = s :: r ∧ (Plain s ∨ s = ['-', '-']))
  | [], vals, out, left, he => by
    simp only [parse, Option.some.injEq, Prod.mk.injEq] at he
    exact ⟨[], [], [], rfl, .nil, by simp [he.1], Or.inl rfl⟩
  | s :: args, vals, out, left, he => by
    rw [parse.eq_def] at he
    dsimp only at he
    cases hs : shape s with
    | stop =>
      rw [hs] at he
      simp only [Option.some.injEq, Prod.mk.injEq] at he
      exact ⟨[], [], s :: args, rfl, .nil, by simp [he.1], Or.inr ⟨s, args, rfl, Or.inl (shape_stop hs)⟩⟩
    | terminator =>
      rw [hs] at he
      simp only [Option.some.injEq, Prod.mk.injEq] at he
      exact ⟨[], [], s :: args, rfl, .nil, by simp [he.1], Or.inr ⟨s, args, rfl, Or.inr (shape_terminator hs)⟩⟩
    | malformed => rw [hs] at he; cases he
    | flag name value =>
      rw [hs] at he
      dsimp only at he
      obtain ⟨hn, dbl, hsv⟩ := shape_flag hs
      cases hk : kindOf ds name with
      | none => rw [hk] at he; cases he
      | some k =>
        rw [hk] at he
        obtain ⟨d, hd, hd1, hd2⟩ := kindOf_mem h hk
        -- one more setting in front
        have step : ∀ (st : Setting) (v : Val) (args' : List Str), s :: args = render st ++ args' → st.name = name → Proper L k st v →
            (∃ ss vs tail, args' = ss.flatMap render ++ tail ∧ Meaning L fs ss vs ∧ out = vs.reverse ++ (name, v) :: vals ∧
              (tail = [] ∨ ∃ s r, tail = s :: r ∧ (Plain s ∨ s = ['-', '-']))) →
            ∃ ss vs tail, s :: args = ss.flatMap render ++ tail ∧ Meaning L fs ss vs ∧ out = vs.reverse ++ vals ∧
              (tail = [] ∨ ∃ s r, tail = s :: r ∧ (Plain s ∨ s = ['-', '-'])) := by
          rintro st v args' e1 e2 e3 ⟨ss, vs, tail, g1, g2, g3, g4⟩
          refine ⟨st :: ss, (name, v) :: vs, tail, ?_, ?_, ?_, g4⟩
          · rw [e1, g1, List.flatMap_cons, List.append_assoc]
          · exact .cons ⟨e2.symm, by rw [e2]; exact hn, d, hd, by rw [e2]; exact hd1, by rw [hd2]; exact e3⟩ g2
          · rw [g3]; simp
        cases value with
        | some x =>
          have hr : ∀ args', s :: args' = render ⟨name, x, .joined, dbl⟩ ++ args' := by
            intro args'
            simp only [render, dashes, hsv, glue, List.cons_append, List.nil_append, List.append_assoc]
          have fin : ∀ v, setVal L k x = some v → parse L ds args ((name, v) :: vals) = some (out, left) → _ := fun v hv hp =>
            step ⟨name, x, .joined, dbl⟩ v args (hr args) rfl
              (by cases k with
                | text => simp [setVal] at hv; simp [Proper, hv]
                | int => simp [setVal] at hv; obtain ⟨i, h1, h2⟩ := hv; exact ⟨i, h1, h2.symm⟩
                | bool => simp [setVal] at hv; rcases hv with ⟨h1, h2⟩ | ⟨h1, h2⟩ <;> exact ⟨_, (parseBool_iff _ _).mp h1, h2.symm⟩)
              (parse_ok h args _ out left hp)
          cases k with
          | bool =>
            dsimp only [Option.getD_some] at he
            cases hv : setVal L .bool x with
            | none => rw [hv] at he; cases he
            | some v => rw [hv] at he; exact fin v hv he
          | text =>
            dsimp only at he
            cases hv : setVal L .text x with
            | none => rw [hv] at he; cases he
            | some v => rw [hv] at he; exact fin v hv he
          | int =>
            dsimp only at he
            cases hv : setVal L .int x with
            | none => rw [hv] at he; cases he
            | some v => rw [hv] at he; exact fin v hv he
        | none =>
          have hr : ∀ (x : Str) args', s :: x :: args' = render ⟨name, x, .apart, dbl⟩ ++ args' := by
            intro x args'
            simp only [render, dashes, hsv, glue, List.cons_append, List.nil_append]
          cases k with
          | bool =>
            dsimp only [Option.getD_none] at he
            rw [show setVal L .bool ['t', 'r', 'u', 'e'] = some (.bool true) by simp [setVal, parseBool]] at he
            refine step ⟨name, [], .alone, dbl⟩ (.bool true) args ?_ rfl (by simp [Proper]) (parse_ok h args _ out left he)
            simp only [render, dashes, hsv, glue, List.cons_append, List.nil_append]
          | text =>
            cases args with
            | nil => cases he
            | cons x args =>
              dsimp only at he
              cases hv : setVal L .text x with
              | none => rw [hv] at he; cases he
              | some v =>
                rw [hv] at he
                exact step ⟨name, x, .apart, dbl⟩ v args (hr x args) rfl (by simp [setVal] at hv; simp [Proper, hv]) (parse_ok h args _ out left he)
          | int =>
            cases args with
            | nil => cases he
            | cons x args =>
              dsimp only at he
              cases hv : setVal L .int x with
              | none => rw [hv] at he; cases he
              | some v =>
                rw [hv] at he
                exact step ⟨name, x, .apart, dbl⟩ v args (hr x args) rfl (by simp [setVal] at hv; obtain ⟨i, h1, h2⟩ := hv; exact ⟨i, h1, h2.symm⟩)
                  (parse_ok h args _ out left he)

/-! ### Values -/

theorem value_final {fs : List (Decl × Val)} {vs : List (Str × Val)} (hn : (fs.map (·.1.name)).Nodup) {name : Str} {v : Val} :
    value (vs.reverse ++ fs.map fun d => (d.1.name, d.2)) name = some v ↔ Final fs vs name v := by
  have hd : ∀ {l : List (Decl × Val)}, (l.map (·.1.name)).Nodup → (value (l.map fun d => (d.1.name, d.2)) name = some v ↔ ∃ d ∈ l, d.1.name = name ∧ d.2 = v) := by
    intro l hl
    induction l with
    | nil => simp [value]
    | cons d l ih =>
      simp only [List.map_cons, List.nodup_cons] at hl
      have ih := ih hl.2
      unfold value at ih ⊢
      by_cases he : d.1.name = name
      · rw [List.map_cons, List.find?_cons_of_pos (by simpa using he)]
        simp only [Option.map_some, Option.some.injEq]
        constructor
        · intro e; exact ⟨d, by simp, he, e⟩
        · rintro ⟨x, hx, e1, e2⟩
          rcases List.mem_cons.mp hx with rfl | hx
          · exact e2
          · exact absurd (List.mem_map.mpr ⟨x, hx, by rw [e1, he]⟩) hl.1
      · rw [List.map_cons, List.find?_cons_of_neg (by simpa using he), ih]
        constructor
        · rintro ⟨x, hx, e⟩; exact ⟨x, by simp [hx], e⟩
        · rintro ⟨x, hx, e1, e2⟩
          rcases List.mem_cons.mp hx with rfl | hx
          · exact absurd e1 he
          · exact ⟨x, hx, e1, e2⟩
  have hd := hd hn
  unfold Final
  unfold value at hd ⊢
  rw [List.find?_append]
  cases hf : vs.reverse.find? fun p => p.1 = name with
  | some p =>
    simp only [Option.some_or, Option.map_some, Option.some.injEq]
    obtain ⟨h1, l1, l2, h2, h3⟩ := List.find?_eq_some_iff_append.mp hf
    have h1 : p.1 = name := of_decide_eq_true h1
    have hvs : vs = l2.reverse ++ p :: l1.reverse := by
      have := congrArg List.reverse h2
      simpa using this
    constructor
    · intro e
      refine Or.inl ⟨l2.reverse, l1.reverse, ?_, ?_⟩
      · rw [hvs, ← h1, ← e]
      · intro q hq e'
        have := h3 q (by simpa using hq)
        simp [e'] at this
    · rintro (⟨before, after, e1, e2⟩ | ⟨e1, _⟩)
      · have key : ∀ (a b c d : List (Str × Val)) (x y : Str × Val), a ++ x :: b = c ++ y :: d → x.1 = name → y.1 = name → (∀ q ∈ b, q.1 ≠ name) → (∀ q ∈ d, q.1 ≠ name) → x = y := by
          intro a
          induction a with
          | nil =>
            intro b c d x y he hx hy hb hd
            cases c with
            | nil => simp at he; exact he.1
            | cons z c =>
              simp at he
              exact absurd hy (hb y (by rw [he.2]; simp))
          | cons w a ih =>
            intro b c d x y he hx hy hb hd
            cases c with
            | nil =>
              simp at he
              exact absurd hx (hd x (by rw [← he.2]; simp))
            | cons z c =>
              simp at he
              exact ih b c d x y he.2 hx hy hb hd
        have := key l2.reverse l1.reverse before after p (name, v) (by rw [← hvs, e1]) h1 rfl ?_ e2
        · rw [this]
        · intro q hq e'
          have := h3 q (by simpa using hq)
          simp [e'] at this
      · exact absurd h1 (e1 p (by rw [hvs]; simp))
  | none =>
    rw [Option.none_or, hd]
    have hno : ∀ p ∈ vs, p.1 ≠ name := by
      intro p hp
      have := List.find?_eq_none.mp hf p (by simpa using hp)
      simpa using this
    constructor
    · intro e; exact Or.inr ⟨hno, e⟩
    · rintro (⟨before, after, e1, -⟩ | ⟨_, e⟩)
      · exact absurd rfl (hno (name, v) (by rw [e1]; simp))
      · exact e

/-- The kind of a value. -/
def Val.kind : Val → Kind
  | .text _ => .text
  | .int _ => .int
  | .bool _ => .bool

theorem proper_kind {L : Lib} {k : Kind} {s : Setting} {v : Val} (h : Proper L k s v) : v.kind = k := by
  unfold Proper at h
  cases k <;> cases hf : s.form <;> rw [hf] at h <;> simp only at h
  · rw [h]; rfl
  · rw [h]; rfl
  · obtain ⟨i, _, rfl⟩ := h; rfl
  · obtain ⟨i, _, rfl⟩ := h; rfl
  · obtain ⟨i, _, rfl⟩ := h; rfl
  · rw [h]; rfl

theorem customDecls_kind : ∀ (cs : List Custom) (ds : List (Decl × Val)), customDecls cs = some ds → ∀ d ∈ ds, d.2.kind = d.1.kind
  | [], ds, h, d, hd => by simp [customDecls] at h; subst h; cases hd
  | c :: cs, ds, h, d, hd => by
    unfold customDecls at h
    have ih := customDecls_kind cs
    split at h
    · rename_i e ds' h1 h2
      simp only [Option.some.injEq] at h
      subst h
      rcases List.mem_cons.mp hd with rfl | hd
      · unfold customDecl at h1
        split at h1
        · split at h1 <;> simp at h1; subst h1; rfl
        · split at h1
          · split at h1 <;> simp at h1; subst h1; rfl
          · split at h1
            · split at h1 <;> simp at h1; subst h1; rfl
            · simp at h1
      · exact ih ds' h2 d hd
    · rename_i ds' h1 h2
      simp only [Option.some.injEq] at h
      subst h
      exact ih _ h2 d hd
    · cases h

theorem flags_kind {custom : List Custom} {cs : List (Decl × Val)} (h : customDecls custom = some cs) : ∀ d ∈ flagsOf cs, d.2.kind = d.1.kind := by
  intro d hd
  unfold flagsOf at hd
  rcases List.mem_append.mp hd with hd | hd
  · rcases List.mem_append.mp hd with hd | hd
    · exact (by decide : ∀ d ∈ standard, d.2.kind = d.1.kind) d hd
    · exact customDecls_kind custom cs h d hd
  · exact (by decide : ∀ d ∈ help, d.2.kind = d.1.kind) d hd

theorem flags_nodup {cs : List (Decl × Val)} {ds : List Decl} (h : defineAll [] (flagsOf cs) = some ds) : ((flagsOf cs).map (·.1.name)).Nodup := by
  obtain ⟨rfl, hn⟩ := defineAll_spec _ [] ds List.nodup_nil h
  rw [List.nil_append, List.map_map] at hn
  exact hn

theorem flags_unique {cs : List (Decl × Val)} {ds : List Decl} (h : defineAll [] (flagsOf cs) = some ds) {d e : Decl × Val} (hd : d ∈ flagsOf cs) (he : e ∈ flagsOf cs)
    (hn : d.1.name = e.1.name) : d.1.kind = e.1.kind := by
  have h1 := kindOf_spec h hd
  have h2 := kindOf_spec h he
  rw [hn, h2] at h1
  exact (Option.some.inj h1).symm

/-- Every flag has a value of its kind at the end. -/
theorem final_total {L : Lib} {custom : List Custom} {cs : List (Decl × Val)} {ds : List Decl} (hc : customDecls custom = some cs) (h : defineAll [] (flagsOf cs) = some ds)
    {ss : List Setting} {vs : List (Str × Val)} (hm : Meaning L (flagsOf cs) ss vs) {d : Decl × Val} (hd : d ∈ flagsOf cs) :
    ∃ v, value (vs.reverse ++ (flagsOf cs).map fun d => (d.1.name, d.2)) d.1.name = some v ∧ v.kind = d.1.kind ∧ Final (flagsOf cs) vs d.1.name v := by
  have hv : ∀ p ∈ vs, p.1 = d.1.name → p.2.kind = d.1.kind := by
    unfold Meaning at hm
    induction hm with
    | nil => intro p hp; cases hp
    | @cons s p ss vs hp _ ih =>
      intro q hq e
      rcases List.mem_cons.mp hq with rfl | hq
      · obtain ⟨h1, _, d', hd', h3, h4⟩ := hp
        rw [proper_kind h4]
        exact flags_unique h hd' hd (by rw [h3, ← h1, e])
      · exact ih q hq e
  cases hval : value (vs.reverse ++ (flagsOf cs).map fun d => (d.1.name, d.2)) d.1.name with
  | none =>
    exfalso
    unfold value at hval
    rw [Option.map_eq_none_iff, List.find?_eq_none] at hval
    exact hval (d.1.name, d.2) (by simp only [List.mem_append, List.mem_map]; exact Or.inr ⟨d, hd, rfl⟩) (by simp)
  | some v =>
    have hf := (value_final (flags_nodup h)).mp hval
    refine ⟨v, rfl, ?_, hf⟩
    rcases hf with ⟨before, after, e1, _⟩ | ⟨_, d', hd', e1, e2⟩
    · exact hv (d.1.name, v) (by rw [e1]; simp) rfl
    · rw [← e2, flags_kind hc d' hd']
      exact flags_unique h hd' hd e1

theorem final_unique {cs : List (Decl × Val)} {ds : List Decl} (h : defineAll [] (flagsOf cs) = some ds)
    {vs : List (Str × Val)} {name : Str} {v : Val} (hf : Final (flagsOf cs) vs name v) : value (vs.reverse ++ (flagsOf cs).map fun d => (d.1.name, d.2)) name = some v :=
  (value_final (flags_nodup h)).mpr hf

theorem standard_mem {cs : List (Decl × Val)} {d : Decl × Val} (h : d ∈ standard) : d ∈ flagsOf cs := by
  unfold flagsOf
  simp [h]

section
variable {L : Lib} {custom : List Custom} {cs : List (Decl × Val)} {ds : List Decl} (hc : customDecls custom = some cs) (h : defineAll [] (flagsOf cs) = some ds)
  {ss : List Setting} {vs : List (Str × Val)} (hm : Meaning L (flagsOf cs) ss vs)
include hc h hm

theorem text_final {name : Str} (hd : ∃ d ∈ flagsOf cs, d.1.name = name ∧ d.1.kind = .text) :
    Final (flagsOf cs) vs name (.text (textOf (vs.reverse ++ (flagsOf cs).map fun d => (d.1.name, d.2)) name)) := by
  obtain ⟨d, hd, rfl, hk⟩ := hd
  obtain ⟨v, h1, h2, h3⟩ := final_total hc h hm hd
  rw [hk] at h2
  cases v <;> simp [Val.kind] at h2
  unfold textOf
  rw [h1]
  exact h3

theorem int_final {name : Str} (hd : ∃ d ∈ flagsOf cs, d.1.name = name ∧ d.1.kind = .int) :
    Final (flagsOf cs) vs name (.int (intOf (vs.reverse ++ (flagsOf cs).map fun d => (d.1.name, d.2)) name)) := by
  obtain ⟨d, hd, rfl, hk⟩ := hd
  obtain ⟨v, h1, h2, h3⟩ := final_total hc h hm hd
  rw [hk] at h2
  cases v <;> simp [Val.kind] at h2
  unfold intOf
  rw [h1]
  exact h3

theorem bool_final {name : Str} (hd : ∃ d ∈ flagsOf cs, d.1.name = name ∧ d.1.kind = .bool) :
    Final (flagsOf cs) vs name (.bool (boolOf (vs.reverse ++ (flagsOf cs).map fun d => (d.1.name, d.2)) name)) := by
  obtain ⟨d, hd, rfl, hk⟩ := hd
  obtain ⟨v, h1, h2, h3⟩ := final_total hc h hm hd
  rw [hk] at h2
  cases v <;> simp [Val.kind] at h2
  unfold boolOf
  rw [h1]
  exact h3

theorem config_agrees (env : Str × Str) : Agrees (flagsOf cs) vs (config L (vs.reverse ++ (flagsOf cs).map fun d => (d.1.name, d.2)) cs env) := by
  have ht : ∀ n, (∃ d ∈ standard, d.1.name = n ∧ d.1.kind = .text) → ∃ d ∈ flagsOf cs, d.1.name = n ∧ d.1.kind = .text :=
    fun n ⟨d, hd, e⟩ => ⟨d, standard_mem hd, e⟩
  have hi : ∀ n, (∃ d ∈ standard, d.1.name = n ∧ d.1.kind = .int) → ∃ d ∈ flagsOf cs, d.1.name = n ∧ d.1.kind = .int :=
    fun n ⟨d, hd, e⟩ => ⟨d, standard_mem hd, e⟩
  have hb : ∀ n, (∃ d ∈ standard, d.1.name = n ∧ d.1.kind = .bool) → ∃ d ∈ flagsOf cs, d.1.name = n ∧ d.1.kind = .bool :=
    fun n ⟨d, hd, e⟩ => ⟨d, standard_mem hd, e⟩
  exact
    { project := text_final hc h hm (ht _ (by decide))
      module_ := text_final hc h hm (ht _ (by decide))
      modules := text_final hc h hm (ht _ (by decide))
      gomod := text_final hc h hm (ht _ (by decide))
      gowork := text_final hc h hm (ht _ (by decide))
      port := int_final hc h hm (hi _ (by decide))
      json := text_final hc h hm (ht _ (by decide))
      charts := text_final hc h hm (ht _ (by decide))
      recurse := int_final hc h hm (hi _ (by decide))
      len := int_final hc h hm (hi _ (by decide))
      cache := int_final hc h hm (hi _ (by decide))
      scope := text_final hc h hm (ht _ (by decide))
      mode := text_final hc h hm (ht _ (by decide))
      tests := text_final hc h hm (ht _ (by decide))
      tmpcopy := bool_final hc h hm (hb _ (by decide))
      multiplier := int_final hc h hm (hi _ (by decide)) }

end

end Verif.Flags
