import Verif.Args.Lemmas
import Verif.Temps.Props

/-! # C156: instrumented calls compile, and get and report the same values -/

namespace Verif.Args

open Verif.Temps (Sys Dyn Sem Name Ctx Laws declare into conv itoa pArg pRecv)

variable {S : Sys}

theorem recvStep_cases (is : List Import) (pid : Nat) (x : Expr S) :
    (∃ n, x.syn = .ident n ∧ ¬ AsPackage is n ∧ recvStep (packageNames is) pid (some x) = ([], [(Temps.display n, .orig x)], some (.orig x))) ∨
    (∃ n, x.syn = .ident n ∧ AsPackage is n ∧ recvStep (packageNames is) pid (some x) = ([], [], some (.orig x))) ∨
    ((∀ n, x.syn ≠ .ident n) ∧ recvStep (packageNames is) pid (some x) = ([(recvTmp pid, x)], [(['r', 'e', 'c', 'v'], .tmp (recvTmp pid))], some (.tmp (recvTmp pid)))) := by
  cases hx : x.syn with
  | ident n =>
    by_cases hn : n ≠ Temps.nameBlank ∧ n ∉ packageNames is
    · left
      refine ⟨n, rfl, ?_, by simp only [recvStep, hx]; rw [if_pos hn]⟩
      unfold AsPackage
      rw [← mem_packages]
      exact fun h => h.elim hn.1 hn.2
    · right; left
      refine ⟨n, rfl, ?_, by simp only [recvStep, hx]; rw [if_neg hn]⟩
      unfold AsPackage
      rw [← mem_packages]
      by_cases h : n = ['_']
      · exact .inl h
      · exact .inr (by by_contra h'; exact hn ⟨h, h'⟩)
  | _ =>
    right; right
    refine ⟨fun n h => (by cases h), ?_⟩
    simp only [recvStep, hx]
    rfl

/-- What the whole does, taken apart. -/
theorem forward {p : Place} {types : List S.T} {is : List Import} {pid : Nat} {c : Call S} {r r' : Option (Option (S.T × Dyn S))} {vs vs' : List (Dyn S)} {fs : List (Name × Dyn S)}
    (hL : Laws S) (hp : InScope p c) (h : passed types c = some (r, vs)) (h' : outcome p types (build is pid c) = some (fs, r', vs')) :
    (∀ x ∈ c.recv, RecvOK is x) ∧ List.Forall₂ ArgOK types c.args ∧ r' = r ∧ vs' = vs ∧ ∃ a b, fs = a ++ b ∧ RecvField is c.recv a ∧ ArgFields c.args b := by
  obtain ⟨cx, hdef, h'⟩ := Option.bind_eq_some_iff.mp h'
  obtain ⟨fs1, hrep, h'⟩ := Option.bind_eq_some_iff.mp h'
  obtain ⟨as, has, h'⟩ := Option.bind_eq_some_iff.mp h'
  obtain ⟨-, hget⟩ := defineAll_some hdef
  simp only [build] at hget hrep has h'
  rw [reported_append] at hrep
  obtain ⟨a, ha, hrep⟩ := Option.bind_eq_some_iff.mp hrep
  obtain ⟨b, hb, rfl⟩ := Option.map_eq_some_iff.mp hrep
  have hheld : Held cx pid c.args := by
    intro i e he hm
    obtain ⟨x, hx, hg⟩ := hget (argTmp pid i, e) (List.mem_append_right _ (pre_mem.mpr ⟨i, he, hm, rfl⟩))
    simp only at hx hg
    rw [before_eq (hp.2 e (List.mem_of_getElem? he)), Option.bind_some] at hx
    exact ⟨x, hx, hg⟩
  have hfields := args_value hL hp.2 hheld hb
  cases hr : c.recv with
  | none =>
    simp only [hr, recvStep] at h' ha
    simp only [passed, hr] at h
    obtain ⟨vs1, ht, h'⟩ := Option.map_eq_some_iff.mp h'
    obtain ⟨vs2, ht2, h⟩ := Option.map_eq_some_iff.mp h
    cases h'; cases h
    obtain ⟨h1, h2⟩ := args_forward hL hheld hfields has ht ht2
    cases ha
    exact ⟨fun x hx => (by cases hx), h1, rfl, h2, [], b, rfl, .none, hfields⟩
  | some x =>
    simp only [passed, hr] at h
    obtain ⟨r1, hr1, h⟩ := Option.bind_eq_some_iff.mp h
    obtain ⟨vs2, ht2, h⟩ := Option.map_eq_some_iff.mp h
    cases h
    have hxn := before_eq (hp.1 x hr)
    rw [hr] at hget ha h'
    rcases recvStep_cases is pid x with ⟨n, hn, hnp, hstep⟩ | ⟨n, hn, hpk, hstep⟩ | ⟨hn, hstep⟩ <;> rw [hstep] at hget ha h' <;> simp only at h' ha
    · obtain ⟨r2, hr2, h'⟩ := Option.bind_eq_some_iff.mp h'
      obtain ⟨vs1, ht, h'⟩ := Option.map_eq_some_iff.mp h'
      cases h'
      obtain ⟨h1, h2⟩ := args_forward hL hheld hfields has ht ht2
      simp only [RExpr.sense, Option.bind_some] at hr2
      rw [hr1] at hr2
      cases hr2
      simp only [reported, RExpr.before, hxn, Option.bind_some] at ha
      cases hs : x.sense with
      | one s =>
        rw [hs] at hr1 ha
        cases s with
        | typed t v =>
          simp only [taken, into, hL.top, if_true, Option.bind_some, Option.map_some, conv, hL.topIface] at ha
          cases ha
          refine ⟨?_, h1, rfl, h2, _, b, rfl, .ident hn hnp hs, hfields⟩
          rintro x' ⟨⟩
          exact .inl ⟨_, hs⟩
        | _ => cases hr1
      | _ => rw [hs] at ha; cases ha
    · obtain ⟨r2, hr2, h'⟩ := Option.bind_eq_some_iff.mp h'
      obtain ⟨vs1, ht, h'⟩ := Option.map_eq_some_iff.mp h'
      cases h'
      obtain ⟨h1, h2⟩ := args_forward hL hheld hfields has ht ht2
      simp only [RExpr.sense, Option.bind_some] at hr2
      rw [hr1] at hr2
      cases hr2
      cases ha
      refine ⟨?_, h1, rfl, h2, [], b, rfl, .package hn hpk, hfields⟩
      rintro x' ⟨⟩
      exact .inr ⟨n, hn, hpk⟩
    · obtain ⟨r2, hr2, h'⟩ := Option.bind_eq_some_iff.mp h'
      obtain ⟨vs1, ht, h'⟩ := Option.map_eq_some_iff.mp h'
      cases h'
      obtain ⟨h1, h2⟩ := args_forward hL hheld hfields has ht ht2
      obtain ⟨y, hy, hg⟩ := hget (recvTmp pid, x) (by simp)
      simp only [hxn, Option.bind_some] at hy hg
      cases hs : x.sense with
      | one s =>
        rw [hs] at hr1 hy
        cases s with
        | typed t v =>
          cases hy
          simp only [RExpr.sense, hg, Option.map_some, Option.bind_some, received] at hr2
          cases hr1; cases hr2
          simp only [reported, RExpr.before, hg, Option.map_some, Option.bind_some, taken, into, hL.top, if_true, conv, hL.topIface] at ha
          cases ha
          refine ⟨?_, h1, rfl, h2, _, b, rfl, .other hn hs, hfields⟩
          rintro x' ⟨⟩
          exact .inl ⟨_, hs⟩
        | _ => cases hr1
      | _ => rw [hs] at hy; cases hy

/-- C156 (values): whenever the changed code compiles, the function gets the receiver and arguments of the call as written, and these are reported: the receiver by its name or as
"recv", the arguments as "arg0", "arg1" and so on, each with the value and type it has as an `any`. Missing: calls whose receiver or arguments use a name declared by the statement
itself (see `C156_scope_violated` and `C156_shadow_violated`). -/
theorem C156_same_partial {p : Place} {types : List S.T} {is : List Import} {pid : Nat} {c : Call S} {r r' : Option (Option (S.T × Dyn S))} {vs vs' : List (Dyn S)}
    {fs : List (Name × Dyn S)} (hL : Laws S) (hp : InScope p c) (h : passed types c = some (r, vs)) (h' : outcome p types (build is pid c) = some (fs, r', vs')) :
    r' = r ∧ vs' = vs ∧ ∃ a b, fs = a ++ b ∧ RecvField is c.recv a ∧ ArgFields c.args b :=
  (forward hL hp h h').2.2

/-- C156 (compiles): a call that compiles still does so after the change if, and only if, each argument is one value, a constant has a value of its default type and, if it is no
literal, name or selector, that type can be passed; and what stands before the dot is a value or is taken for a package. Missing as above. -/
theorem C156_compiles_partial {p : Place} {types : List S.T} (is : List Import) (pid : Nat) {c : Call S} (hL : Laws S) (hN : S.nilable S.top = true) (hp : InScope p c)
    (h : (passed types c).isSome = true) : (outcome p types (build is pid c)).isSome = true ↔ (∀ x ∈ c.recv, RecvOK is x) ∧ List.Forall₂ ArgOK types c.args := by
  obtain ⟨⟨r, vs⟩, h⟩ := Option.isSome_iff_exists.mp h
  constructor
  · intro h'
    obtain ⟨⟨fs, r', vs'⟩, h'⟩ := Option.isSome_iff_exists.mp h'
    have := forward hL hp h h'
    exact ⟨this.1, this.2.1⟩
  rintro ⟨hrecv, hargs⟩
  obtain ⟨hlen, hargs'⟩ := forall_iff_get.mp hargs
  have hargdef : ∀ q ∈ (c.args.mapIdx (argPre pid)).flatten, ∃ x, (q.2.before p).bind defined = some x := by
    intro q hq
    obtain ⟨i, he, hm, -⟩ := pre_mem.mp hq
    rw [before_eq (hp.2 _ (List.mem_of_getElem? he)), Option.bind_some]
    obtain ⟨s, hs, hf, ht⟩ := hargs' i _ _ (List.getElem?_eq_getElem (hlen ▸ (List.getElem?_eq_some_iff.mp he).1)) he
    rw [hs]
    cases s with
    | typed t v => exact ⟨_, rfl⟩
    | untyped k => exact ⟨(S.dflt k, _), by simp only [defined, into, hf k rfl, if_true, Option.map_some]; rfl⟩
    | nil => exact absurd (ht ((moved_iff _).mp hm)) id
  -- the value of the receiver
  have htyped : ∀ x, c.recv = some x → (∃ s, x.sense = .one s) → ∃ t v, x.sense = .one (.typed t v) := by
    rintro x hx ⟨s, hs⟩
    simp only [passed, hx] at h
    obtain ⟨r1, hr1, -⟩ := Option.bind_eq_some_iff.mp h
    rw [hs] at hr1
    cases s with
    | typed t v => exact ⟨t, v, hs⟩
    | _ => cases hr1
  -- the definitions
  have hpre : ∃ cx, defineAll p [] (build is pid c).pre = some cx := by
    refine defineAll_ok ?_ ?_ fun q _ => rfl
    · intro q hq
      rcases List.mem_append.mp hq with hq | hq
      · cases hr : c.recv with
        | none => rw [hr] at hq; cases hq
        | some x =>
          rw [hr] at hq
          rcases recvStep_cases is pid x with ⟨n, hn, hnp, hstep⟩ | ⟨n, hn, hpk, hstep⟩ | ⟨hn, hstep⟩ <;> rw [hstep] at hq
          · cases hq
          · cases hq
          · obtain rfl := List.mem_singleton.mp hq
            rw [before_eq (hp.1 x hr), Option.bind_some]
            rcases hrecv x hr with h1 | ⟨n, h1, -⟩
            · obtain ⟨t, v, h1⟩ := htyped x hr h1
              rw [h1]
              exact ⟨_, rfl⟩
            · exact absurd h1 (hn n)
      · exact hargdef q hq
    · simp only [build, List.map_append]
      refine List.nodup_append.mpr ⟨?_, pre_nodup _ _, fun a ha b hb => ?_⟩
      · cases hr : c.recv with
        | none => exact List.nodup_nil
        | some x => rcases recvStep_cases is pid x with ⟨n, hn, hnp, hstep⟩ | ⟨n, hn, hpk, hstep⟩ | ⟨hn, hstep⟩ <;> rw [hstep] <;> simp
      · obtain ⟨q, hq, rfl⟩ := List.mem_map.mp hb
        obtain ⟨i, -, -, hi⟩ := pre_mem.mp hq
        rw [hi]
        cases hr : c.recv with
        | none => rw [hr] at ha; cases ha
        | some x =>
          rw [hr] at ha
          rcases recvStep_cases is pid x with ⟨n, hn, hnp, hstep⟩ | ⟨n, hn, hpk, hstep⟩ | ⟨hn, hstep⟩ <;> rw [hstep] at ha <;> simp at ha
          rw [ha]
          exact recv_arg pid i
  obtain ⟨cx, hdef⟩ := hpre
  obtain ⟨-, hget⟩ := defineAll_some hdef
  have hheld : Held cx pid c.args := by
    intro i e he hm
    obtain ⟨x, hx, hg⟩ := hget (argTmp pid i, e) (List.mem_append_right _ (pre_mem.mpr ⟨i, he, hm, rfl⟩))
    simp only at hx hg
    rw [before_eq (hp.2 e (List.mem_of_getElem? he)), Option.bind_some] at hx
    exact ⟨x, hx, hg⟩
  have htaken : takenAll types (c.args.map (·.sense)) = some vs := by
    cases hr : c.recv with
    | none =>
      simp only [passed, hr] at h
      obtain ⟨vs2, ht2, h⟩ := Option.map_eq_some_iff.mp h
      cases h
      exact ht2
    | some x =>
      simp only [passed, hr] at h
      obtain ⟨r1, hr1, h⟩ := Option.bind_eq_some_iff.mp h
      obtain ⟨vs2, ht2, h⟩ := Option.map_eq_some_iff.mp h
      cases h
      exact ht2
  obtain ⟨⟨b, hb⟩, as, vs', has, hvs'⟩ := args_backward (p := p) hL hN hp.2 hheld hargs htaken
  cases hr : c.recv with
  | none =>
    have : outcome p types (build is pid c) = some (b, none, vs') := by
      rw [outcome, hdef, Option.bind_some]
      simp only [build, hr, recvStep, List.nil_append, hb, has, Option.bind_some, hvs', Option.map_some]
    rw [this]
    rfl
  | some x =>
    simp only [passed, hr] at h
    obtain ⟨r1, hr1, -⟩ := Option.bind_eq_some_iff.mp h
    have hxn := before_eq (hp.1 x hr)
    rcases recvStep_cases is pid x with ⟨n, hn, hnp, hstep⟩ | ⟨n, hn, hpk, hstep⟩ | ⟨hn, hstep⟩
    · have hval : ∃ t v, x.sense = .one (.typed t v) := by
        rcases hrecv x hr with h1 | ⟨n', h1, h2⟩
        · exact htyped x hr h1
        · rw [hn] at h1
          cases h1
          exact absurd h2 hnp
      obtain ⟨t, v, hs⟩ := hval
      have : outcome p types (build is pid c) = some ((Temps.display n, conv v S.top) :: b, some r1, vs') := by
        rw [outcome, hdef, Option.bind_some]
        simp only [build, hr, hstep, List.cons_append, List.nil_append, reported, RExpr.before, hxn, hs, taken, into, hL.top, if_true, hb, has, Option.bind_some, hvs', Option.map_some, RExpr.sense]
        rw [hs] at hr1
        rw [hr1]
        rfl
      rw [this]
      rfl
    · have : outcome p types (build is pid c) = some (b, some r1, vs') := by
        rw [outcome, hdef, Option.bind_some]
        simp only [build, hr, hstep, List.nil_append, hb, has, Option.bind_some, hvs', Option.map_some, RExpr.sense, hr1]
      rw [this]
      rfl
    · obtain ⟨t, v, hs⟩ : ∃ t v, x.sense = .one (.typed t v) := by
        rcases hrecv x hr with h1 | ⟨n', h1, h2⟩
        · exact htyped x hr h1
        · exact absurd h1 (hn n')
      obtain ⟨y, hy, hg⟩ := hget (recvTmp pid, x) (by simp [build, hr, hstep])
      simp only [hxn, hs, Option.bind_some, defined] at hy hg
      cases hy
      have : outcome p types (build is pid c) = some ((['r', 'e', 'c', 'v'], conv v S.top) :: b, some (some (t, v)), vs') := by
        rw [outcome, hdef, Option.bind_some]
        simp only [build, hr, hstep, List.cons_append, List.nil_append, reported, RExpr.before, hg, taken, into, hL.top, if_true, hb, has, Option.bind_some, hvs', Option.map_some, RExpr.sense, received]
      rw [this]
      rfl

/-! ### Examples -/

open Verif.Temps (goSys goLaws GT GC)

instance : DecidableEq goSys.T := inferInstanceAs (DecidableEq GT)
instance : DecidableEq (Dyn goSys) := inferInstanceAs (DecidableEq (Option (GT × Nat)))
instance : DecidableEq (goSys.T × Dyn goSys) := instDecidableEqProd
instance : DecidableEq (Option (Option (goSys.T × Dyn goSys)) × List (Dyn goSys)) := instDecidableEqProd
instance : DecidableEq (List (Name × Dyn goSys) × Option (Option (goSys.T × Dyn goSys)) × List (Dyn goSys)) := instDecidableEqProd

abbrev Out := Option (List (Name × Dyn goSys) × Option (Option (goSys.T × Dyn goSys)) × List (Dyn goSys))
instance : DecidableEq Out := inferInstance

def val (syn : Syn) (names : List Name) (t : GT) (p : Nat) : Expr goSys := ⟨syn, names, .one (.typed t (some (t, p))), some (.one (.typed t (some (t, p))))⟩
def cst (syn : Syn) (names : List Name) (k : GC) : Expr goSys := ⟨syn, names, .one (.untyped k), some (.one (.untyped k))⟩
def pkg (n : Name) : Expr goSys := ⟨.ident n, [n], .noValue, some .noValue⟩

/-- `a.b.f(n, g(), 5, nil)` with a parameter of type `uint64` for the literal and of an interface type for what `g` returns. -/
def sample : Call goSys where
  recv := some (val .sel [['a']] .ptr 7)
  args := [val (.ident ['n']) [['n']] .int 4, val .other [['g']] .ptr 9, cst .lit [] .five, ⟨.ident ['n', 'i', 'l'], [], .one .nil, some (.one .nil)⟩]

def sampleTypes : List GT := [.int, .any, .uint64, .any]

def sampleFields : List (List Char × Option (GT × Nat)) :=
  [(['r', 'e', 'c', 'v'], some (.ptr, 7)), (['a', 'r', 'g', '0'], some (.int, 4)), (['a', 'r', 'g', '1'], some (.ptr, 9)), (['a', 'r', 'g', '2'], some (.int, 5)), (['a', 'r', 'g', '3'], none)]

theorem sample_ok : (passed (S := goSys) sampleTypes sample).isSome = true ∧ outcome (S := goSys) .simple sampleTypes (build [] 3 sample) =
    (some (sampleFields, some (some (GT.ptr, some (GT.ptr, (7 : Nat)))), [some (GT.int, (4 : Nat)), some (GT.ptr, (9 : Nat)), some (GT.uint64, (5 : Nat)), none]) : Out) :=
  ⟨by decide +kernel, by decide +kernel⟩

theorem sample_scope : InScope .simple sample := ⟨fun _ _ _ _ => by simp [Place.hidden], fun _ _ _ _ => by simp [Place.hidden]⟩

/-- The hypotheses of both theorems hold, the second also of a call of a package function, and of one in the condition of an `if` whose first part declares another name. -/
example : ∃ r vs fs r' vs', passed (S := goSys) sampleTypes sample = some (r, vs) ∧ outcome (S := goSys) .simple sampleTypes (build [] 3 sample) = some (fs, r', vs') ∧ vs' = vs ∧
    ∃ a b, fs = a ++ b ∧ RecvField [] sample.recv a ∧ ArgFields sample.args b := by
  obtain ⟨⟨r, vs⟩, h⟩ := Option.isSome_iff_exists.mp sample_ok.1
  have := C156_same_partial goLaws sample_scope h sample_ok.2
  exact ⟨_, _, _, _, _, h, sample_ok.2, this.2.1, this.2.2⟩

example : (∀ x ∈ sample.recv, RecvOK [] x) ∧ List.Forall₂ (ArgOK (S := goSys)) sampleTypes sample.args :=
  (C156_compiles_partial [] 3 goLaws rfl sample_scope sample_ok.1).mp (by rw [sample_ok.2]; rfl)

example : InScope (.cond [['x']]) (⟨some (pkg ['y', 'a', 'm', 'l']), [val (.ident ['n']) [['n']] .int 4]⟩ : Call goSys) ∧
    outcome (S := goSys) (.cond [['x']]) [GT.int] (build [(none, "gopkg.in/yaml".toList)] 3 ⟨some (pkg ['y', 'a', 'm', 'l']), [val (.ident ['n']) [['n']] .int 4]⟩) =
      (some ([(['a', 'r', 'g', '0'], some (GT.int, (4 : Nat)))], some none, [some (GT.int, (4 : Nat))]) : Out) := by
  refine ⟨⟨?_, ?_⟩, by decide +kernel⟩
  · rintro x ⟨⟩; simp [pkg, Place.hidden]
  · intro e he
    obtain rfl := List.mem_singleton.mp he
    simp [val, Place.hidden]

/-! ### Calls that do not survive -/

/-- `f(g())` where `g` has two results: the results cannot be defined as one variable. -/
theorem C156_several_violated : ∃ (c : Call goSys) (types : List goSys.T), InScope .simple c ∧ (passed types c).isSome = true ∧ ∀ is pid, outcome .simple types (build is pid c) = none := by
  let c : Call goSys := ⟨none, [⟨.other, [['g']], .many [.typed .int (some (.int, (4 : Nat))), .typed .string (some (.string, (5 : Nat)))], none⟩]⟩
  have hs : InScope .simple c := ⟨fun _ _ _ _ => by simp [Place.hidden], fun _ _ _ _ => by simp [Place.hidden]⟩
  have hp : (passed (S := goSys) [GT.int, GT.string] c).isSome = true := by decide +kernel
  refine ⟨c, [GT.int, GT.string], hs, hp, fun is pid => ?_⟩
  have := (C156_compiles_partial is pid goLaws rfl hs hp).not.mpr fun h => by cases h.2 with | cons _ h => cases h
  simpa using this

/-- `f(C + 1)` with a constant `C`, for a parameter of type `uint64`: the variable made for the argument is an `int`. -/
theorem C156_constant_violated : ∃ (c : Call goSys) (types : List goSys.T), InScope .simple c ∧ (passed types c).isSome = true ∧ ∀ is pid, outcome .simple types (build is pid c) = none := by
  let c : Call goSys := ⟨none, [cst (.binary (.ident ['C']) .lit) [['C']] .five]⟩
  have hs : InScope .simple c := ⟨fun _ _ _ _ => by simp [Place.hidden], fun _ _ _ _ => by simp [Place.hidden]⟩
  have hp : (passed (S := goSys) [GT.uint64] c).isSome = true := by decide +kernel
  refine ⟨c, [GT.uint64], hs, hp, fun is pid => ?_⟩
  have := (C156_compiles_partial is pid goLaws rfl hs hp).not.mpr fun h => by
    obtain ⟨s, h1, -, h2⟩ := (List.forall₂_cons.mp h.2).1
    cases h1
    have := h2 (by rintro (⟨x, h⟩ | h | h) <;> cases h; rename_i h _; cases h)
    exact absurd this (by unfold Typable; decide)
  simpa using this

/-- `f(math.MaxUint64)` for a parameter of type `uint64`: the argument stays, but is too big for the `int` it is reported as. -/
theorem C156_big_violated : ∃ (c : Call goSys) (types : List goSys.T), InScope .simple c ∧ (passed types c).isSome = true ∧ ∀ is pid, outcome .simple types (build is pid c) = none := by
  let c : Call goSys := ⟨none, [cst .sel [['m', 'a', 't', 'h']] .big]⟩
  have hs : InScope .simple c := ⟨fun _ _ _ _ => by simp [Place.hidden], fun _ _ _ _ => by simp [Place.hidden]⟩
  have hp : (passed (S := goSys) [GT.uint64] c).isSome = true := by decide +kernel
  refine ⟨c, [GT.uint64], hs, hp, fun is pid => ?_⟩
  have := (C156_compiles_partial is pid goLaws rfl hs hp).not.mpr fun h => by
    obtain ⟨s, h1, h2, -⟩ := (List.forall₂_cons.mp h.2).1
    cases h1
    exact absurd (h2 .big rfl) (by decide)
  simpa using this

/-- `yaml.Marshal(n)` with `import "gopkg.in/yaml.v3"`: the package is taken for a variable and reported. -/
theorem C156_package_violated : ∃ (c : Call goSys) (types : List goSys.T), InScope .simple c ∧ (passed types c).isSome = true ∧
    ∀ pid, outcome .simple types (build [(none, "gopkg.in/yaml.v3".toList)] pid c) = none := by
  let c : Call goSys := ⟨some (pkg ['y', 'a', 'm', 'l']), [val (.ident ['n']) [['n']] .int 4]⟩
  have hs : InScope .simple c := ⟨fun _ _ _ _ => by simp [Place.hidden], fun _ _ _ _ => by simp [Place.hidden]⟩
  have hp : (passed (S := goSys) [GT.int] c).isSome = true := by decide +kernel
  refine ⟨c, [GT.int], hs, hp, fun pid => ?_⟩
  have := (C156_compiles_partial [(none, "gopkg.in/yaml.v3".toList)] pid goLaws rfl hs hp).not.mpr fun h => by
    rcases h.1 _ rfl with ⟨s, h⟩ | ⟨n, h1, h2⟩
    · cases h
    · cases h1
      rcases h2 with h2 | h2
      · cases h2
      · rw [← mem_packages] at h2
        exact absurd h2 (by decide +kernel)
  simpa using this

/-- The method expression `T.Method(x)`: the type is taken for a variable and reported. -/
theorem C156_method_violated : ∃ (c : Call goSys) (types : List goSys.T), InScope .simple c ∧ (passed types c).isSome = true ∧ ∀ pid, outcome .simple types (build [] pid c) = none := by
  let c : Call goSys := ⟨some (pkg ['T']), [val (.ident ['x']) [['x']] .ptr 4]⟩
  have hs : InScope .simple c := ⟨fun _ _ _ _ => by simp [Place.hidden], fun _ _ _ _ => by simp [Place.hidden]⟩
  have hp : (passed (S := goSys) [GT.ptr] c).isSome = true := by decide +kernel
  refine ⟨c, [GT.ptr], hs, hp, fun pid => ?_⟩
  have := (C156_compiles_partial [] pid goLaws rfl hs hp).not.mpr fun h => by
    rcases h.1 _ rfl with ⟨s, h⟩ | ⟨n, h1, h2⟩
    · cases h
    · cases h1
      rcases h2 with h2 | ⟨i, h2, -⟩
      · cases h2
      · cases h2
  simpa using this

/-- `if x := g(); f(x) { … }`: the report is put before the statement, where `x` is not declared. -/
theorem C156_scope_violated : ∃ (p : Place) (c : Call goSys) (types : List goSys.T), (passed types c).isSome = true ∧ outcome p types (build [] 3 c) = none :=
  ⟨.cond [['x']], ⟨none, [⟨.ident ['x'], [['x']], .one (.typed .int (some (.int, (4 : Nat)))), none⟩]⟩, [GT.int], by decide +kernel, by decide +kernel⟩

/-- `if err := b(); handle(err) { … }` where another `err` is declared before: that one is reported, and not what the function gets. -/
theorem C156_shadow_violated : ∃ (p : Place) (c : Call goSys) (types : List goSys.T) (v w : Dyn goSys), passed types c = some (none, [v]) ∧
    outcome p types (build [] 3 c) = some ([(['a', 'r', 'g', '0'], w)], none, [v]) ∧ v ≠ w :=
  ⟨.cond [['e']], ⟨none, [⟨.ident ['e'], [['e']], .one (.typed .ptr (some (.ptr, (4 : Nat)))), some (.one (.typed .ptr (some (.ptr, (5 : Nat)))))⟩]⟩, [GT.ptr],
    some (GT.ptr, (4 : Nat)), some (GT.ptr, (5 : Nat)), by decide +kernel, by decide +kernel, by decide +kernel⟩

end Verif.Args
