import Verif.Seen.Lemmas
import Verif.Whole.Props

/-! C147: what is recorded of the values of a program. C148: which of its changes are in the report. -/

namespace Verif.Seen

open Verif.Wire (WField Field serve encState)
open Verif.Result (Bytes leafAt dotted)
open Verif.Capture (Cfg Heap V Unwraps capture captureAll full snapshot)
open Verif.Fields (Lib At Any Last Kept Distinct record sprint)
open Verif.Pipeline (Call Run)

theorem unnamed_eq : unnamed = Capture.nilName := by decide +kernel

theorem point_call {e : Env} {id : UInt32} {p : Bool × Bytes} : pointOf e id = some p ↔ (p.1 = true → e.extension.get id = some p.2) ∧
    (p.1 = false → e.extension.get id = none ∧ e.project.get id = some p.2) := by
  obtain ⟨b, i⟩ := p
  unfold pointOf
  cases h : e.extension.get id with
  | some x => cases b <;> simp
  | none =>
    cases h' : e.project.get id with
    | some x => cases b <;> simp
    | none => cases b <;> simp

theorem point_known {e : Env} {s : Shot} (h : Sendable e s) : ∃ p, pointOf e s.id = some p := by
  have := h.known
  rw [AMap.mem_keys, AMap.mem_keys] at this
  unfold pointOf
  cases h1 : e.extension.get s.id with
  | some x => exact ⟨_, rfl⟩
  | none =>
    cases h2 : e.project.get s.id with
    | some x => exact ⟨_, rfl⟩
    | none => simp [h1, h2] at this

theorem line_mod (l : UInt64) : l.toUInt32.toNat = l.toNat % 2 ^ 32 := by simp

/-- A message within the limits, as the monitor sees it. -/
theorem sent_eq {e : Env} {fuel : Nat} {s : Shot} {ws : List WField} (hs : Sendable e s) (hw : captureAll e.cfg s.heap fuel (s.snaps.filter fun x => x.1 ≠ Capture.nilName) = some ws) :
    ∃ m, sent e fuel s = some m ∧ m.fields = ws.map WField.erase ∧ CallOf e s m := by
  have ho := Capture.captureAll_ok hs.len (fun x hx => hs.fits x (List.mem_of_mem_filter hx)) hw
  have hl : ws.length ≤ Wire.maxUint32 := by
    have hl := congrArg List.length ho.1
    simp only [List.length_map] at hl
    rw [hl]
    exact le_trans (List.length_filter_le _ _) hs.count
  have hd := Wire.C17_state_delivered e.cfg.len ⟨s.id, s.ns, s.stack, ws⟩ ⟨hs.stack, hl, ho.2⟩
  obtain ⟨p, hp⟩ := point_known hs
  refine ⟨⟨p.1, p.2, trimmed e s.stack, s.ns.toNat, ws.map WField.erase⟩, ?_, rfl, ?_⟩
  · unfold sent snapshot
    rw [hw]
    simp only [Option.map_some, Option.bind_some, received, hd]
    show callOf e ⟨s.id, s.ns, s.stack, ws.map WField.erase⟩ = _
    simp [callOf, hp]
  · obtain ⟨h1, h2⟩ := point_call.mp hp
    exact ⟨h1, h2, rfl, by simp [trimmed], by simp [trimmed]⟩

theorem captureAll_none {c : Cfg} {h : Heap} {fuel : Nat} : ∀ {snaps : List (Bytes × V)}, (∀ s ∈ snaps, ∃ w, capture c h fuel s.1 s.2 = some w) → ∃ ws, captureAll c h fuel snaps = some ws
  | [], _ => ⟨[], rfl⟩
  | s :: ss, hh => by
    obtain ⟨w, hw⟩ := hh s (by simp)
    obtain ⟨ws, hws⟩ := captureAll_none fun x hx => hh x (List.mem_cons_of_mem _ hx)
    exact ⟨w :: ws, by simp [captureAll, hw, hws]⟩

theorem captureAll_pairs {c : Cfg} {h : Heap} {fuel : Nat} : ∀ {snaps : List (Bytes × V)} {ws : List WField}, captureAll c h fuel snaps = some ws →
    ws.length = snaps.length ∧ ∀ (i : Nat) s w, snaps[i]? = some s → ws[i]? = some w → capture c h fuel s.1 s.2 = some w
  | [], ws, e => by
    simp only [captureAll, Option.some.injEq] at e
    subst e; simp
  | s :: ss, ws, e => by
    simp only [captureAll] at e
    cases h1 : capture c h fuel s.1 s.2 with
    | none => simp [h1] at e
    | some w =>
      cases h2 : captureAll c h fuel ss with
      | none => simp [h1, h2] at e
      | some ws' =>
        simp only [h1, h2, Option.some.injEq] at e
        subst e
        obtain ⟨hl, hr⟩ := captureAll_pairs h2
        refine ⟨by simp [hl], fun i y w' hy hw => ?_⟩
        cases i with
        | zero =>
          simp only [List.getElem?_cons_zero, Option.some.injEq] at hy hw
          subst hy hw
          exact h1
        | succ i => exact hr i y w' (by simpa using hy) (by simpa using hw)

theorem capture_drawn {c : Cfg} {h : Heap} {fuel : Nat} {n : Bytes} {v : V} {w : WField} (e : capture c h fuel n v = some w) : Drawn c h true c.depth n v w := by
  unfold capture at e
  cases h1 : Capture.stream c h fuel c.depth n v none [] with
  | none => simp [h1] at e
  | some q =>
    simp only [h1, Option.map_some, Option.some.injEq] at e
    rw [← e]
    exact stream_drawn _ _ _ _ _ q.1 q.2 h1

theorem sent_some {e : Env} {fuel : Nat} {s : Shot} {m : Call} (h : sent e fuel s = some m) : ∃ ws, captureAll e.cfg s.heap fuel (s.snaps.filter fun x => x.1 ≠ Capture.nilName) = some ws := by
  unfold sent snapshot at h
  cases h1 : captureAll e.cfg s.heap fuel (s.snaps.filter fun x => x.1 ≠ Capture.nilName) with
  | none =>
    rw [h1] at h
    cases h
  | some ws => exact ⟨ws, rfl⟩

theorem last_any {lib : Lib} {parent : Bytes} {fs : List Field} {p : List Bytes} {s : Bytes} (h : At lib Last parent fs p s) : At lib Any parent fs p s := by
  have key : ∀ {parent : Bytes} {fs : List Field} {f : Field}, Last parent fs f → Any parent fs f := fun h => by
    obtain ⟨h1, a, b, rfl, _⟩ := h
    exact ⟨h1, by simp⟩
  induction h with
  | leaf h1 h2 => exact .leaf (key h1) h2
  | void h1 h2 => exact .void (key h1) h2
  | hollow h1 h2 h3 => exact .hollow (key h1) h2 h3
  | inner h1 _ ih => exact .inner (key h1) ih

/-! ### C147 -/

/-- **C147** (partial). A message within the limits whose capture returns is delivered, with its point, time and stack. Missing: messages beyond the limits (C09), captures that do not
return (C13) and unknown points (C23). -/
theorem C147_delivered_partial (e : Env) (fuel : Nat) (s : Shot) (hs : Sendable e s) (hr : ∀ sn ∈ s.snaps, sn.1 ≠ unnamed → ∃ w, capture e.cfg s.heap fuel sn.1 sn.2 = some w) :
    ∃ m, sent e fuel s = some m ∧ CallOf e s m := by
  obtain ⟨ws, hws⟩ := captureAll_none (c := e.cfg) (h := s.heap) (fuel := fuel) (snaps := s.snaps.filter fun x => x.1 ≠ Capture.nilName) fun x hx =>
    hr x (List.mem_of_mem_filter hx) (by rw [unnamed_eq]; simpa using (List.mem_filter.mp hx).2)
  obtain ⟨m, h1, _, h3⟩ := sent_eq hs hws
  exact ⟨m, h1, h3⟩

/-- **C147** (partial). Every text recorded at a path is that of the value the program has there, or a note in place of a value with an address. Missing: that the note is only there
for values met before, which is C14. -/
theorem C147_genuine_partial (lib : Lib) (e : Env) (fuel : Nat) (s : Shot) (m : Call) (hs : Sendable e s) (h : sent e fuel s = some m) (p : List Bytes) (t : Bytes)
    (hp : leafAt p (record lib m.fields) = some t) : Displays lib e true s p t := by
  obtain ⟨ws, hws⟩ := sent_some h
  obtain ⟨m', h1, h2, _⟩ := sent_eq hs hws
  cases h.symm.trans h1
  have ha : At lib Any [] m.fields p t := last_any ((Fields.C102_last lib m.fields p t).mp hp)
  rw [h2] at ha
  obtain ⟨f', hf', hat⟩ := at_single.mp ha
  obtain ⟨f, hf, rfl⟩ := List.mem_map.mp hf'
  obtain ⟨hl, hr⟩ := captureAll_pairs hws
  obtain ⟨i, sn, k1, k2⟩ := (mem_pair hl).1 f hf
  have hm := List.mem_filter.mp (List.mem_of_getElem? k1)
  refine ⟨sn, hm.1, by rw [unnamed_eq]; simpa using hm.2, ?_⟩
  exact at_shows _ _ _ _ _ _ _ (capture_drawn (hr i sn f k1 k2)) hat

/-- **C147** (partial). If no address is met twice and names are distinct, the texts recorded are exactly those of the values of the program at their paths. Missing: values that share
parts, see `C147_shared_violated`. -/
theorem C147_exact_partial (lib : Lib) (e : Env) (fuel : Nat) (s : Shot) (hs : Clear e fuel s) :
    ∃ m, sent e fuel s = some m ∧ CallOf e s m ∧ ∀ p t, leafAt p (record lib m.fields) = some t ↔ Displays lib e false s p t := by
  have hcap : ∀ x ∈ s.snaps, ∃ w, capture e.cfg s.heap fuel x.1 x.2 = some w ∧ Drawn e.cfg s.heap false e.cfg.depth x.1 x.2 w := fun x hx => by
    obtain ⟨w, as, h1, h2⟩ := hs.once x hx
    exact ⟨w, Capture.C14_full_partial _ _ _ _ _ _ _ h1 h2, full_drawn _ _ _ _ _ h1⟩
  obtain ⟨ws, hws⟩ := captureAll_none (c := e.cfg) (h := s.heap) (fuel := fuel) (snaps := s.snaps.filter fun x => x.1 ≠ Capture.nilName) fun x hx => by
    obtain ⟨w, h1, _⟩ := hcap x (List.mem_of_mem_filter hx)
    exact ⟨w, h1⟩
  obtain ⟨m, h1, h2, h3⟩ := sent_eq hs.toSendable hws
  refine ⟨m, h1, h3, fun p t => ?_⟩
  obtain ⟨hl, hr⟩ := captureAll_pairs hws
  have hdr : ∀ (i : Nat) x w, (s.snaps.filter fun x => x.1 ≠ Capture.nilName)[i]? = some x → ws[i]? = some w → Drawn e.cfg s.heap false e.cfg.depth x.1 x.2 w := fun i x w k1 k2 => by
    obtain ⟨w', g1, g2⟩ := hcap x (List.mem_of_mem_filter (List.mem_of_getElem? k1))
    cases (hr i x w k1 k2).symm.trans g1
    exact g2
  have hdist : Distinct m.fields := by
    rw [h2]
    refine .mk ?_ fun n t cs hm => ?_
    · have : (ws.map WField.erase).map Fields.nameOf = (s.snaps.filter fun x => x.1 ≠ Capture.nilName).map (·.1) := by
        refine List.ext_getElem? fun i => ?_
        simp only [List.getElem?_map, Option.map_map]
        cases hi : (s.snaps.filter fun x => x.1 ≠ Capture.nilName)[i]? with
        | none =>
          rw [List.getElem?_eq_none_iff] at hi
          rw [List.getElem?_eq_none (by omega)]
          rfl
        | some x =>
          cases hj : ws[i]? with
          | none =>
            rw [List.getElem?_eq_none_iff] at hj
            have := (List.getElem?_eq_some_iff.mp hi).1
            omega
          | some f =>
            simp only [Option.map_some, Function.comp_apply, Option.some.injEq]
            exact drawn_name (hdr i x f hi hj)
      rw [this, ← unnamed_eq]
      exact hs.names
    · obtain ⟨f, hf, he⟩ := List.mem_map.mp hm
      obtain ⟨i, x, k1, k2⟩ := (mem_pair hl).1 f hf
      exact drawn_distinct _ _ _ _ (hdr i x f k1 k2) (hs.apart x (List.mem_of_mem_filter (List.mem_of_getElem? k1))) _ _ _ he
  rw [Fields.C102_exact_partial lib m.fields hdist, h2, at_single]
  constructor
  · rintro ⟨f', hf', hat⟩
    obtain ⟨f, hf, rfl⟩ := List.mem_map.mp hf'
    obtain ⟨i, x, k1, k2⟩ := (mem_pair hl).1 f hf
    have hm := List.mem_filter.mp (List.mem_of_getElem? k1)
    exact ⟨x, hm.1, by rw [unnamed_eq]; simpa using hm.2, at_shows _ _ _ _ _ _ _ (hdr i x f k1 k2) hat⟩
  · rintro ⟨x, hx, hn, hsh⟩
    rw [unnamed_eq] at hn
    obtain ⟨i, f, k1, k2⟩ := (mem_pair hl).2 x (List.mem_filter.mpr ⟨hx, by simpa using hn⟩)
    exact ⟨f.erase, List.mem_map_of_mem (List.mem_of_getElem? k2), shows_at _ _ _ _ _ _ _ (hdr i x f k1 k2) hsh⟩

/-- `struct{ a, b *int }` with both fields pointing to the same number. -/
def sharedHeap : Heap where
  deref := fun o => if o = 0 then .struct [83] [([97], .ptr [112] 8 1), ([98], .ptr [112] 8 1)] else .scalar [105] (.int64 7)
  elems := fun _ => []
  entries := fun _ => []
  sorted := fun _ => []

def exEnv : Env := ⟨Capture.exCfg, id, [], [(3, [102])], [(4, [102])], []⟩

def sharedShot : Shot := ⟨3, sharedHeap, 5, [], [([118], .ptr [113] 16 0)]⟩

def sharedParts : List (Bytes × V × V) :=
  [([118], .ptr [113] 16 0, .struct [83] [([97], .ptr [112] 8 1), ([98], .ptr [112] 8 1)]),
   ([118, 46, 97], .ptr [112] 8 1, .scalar [105] (.int64 7)),
   ([118, 46, 98], .ptr [112] 8 1, .scalar [105] (.int64 7))]

theorem sharedParts_unwraps : ∀ x ∈ sharedParts, Unwraps sharedHeap x.2.1 x.2.2 := by
  intro x hx
  simp only [sharedParts, List.mem_cons, List.not_mem_nil, or_false] at hx
  rcases hx with rfl | rfl | rfl <;> exact ⟨3, rfl⟩

theorem sharedParts_step : ∀ x ∈ sharedParts, ∀ y ∈ Capture.items Capture.exCfg sharedHeap x.2.2, ∃ w, (Capture.valuePath x.1 y.1, y.2, w) ∈ sharedParts := by
  intro x hx y hy
  simp only [sharedParts, List.mem_cons, List.not_mem_nil, or_false] at hx
  rcases hx with rfl | rfl | rfl
  · simp only [Capture.items, List.mem_cons, List.not_mem_nil, or_false] at hy
    rcases hy with rfl | rfl <;> exact ⟨_, by simp [sharedParts, Capture.valuePath]; rfl⟩
  · simp [Capture.items] at hy
  · simp [Capture.items] at hy

theorem sharedAt {p : Bytes} {v : V} (h : Capture.At Capture.exCfg sharedHeap [118] (.ptr [113] 16 0) p v) : ∃ w, (p, v, w) ∈ sharedParts := by
  induction h with
  | root => exact ⟨_, List.mem_cons_self⟩
  | item _ hu hm ih =>
    obtain ⟨w', hw'⟩ := ih
    rw [Capture.unwraps_det hu (sharedParts_unwraps _ hw')] at hm
    exact sharedParts_step _ hw' _ hm

theorem sharedFits : Capture.Fits Capture.exCfg sharedHeap [118] (.ptr [113] 16 0) := by
  intro p v hat
  obtain ⟨w, hw⟩ := sharedAt hat
  have hun := sharedParts_unwraps _ hw
  simp only [sharedParts, List.mem_cons, List.not_mem_nil, or_false, Prod.mk.injEq] at hw
  refine ⟨?_, ?_, ?_⟩
  · rcases hw with h | h | h <;> rw [h.1] <;> decide
  · rcases hw with h | h | h <;> rw [h.2.1] <;> decide
  · intro w' hw'
    rw [Capture.unwraps_det hw' hun]
    rcases hw with h | h | h <;> rw [h.2.2] <;> simp [V.typ, Wire.maxUint32]

theorem sharedSendable : Sendable exEnv sharedShot :=
  ⟨by decide, ⟨by decide, by simp [sharedShot]⟩, by decide, fun sn hsn => by rw [List.mem_singleton.mp hsn]; exact sharedFits, .inr (by decide)⟩

/-- **C147** (violated). The number 7 in the field `b` is not recorded, since `a` points to it too. -/
theorem C147_shared_violated (lib : Lib) : ∃ (e : Env) (fuel : Nat) (s : Shot) (m : Call) (p : List Bytes), Sendable e s ∧ sent e fuel s = some m ∧ Displays lib e false s p [55] ∧
    leafAt p (record lib m.fields) ≠ some [55] := by
  obtain ⟨m, h1, h2, _⟩ := sent_eq (fuel := 5) (ws := [.node [118] [83] .struct [.leaf [97] [105] (.int64 7), .leaf [98] [112] (Capture.marker [118, 46, 97])]]) sharedSendable rfl
  refine ⟨exEnv, 5, sharedShot, m, [[118], [98]], sharedSendable, h1, ⟨_, List.mem_singleton.mpr rfl, by decide +kernel, ?_⟩, ?_⟩
  · refine .part (w := .struct [83] [([97], .ptr [112] 8 1), ([98], .ptr [112] 8 1)]) ⟨5, rfl⟩ (by unfold Hidden; decide +kernel) (k := [98]) (e := .ptr [112] 8 1) (by simp [Capture.items]) ?_
    refine .own (w := .scalar [105] (.int64 7)) (t := [55]) ⟨5, rfl⟩ ?_ (by unfold Hidden; decide +kernel) ?_
    · simp only [textOf, Capture.numberVal, sprint, Option.some.injEq]
      decide +kernel
    · exact .inl ⟨.inr (by decide), rfl⟩
  · intro hh
    have hat := last_any ((Fields.C102_last ..).mp hh)
    rw [h2] at hat
    cases hat with
    | inner g1 g2 =>
      simp [WField.erase, Any] at g1
      obtain ⟨_, rfl, rfl⟩ := g1
      cases g2 with
      | leaf k1 k2 =>
        simp [Any] at k1
        obtain ⟨_, rfl, rfl⟩ := k1
        simp only [Capture.marker, sprint] at k2
        rcases k2 with ⟨_, k2⟩ | ⟨_, k2, _⟩
        · revert k2
          decide +kernel
        · revert k2
          decide +kernel
      | void k1 => simp [Any] at k1
      | inner k1 k2 => cases k2

/-! ### C148 -/

theorem path_eq {e : Env} {s : Shot} {m : Call} (h : CallOf e s m) : Pipeline.pathOf m.stack = pathAt e s := by
  unfold Pipeline.pathOf pathAt
  rw [← h.stack, List.filter_map]
  rfl

theorem filter_sent {α β : Type} {f : α → Option β} {q : β → Bool} {q' : α → Bool} : ∀ {l : List α}, (∀ a ∈ l, ∃ b, f a = some b ∧ q b = q' a) → ∀ (i : Nat) (b : β),
    ((l.filterMap f).filter q)[i]? = some b ↔ ∃ a, (l.filter q')[i]? = some a ∧ f a = some b
  | [], _, i, b => by simp
  | a :: l, h, i, b => by
    obtain ⟨b', h1, h2⟩ := h a (by simp)
    have ih := filter_sent (l := l) (fun a ha => h a (List.mem_cons_of_mem _ ha))
    rw [List.filterMap_cons_some h1, List.filter_cons, List.filter_cons, h2]
    cases hq : q' a with
    | false => simpa using ih i b
    | true =>
      cases i with
      | zero => simp [h1]
      | succ i => simpa using ih i b

theorem happens_state {e : Env} {fuel : Nat} {s : Shot} {m : Call} (h : sent e fuel s = some m) (r : Run) : happens e fuel r (.state s) = { r with calls := r.calls ++ [m] } := by
  unfold sent received at h
  unfold happens requestOf
  cases h1 : snapshot e.cfg s.heap fuel s.id s.ns s.stack s.snaps with
  | none => rw [h1] at h; cases h
  | some w =>
    rw [h1, Option.bind_some] at h
    simp only [h1, Option.map_some]
    generalize (serve e.cfg.len ⟨.state, true, encState w⟩).effects = es at h ⊢
    match es, h with
    | [.state m'], h =>
      have h' : callOf e m' = some m := h
      show (match callOf e m' with | some c => { r with calls := r.calls ++ [c] } | none => r) = _
      rw [h']

theorem happens_panic {e : Env} {fuel : Nat} {id : UInt32} {ns : BitVec 64} {text : Bytes} (h : text.length ≤ Wire.maxUint32) (r : Run) :
    happens e fuel r (.panic id ns text) = monitor e r (.panic ⟨id, ns, text⟩) := by
  have := Wire.C08_panic_roundtrip ⟨id, ns, text⟩ [] h
  rw [List.append_nil] at this
  simp [happens, requestOf, serve, Wire.reply, this]

theorem happens_entry {e : Env} {fuel : Nat} {id : UInt32} {ns : BitVec 64} {stack : List Wire.Frame} (h : Wire.stackOK stack) (r : Run) :
    happens e fuel r (.entry id ns stack) = { r with reached := r.reached ++ [id.toNat] } := by
  have := Wire.C08_point_roundtrip ⟨id, ns, stack⟩ [] h
  rw [List.append_nil] at this
  simp [happens, requestOf, serve, Wire.reply, this, monitor]

/-- The run has what happened, each thing in its list. -/
theorem run_eq (e : Env) (fuel : Nat) (failed : Bool) : ∀ (events : List Event) (r : Run), (∀ ev ∈ events, Fine e fuel ev) →
    events.foldl (happens e fuel) r = ⟨r.calls ++ (Program.shots ⟨e, fuel, events, failed⟩).filterMap (sent e fuel), r.projectPanics ++ Program.panics ⟨e, fuel, events, failed⟩,
      r.modulePanics ++ Program.modulePanics ⟨e, fuel, events, failed⟩, r.reached ++ Program.entered ⟨e, fuel, events, failed⟩, r.failed⟩
  | [], r, _ => by simp [Program.shots, Program.panics, Program.modulePanics, Program.entered]
  | ev :: events, r, h => by
    rw [List.foldl_cons, run_eq e fuel failed events _ fun x hx => h x (List.mem_cons_of_mem _ hx)]
    have hev := h ev List.mem_cons_self
    cases ev with
    | state s =>
      obtain ⟨m, h1, _⟩ := C147_exact_partial ⟨fun _ => [], fun _ => [], fun _ _ => [], fun _ => []⟩ e fuel s hev
      rw [happens_state h1]
      simp [Program.shots, Program.panics, Program.modulePanics, Program.entered, h1]
    | panic id ns text =>
      rw [happens_panic hev]
      unfold monitor
      simp only [Program.shots, Program.panics, Program.modulePanics, Program.entered, List.filterMap_cons, AMap.mem_keys]
      cases h1 : e.projectPanic.get id with
      | some f => simp
      | none => cases h2 : e.modulePanic.get id <;> simp
    | entry id ns stack =>
      rw [happens_entry hev]
      simp [Program.shots, Program.panics, Program.modulePanics, Program.entered]

theorem makes_eq {P : Program} {r : Run} (h : Makes P r) : r = ⟨P.shots.filterMap (sent P.env P.fuel), P.panics, P.modulePanics, P.entered, P.failed⟩ := by
  rw [h.run, runOf, run_eq P.env P.fuel P.failed P.events _ h.fine]
  simp

theorem makes_clear {P : Program} {r : Run} (h : Makes P r) : ∀ s ∈ P.shots, Clear P.env P.fuel s := by
  intro s hs
  obtain ⟨ev, hev, he⟩ := List.mem_filterMap.mp hs
  cases ev with
  | state s' =>
    cases he
    exact h.fine _ hev
  | _ => cases he

theorem makes_calls {P : Program} {r : Run} (h : Makes P r) : r.calls = P.shots.filterMap (sent P.env P.fuel) := by rw [makes_eq h]

/-- What the runs of C131 show is what the program has. -/
theorem shown_iff {lib : Lib} {P : Program} {r : Run} (h : Makes P r) (f : Bytes) (path : List (Bytes × Bytes)) (i : Nat) (p : List Bytes) (v : Bytes) :
    Pipeline.Shown lib r f path i p v ↔ P.Shows lib f path i p v := by
  unfold Pipeline.Shown Program.Shows Pipeline.callsAlong Program.along
  rw [makes_calls h]
  have hq : ∀ s ∈ P.shots, ∃ m, sent P.env P.fuel s = some m ∧ decide (m.ext = false ∧ m.ident = f ∧ Pipeline.pathOf m.stack = path) =
      decide (P.env.extension.get s.id = none ∧ P.env.project.get s.id = some f ∧ pathAt P.env s = path) := fun s hs => by
    obtain ⟨m, h1, h2, _⟩ := C147_exact_partial lib P.env P.fuel s (makes_clear h s hs)
    refine ⟨m, h1, ?_⟩
    rw [path_eq h2, decide_eq_decide]
    cases he : m.ext with
    | true => simp [h2.extension he]
    | false =>
      obtain ⟨g1, g2⟩ := h2.project he
      simp [g1, g2]
  have key := filter_sent hq
  constructor
  · rintro ⟨m, hm, hat⟩
    obtain ⟨s, hs, hsm⟩ := (key i m).mp hm
    obtain ⟨m', h1, _, h3⟩ := C147_exact_partial lib P.env P.fuel s (makes_clear h s (List.mem_of_mem_filter (List.mem_of_getElem? hs)))
    cases hsm.symm.trans h1
    exact ⟨s, hs, (h3 p v).mp ((Fields.C102_last ..).mpr hat)⟩
  · rintro ⟨s, hs, hd⟩
    obtain ⟨m, h1, _, h3⟩ := C147_exact_partial lib P.env P.fuel s (makes_clear h s (List.mem_of_mem_filter (List.mem_of_getElem? hs)))
    exact ⟨m, (key i m).mpr ⟨s, hs, h1⟩, (Fields.C102_last ..).mp ((h3 p v).mpr hd)⟩

/-- The text at a path is determined. -/
theorem shows_unique {lib : Lib} {P : Program} {r : Run} (h : Makes P r) {f : Bytes} {path : List (Bytes × Bytes)} {i : Nat} {p : List Bytes} {v w : Bytes}
    (hv : P.Shows lib f path i p v) (hw : P.Shows lib f path i p w) : v = w := by
  obtain ⟨s, hs, hd⟩ := hv
  obtain ⟨s', hs', hd'⟩ := hw
  cases hs.symm.trans hs'
  obtain ⟨m, _, _, h3⟩ := C147_exact_partial lib P.env P.fuel s (makes_clear h s (List.mem_of_mem_filter (List.mem_of_getElem? hs)))
  exact Option.some.inj (((h3 p v).mpr hd).symm.trans ((h3 p w).mpr hd'))

theorem value_shows {lib : Lib} {c : Cfg} {h : Heap} {r : Nat} {parent n : Bytes} {v w : V} {p : List Bytes} (hv : Value c h r parent n v p w) {t s : Bytes} (ht : textOf lib c w = some t)
    (hk : Kept lib w.typ t s) : Shows lib c h false r parent n v p s := by
  induction hv with
  | own hu hh => exact .own hu ht hh hk
  | part hu hh hm _ ih => exact .part hu hh hm (ih ht hk)

theorem turns_iff {x : Total.Ctx} {P : Fin 4 → Program} {t : Total.Test} (h : Behind P t) {f : Bytes} {path : List (Bytes × Bytes)} {i : Nat} {p : List Bytes} {v w : Bytes} :
    Verdict.Changes x t f path i p v w ↔ Turns x P f path i p v w ∧ v ≠ w := by
  unfold Verdict.Changes Pipeline.After Turns
  rw [shown_iff h.first, shown_iff h.second, shown_iff h.third, shown_iff h.fourth]
  tauto

theorem lists_of {x : Total.Ctx} {P : Fin 4 → Program} {t : Total.Test} {d : Report.Detail} (h : Behind P t) (hs : Verdict.Says x t d) : Lists x P d := by
  constructor
  · intro f n
    rw [hs.listed]
    simp only [turns_iff h]
  · intro f n text ht
    obtain ⟨path, i, p, v, w, h1, h2, h3⟩ := hs.text f n text ht
    rw [turns_iff h] at h2
    exact ⟨path, i, p, v, w, h1, h2.1, h2.2, h3⟩

theorem forall₂_left {α β : Type} {R : α → β → Prop} : ∀ {l : List α} {m : List β}, List.Forall₂ R l m → ∀ a ∈ l, ∃ b ∈ m, R a b
  | _, _, .cons h t, a, ha => by
    rcases List.mem_cons.mp ha with rfl | ha
    · exact ⟨_, List.mem_cons_self, h⟩
    · obtain ⟨b, hb, hr⟩ := forall₂_left t a ha
      exact ⟨b, List.mem_cons_of_mem _ hb, hr⟩

/-- **C148** (partial). The report of an update has for each test an entry that lists a field of a function exactly if, in some call of it along some path, both runs of the program before
the update had the same text there and the program has another one after it. Missing: the conditions of C131 on the calls, and of C147 on the values. -/
theorem C148_listed_partial (x : Total.Ctx) (hx : Total.Faithful x) (ts : List Total.Test) (ho : ∀ t ∈ ts, Total.Orderly x t) (hn : (ts.map (·.ident)).Nodup) :
    ∃ f0, ∀ fuel, f0 ≤ fuel → ∀ limit, 0 < limit → (∃ u, Verdict.Outcome x fuel limit ts u) ∧
      ∀ u, Verdict.Outcome x fuel limit ts u → ∀ i, ∀ t ∈ ts, ∀ P, Behind P t →
        ∃ d ∈ (Report.metrics (Verdict.written i u)).details, d.ident = t.ident ∧ Lists x P d := by
  obtain ⟨f0, h0⟩ := Verdict.C141_report_partial x hx ts ho hn
  refine ⟨f0, fun fuel hf limit hl => ⟨(h0 fuel hf limit hl).1, fun u hu i t ht P hP => ?_⟩⟩
  obtain ⟨sorted, h1, _, h3⟩ := ((h0 fuel hf limit hl).2 u hu i).each
  obtain ⟨d, hd, hs⟩ := forall₂_left h3 t (h1.mem_iff.mpr ht)
  exact ⟨d, hd, hs.ident, lists_of hP hs⟩

/-- **C148**. If the program has after the update what it had in both runs before it, no field is listed. -/
theorem C148_quiet {x : Total.Ctx} {P : Fin 4 → Program} {t : Total.Test} {d : Report.Detail} (h : Behind P t) (hl : Lists x P d)
    (hq : ∀ f path i p v, (P 0).Shows x.c f path i p v → (P 1).Shows x.c f path i p v → ∀ w, (P 2).Shows x.c f path i p w → (P 2).Shows x.c f path i p v) (f n text : Bytes) :
    ¬ Verdict.Listed d.fields f n text := by
  intro ht
  obtain ⟨path, i, p, v, w, _, h2, h3, _⟩ := hl.text f n text ht
  exact h3 (shows_unique h.third (hq f path i p v h2.1 h2.2.1 w h2.2.2.1) h2.2.2.1)

/-- **C148** (partial). A field whose value was `a` and is `b`, numbers of the same type, is listed. Missing: NaN, numbers with texts of more than 128 bytes. -/
theorem C148_number_partial {x : Total.Ctx} {P : Fin 4 → Program} {d : Report.Detail} (hl : Lists x P d) (hc : Fields.LibOK x.c) (f : Bytes) (path : List (Bytes × Bytes)) (i : Nat)
    (p : List Bytes) (ty : Bytes) (a b : Capture.Scalar) (h0 : (P 0).Has f path i p (.scalar ty a)) (h1 : (P 1).Has f path i p (.scalar ty a)) (h2 : (P 2).Has f path i p (.scalar ty b))
    (h3 : x.force = true → (P 3).Has f path i p (.scalar ty b)) (hk : Fields.kind (Capture.numberVal a) = Fields.kind (Capture.numberVal b)) (pa : Fields.Plain (Capture.numberVal a))
    (pb : Fields.Plain (Capture.numberVal b)) (la : (sprint x.c (Capture.numberVal a)).length ≤ 128) (lb : (sprint x.c (Capture.numberVal b)).length ≤ 128) (hne : a ≠ b) :
    ∃ text, Verdict.Listed d.fields f (dotted p) text := by
  have key : ∀ (Q : Program) s, (sprint x.c (Capture.numberVal s)).length ≤ 128 → Q.Has f path i p (.scalar ty s) → Q.Shows x.c f path i p (sprint x.c (Capture.numberVal s)) := by
    rintro Q s hs ⟨sh, g1, sn, g2, g3, g4⟩
    exact ⟨sh, g1, sn, g2, g3, value_shows g4 rfl (.inl ⟨.inr hs, rfl⟩)⟩
  refine (hl.listed f (dotted p)).mpr ⟨path, i, p, _, _, rfl, ⟨key _ a la h0, key _ a la h1, key _ b lb h2, fun hf => key _ b lb (h3 hf)⟩, fun he => hne ?_⟩
  have := Fields.sprint_inj hc hk pa pb he
  rw [Capture.numberVal_eq, Capture.numberVal_eq] at this
  revert this
  cases a <;> cases b <;> simp [Capture.Scalar.val]

/-- **C148** (partial). A field that held a text and holds another one is listed, if their lengths or their first `L` bytes differ, `L` being the length limit. Missing: texts that
differ only after it. -/
theorem C148_text_partial {x : Total.Ctx} {P : Fin 4 → Program} {d : Report.Detail} (hl : Lists x P d) (f : Bytes) (path : List (Bytes × Bytes)) (i : Nat)
    (p : List Bytes) (a b : Bytes) (h0 : (P 0).Has f path i p (.str "string".toUTF8.toList a)) (h1 : (P 1).Has f path i p (.str "string".toUTF8.toList a))
    (h2 : (P 2).Has f path i p (.str "string".toUTF8.toList b)) (h3 : x.force = true → (P 3).Has f path i p (.str "string".toUTF8.toList b))
    (L : Nat) (hL : ∀ k, (P k).env.cfg.len = L) (hne : a.length ≠ b.length ∨ a.take L ≠ b.take L) :
    ∃ text, Verdict.Listed d.fields f (dotted p) text := by
  have key : ∀ k s, (P k).Has f path i p (.str "string".toUTF8.toList s) → (P k).Shows x.c f path i p (Wire.limitString L s) := by
    rintro k s ⟨sh, g1, sn, g2, g3, g4⟩
    rw [← hL k]
    exact ⟨sh, g1, sn, g2, g3, value_shows g4 rfl (.inl ⟨.inl (List.suffix_refl _), rfl⟩)⟩
  refine (hl.listed f (dotted p)).mpr ⟨path, i, p, _, _, rfl, ⟨key _ a h0, key _ a h1, key _ b h2, fun hf => key _ b (h3 hf)⟩, fun he => ?_⟩
  obtain ⟨g1, g2⟩ := Wire.C15_captured_text_faithful _ _ _ he
  exact hne.elim (· g1) (· g2)

/-! ### C149 -/

theorem perm_map {α β : Type} {f : α → β} {l : List α} {m : List β} (h : m.Perm (l.map f)) : ∃ l' : List α, l'.Perm l ∧ l'.map f = m := by
  generalize hk : l.map f = k at h
  induction h generalizing l with
  | nil => exact ⟨l, .refl _, hk⟩
  | cons x _ ih =>
    obtain ⟨a, l1, rfl, rfl, rfl⟩ := List.map_eq_cons_iff.mp hk
    obtain ⟨l', h1, h2⟩ := ih rfl
    exact ⟨a :: l', h1.cons a, by rw [List.map_cons, h2]⟩
  | swap x y l0 =>
    obtain ⟨a, l1, rfl, rfl, h2⟩ := List.map_eq_cons_iff.mp hk
    obtain ⟨b, l2, rfl, rfl, rfl⟩ := List.map_eq_cons_iff.mp h2
    exact ⟨b :: a :: l2, .swap .., rfl⟩
  | trans _ _ ih1 ih2 =>
    obtain ⟨l', h1, h2⟩ := ih2 hk
    obtain ⟨l'', h3, h4⟩ := ih1 h2
    exact ⟨l'', h3.trans h1, h4⟩

theorem forall₂_imp_mem {α β : Type} {R S : α → β → Prop} : ∀ {l : List α} {m : List β}, List.Forall₂ R l m → (∀ a ∈ l, ∀ b, R a b → S a b) → List.Forall₂ S l m
  | _, _, .nil, _ => .nil
  | _, _, .cons h t, g => .cons (g _ List.mem_cons_self _ h) (forall₂_imp_mem t fun a ha => g a (List.mem_cons_of_mem _ ha))

theorem kept_iff {x : Total.Ctx} {k : Case} (hf : ∀ j, ∀ ev ∈ (k.prog j).events, Fine (k.prog j).env (k.prog j).fuel ev) : Total.Kept x k.test ↔ Same x k.prog := by
  have hb : Behind k.prog k.test := ⟨⟨hf 0, rfl⟩, ⟨hf 1, rfl⟩, ⟨hf 2, rfl⟩, ⟨hf 3, rfl⟩⟩
  have e0 := makes_eq hb.first
  have e1 := makes_eq hb.second
  have e2 := makes_eq hb.third
  have e3 := makes_eq hb.fourth
  constructor
  · rintro ⟨g1, g2, g3⟩
    rw [e0, e1, e2, e3] at g2 g3
    refine ⟨fun f path i p v a b => ?_, g2, g3⟩
    have := g1 f path i p v ((shown_iff hb.first ..).mpr a) ((shown_iff hb.second ..).mpr b)
    exact ⟨(shown_iff hb.third ..).mp this.1, fun hx => (shown_iff hb.fourth ..).mp (this.2 hx)⟩
  · rintro ⟨g1, g2, g3⟩
    refine ⟨fun f path i p v a b => ?_, ?_, ?_⟩
    · have := g1 f path i p v ((shown_iff hb.first ..).mp a) ((shown_iff hb.second ..).mp b)
      exact ⟨(shown_iff hb.third ..).mpr this.1, fun hx => (shown_iff hb.fourth ..).mpr (this.2 hx)⟩
    · rw [e0, e1, e2, e3]; exact g2
    · rw [e0, e1, e2, e3]; exact g3

theorem tells_of {x : Total.Ctx} {k : Case} {d : Report.Detail} (hf : ∀ j, ∀ ev ∈ (k.prog j).events, Fine (k.prog j).env (k.prog j).fuel ev) (h : Verdict.Says x k.test d) : Tells x k d := by
  have hm : ∀ j, Makes (k.prog j) (runOf (k.prog j).env (k.prog j).fuel (k.prog j).failed (k.prog j).events) := fun j => ⟨hf j, rfl⟩
  have hb : Behind k.prog k.test := ⟨hm 0, hm 1, hm 2, hm 3⟩
  have e0 := makes_eq hb.first
  have e1 := makes_eq hb.second
  have e2 := makes_eq hb.third
  have e3 := makes_eq hb.fourth
  refine ⟨h.ident, h.name, ?_, ?_, ?_, ?_, lists_of hb h⟩
  · rw [h.baseline, Verdict.FailedBefore, e0, e1]
  · rw [h.regression, Verdict.Regressed, Verdict.FailedBefore, Verdict.FailsAfter, e0, e1, e2, e3]
    simp [and_assoc]
  · rw [h.diff, kept_iff hf]
  · rw [h.hits, e0]

/-- **C149** (partial). From the programs the tests run to the report: it has one entry for each test, in the order of identifiers, which says whether the test failed before and fails
now, whether it does and panics as before, how many entry points of changed functions it passed, and which fields are changed; there are no differences in total just if all tests do
what they did. Missing: the conditions of C131 on the runs and of C147 on the values. -/
theorem C149_report_partial (x : Total.Ctx) (hx : Total.Faithful x) (ks : List Case) (hf : ∀ k ∈ ks, ∀ j, ∀ ev ∈ (k.prog j).events, Fine (k.prog j).env (k.prog j).fuel ev)
    (ho : ∀ k ∈ ks, Total.Orderly x k.test) (hn : (ks.map (·.ident)).Nodup) :
    ∃ f0, ∀ fuel, f0 ≤ fuel → ∀ limit, 0 < limit → (∃ u, Verdict.Outcome x fuel limit (ks.map Case.test) u) ∧
      ∀ u, Verdict.Outcome x fuel limit (ks.map Case.test) u → ∀ i,
        (∃ sorted, sorted.Perm ks ∧ sorted.Pairwise (fun a b => a.ident < b.ident) ∧ List.Forall₂ (Tells x) sorted (Report.metrics (Verdict.written i u)).details) ∧
        ((Report.metrics (Verdict.written i u)).diff = 0 ↔ ∀ k ∈ ks, Same x k.prog) := by
  obtain ⟨f0, h0⟩ := Verdict.C141_report_partial x hx (ks.map Case.test) (by simpa using ho) (by simpa [Case.test, Function.comp_def] using hn)
  refine ⟨f0, fun fuel hfu limit hl => ⟨(h0 fuel hfu limit hl).1, fun u hu i => ?_⟩⟩
  obtain ⟨⟨sorted, hp, hs, hr⟩, ht⟩ := (h0 fuel hfu limit hl).2 u hu i
  obtain ⟨sorted', hp', rfl⟩ := perm_map hp
  refine ⟨⟨sorted', hp', by rw [List.pairwise_map] at hs; exact hs, ?_⟩, ?_⟩
  · rw [List.forall₂_map_left_iff] at hr
    exact forall₂_imp_mem hr fun k hk d hd => tells_of (hf k (hp'.subset hk)) hd
  · rw [ht]
    simp only [List.mem_map, forall_exists_index, and_imp, forall_apply_eq_imp_iff₂]
    exact ⟨fun g k hk => (kept_iff (hf k hk)).mp (g k hk), fun g k hk => (kept_iff (hf k hk)).mpr (g k hk)⟩

/-! ### An example -/

/-- A pointer to a string. -/
def strHeap (v : Bytes) : Heap where
  deref := fun _ => .str [115] v
  elems := fun _ => []
  entries := fun _ => []
  sorted := fun _ => []

def strShot (v : Bytes) (ms : Nat) : Shot := ⟨3, strHeap v, BitVec.ofNat 64 (ms * 1000000), [], [([97], .ptr [112] 16 0), (unnamed, .invalid)]⟩

theorem strUnwraps {v : Bytes} {w : V} (h : Unwraps (strHeap v) (.ptr [112] 16 0) w) : w = .str [115] v := Capture.unwraps_det h ⟨5, rfl⟩

theorem invalidUnwraps {v : Bytes} {w : V} (h : Unwraps (strHeap v) .invalid w) : w = .invalid := Capture.unwraps_det h ⟨5, rfl⟩

theorem strClear (v : Bytes) (hv : v.length ≤ 100) (ms : Nat) : Clear exEnv 5 (strShot v ms) := by
  have fits : ∀ {n : Bytes} {u w : V}, n.length + 8 ≤ Wire.maxUint32 → (u = .ptr [112] 16 0 ∨ u = .invalid) → ∀ p q, Capture.At Capture.exCfg (strHeap v) n u p q → p = n ∧ q = u := by
    rintro n u w hn hu p q hat
    induction hat with
    | root => exact ⟨rfl, rfl⟩
    | item _ hw hm ih =>
      rw [ih.2] at hw
      rcases hu with rfl | rfl
      · rw [strUnwraps hw] at hm; simp [Capture.items] at hm
      · rw [invalidUnwraps hw] at hm; simp [Capture.items] at hm
  constructor
  · refine ⟨by decide, ⟨Nat.zero_le _, by simp [strShot]⟩, (by decide : (2 : Nat) ≤ Wire.maxUint32), ?_, .inr (by decide : (3 : UInt32) ∈ exEnv.project.keys)⟩
    intro sn hsn p q hat
    simp only [strShot, List.mem_cons, List.not_mem_nil, or_false] at hsn
    rcases hsn with rfl | rfl
    · obtain ⟨rfl, rfl⟩ := fits (w := .invalid) (by decide) (.inl rfl) p q hat
      refine ⟨by decide, by decide, fun w hw => ?_⟩
      rw [strUnwraps hw]
      exact ⟨(by decide : (1 : Nat) ≤ Wire.maxUint32), show v.length < 2 ^ 64 by omega⟩
    · obtain ⟨rfl, rfl⟩ := fits (w := .invalid) (by decide +kernel) (.inr rfl) p q hat
      refine ⟨by decide +kernel, by decide, fun w hw => ?_⟩
      rw [invalidUnwraps hw]
      exact ⟨by decide, trivial⟩
  · intro sn hsn
    simp only [strShot, List.mem_cons, List.not_mem_nil, or_false] at hsn
    rcases hsn with rfl | rfl
    · exact ⟨_, [16], rfl, by decide⟩
    · exact ⟨_, [], rfl, by decide⟩
  · show (([([97], V.ptr [112] 16 0), (unnamed, V.invalid)].filter fun sn : Bytes × V => sn.1 ≠ unnamed).map (·.1)).Nodup
    decide +kernel
  · intro sn hsn
    simp only [strShot, List.mem_cons, List.not_mem_nil, or_false] at hsn
    rcases hsn with rfl | rfl
    · intro w hw
      rw [strUnwraps hw]
      simp [Capture.items]
    · intro w hw
      rw [invalidUnwraps hw]
      simp [Capture.items]

theorem strSent (v : Bytes) (hv : v.length ≤ 100) (ms : Nat) (hm : ms < 1000) : sent exEnv 5 (strShot v ms) = some (Pipeline.callA v ms) := by
  obtain ⟨m, h1, h2, h3⟩ := sent_eq (fuel := 5) (ws := [.leaf [97] [115] (.str (Wire.limitString 100 v))]) (strClear v hv ms).toSendable (by
    simp only [strShot, unnamed_eq]
    rfl)
  rw [h1]
  obtain ⟨ext, ident, stack, ns, fields⟩ := m
  have he : ext = false := by
    cases ext with
    | false => rfl
    | true => exact absurd (h3.extension rfl) (by simp [exEnv, AMap.get])
  subst he
  have hi : ident = [102] := (Option.some.inj (h3.project rfl).2).symm
  have ht : ns = ms * 1000000 := by
    rw [show ns = _ from h3.time]
    simp only [strShot, BitVec.toNat_ofNat]
    omega
  have hst : stack = [] := by simpa [strShot] using h3.stack
  have hf : fields = [.leaf [97] [115] (.str v)] := by
    rw [show fields = _ from h2, Wire.C15_short_unchanged _ _ hv]
    simp [WField.erase]
  rw [hi, ht, hst, hf]
  rfl

def strProgram (v : Bytes) : Program :=
  ⟨exEnv, 5, [.entry 7 0 [], .state (strShot [49] 1), .entry 7 0 [], .panic 4 0 [109], .state (strShot v 2), .entry 8 0 []], false⟩

theorem strMakes (v : Bytes) (hv : v.length ≤ 100) : Makes (strProgram v) (Pipeline.calm v) := by
  have hf : ∀ ev ∈ (strProgram v).events, Fine exEnv 5 ev := fun ev hev => by
    simp only [strProgram, List.mem_cons, List.not_mem_nil, or_false] at hev
    rcases hev with rfl | rfl | rfl | rfl | rfl | rfl
    · exact ⟨Nat.zero_le _, by simp⟩
    · exact strClear _ (by decide) _
    · exact ⟨Nat.zero_le _, by simp⟩
    · exact (by decide : (1 : Nat) ≤ Wire.maxUint32)
    · exact strClear _ hv _
    · exact ⟨Nat.zero_le _, by simp⟩
  refine ⟨hf, ?_⟩
  rw [makes_eq (P := strProgram v) ⟨hf, rfl⟩]
  simp only [strProgram, Program.shots, Program.panics, Program.modulePanics, Program.entered, List.filterMap_cons, List.filterMap_nil, strSent [49] (by decide) 1 (by decide),
    strSent v hv 2 (by decide)]
  rfl

theorem strShows (lib : Lib) (v : Bytes) (hv : v.length ≤ 100) : (strProgram v).Shows lib [102] [] 1 [[97]] v :=
  (shown_iff (strMakes v hv) [102] [] 1 [[97]] v).mp (Pipeline.shown_calm lib v (by omega))

/-- A pointer to "2" before the update, to "3" after it: the field is listed. -/
example (c : Fields.Lib) (dv : Bytes → Bytes → Bytes) (i : Report.Input) : ∃ fuel u, Verdict.Outcome (Total.sample c dv) fuel 2 [Total.testOf [5] [51]] u ∧
    ∃ d ∈ (Report.metrics (Verdict.written i u)).details, d.ident = [5] ∧ ∃ text, Verdict.Listed d.fields [102] [97] text := by
  have ho : ∀ t ∈ [Total.testOf [5] [51]], Total.Orderly (Total.sample c dv) t := fun t ht => by
    rw [List.mem_singleton.mp ht]
    exact Total.orderly_testOf c dv _ (.inr rfl)
  obtain ⟨f0, h0⟩ := C148_listed_partial (Total.sample c dv) (Total.faithful_sample c dv) _ ho (by decide)
  obtain ⟨u, hu⟩ := (h0 f0 (le_refl _) 2 (by decide)).1
  let P : Fin 4 → Program := fun k => if k = 2 then strProgram [51] else strProgram [50]
  have hP : Behind P (Total.testOf [5] [51]) := ⟨strMakes [50] (by decide), strMakes [50] (by decide), strMakes [51] (by decide), strMakes [50] (by decide)⟩
  obtain ⟨d, hd, he, hl⟩ := (h0 f0 (le_refl _) 2 (by decide)).2 u hu i _ (List.mem_singleton.mpr rfl) P hP
  refine ⟨f0, u, hu, d, hd, he, (hl.listed [102] [97]).mpr ⟨[], 1, [[97]], [50], [51], rfl, ⟨?_, ?_, ?_, fun h => by cases h⟩, by decide⟩⟩
  · exact strShows c [50] (by decide)
  · exact strShows c [50] (by decide)
  · exact strShows c [51] (by decide)

def strCase : Case := ⟨[5], [84], fun k => if k = 2 then strProgram [51] else strProgram [50]⟩

theorem strCase_test : strCase.test = Total.testOf [5] [51] := by
  have h0 := (strMakes [50] (by decide)).run
  have h2 := (strMakes [51] (by decide)).run
  unfold Total.testOf
  rw [h0, h2]
  rfl

/-- The same with its panics and entries: two entry points are passed, the test is no regression, and its behaviour is changed. -/
example (c : Fields.Lib) (dv : Bytes → Bytes → Bytes) (i : Report.Input) : ∃ fuel u, Verdict.Outcome (Total.sample c dv) fuel 2 [strCase.test] u ∧
    ∃ d, (Report.metrics (Verdict.written i u)).details = [d] ∧ d.ident = [5] ∧ d.hits = 2 ∧ d.regression = false ∧ d.diff ≠ 0 := by
  have hm : ∀ j, Makes (strCase.prog j) (Pipeline.calm (if j = 2 then [51] else [50])) := fun j => by
    by_cases hj : j = 2
    · subst hj; exact strMakes [51] (by decide)
    · simp only [strCase, if_neg hj]; exact strMakes [50] (by decide)
  obtain ⟨f0, h0⟩ := C149_report_partial (Total.sample c dv) (Total.faithful_sample c dv) [strCase]
    (fun k hk j => by rw [List.mem_singleton.mp hk]; exact (hm j).fine)
    (fun k hk => by rw [List.mem_singleton.mp hk, strCase_test]; exact Total.orderly_testOf c dv _ (.inr rfl)) (by simp)
  obtain ⟨u, hu⟩ := (h0 f0 (le_refl _) 2 (by decide)).1
  obtain ⟨⟨sorted, hp, _, hr⟩, _⟩ := (h0 f0 (le_refl _) 2 (by decide)).2 u hu i
  rw [List.perm_singleton.mp hp] at hr
  generalize hds : (Report.metrics (Verdict.written i u)).details = ds at hr
  match ds, hr, hds with
  | [d], .cons h .nil, hds =>
    refine ⟨f0, u, hu, d, hds, h.ident, ?_, ?_, ?_⟩
    · rw [h.hits]; decide
    · cases hreg : d.regression with
      | false => rfl
      | true =>
        rcases (h.regression.mp hreg).2.2 with h1 | h1
        · cases h1
        · cases h1.1
    · rw [Ne, h.diff, ← kept_iff fun j => (hm j).fine, strCase_test]
      exact Total.not_kept c dv [5]

/-- The hypotheses of `C148_number_partial` on the values can be met. -/
example : (Program.mk exEnv 5 [.state sharedShot] false).Has [102] [] 0 [[118], [97]] (.scalar [105] (.int64 7)) :=
  ⟨sharedShot, rfl, _, List.mem_singleton.mpr rfl, by decide +kernel, .part (w := .struct [83] [([97], .ptr [112] 8 1), ([98], .ptr [112] 8 1)]) ⟨5, rfl⟩ (by unfold Hidden; decide +kernel)
    (k := [97]) (e := .ptr [112] 8 1) (by simp [Capture.items]) (.own ⟨5, rfl⟩ (by unfold Hidden; decide +kernel))⟩

/-- Everything recorded of the values of the shared example is theirs, or a note. -/
example (lib : Lib) : ∃ m, sent exEnv 5 sharedShot = some m ∧ ∀ p t, leafAt p (record lib m.fields) = some t → Displays lib exEnv true sharedShot p t := by
  obtain ⟨m, h, _⟩ := C147_delivered_partial exEnv 5 sharedShot sharedSendable fun sn hsn _ => by
    rw [List.mem_singleton.mp hsn]
    exact ⟨_, rfl⟩
  exact ⟨m, h, fun p t => C147_genuine_partial lib exEnv 5 sharedShot m sharedSendable h p t⟩

end Verif.Seen
