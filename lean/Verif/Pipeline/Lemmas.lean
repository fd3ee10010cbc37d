import Verif.Pipeline.Spec
import Verif.Fields.Props
import Verif.Monitor.Props
import Verif.Compare.Props
import Verif.Result.Props

/-! Lemmas for C131–C133. -/

namespace Verif.Pipeline

open Verif.Wire (Field)
open Verif.Result (Bytes FMap StackFrame CallFrame TestResult flatten leafAt WF dotted extend)
open Verif.Fields (Lib At Last record)
open Verif.Monitor (stableFilter callerKey stackKey projectFrames stableResult stableFrames stableLoop stableFV sortByTime insertByTime keepNames countKey
  callPath Matched occBefore filter_get intersectPanics stableFrameMap)
open Verif.Compare (TestReport compareTest framesOf Agree Changed Mapped panicSet)

/-! ### Numbered frames -/

/-- The frame number `n` with a key. -/
def nth (key : CallFrame → Bytes) (l : List CallFrame) (k : Bytes) (n : Nat) : Option CallFrame := (l.filter fun f => key f = k)[n]?

theorem nth_iff (key : CallFrame → Bytes) (l : List CallFrame) (k : Bytes) (n : Nat) (f : CallFrame) :
    nth key l k n = some f ↔ ∃ i : Nat, l[i]? = some f ∧ key f = k ∧ occBefore key l i k = n := by
  unfold nth occBefore
  rw [filter_get]
  simp

theorem nth_key {key : CallFrame → Bytes} {l : List CallFrame} {k : Bytes} {n : Nat} {f : CallFrame} (h : nth key l k n = some f) : key f = k := by
  obtain ⟨i, _, h, _⟩ := (nth_iff key l k n f).mp h
  exact h

theorem matched_nth {key : CallFrame → Bytes} {fs gs : List CallFrame} {i j : Nat} {f g : CallFrame} (hf : fs[i]? = some f) (hg : gs[j]? = some g)
    (h : Matched key fs gs i j) : nth key gs (key f) (occBefore key fs i (key f)) = some g := by
  obtain ⟨f', g', h1, h2, h3, h4⟩ := h
  rw [hf] at h1; cases h1
  rw [hg] at h2; cases h2
  exact (nth_iff ..).mpr ⟨j, hg, h3.symm, h4.symm⟩

theorem nth_matched {key : CallFrame → Bytes} {fs gs : List CallFrame} {i : Nat} {f g : CallFrame} (hf : fs[i]? = some f)
    (h : nth key gs (key f) (occBefore key fs i (key f)) = some g) : ∃ j, gs[j]? = some g ∧ Matched key fs gs i j := by
  obtain ⟨j, h1, h2, h3⟩ := (nth_iff ..).mp h
  exact ⟨j, h1, f, g, hf, h1, h2.symm, h3.symm⟩

theorem agree_iff (key : CallFrame → Bytes) (P : CallFrame → Prop) (Q : CallFrame → CallFrame → Prop) (fs gs : List CallFrame) :
    (∀ (i : Nat) (f : CallFrame), fs[i]? = some f → P f ∨ ∃ (j : Nat) (g : CallFrame), gs[j]? = some g ∧ Matched key fs gs i j ∧ Q f g) ↔
      ∀ k n f, nth key fs k n = some f → P f ∨ ∃ g, nth key gs k n = some g ∧ Q f g := by
  constructor
  · intro h k n f hf
    obtain ⟨i, h1, rfl, rfl⟩ := (nth_iff ..).mp hf
    rcases h i f h1 with hp | ⟨j, g, h2, h3, h4⟩
    · exact Or.inl hp
    · exact Or.inr ⟨g, matched_nth h1 h2 h3, h4⟩
  · intro h i f hf
    rcases h (key f) (occBefore key fs i (key f)) f ((nth_iff ..).mpr ⟨i, hf, rfl, rfl⟩) with hp | ⟨g, h2, h3⟩
    · exact Or.inl hp
    · obtain ⟨j, h4, h5⟩ := nth_matched hf h2
      exact Or.inr ⟨j, g, h4, h5, h3⟩

theorem changed_iff (key : CallFrame → Bytes) (fs gs : List CallFrame) (x v w : Bytes) :
    Changed key fs gs x v w ↔ ∃ k n f g, nth key fs k n = some f ∧ nth key gs k n = some g ∧ (flatten f.fields).get x = some v ∧
      (flatten g.fields).get x = some w ∧ v ≠ w := by
  constructor
  · rintro ⟨i, j, f, g, hm, hf, hg, h1, h2, h3⟩
    exact ⟨key f, _, f, g, (nth_iff ..).mpr ⟨i, hf, rfl, rfl⟩, matched_nth hf hg hm, h1, h2, h3⟩
  · rintro ⟨k, n, f, g, hf, hg, h1, h2, h3⟩
    obtain ⟨i, hi, rfl, rfl⟩ := (nth_iff ..).mp hf
    obtain ⟨j, hj, hm⟩ := nth_matched hi hg
    exact ⟨i, j, f, g, hm, hi, hj, h1, h2, h3⟩

/-! ### The baseline, frame by frame -/

theorem insertByTime_le {f : CallFrame} {l : List CallFrame} (h : ∀ g ∈ l, f.time ≤ g.time) : insertByTime f l = f :: l := by
  cases l with
  | nil => rfl
  | cons g l => rw [insertByTime, if_pos (h g (by simp))]

theorem sortByTime_sorted : ∀ {l : List CallFrame}, l.Pairwise (fun a b => a.time ≤ b.time) → sortByTime l = l
  | [], _ => rfl
  | f :: l, h => by
      rw [List.pairwise_cons] at h
      rw [sortByTime, sortByTime_sorted h.2, insertByTime_le h.1]

/-- The combination of two frames. -/
def combine (f g : CallFrame) : CallFrame := ⟨stableFV f.fields g.fields, f.stack, f.time⟩

theorem nth_cons (key : CallFrame → Bytes) (f : CallFrame) (l : List CallFrame) (k : Bytes) :
    ∀ n, nth key (f :: l) k n = if key f = k then (match n with | 0 => some f | n + 1 => nth key l k n) else nth key l k n := by
  intro n
  unfold nth
  by_cases h : key f = k
  · rw [List.filter_cons_of_pos (by simpa using h), if_pos h]
    cases n <;> simp
  · rw [List.filter_cons_of_neg (by simpa using h), if_neg h]

theorem nth_mono {key : CallFrame → Bytes} {l : List CallFrame} {k : Bytes} {n m : Nat} (h : nth key l k n = none) (hm : n ≤ m) : nth key l k m = none := by
  unfold nth at h ⊢
  rw [List.getElem?_eq_none_iff] at h ⊢
  omega

theorem nth_stableLoop (key : CallFrame → Bytes) (hkey : ∀ f g, key (combine f g) = key f) (bs : List CallFrame) (k : Bytes) :
    ∀ (fs : List CallFrame) (used : AMap Bytes Nat) (n : Nat), nth key (stableLoop key bs fs used) k n =
      (nth key fs k n).bind fun f => (nth key bs k ((used.get k).getD 0 + n)).map fun g => combine f g
  | [], used, n => by simp [stableLoop, nth]
  | f :: fs, used, n => by
      have ih := nth_stableLoop key hkey bs k fs (used.set (key f) (((used.get (key f)).getD 0) + 1))
      rw [nth_cons]
      rw [stableLoop]
      change nth key (match nth key bs (key f) ((used.get (key f)).getD 0) with
        | none => stableLoop key bs fs (used.set (key f) (((used.get (key f)).getD 0) + 1))
        | some g => combine f g :: stableLoop key bs fs (used.set (key f) (((used.get (key f)).getD 0) + 1))) k n = _
      by_cases h : key f = k
      · rw [if_pos h]
        subst h
        cases hb : nth key bs (key f) ((used.get (key f)).getD 0) with
        | none =>
            dsimp only
            rw [ih]
            rw [AMap.get_set, if_pos rfl, Option.getD_some]
            have h1 : nth key bs (key f) ((used.get (key f)).getD 0 + 1 + n) = none := nth_mono hb (by omega)
            have h2 : nth key bs (key f) ((used.get (key f)).getD 0 + n) = none := nth_mono hb (by omega)
            rw [h1, h2]
            cases n <;> simp
        | some g =>
            dsimp only
            rw [nth_cons, if_pos (hkey f g)]
            cases n with
            | zero => simp [hb]
            | succ n =>
                dsimp only
                rw [ih, AMap.get_set, if_pos rfl, Option.getD_some]
                rw [Nat.add_assoc, Nat.add_comm 1 n]
      · rw [if_neg h]
        have hk : ¬ k = key f := fun e => h e.symm
        cases hb : nth key bs (key f) ((used.get (key f)).getD 0) with
        | none =>
            dsimp only
            rw [ih, AMap.get_set, if_neg hk]
        | some g =>
            dsimp only
            rw [nth_cons, hkey f g, if_neg h, ih, AMap.get_set, if_neg hk]

theorem nth_stableFrames (key : CallFrame → Bytes) (hkey : ∀ f g, key (combine f g) = key f) (as bs : List CallFrame)
    (ha : as.Pairwise (fun a b => a.time ≤ b.time)) (hb : bs.Pairwise (fun a b => a.time ≤ b.time)) (k : Bytes) (n : Nat) :
    nth key (stableFrames key as bs) k n = (nth key as k n).bind fun f => (nth key bs k n).map fun g => combine f g := by
  rw [stableFrames, sortByTime_sorted ha, sortByTime_sorted hb, nth_stableLoop key hkey]
  simp

/-! ### Recording -/

/-- The calls of a function. -/
def callsOf (r : Run) (ident : Bytes) : List Call := r.calls.filter fun m => m.ext = false ∧ m.ident = ident

/-- The frames recorded for calls one after the other. -/
def framesFor (c : Lib) (H : Bytes → Bytes) (st : Option Frames) (ms : List Call) : List CallFrame :=
  ms.foldl (fun fs m => fs ++ [newFrame c H st fs m]) []

theorem framesFor_snoc (c : Lib) (H : Bytes → Bytes) (st : Option Frames) (ms : List Call) (m : Call) :
    framesFor c H st (ms ++ [m]) = framesFor c H st ms ++ [newFrame c H st (framesFor c H st ms) m] := by
  simp [framesFor]

/-- A list, or nothing if it is empty. -/
def someList {α β : Type} (l : List α) (f : List α → β) : Option β := match l with | [] => none | _ => some (f l)

theorem someList_snoc {α β : Type} (l : List α) (a : α) (f : List α → β) : someList (l ++ [a]) f = some (f (l ++ [a])) := by
  cases l <;> rfl

theorem someList_getD {α β : Type} (l : List α) (f : List α → List β) (h : f [] = []) : (someList l f).getD [] = f l := by
  cases l with
  | nil => simp [someList, h]
  | cons a l => rfl

theorem recorded_get (c : Lib) (H : Bytes → Bytes) (st : Option Frames) (ident : Bytes) (calls : List Call) :
    AMap.get (calls.foldl (handleState c H st) ⟨[], []⟩).callers ident =
      someList (calls.filter fun m => m.ext = false ∧ m.ident = ident) (framesFor c H st) := by
  induction calls using List.reverseRecOn with
  | nil => rfl
  | append_singleton ms m ih =>
      rw [List.foldl_append, List.filter_append]
      simp only [List.foldl_cons, List.foldl_nil]
      cases he : m.ext with
      | true => simp [handleState, he, ih]
      | false =>
          simp only [handleState, he, appendTo, AMap.get_set]
          by_cases hi : ident = m.ident
          · subst hi
            rw [if_pos rfl, ih, List.filter_cons_of_pos (by simp [he]), List.filter_nil, someList_snoc, framesFor_snoc,
              someList_getD _ _ (by rfl)]
          · rw [if_neg hi, ih, List.filter_cons_of_neg (by simpa [he] using fun e => hi e.symm)]
            simp

theorem recorded_nodup (c : Lib) (H : Bytes → Bytes) (st : Option Frames) (calls : List Call) :
    (AMap.keys (calls.foldl (handleState c H st) ⟨[], []⟩).callers).Nodup := by
  induction calls using List.reverseRecOn with
  | nil => simp [AMap.keys]
  | append_singleton ms m ih =>
      rw [List.foldl_append]
      simp only [List.foldl_cons, List.foldl_nil]
      cases he : m.ext with
      | true => simpa [handleState, he] using ih
      | false => simpa only [handleState, he, appendTo] using AMap.nodup_set ih _ _

/-- What the filter leaves of the fields of call number `n` with key `k`. -/
def filtered (H : Bytes → Bytes) (st : Option (List CallFrame)) (k : Bytes) (n : Nat) (fields : FMap) : FMap :=
  match st with
  | none => keepNames [] fields
  | some frames =>
    match nth (callerKey H) frames k n with
    | none => keepNames [] fields
    | some f => keepNames f.fields.names fields

theorem stableFilter_eq (H : Bytes → Bytes) (st : Option (List CallFrame)) (recorded : List CallFrame) (k : Bytes) (fields : FMap) :
    stableFilter (callerKey H) st recorded k fields = filtered H st k (countKey (callerKey H) k recorded) fields := by
  cases st <;> rfl

/-- The key of a call. -/
def keyOf (H : Bytes → Bytes) (m : Call) : Bytes := stackKey H (projectFrames m.stack)

/-- The frame of call number `n` with key `k`. -/
def frameAt (c : Lib) (H : Bytes → Bytes) (st : Option Frames) (n : Nat) (m : Call) : CallFrame :=
  match st with
  | none => ⟨record c m.fields, m.stack, millis m.ns⟩
  | some st => ⟨filtered H (st.get m.ident) (keyOf H m) n (record c m.fields), m.stack, millis m.ns⟩

theorem newFrame_eq (c : Lib) (H : Bytes → Bytes) (st : Option Frames) (recorded : List CallFrame) (m : Call) (h : m.ext = false) :
    newFrame c H st recorded m = frameAt c H st (countKey (callerKey H) (keyOf H m) recorded) m := by
  cases st with
  | none => simp [newFrame, frameAt, h]
  | some st => simp [newFrame, frameAt, h, stableFilter_eq, keyOf]

theorem newFrame_key (c : Lib) (H : Bytes → Bytes) (st : Option Frames) (recorded : List CallFrame) (m : Call) :
    callerKey H (newFrame c H st recorded m) = keyOf H m := by
  unfold newFrame
  split <;> rfl

theorem framesFor_count (c : Lib) (H : Bytes → Bytes) (st : Option Frames) (k : Bytes) (ms : List Call) :
    ((framesFor c H st ms).filter fun f => callerKey H f = k).length = (ms.filter fun m => keyOf H m = k).length := by
  induction ms using List.reverseRecOn with
  | nil => rfl
  | append_singleton ms m ih =>
      rw [framesFor_snoc, List.filter_append, List.filter_append, List.length_append, List.length_append, ih]
      simp only [List.filter_cons, newFrame_key, List.filter_nil]
      by_cases h : keyOf H m = k <;> simp [h]

theorem nth_framesFor (c : Lib) (H : Bytes → Bytes) (st : Option Frames) (k : Bytes) (ms : List Call) (hms : ∀ m ∈ ms, m.ext = false) (n : Nat) :
    nth (callerKey H) (framesFor c H st ms) k n = ((ms.filter fun m => keyOf H m = k)[n]?).map (frameAt c H st n) := by
  induction ms using List.reverseRecOn with
  | nil => rfl
  | append_singleton ms m ih =>
      have ih := ih (fun x hx => hms x (by simp [hx]))
      have hc := framesFor_count c H st k ms
      unfold nth at ih ⊢
      rw [framesFor_snoc, List.filter_append, List.filter_append]
      simp only [List.filter_cons, newFrame_key, List.filter_nil]
      by_cases h : keyOf H m = k
      · simp only [h, decide_true, if_true]
        rcases Nat.lt_trichotomy n (ms.filter fun m => keyOf H m = k).length with hn | hn | hn
        · rw [List.getElem?_append_left (by omega), List.getElem?_append_left hn, ih]
        · rw [List.getElem?_append_right (by omega), List.getElem?_append_right (by omega), hc, hn]
          simp only [Nat.sub_self, List.getElem?_cons_zero, Option.map_some]
          rw [newFrame_eq c H st _ m (hms m (by simp)), countKey, h, hc]
        · rw [List.getElem?_eq_none (by simp; omega), List.getElem?_eq_none (by simp; omega)]
          rfl
      · simp only [h, decide_false, Bool.false_eq_true, if_false, List.append_nil]
        exact ih

theorem framesFor_sorted (c : Lib) (H : Bytes → Bytes) (st : Option Frames) (ms : List Call) (h : ms.Pairwise fun a b => millis a.ns ≤ millis b.ns) :
    (framesFor c H st ms).Pairwise (fun a b => a.time ≤ b.time) := by
  have htime : ∀ recorded m, (newFrame c H st recorded m).time = millis m.ns := by
    intro recorded m; unfold newFrame; split <;> rfl
  have hmap : (framesFor c H st ms).map (·.time) = ms.map fun m => millis m.ns := by
    clear h
    induction ms using List.reverseRecOn with
    | nil => rfl
    | append_singleton ms m ih => rw [framesFor_snoc, List.map_append, List.map_append, ih]; simp [htime]
  have h' : (ms.map fun m => millis m.ns).Pairwise (· ≤ ·) := List.pairwise_map.mpr h
  rw [← hmap] at h'
  exact List.pairwise_map.mp h'

theorem millis_mono {a b : Nat} (h : a ≤ b) (hb : b + 500000 < 2 ^ 32 * 1000000) : millis a ≤ millis b := by
  unfold millis
  have h1 : (a + 500000) / 1000000 ≤ (b + 500000) / 1000000 := Nat.div_le_div_right (by omega)
  have h2 : (b + 500000) / 1000000 < 2 ^ 32 := by omega
  rw [Nat.mod_eq_of_lt h2, Nat.mod_eq_of_lt (by omega)]
  exact h1

theorem inOrder_millis {r : Run} (h : InOrder r) (ident : Bytes) : (callsOf r ident).Pairwise fun a b => millis a.ns ≤ millis b.ns := by
  refine (h.2 ident).imp_of_mem ?_
  intro a b _ hb hab
  exact millis_mono hab (h.1 b (List.mem_of_mem_filter hb))

/-! ### Paths and keys -/

theorem pathOf_eq (st : List StackFrame) : pathOf st = callPath (projectFrames st) := by
  unfold pathOf callPath projectFrames Monitor.isProjectFile
  congr 1
  apply List.filter_congr
  intro f _
  have h1 : Monitor.dotSlash.isPrefixOf f.file = decide (here <+: f.file) := by
    rw [Bool.eq_iff_iff, decide_eq_true_iff, List.isPrefixOf_iff_prefix]; rfl
  have h2 : Monitor.dotVendor.isPrefixOf f.file = decide (vendored <+: f.file) := by
    rw [Bool.eq_iff_iff, decide_eq_true_iff, List.isPrefixOf_iff_prefix]; rfl
  rw [h1, h2]
  simp

theorem key_of_path (H : Bytes → Bytes) {m m' : Call} (h : pathOf m.stack = pathOf m'.stack) : keyOf H m = keyOf H m' := by
  rw [pathOf_eq, pathOf_eq] at h
  exact Monitor.C26_lines_ignored H _ _ h

/-- Calls with the key of one call are the calls along its path. -/
theorem along_key (H : Bytes → Bytes) {rs : List Run} (hk : Keyed H rs) {r r' : Run} (hr : r ∈ rs) (hr' : r' ∈ rs) {m : Call} (hm : m ∈ r'.calls) (ident : Bytes) :
    ((callsOf r ident).filter fun x => keyOf H x = keyOf H m) = callsAlong r ident (pathOf m.stack) := by
  unfold callsOf callsAlong
  rw [List.filter_filter]
  apply List.filter_congr
  intro x hx
  have : keyOf H x = keyOf H m ↔ pathOf x.stack = pathOf m.stack := ⟨hk r hr x hx r' hr' m hm, key_of_path H⟩
  by_cases h1 : x.ext = false <;> by_cases h2 : x.ident = ident <;> simp [h1, h2, this]

theorem along_mem {r : Run} {ident : Bytes} {path : List (Bytes × Bytes)} {n : Nat} {m : Call} (h : (callsAlong r ident path)[n]? = some m) :
    m ∈ r.calls ∧ m.ext = false ∧ m.ident = ident ∧ pathOf m.stack = path := by
  have := List.mem_of_getElem? h
  unfold callsAlong at this
  rw [List.mem_filter] at this
  simpa using this

theorem shown_iff (c : Lib) (r : Run) (ident : Bytes) (path : List (Bytes × Bytes)) (n : Nat) (p : List Bytes) (v : Bytes) :
    Shown c r ident path n p v ↔ ∃ m, (callsAlong r ident path)[n]? = some m ∧ leafAt p (record c m.fields) = some v := by
  simp only [Shown, Fields.C102_last]

/-! ### Trees -/

/-- The names on the way to the leaves are plain. -/
def Plainly (m : FMap) : Prop := ∀ p v, leafAt p m = some v → ∀ k ∈ p, k ≠ [] ∧ (46 : UInt8) ∉ k

theorem flatten_iff {m : FMap} (hw : WF m) (hn : Plainly m) (x v : Bytes) :
    (flatten m).get x = some v ↔ ∃ p, leafAt p m = some v ∧ dotted p = x := by
  constructor
  · intro h
    obtain ⟨p, h1, h2⟩ := Result.flatten_get hw h
    exact ⟨p, h1, by rw [h2, Result.extend_nil fun k hk => (hn p v h1 k hk).1]⟩
  · rintro ⟨p, h1, rfl⟩
    have h2 := Result.flatten_isSome hw h1
    rw [Result.extend_nil fun k hk => (hn p v h1 k hk).1] at h2
    obtain ⟨w, hw'⟩ := Option.ne_none_iff_exists'.mp h2
    obtain ⟨q, h3, h4⟩ := Result.flatten_get hw hw'
    rw [Result.extend_nil fun k hk => (hn q w h3 k hk).1] at h4
    have : p = q := Result.dotted_inj (Result.leafAt_ne_nil h1) (Result.leafAt_ne_nil h3) (fun k hk => (hn p v h1 k hk).2)
      (fun k hk => (hn q w h3 k hk).2) h4
    subst this
    rw [h1] at h3; cases h3
    exact hw'

theorem find_keepNames (allowed : List Bytes) : ∀ (m : FMap) (x : Bytes), (keepNames allowed m).find x = if x ∈ allowed then m.find x else none
  | .goNil, x => by simp [keepNames, FMap.find]
  | .empty, x => by simp [keepNames, FMap.find]
  | .cons k v kids rest, x => by
      have ih := find_keepNames allowed rest x
      simp only [keepNames]
      by_cases h : k ∈ allowed
      · rw [if_pos h]
        simp only [FMap.find]
        by_cases hx : k = x
        · subst hx; simp [h]
        · rw [if_neg hx, if_neg hx, ih]
      · rw [if_neg h, ih]
        simp only [FMap.find]
        by_cases hx : k = x
        · subst hx; simp [h]
        · rw [if_neg hx]

theorem leafAt_find {a b : FMap} {k : Bytes} {ks : List Bytes} (h : a.find k = b.find k) : leafAt (k :: ks) a = leafAt (k :: ks) b := by
  cases ks <;> simp [leafAt, h]

theorem leafAt_keepNames (allowed : List Bytes) (m : FMap) (p : List Bytes) (v : Bytes) :
    leafAt p (keepNames allowed m) = some v ↔ leafAt p m = some v ∧ ∃ k ks, p = k :: ks ∧ k ∈ allowed := by
  cases p with
  | nil => simp [leafAt]
  | cons k ks =>
      by_cases h : k ∈ allowed
      · rw [leafAt_find (b := m) (by rw [find_keepNames, if_pos h])]
        exact ⟨fun e => ⟨e, k, ks, rfl, h⟩, fun e => e.1⟩
      · have : leafAt (k :: ks) (keepNames allowed m) = none := by
          have hf : (keepNames allowed m).find k = none := by rw [find_keepNames, if_neg h]
          cases ks <;> simp [leafAt, hf]
        rw [this]
        constructor
        · intro e; cases e
        · rintro ⟨_, k', ks', e, h'⟩
          cases e
          exact absurd h' h

theorem names_keepNames (allowed : List Bytes) : ∀ (m : FMap) (x : Bytes), x ∈ (keepNames allowed m).names → x ∈ m.names
  | .goNil, x, h => h
  | .empty, x, h => h
  | .cons k v kids rest, x, h => by
      simp only [keepNames] at h
      split at h
      · simp only [FMap.names, List.mem_cons] at h ⊢
        exact h.imp_right (names_keepNames allowed rest x)
      · simp only [FMap.names, List.mem_cons]
        exact Or.inr (names_keepNames allowed rest x h)

theorem wf_keepNames (allowed : List Bytes) : ∀ (m : FMap), WF m → WF (keepNames allowed m)
  | .goNil, h => h
  | .empty, h => h
  | .cons k v kids rest, h => by
      simp only [keepNames]
      split
      · exact ⟨fun e => h.1 (names_keepNames allowed rest k e), h.2.1, wf_keepNames allowed rest h.2.2⟩
      · exact wf_keepNames allowed rest h.2.2

theorem names_stableFV : ∀ (a b : FMap) (x : Bytes), x ∈ (stableFV a b).names → x ∈ a.names
  | .goNil, b, x, h => by simp [stableFV, FMap.names] at h
  | .empty, b, x, h => by simp [stableFV, FMap.names] at h
  | .cons k v kids rest, b, x, h => by
      have ih := names_stableFV rest b x
      simp only [stableFV] at h
      simp only [FMap.names, List.mem_cons]
      split at h
      · exact Or.inr (ih h)
      · split at h
        · split at h
          · simp only [FMap.names, List.mem_cons] at h
            exact h.imp_right ih
          · exact Or.inr (ih h)
        · split at h
          · split at h
            · exact Or.inr (ih h)
            · simp only [FMap.names, List.mem_cons] at h
              exact h.imp_right ih
          · exact Or.inr (ih h)

theorem wf_stableFV : ∀ (a b : FMap), WF a → WF (stableFV a b)
  | .goNil, b, _ => by simp [stableFV, WF]
  | .empty, b, _ => by simp [stableFV, WF]
  | .cons k v kids rest, b, h => by
      have ih := wf_stableFV rest b h.2.2
      have hk : k ∉ (stableFV rest b).names := fun e => h.1 (names_stableFV rest b k e)
      simp only [stableFV]
      split
      · exact ih
      · split
        · split
          · exact ⟨hk, trivial, ih⟩
          · exact ih
        · split
          · split
            · exact ih
            · exact ⟨hk, wf_stableFV kids _ h.2.1, ih⟩
          · exact ih

theorem head_mem {m : FMap} {p : List Bytes} {v : Bytes} (h : leafAt p m = some v) : ∃ k ks, p = k :: ks ∧ k ∈ m.names := by
  cases p with
  | nil => simp [leafAt] at h
  | cons k ks => exact ⟨k, ks, rfl, Result.leafAt_names h⟩

/-! ### Results of runs -/

theorem wf_record (c : Lib) (fs : List Field) : WF (record c fs) := (Fields.C102_wellformed c fs).1

theorem key_combine (H : Bytes → Bytes) (f g : CallFrame) : callerKey H (combine f g) = callerKey H f := rfl

theorem callers_get (c : Lib) (H : Bytes → Bytes) (st : Option Frames) (name : Bytes × Bytes) (r : Run) (ident : Bytes) :
    AMap.get (K := Bytes) (V := List CallFrame) (testResult c H st name r).callers ident = someList (callsOf r ident) (framesFor c H st) :=
  recorded_get c H st ident r.calls

theorem callsOf_ext {r : Run} {ident : Bytes} : ∀ m ∈ callsOf r ident, m.ext = false := by
  intro m hm
  unfold callsOf at hm
  simp only [List.mem_filter, decide_eq_true_eq] at hm
  exact hm.2.1

theorem nth_testResult (c : Lib) (H : Bytes → Bytes) (st : Option Frames) (name : Bytes × Bytes) (r : Run) (ident k : Bytes) (n : Nat) :
    nth (callerKey H) (framesOf (testResult c H st name r) ident) k n =
      (((callsOf r ident).filter fun m => keyOf H m = k)[n]?).map (frameAt c H st n) := by
  unfold framesOf
  rw [callers_get, someList_getD _ _ (by rfl), nth_framesFor c H st k _ callsOf_ext]

/-- Both runs have calls of the function. -/
theorem stable_get (c : Lib) (H : Bytes → Bytes) (st : Option Frames) (name : Bytes × Bytes) (a b : Run) (ident : Bytes) :
    AMap.get (K := Bytes) (V := List CallFrame) (stableResult H (testResult c H st name a) (testResult c H none name b)).callers ident =
      (someList (callsOf a ident) (framesFor c H st)).bind fun x => (someList (callsOf b ident) (framesFor c H none)).map fun y =>
        stableFrames (callerKey H) x y := by
  rw [(Monitor.C24_result H _ _ ident).1, callers_get, callers_get]

theorem someList_none {α β : Type} {l : List α} {f : List α → β} (h : someList l f = none) : l = [] := by
  cases l with
  | nil => rfl
  | cons a l => cases h

theorem someList_some {α β : Type} {l : List α} {f : List α → β} {x : β} (h : someList l f = some x) : x = f l := by
  cases l with
  | nil => cases h
  | cons a l => cases h; rfl

theorem nth_stable (c : Lib) (H : Bytes → Bytes) (st : Option Frames) (name : Bytes × Bytes) (a b : Run) (ha : InOrder a) (hb : InOrder b) (ident k : Bytes) (n : Nat) :
    nth (callerKey H) (framesOf (stableResult H (testResult c H st name a) (testResult c H none name b)) ident) k n =
      (((callsOf a ident).filter fun m => keyOf H m = k)[n]?).bind fun x =>
        (((callsOf b ident).filter fun m => keyOf H m = k)[n]?).map fun y => combine (frameAt c H st n x) (frameAt c H none n y) := by
  unfold framesOf
  rw [stable_get]
  cases h1 : someList (callsOf a ident) (framesFor c H st) with
  | none => simp [someList_none h1, nth]
  | some x =>
      cases h2 : someList (callsOf b ident) (framesFor c H none) with
      | none =>
          simp only [Option.bind_some, Option.map_none, Option.getD_none, someList_none h2, List.filter_nil, List.getElem?_nil, nth]
          simp
      | some y =>
          simp only [Option.bind_some, Option.map_some, Option.getD_some]
          rw [someList_some h1, someList_some h2, nth_stableFrames _ (key_combine H) _ _
            (framesFor_sorted c H st _ (inOrder_millis ha ident)) (framesFor_sorted c H none _ (inOrder_millis hb ident)),
            nth_framesFor c H st k _ callsOf_ext, nth_framesFor c H none k _ callsOf_ext]
          simp [Option.bind_map, Function.comp_def]

end Verif.Pipeline
