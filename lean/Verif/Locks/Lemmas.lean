import Verif.Locks.Spec
import Mathlib.Data.List.Basic
import Mathlib.Algebra.BigOperators.Group.Finset.Basic
import Mathlib.Algebra.Order.BigOperators.Group.Finset

/-! Lemmas for `Verif.Locks.Props`. -/

namespace Verif.Locks

@[simp] theorem put_self {α : Type} (f : Nat → α) (i : Nat) (a : α) : put f i a i = a := by simp [put]
theorem put_ne {α : Type} (f : Nat → α) {i j : Nat} (a : α) (h : j ≠ i) : put f i a j = f j := by simp [put, h]

/-- Locks are taken in ascending order and given back; who is waited for has been started, and takes only locks above those held. `h`: locks held, `fs`: goroutines started; `above u k`: all locks that
goroutine `u` takes are above `k`; `simple u`: it waits for nobody. -/
def Ordered (above : Nat → Nat → Prop) (simple : Nat → Prop) : List Nat → List Nat → List Instr → Prop
  | h, _, [] => h = []
  | h, fs, .take l :: rest => (∀ k ∈ h, k < l) ∧ Ordered above simple (l :: h) fs rest
  | h, fs, .give l :: rest => ∃ h', h = l :: h' ∧ Ordered above simple h' fs rest
  | h, fs, .fork u :: rest => Ordered above simple h (u :: fs) rest
  | h, fs, .await u :: rest => u ∈ fs ∧ (∀ k ∈ h, above u k) ∧ simple u ∧ Ordered above simple h fs rest

theorem Ordered.mono {A : Nat → Nat → Prop} {S : Nat → Prop} : ∀ {c : List Instr} {h fs fs' : List Nat}, (∀ x ∈ fs, x ∈ fs') → Ordered A S h fs c → Ordered A S h fs' c
  | [], _, _, _, _, o => o
  | .take l :: rest, h, fs, fs', hs, o => ⟨o.1, Ordered.mono hs o.2⟩
  | .give l :: rest, h, fs, fs', hs, o => by
    obtain ⟨h', e, o⟩ := o
    exact ⟨h', e, Ordered.mono hs o⟩
  | .fork u :: rest, h, fs, fs', hs, o => Ordered.mono (c := rest) (fun x hx => by
      rcases List.mem_cons.mp hx with rfl | hx
      · exact List.mem_cons_self
      · exact List.mem_cons_of_mem _ (hs x hx)) (show Ordered A S h (u :: fs) rest from o)
  | .await u :: rest, h, fs, fs', hs, o => ⟨hs _ o.1, o.2.1, o.2.2.1, Ordered.mono hs o.2.2.2⟩

/-- A piece of code that leaves the locks as they are, followed by more. -/
def Piece (A : Nat → Nat → Prop) (S : Nat → Prop) (h fs : List Nat) (c : List Instr) : Prop :=
  ∀ rest, (∀ fs', (∀ x ∈ fs, x ∈ fs') → Ordered A S h fs' rest) → Ordered A S h fs (c ++ rest)

theorem Piece.nil {A : Nat → Nat → Prop} {S : Nat → Prop} {h fs : List Nat} : Piece A S h fs [] := fun _ k => k fs fun _ hx => hx

theorem Piece.append {A : Nat → Nat → Prop} {S : Nat → Prop} {h fs : List Nat} {c d : List Instr} (hc : Piece A S h fs c) (hd : ∀ fs', (∀ x ∈ fs, x ∈ fs') → Piece A S h fs' d) :
    Piece A S h fs (c ++ d) := fun rest k => by
  rw [List.append_assoc]
  exact hc _ fun fs' hs => hd fs' hs rest fun fs'' hs' => k fs'' fun x hx => hs' x (hs x hx)

theorem Piece.holding {A : Nat → Nat → Prop} {S : Nat → Prop} {h fs : List Nat} {l : Nat} {c : List Instr} (hl : ∀ k ∈ h, k < l) (hc : Piece A S (l :: h) fs c) :
    Piece A S h fs (holding l c) := fun rest k => by
  unfold Locks.holding
  simp only [List.cons_append, List.append_assoc, List.nil_append]
  exact ⟨hl, hc _ fun fs' hs => ⟨h, rfl, k fs' hs⟩⟩

/-- What holds in every state that can be reached; `full t`: all the code of goroutine `t`. -/
structure Inv (full : Nat → List Instr) (s : St) (H F : Nat → List Nat) : Prop where
  ordered : ∀ t, Ordered (fun u k => ∀ l, Instr.take l ∈ full u → k < l) (fun u => ∀ v, Instr.await v ∉ full u) (H t) (F t) (s.code t)
  forked : ∀ t, ∀ u ∈ F t, s.started u = true
  owner : ∀ l t, s.owner l = some t ↔ l ∈ H t
  idle : ∀ t, s.started t = false → H t = []
  desc : ∀ t, (H t).Pairwise (· > ·)
  suffix : ∀ t, s.code t <:+ full t
  forks : ∀ t u, Instr.fork u ∈ full t → Instr.fork u ∈ s.code t ∨ s.started u = true

theorem Inv.step {full : Nat → List Instr} {s s' : St} {H F : Nat → List Nat} {t : Nat} (iv : Inv full s H F) (h : Locks.step t s = some s') : ∃ H' F', Inv full s' H' F' := by
  unfold Locks.step at h
  split at h
  case isFalse => cases h
  case isTrue hst =>
  have ot := iv.ordered t
  have sf := iv.suffix t
  have fk := iv.forks t
  have tail : ∀ i rest, s.code t = i :: rest → ∀ u, put s.code t rest u <:+ full u := by
    intro i rest e u
    by_cases hu : u = t
    · subst hu
      rw [put_self]
      exact (List.suffix_cons i rest).trans (e ▸ sf)
    · rw [put_ne _ _ hu]
      exact iv.suffix u
  have fork' : ∀ i rest, s.code t = i :: rest → (∀ u, i ≠ .fork u) → ∀ v u, Instr.fork u ∈ full v → Instr.fork u ∈ put s.code t rest v ∨ s.started u = true := by
    intro i rest e hi v u hm
    by_cases hv : v = t
    · subst hv
      rw [put_self]
      rcases iv.forks v u hm with h | h
      · rw [e] at h
        rcases List.mem_cons.mp h with h | h
        · exact absurd h.symm (hi u)
        · exact .inl h
      · exact .inr h
    · rw [put_ne _ _ hv]
      exact iv.forks v u hm
  split at h
  · cases h
  · rename_i l rest e
    split at h
    case isFalse => cases h
    case isTrue ho =>
    cases h
    rw [e] at ot
    refine ⟨put H t (l :: H t), F, fun u => ?_, iv.forked, fun k u => ?_, fun u hu => ?_, fun u => ?_, tail _ _ e, fork' _ _ e (by simp)⟩
    · by_cases hu : u = t
      · subst hu
        dsimp only
        rw [put_self, put_self]
        exact ot.2
      · dsimp only
        rw [put_ne _ _ hu, put_ne _ _ hu]
        exact iv.ordered u
    · dsimp only
      by_cases hk : k = l
      · subst hk
        rw [put_self]
        by_cases hu : u = t
        · subst hu
          simp
        · rw [put_ne _ _ hu]
          have := iv.owner k u
          rw [ho] at this
          simp only [Option.some.injEq]
          constructor
          · exact fun e => absurd e.symm hu
          · exact fun m => absurd (this.mpr m) (by simp)
      · rw [put_ne _ _ hk, iv.owner]
        by_cases hu : u = t
        · subst hu
          rw [put_self, List.mem_cons]
          simp [hk]
        · rw [put_ne _ _ hu]
    · by_cases hut : u = t
      · subst hut
        exact absurd hst (by rw [hu]; simp)
      · rw [put_ne _ _ hut]
        exact iv.idle u hu
    · by_cases hut : u = t
      · subst hut
        rw [put_self]
        exact List.pairwise_cons.mpr ⟨fun k hk => ot.1 k hk, iv.desc u⟩
      · rw [put_ne _ _ hut]
        exact iv.desc u
  · rename_i l rest e
    cases h
    rw [e] at ot
    obtain ⟨h', eh, ot⟩ := ot
    have dt := iv.desc t
    rw [eh, List.pairwise_cons] at dt
    refine ⟨put H t h', F, fun u => ?_, iv.forked, fun k u => ?_, fun u hu => ?_, fun u => ?_, tail _ _ e, fork' _ _ e (by simp)⟩
    · by_cases hu : u = t
      · subst hu
        dsimp only
        rw [put_self, put_self]
        exact ot
      · dsimp only
        rw [put_ne _ _ hu, put_ne _ _ hu]
        exact iv.ordered u
    · dsimp only
      have lt : s.owner l = some t := (iv.owner l t).mpr (by rw [eh]; exact List.mem_cons_self)
      by_cases hk : k = l
      · subst hk
        rw [put_self]
        constructor
        · exact fun e => by cases e
        · intro m
          by_cases hu : u = t
          · subst hu
            rw [put_self] at m
            exact absurd (dt.1 k m) (Nat.lt_irrefl k)
          · rw [put_ne _ _ hu] at m
            have := (iv.owner k u).mpr m
            rw [lt] at this
            exact absurd (Option.some.inj this).symm hu
      · rw [put_ne _ _ hk, iv.owner]
        by_cases hu : u = t
        · subst hu
          rw [put_self, eh, List.mem_cons]
          simp [hk]
        · rw [put_ne _ _ hu]
    · by_cases hut : u = t
      · subst hut
        exact absurd hst (by rw [hu]; simp)
      · rw [put_ne _ _ hut]
        exact iv.idle u hu
    · by_cases hut : u = t
      · subst hut
        rw [put_self]
        exact dt.2
      · rw [put_ne _ _ hut]
        exact iv.desc u
  · rename_i v rest e
    cases h
    rw [e] at ot
    have up : ∀ u, s.started u = true → put s.started v true u = true := by
      intro u hu
      by_cases hv : u = v
      · subst hv
        rw [put_self]
      · rw [put_ne _ _ hv]
        exact hu
    refine ⟨H, put F t (v :: F t), fun u => ?_, fun u w hw => ?_, iv.owner, fun u hu => ?_, iv.desc, tail _ _ e, fun w u hm => ?_⟩
    · by_cases hu : u = t
      · subst hu
        dsimp only
        rw [put_self, put_self]
        exact ot
      · dsimp only
        rw [put_ne _ _ hu, put_ne _ _ hu]
        exact iv.ordered u
    · dsimp only
      by_cases hu : u = t
      · subst hu
        rw [put_self] at hw
        rcases List.mem_cons.mp hw with rfl | hw
        · rw [put_self]
        · exact up _ (iv.forked u w hw)
      · rw [put_ne _ _ hu] at hw
        exact up _ (iv.forked u w hw)
    · refine iv.idle u ?_
      cases hs : s.started u
      · rfl
      · have := up u hs
        dsimp only at hu
        rw [this] at hu
        cases hu
    · dsimp only
      rcases iv.forks w u hm with h | h
      · by_cases hw : w = t
        · subst hw
          rw [put_self]
          rw [e] at h
          rcases List.mem_cons.mp h with h | h
          · cases h
            exact .inr (put_self _ _ _)
          · exact .inl h
        · rw [put_ne _ _ hw]
          exact .inl h
      · exact .inr (up u h)
  · rename_i v rest e
    split at h
    case isFalse => cases h
    case isTrue hv =>
    cases h
    rw [e] at ot
    refine ⟨H, F, fun u => ?_, iv.forked, iv.owner, iv.idle, iv.desc, tail _ _ e, fork' _ _ e (by simp)⟩
    by_cases hu : u = t
    · subst hu
      dsimp only
      rw [put_self]
      exact ot.2.2.2
    · dsimp only
      rw [put_ne _ _ hu]
      exact iv.ordered u

theorem Inv.run {full : Nat → List Instr} : ∀ {ts : List Nat} {s s' : St} {H F : Nat → List Nat}, Inv full s H F → Locks.run ts s = some s' → ∃ H' F', Inv full s' H' F'
  | [], s, s', H, F, iv, h => by
    cases h
    exact ⟨H, F, iv⟩
  | t :: ts, s, s', H, F, iv, h => by
    rw [Locks.run, Option.bind_eq_some_iff] at h
    obtain ⟨s₁, h₁, h₂⟩ := h
    obtain ⟨H', F', iv'⟩ := iv.step h₁
    exact iv'.run h₂

/-- The first instruction of a goroutine that was started and cannot step. -/
theorem blocked {s : St} {t : Nat} (hs : s.started t = true) (h : Locks.step t s = none) :
    s.code t = [] ∨ (∃ l rest u, s.code t = .take l :: rest ∧ s.owner l = some u) ∨ ∃ u rest, s.code t = .await u :: rest ∧ (s.started u = true → s.code u ≠ []) := by
  unfold Locks.step at h
  rw [if_pos hs] at h
  split at h
  · rename_i e
    exact .inl e
  · rename_i l rest e
    split at h
    · cases h
    · rename_i ho
      obtain ⟨u, hu⟩ := Option.ne_none_iff_exists'.mp ho
      exact .inr (.inl ⟨l, rest, u, e, hu⟩)
  · cases h
  · cases h
  · rename_i u rest e
    split at h
    · cases h
    · rename_i hu
      refine .inr (.inr ⟨u, rest, e, fun hst hc => hu ?_⟩)
      rw [hst, hc]
      rfl

theorem Inv.no_take {full : Nat → List Instr} {s : St} {H F : Nat → List Nat} {B : Nat} (iv : Inv full s H F) (hB : ∀ t l, Instr.take l ∈ full t → l < B) (st : Stuck s) :
    ∀ d l t rest, B - l = d → s.started t = true → s.code t ≠ .take l :: rest := by
  intro d
  induction d using Nat.strong_induction_on with
  | _ d ih =>
  intro l t rest hd hs e
  have mem : ∀ u i r, s.code u = i :: r → i ∈ full u := fun u i r hu => (iv.suffix u).subset (by rw [hu]; exact List.mem_cons_self)
  have lB := hB t l (mem t _ _ e)
  rcases blocked hs (st t) with h | ⟨l', r, u, h, ho⟩ | ⟨u, r, h, _⟩
  · rw [h] at e; cases e
  · rw [e] at h
    cases h
    have hm := (iv.owner l u).mp ho
    have us : s.started u = true := by
      cases hu : s.started u
      · rw [iv.idle u hu] at hm
        cases hm
      · rfl
    have ou := iv.ordered u
    rcases blocked us (st u) with h | ⟨l', r, w, h, _⟩ | ⟨w, r, h, hw⟩
    · rw [h] at ou
      rw [show H u = [] from ou] at hm
      cases hm
    · rw [h] at ou
      have := ou.1 l hm
      exact ih (B - l') (by have := hB u l' (mem u _ _ h); omega) l' u r rfl us h
    · rw [h] at ou
      obtain ⟨hf, ha, hsimple, _⟩ := ou
      have ws := iv.forked u w hf
      rcases blocked ws (st w) with h' | ⟨l', r', _, h', _⟩ | ⟨v, r', h', _⟩
      · exact hw ws h'
      · have := ha l hm l' (mem w _ _ h')
        exact ih (B - l') (by have := hB w l' (mem w _ _ h'); omega) l' w r' rfl ws h'
      · exact hsimple v (mem w _ _ h')
  · rw [e] at h; cases h

theorem Inv.done {full : Nat → List Instr} {s : St} {H F : Nat → List Nat} {B : Nat} (iv : Inv full s H F) (hB : ∀ t l, Instr.take l ∈ full t → l < B) (st : Stuck s) (t : Nat)
    (hs : s.started t = true) : s.code t = [] := by
  rcases blocked hs (st t) with h | ⟨l, r, u, h, _⟩ | ⟨u, r, h, hu⟩
  · exact h
  · exact absurd h (iv.no_take hB st _ l t r rfl hs)
  · have ot := iv.ordered t
    rw [h] at ot
    obtain ⟨hf, _, hsimple, _⟩ := ot
    have us := iv.forked t u hf
    rcases blocked us (st u) with h' | ⟨l', r', _, h', _⟩ | ⟨v, r', h', _⟩
    · exact absurd h' (hu us)
    · exact absurd h' (iv.no_take hB st _ l' u r' rfl us)
    · exact absurd ((iv.suffix u).subset (by rw [h']; exact List.mem_cons_self)) (hsimple v)

theorem Inv.free {full : Nat → List Instr} {s : St} {H F : Nat → List Nat} (iv : Inv full s H F) (hd : ∀ t, s.started t = true → s.code t = []) (l : Nat) : s.owner l = none := by
  cases ho : s.owner l with
  | none => rfl
  | some t =>
    have hm := (iv.owner l t).mp ho
    cases ht : s.started t
    · rw [iv.idle t ht] at hm
      cases hm
    · have := iv.ordered t
      rw [hd t ht] at this
      rw [show H t = [] from this] at hm
      cases hm

theorem started_step {s s' : St} {t u : Nat} (h : step t s = some s') (hs : s.started u = true) : s'.started u = true := by
  unfold step at h
  split at h
  case isFalse => cases h
  case isTrue =>
  split at h
  · cases h
  · split at h <;> cases h
    exact hs
  · cases h
    exact hs
  · rename_i v _ _
    cases h
    dsimp only
    by_cases hv : u = v
    · subst hv
      rw [put_self]
    · rw [put_ne _ _ hv]
      exact hs
  · split at h <;> cases h
    exact hs

theorem started_run : ∀ {ts : List Nat} {s s' : St} {u : Nat}, run ts s = some s' → s.started u = true → s'.started u = true
  | [], s, s', u, h, hs => by
    cases h
    exact hs
  | t :: ts, s, s', u, h, hs => by
    rw [run, Option.bind_eq_some_iff] at h
    obtain ⟨s₁, h₁, h₂⟩ := h
    exact started_run h₂ (started_step h₁ hs)

/-- What is left to do. -/
def left (n : Nat) (s : St) : Nat := ∑ t ∈ Finset.range n, (s.code t).length

theorem left_sum (n : Nat) (s : St) : left n s = ((List.range n).map fun t => (s.code t).length).sum := by
  unfold left
  induction n with
  | zero => rfl
  | succ n ih => rw [Finset.sum_range_succ, List.range_succ, List.map_append, List.sum_append, ih]; simp

theorem step_code {s s' : St} {t : Nat} (h : step t s = some s') : ∃ i rest, s.code t = i :: rest ∧ s'.code = put s.code t rest := by
  unfold step at h
  split at h
  case isFalse => cases h
  case isTrue =>
  split at h
  · cases h
  · rename_i l rest e
    split at h <;> cases h
    exact ⟨_, rest, e, rfl⟩
  · rename_i l rest e
    cases h
    exact ⟨_, rest, e, rfl⟩
  · rename_i l rest e
    cases h
    exact ⟨_, rest, e, rfl⟩
  · rename_i l rest e
    split at h <;> cases h
    exact ⟨_, rest, e, rfl⟩

theorem left_step {n : Nat} {s s' : St} {t : Nat} (hn : ∀ u, n ≤ u → s.code u = []) (h : step t s = some s') : left n s = left n s' + 1 ∧ ∀ u, n ≤ u → s'.code u = [] := by
  obtain ⟨i, rest, e, e'⟩ := step_code h
  have ht : t < n := by
    by_contra hc
    rw [hn t (by omega)] at e
    cases e
  constructor
  · unfold left
    rw [← Finset.add_sum_erase _ _ (Finset.mem_range.mpr ht), ← Finset.add_sum_erase (a := t) (Finset.range n) (fun u => (s'.code u).length) (Finset.mem_range.mpr ht)]
    have : ∑ u ∈ (Finset.range n).erase t, (s'.code u).length = ∑ u ∈ (Finset.range n).erase t, (s.code u).length := by
      refine Finset.sum_congr rfl fun u hu => ?_
      rw [e', put_ne _ _ (Finset.ne_of_mem_erase hu)]
    rw [this, e, e', put_self, List.length_cons]
    omega
  · intro u hu
    rw [e', put_ne _ _ (by omega : u ≠ t)]
    exact hn u hu

theorem left_run {n : Nat} : ∀ {ts : List Nat} {s s' : St}, (∀ u, n ≤ u → s.code u = []) → run ts s = some s' → left n s = left n s' + ts.length ∧ ∀ u, n ≤ u → s'.code u = []
  | [], s, s', hn, h => by
    cases h
    exact ⟨rfl, hn⟩
  | t :: ts, s, s', hn, h => by
    rw [run, Option.bind_eq_some_iff] at h
    obtain ⟨s₁, h₁, h₂⟩ := h
    obtain ⟨a, hn'⟩ := left_step hn h₁
    obtain ⟨b, hn''⟩ := left_run hn' h₂
    refine ⟨?_, hn''⟩
    rw [a, b, List.length_cons]
    omega

theorem run_append : ∀ (as bs : List Nat) (s : St), run (as ++ bs) s = (run as s).bind (run bs)
  | [], bs, s => rfl
  | a :: as, bs, s => by
    rw [List.cons_append, run, run, Option.bind_assoc]
    congr 1
    funext x
    exact run_append as bs x

theorem to_stuck {n : Nat} : ∀ (d : Nat) (s : St), left n s ≤ d → (∀ u, n ≤ u → s.code u = []) → ∃ ts s', run ts s = some s' ∧ Stuck s'
  | d, s, hd, hn => by
    by_cases hs : Stuck s
    · exact ⟨[], s, rfl, hs⟩
    · unfold Stuck at hs
      rw [not_forall] at hs
      obtain ⟨t, ht⟩ := hs
      obtain ⟨s₁, h₁⟩ := Option.ne_none_iff_exists'.mp ht
      obtain ⟨a, hn'⟩ := left_step hn h₁
      cases d with
      | zero => omega
      | succ d =>
        obtain ⟨ts, s', hr, hst⟩ := to_stuck d s₁ (by omega) hn'
        refine ⟨t :: ts, s', ?_, hst⟩
        rw [run, h₁]
        exact hr

/-! The operations take their locks in order. -/

theorem addCleanup_piece {A : Nat → Nat → Prop} {S : Nat → Prop} {n m : Nat} {h fs : List Nat} (b : Bool) (hl : ∀ k ∈ h, k < cleanupLock n m) : Piece A S h fs (addCleanup n m b) := by
  cases b
  · exact Piece.nil
  · exact Piece.holding hl Piece.nil

theorem awaits_piece {A : Nat → Nat → Prop} {S : Nat → Prop} {h : List Nat} : ∀ {fs us : List Nat}, (∀ u ∈ us, u ∈ fs ∧ (∀ k ∈ h, A u k) ∧ S u) → Piece A S h fs (us.map Instr.await)
  | fs, [], _ => Piece.nil
  | fs, u :: us, hu => fun rest k => by
    obtain ⟨a, b, c⟩ := hu u List.mem_cons_self
    exact ⟨a, b, c, awaits_piece (fun v hv => hu v (List.mem_cons_of_mem _ hv)) rest k⟩

theorem forks_ordered {A : Nat → Nat → Prop} {S : Nat → Prop} {h : List Nat} (rest : List Instr) : ∀ (fs : List Nat) (ws : List (Option Nat × Nat)),
    (∀ w ∈ ws, ∀ u, w.1 = some u → (∀ k ∈ h, A u k) ∧ S u) → (∀ as w bs u, ws = as ++ w :: bs → w.1 = some u → u ∈ fs ∨ u ∈ as.map (·.2)) →
    (∀ fs', (∀ x ∈ fs, x ∈ fs') → (∀ w ∈ ws, w.2 ∈ fs') → Ordered A S h fs' rest) →
    Ordered A S h fs (ws.flatMap (fun w => (w.1.map Instr.await).toList ++ [.fork w.2]) ++ rest)
  | fs, [], _, _, k => k fs (fun _ hx => hx) (by simp)
  | fs, w :: ws, hw, hb, k => by
    have go : Ordered A S h (w.2 :: fs) (ws.flatMap (fun w => (w.1.map Instr.await).toList ++ [.fork w.2]) ++ rest) := by
      refine forks_ordered rest (w.2 :: fs) ws (fun v hv => hw v (List.mem_cons_of_mem _ hv)) (fun as v bs u e hu => ?_) (fun fs' hs hf => ?_)
      · rcases hb (w :: as) v bs u (by rw [e]; rfl) hu with h | h
        · exact .inl (List.mem_cons_of_mem _ h)
        · rw [List.map_cons, List.mem_cons] at h
          rcases h with rfl | h
          · exact .inl List.mem_cons_self
          · exact .inr h
      · refine k fs' (fun x hx => hs x (List.mem_cons_of_mem _ hx)) (fun v hv => ?_)
        rcases List.mem_cons.mp hv with rfl | hv
        · exact hs _ List.mem_cons_self
        · exact hf v hv
    rw [List.flatMap_cons]
    cases e : w.1 with
    | none =>
      simp only [Option.map_none, Option.toList_none, List.nil_append, List.cons_append]
      exact go
    | some u =>
      simp only [Option.map_some, Option.toList_some, List.nil_append, List.cons_append]
      obtain ⟨a, b⟩ := hw w List.mem_cons_self u e
      refine ⟨?_, a, b, go⟩
      rcases hb [] w ws u rfl e with h | h
      · exact h
      · cases h

theorem worker_above {n m : Nat} {b : Bool} {l : Nat} (h : Instr.take l ∈ (Routine.worker m b).code n) : commitLock n m < l ∧ l < n + 3 * m + 3 := by
  cases b <;> simp [Routine.code, addCleanup, holding, cleanupLock, commitLock] at h ⊢
  omega

theorem worker_simple {n m : Nat} {b : Bool} {v : Nat} : Instr.await v ∉ (Routine.worker m b).code n := by
  cases b <;> simp [Routine.code, addCleanup, holding]

theorem Op.piece {n m : Nat} {sys : Nat → Routine} {o : Op} (hf : o.Fits n m sys) (fs : List Nat) :
    Piece (fun u k => ∀ l, Instr.take l ∈ (sys u).code n → k < l) (fun u => ∀ v, Instr.await v ∉ (sys u).code n) [] fs (o.code n m) := by
  cases o with
  | inject f p =>
    refine Piece.holding (by simp) ?_
    cases p
    · exact Piece.nil
    · refine Piece.holding (fun k hk => ?_) Piece.nil
      rw [List.mem_singleton.mp hk]
      have hf : f < n := hf
      unfold commitLock
      omega
  | commitFile f b =>
    have hf : f < n := hf
    refine Piece.holding (by simp) (Piece.holding (fun k hk => ?_) (addCleanup_piece b fun k hk => ?_))
    · rw [List.mem_singleton.mp hk]
      unfold commitLock
      omega
    · simp only [List.mem_cons, List.not_mem_nil, or_false, commitLock, cleanupLock] at hk ⊢
      omega
  | insert f b b' =>
    have hf : f < n := hf
    refine Piece.holding (by simp) (Piece.append (Piece.holding (fun k hk => ?_) (addCleanup_piece b fun k hk => ?_)) fun fs' _ => addCleanup_piece b' fun k hk => ?_)
    · rw [List.mem_singleton.mp hk]
      unfold commitLock
      omega
    · simp only [List.mem_cons, List.not_mem_nil, or_false, commitLock, cleanupLock] at hk ⊢
      omega
    · simp only [List.mem_cons, List.not_mem_nil, or_false, cleanupLock] at hk ⊢
      omega
  | client => exact Piece.holding (by simp) Piece.nil
  | restore => exact Piece.holding (by simp) Piece.nil
  | record => exact Piece.holding (by simp) Piece.nil
  | commit ws =>
    obtain ⟨hw, hb⟩ := hf
    have ok : ∀ w ∈ ws, (∀ k ∈ [commitLock n m], ∀ l, Instr.take l ∈ (sys w.2).code n → k < l) ∧ ∀ v, Instr.await v ∉ (sys w.2).code n := by
      intro w hm
      obtain ⟨b, e⟩ := hw w hm
      rw [e]
      refine ⟨fun k hk l hl => ?_, fun v => worker_simple⟩
      rw [List.mem_singleton.mp hk]
      exact (worker_above hl).1
    refine Piece.holding (by simp) fun rest k => ?_
    rw [List.append_assoc]
    refine forks_ordered _ fs ws (fun w hm u hu => ?_) (fun as w bs u e hu => .inr (hb as w bs u e hu)) (fun fs' hs hf => ?_)
    · obtain ⟨as, bs, e⟩ := List.append_of_mem hm
      have := hb as w bs u e hu
      rw [List.mem_map] at this
      obtain ⟨x, hx, rfl⟩ := this
      exact ok x (by rw [e]; exact List.mem_append_left _ hx)
    · have e : (ws.map fun w => Instr.await w.2) = (ws.map (·.2)).map Instr.await := by rw [List.map_map]; rfl
      rw [e]
      refine awaits_piece (fun u hu => ?_) rest fun fs'' hs' => k fs'' fun x hx => hs' x (hs x hx)
      obtain ⟨w, hm, rfl⟩ := List.mem_map.mp hu
      exact ⟨hf w hm, ok w hm⟩

theorem editor_ordered {n : Nat} {sys : Nat → Routine} : ∀ {ops : List (Nat × Op)} (fs : List Nat), (∀ o ∈ ops, o.2.Fits n o.1 sys) →
    Ordered (fun u k => ∀ l, Instr.take l ∈ (sys u).code n → k < l) (fun u => ∀ v, Instr.await v ∉ (sys u).code n) [] fs (ops.flatMap fun o => o.2.code n o.1)
  | [], _, _ => rfl
  | o :: ops, fs, h => by
    rw [List.flatMap_cons]
    exact Op.piece (h o List.mem_cons_self) fs _ fun fs' _ => editor_ordered fs' fun x hx => h x (List.mem_cons_of_mem _ hx)

theorem Op.below {n m : Nat} {sys : Nat → Routine} {o : Op} (hf : o.Fits n m sys) {l : Nat} (h : Instr.take l ∈ o.code n m) : l < n + 3 * m + 3 := by
  cases o with
  | inject f p =>
    have hf : f < n := hf
    cases p <;> simp [Op.code, holding, commitLock] at h <;> omega
  | commitFile f b =>
    have hf : f < n := hf
    cases b <;> simp [Op.code, addCleanup, holding, commitLock, cleanupLock] at h <;> omega
  | insert f b b' =>
    have hf : f < n := hf
    cases b <;> cases b' <;> simp [Op.code, addCleanup, holding, commitLock, cleanupLock] at h <;> omega
  | client => simp [Op.code, holding, cleanupLock] at h; omega
  | restore => simp [Op.code, holding, cleanupLock] at h; omega
  | record => simp [Op.code, holding, pointLock] at h; omega
  | commit ws =>
    simp only [Op.code, holding, commitLock, List.cons_append, List.mem_cons, List.mem_append, List.mem_flatMap, List.mem_map, Instr.take.injEq] at h
    rcases h with h | (⟨w, _, h⟩ | ⟨w, _, h⟩) | h
    · omega
    · cases e : w.1 <;> simp [e] at h
    · cases h
    · simp at h

theorem System.below {n c k : Nat} {sys : Nat → Routine} (sy : System c n k sys) : ∃ B, ∀ t l, Instr.take l ∈ (sys t).code n → l < B := by
  have one : ∀ t, ∃ B, ∀ l, Instr.take l ∈ (sys t).code n → l < B := by
    intro t
    cases e : sys t with
    | editor ops =>
      refine ⟨n + 3 * k, fun l h => ?_⟩
      rw [Routine.code, List.mem_flatMap] at h
      obtain ⟨o, ho, h⟩ := h
      obtain ⟨hm, hf⟩ := sy.fits t ops e o ho
      have := Op.below hf h
      omega
    | worker m b => exact ⟨_, fun l h => (worker_above h).2⟩
  choose f hf using one
  refine ⟨∑ t ∈ Finset.range c, f t, fun t l h => ?_⟩
  by_cases ht : t < c
  · exact Nat.lt_of_lt_of_le (hf t l h) (Finset.single_le_sum (f := f) (fun _ _ => Nat.zero_le _) (Finset.mem_range.mpr ht))
  · rw [sy.rest t (by omega)] at h
    cases h

theorem System.inv {n c k : Nat} {sys : Nat → Routine} (sy : System c n k sys) : Inv (fun t => (sys t).code n) (start n sys) (fun _ => []) (fun _ => []) := by
  refine ⟨fun t => ?_, by simp, by simp [start], by simp, by simp, fun t => List.suffix_rfl, fun t u h => .inl h⟩
  show Ordered _ _ _ _ ((sys t).code n)
  cases e : sys t with
  | editor ops => exact editor_ordered [] fun o ho => (sy.fits t ops e o ho).2
  | worker m b =>
    have := addCleanup_piece (A := fun u k => ∀ l, Instr.take l ∈ (sys u).code n → k < l) (S := fun u => ∀ v, Instr.await v ∉ (sys u).code n) (n := n) (m := m) (h := []) (fs := []) b (by simp) []
      fun _ _ => rfl
    rw [List.append_nil] at this
    exact this

end Verif.Locks
