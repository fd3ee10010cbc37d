import Verif.Client.Spec

namespace Verif.Client

open Verif

/-! ### Numbers -/

theorem digit_toNat {d : Nat} (h : d < 10) : (digit d).toNat = 48 + d := by
  have : ∀ d : Fin 10, (digit d.val).toNat = 48 + d.val := by decide
  exact this ⟨d, h⟩

theorem digit_range {d : Nat} (h : d < 10) : '0' ≤ digit d ∧ digit d ≤ '9' := by
  have : ∀ d : Fin 10, '0' ≤ digit d.val ∧ digit d.val ≤ '9' := by decide
  exact this ⟨d, h⟩

theorem digit_ne {d : Nat} (h : d < 10) (c : Char) (hc : c.toNat < 48 ∨ 57 < c.toNat) : digit d ≠ c := by
  intro he
  have := digit_toNat h
  rw [he] at this
  omega

theorem natOf_digits (n : Nat) : natOf ((digits10 n).map digit) = some n := by
  unfold natOf
  rw [if_pos]
  · rw [List.map_map]
    congr 1
    have : (digits10 n).map ((fun c => c.toNat - 48) ∘ digit) = digits10 n := by
      conv_rhs => rw [← List.map_id (digits10 n)]
      refine List.map_congr_left fun d hd => ?_
      simp [digit_toNat (digits10_lt n d hd)]
    rw [this, ofDigits10_digits10]
  · refine ⟨by simp [digits10_ne_nil], ?_⟩
    rw [List.all_eq_true]
    intro c hc
    obtain ⟨d, hd, rfl⟩ := List.mem_map.mp hc
    have h := digits10_lt n d hd
    simp only [digit_toNat h, decide_eq_true_eq]
    omega

theorem atoi_itoa {n : Nat} (h : n < 2 ^ 63) : atoi (itoa n) = some (n : Int) := by
  have hn := natOf_digits n
  have hr : inRange (n : Int) = some (n : Int) := by
    unfold inRange
    rw [if_pos]
    constructor <;> omega
  have hi : itoa (n : Int) = (digits10 n).map digit := rfl
  rw [hi]
  cases hs : (digits10 n).map digit with
  | nil => simp [digits10_ne_nil] at hs
  | cons c s =>
    have hc : c ∈ (digits10 n).map digit := by rw [hs]; simp
    obtain ⟨d, hd, rfl⟩ := List.mem_map.mp hc
    have hlt := digits10_lt n d hd
    have h1 := digit_ne hlt '-' (by decide)
    have h2 := digit_ne hlt '+' (by decide)
    rw [hs] at hn
    unfold atoi
    split
    · rename_i h; simp only [List.cons.injEq] at h; exact absurd h.1 h1
    · rename_i h; simp only [List.cons.injEq] at h; exact absurd h.1 h2
    · rw [hn, Option.bind_some, hr]

theorem itoa_ne_nil (i : Int) : itoa i ≠ [] := by
  cases i <;> simp [itoa, digits10_ne_nil]

theorem serverPort_address {n : Nat} (h : n < 2 ^ 63) : serverPort (address n) = n := by
  unfold serverPort
  have : (List.dropWhile (fun x => decide (x ≠ ':')) (address n)).drop 1 = itoa n := by
    simp [address, host]
  rw [this, atoi_itoa h]
  rfl

theorem choosePort_env (const : Int) {n : Nat} (h : n < 2 ^ 63) : choosePort const (envValue n) = some (n : Int) := by
  unfold envValue
  rw [serverPort_address h]
  unfold choosePort
  split
  · rename_i he; exact absurd he (itoa_ne_nil _)
  · exact atoi_itoa h

/-! ### Addresses -/

theorem path_head (t : Target) : ∃ rest, path t = '/' :: rest := by
  rcases t with (_ | _ | _) | _ <;> exact ⟨_, rfl⟩

theorem takeWhile_digits (n : Nat) (t : Target) :
    ((digits10 n).map digit ++ path t).takeWhile (· ≠ '/') = (digits10 n).map digit ∧
    ((digits10 n).map digit ++ path t).dropWhile (· ≠ '/') = path t := by
  obtain ⟨rest, hrest⟩ := path_head t
  have hall : ∀ c ∈ (digits10 n).map digit, decide (c ≠ '/') = true := by
    intro c hc
    obtain ⟨d, hd, rfl⟩ := List.mem_map.mp hc
    simpa using digit_ne (digits10_lt n d hd) '/' (by decide)
  rw [hrest]
  constructor
  · rw [List.takeWhile_append_of_pos hall]; simp
  · rw [List.dropWhile_append_of_pos hall]; simp

theorem foldl_digits (l : List Nat) (h : ∀ d ∈ l, d < 10) (a : Nat) :
    (l.map digit).foldl (fun a c => a * 10 + (c.toNat - 48)) a = l.foldl (fun a d => a * 10 + d) a := by
  induction l generalizing a with
  | nil => rfl
  | cons d l ih =>
    simp only [List.map_cons, List.foldl_cons]
    rw [digit_toNat (h d (by simp)), show 48 + d - 48 = d by omega]
    exact ih (fun x hx => h x (by simp [hx])) _

theorem dial_urlOf (n : Nat) (t : Target) : dial (urlOf n t) = some (n, path t) := by
  have hu : urlOf n t = ['h', 't', 't', 'p', ':', '/', '/', '1', '2', '7', '.', '0', '.', '0', '.', '1', ':'] ++ ((digits10 n).map digit ++ path t) := by
    simp [urlOf, scheme, host, itoa]
  obtain ⟨h1, h2⟩ := takeWhile_digits n t
  unfold dial
  rw [hu, if_pos (List.prefix_append _ _)]
  have hd : (['h', 't', 't', 'p', ':', '/', '/', '1', '2', '7', '.', '0', '.', '0', '.', '1', ':'] ++ ((digits10 n).map digit ++ path t)).drop 17 =
      (digits10 n).map digit ++ path t := rfl
  rw [hd]
  dsimp only
  rw [h1, h2, if_pos]
  · rw [foldl_digits _ (digits10_lt n)]
    congr 2
    exact ofDigits10_digits10 n
  · refine ⟨by simp [digits10_ne_nil], ?_⟩
    rw [List.all_eq_true]
    intro c hc
    obtain ⟨d, hd, rfl⟩ := List.mem_map.mp hc
    simpa using digit_range (digits10_lt n d hd)

theorem reaches_urlOf (n : Nat) (t : Target) : reaches (urlOf n t) = some (n, t) := by
  unfold reaches
  rw [dial_urlOf]
  rcases t with (_ | _ | _) | _ <;> rfl

theorem reaches_nil : reaches [] = none := rfl

/-! ### One message -/

theorem postMessage_ready {net : Net} {st : St} (h : st.ready = true) (k : Kind) (n : Nat) :
    (postMessage net st k n).port = st.port ∧ (postMessage net st k n).ready = true ∧ (postMessage net st k n).dead = st.dead ∧
    (postMessage net st k n).effects = st.effects ∧
    ((bad (net (st.reqs ++ [⟨st.endpoint (.kind k), .msg k n⟩])) = false ∧
      (postMessage net st k n).reqs = st.reqs ++ [⟨st.endpoint (.kind k), .msg k n⟩] ∧ (postMessage net st k n).lines = st.lines) ∨
     (bad (net (st.reqs ++ [⟨st.endpoint (.kind k), .msg k n⟩])) = true ∧
      (postMessage net st k n).reqs = st.reqs ++ [⟨st.endpoint (.kind k), .msg k n⟩, ⟨st.endpoint .error, .fail n⟩] ∧
      (postMessage net st k n).lines = st.lines + (if bad (net (st.reqs ++ [⟨st.endpoint (.kind k), .msg k n⟩, ⟨st.endpoint .error, .fail n⟩])) then 1 else 0))) := by
  have hreq : ((st.post (.kind k) (.msg k n)).post .error (.fail n)).reqs =
      st.reqs ++ [⟨st.endpoint (.kind k), .msg k n⟩, ⟨st.endpoint .error, .fail n⟩] := by
    simp [St.post, St.endpoint]
  unfold postMessage
  rw [if_pos h]
  dsimp only
  cases hb : bad (net (st.post (.kind k) (.msg k n)).reqs) with
  | false =>
    simp only [Bool.false_eq_true, if_false]
    exact ⟨rfl, h, rfl, rfl, Or.inl ⟨hb, rfl, rfl⟩⟩
  | true =>
    simp only [if_true]
    unfold sendError
    dsimp only
    cases hb2 : bad (net ((st.post (.kind k) (.msg k n)).post .error (.fail n)).reqs) with
    | false =>
      simp only [Bool.false_eq_true, if_false]
      rw [hreq] at hb2
      refine ⟨rfl, h, rfl, rfl, Or.inr ⟨hb, hreq, ?_⟩⟩
      rw [hb2]; rfl
    | true =>
      simp only [if_true]
      rw [hreq] at hb2
      refine ⟨rfl, h, rfl, rfl, Or.inr ⟨hb, hreq, ?_⟩⟩
      rw [hb2]; rfl

theorem arrivals_append (a b : List Req) : arrivals (a ++ b) = arrivals a ++ arrivals b := List.filterMap_append ..

theorem sends_append (a b : List Ev) : sends (a ++ b) = sends a ++ sends b := List.filterMap_append ..

theorem arrivals_post {net : Net} {st : St} (h : st.ready = true) (k : Kind) (n : Nat) :
    arrivals (postMessage net st k n).reqs = arrivals st.reqs ++ (arrival ⟨st.endpoint (.kind k), .msg k n⟩).toList := by
  obtain ⟨-, -, -, -, ⟨-, h', -⟩ | ⟨-, h', -⟩⟩ := postMessage_ready (net := net) h k n
  · rw [h', arrivals_append]
    simp only [arrivals, List.filterMap_cons, List.filterMap_nil]
    cases arrival ⟨st.endpoint (.kind k), .msg k n⟩ <;> rfl
  · rw [h', arrivals_append]
    simp only [arrivals, List.filterMap_cons, List.filterMap_nil]
    have : arrival ⟨st.endpoint .error, .fail n⟩ = none := rfl
    rw [this]
    cases arrival ⟨st.endpoint (.kind k), .msg k n⟩ <;> rfl

/-! ### Runs -/

theorem run_append (net : Net) (const : Int) (env : Str) (st : St) (a b : List Ev) :
    run net const env st (a ++ b) = run net const env (run net const env st a) b := List.foldl_append ..

/-- What arrives of messages sent with an endpoint. -/
def expected (port : Option Int) (l : List (Kind × Nat)) : List Arrival :=
  l.filterMap fun q => arrival ⟨(match port with | none => [] | some p => urlOf p (.kind q.1)), .msg q.1 q.2⟩

theorem run_user (net : Net) (const : Int) (env : Str) : ∀ (evs : List Ev) (st : St), User evs → st.ready = true → st.dead = false →
    (run net const env st evs).port = st.port ∧ (run net const env st evs).ready = true ∧ (run net const env st evs).dead = false ∧
    (run net const env st evs).effects = st.effects ++ evs.filterMap effectOf ∧
    arrivals (run net const env st evs).reqs = arrivals st.reqs ++ expected st.port (sends evs)
  | [], st, _, hr, hd => by simp [run, hr, hd, sends, expected]
  | e :: evs, st, hu, hr, hd => by
    obtain ⟨a, rfl⟩ := hu e (by simp)
    have hu' : User evs := fun e he => hu e (by simp [he])
    have hrun : run net const env st (.act a :: evs) = run net const env (step net const env st (.act a)) evs := rfl
    rw [hrun]
    cases a with
    | effect n =>
      have hs : step net const env st (.act (.effect n)) = { st with effects := st.effects ++ [n] } := by simp [step, hd]
      rw [hs]
      obtain ⟨h1, h2, h3, h4, h5⟩ := run_user net const env evs { st with effects := st.effects ++ [n] } hu' hr hd
      refine ⟨h1, h2, h3, ?_, ?_⟩
      · rw [h4]; simp [effectOf]
      · rw [h5]; simp [sends, sendOf, List.filterMap_cons]
    | send k n =>
      have hs : step net const env st (.act (.send k n)) = postMessage net st k n := by simp [step, hd]
      rw [hs]
      obtain ⟨p1, p2, p3, p4, -⟩ := postMessage_ready (net := net) hr k n
      have p5 := arrivals_post (net := net) hr k n
      obtain ⟨h1, h2, h3, h4, h5⟩ := run_user net const env evs (postMessage net st k n) hu' p2 (by rw [p3, hd])
      refine ⟨by rw [h1, p1], h2, h3, ?_, ?_⟩
      · rw [h4, p4]; simp [effectOf, List.filterMap_cons]
      · rw [h5, p5, p1, List.append_assoc]
        congr 1
        have hep : st.endpoint (.kind k) = (match st.port with | none => [] | some p => urlOf p (.kind k)) := rfl
        have hss : sends (.act (.send k n) :: evs) = (k, n) :: sends evs := rfl
        rw [hss]
        simp only [expected, List.filterMap_cons]
        rw [← hep]
        cases arrival ⟨st.endpoint (.kind k), .msg k n⟩ <;> rfl

theorem expected_none (l : List (Kind × Nat)) : expected none l = [] := by
  unfold expected
  rw [List.filterMap_eq_nil_iff]
  intro q _
  simp [arrival, reaches_nil]

theorem expected_some (p : Nat) (l : List (Kind × Nat)) : expected (some (p : Int)) l = l.map fun q => ⟨p, .kind q.1, q.1, q.2⟩ := by
  unfold expected
  rw [← List.filterMap_eq_map]
  refine List.filterMap_congr fun q _ => ?_
  simp [arrival, reaches_urlOf]

theorem arrivals_quiet (net : Net) (const : Int) (env : Str) : ∀ (evs : List Ev) (st : St), User evs → sends evs = [] → st.dead = false →
    (run net const env st evs).port = st.port ∧ (run net const env st evs).ready = st.ready ∧ (run net const env st evs).dead = false ∧
    (run net const env st evs).reqs = st.reqs ∧ (run net const env st evs).effects = st.effects ++ evs.filterMap effectOf
  | [], st, _, _, hd => by simp [run, hd]
  | e :: evs, st, hu, hs, hd => by
    obtain ⟨a, rfl⟩ := hu e (by simp)
    have hu' : User evs := fun e he => hu e (by simp [he])
    cases a with
    | send k n => simp [sends, sendOf] at hs
    | effect n =>
      have hst : step net const env st (.act (.effect n)) = { st with effects := st.effects ++ [n] } := by simp [step, hd]
      have hrun : run net const env st (.act (.effect n) :: evs) = run net const env { st with effects := st.effects ++ [n] } evs := by
        rw [← hst]; rfl
      rw [hrun]
      obtain ⟨h1, h2, h3, h4, h5⟩ := arrivals_quiet net const env evs { st with effects := st.effects ++ [n] } hu' (by simpa [sends, sendOf] using hs) hd
      exact ⟨h1, h2, h3, h4, by rw [h5]; simp [effectOf]⟩

theorem user_flatMap {fs : List File} (h : ∀ f ∈ fs, User f.inits) : User (fs.flatMap File.inits) := by
  intro e he
  obtain ⟨f, hf, he⟩ := List.mem_flatMap.mp he
  exact h f hf e he

/-- Files other than the client's hold only the user's code. -/
theorem Startup.user {evs : List Ev} (S : Startup evs) : (∀ f ∈ S.before, User f.inits) ∧ ∀ f ∈ S.after, User f.inits := by
  have hp : (S.before ++ S.after).Perm S.files := by
    have h1 : (clientFile :: (S.before ++ S.after)).Perm (S.before ++ clientFile :: S.after) := List.perm_middle.symm
    exact (h1.trans S.perm).cons_inv
  exact ⟨fun f hf => S.userFiles f (hp.subset (by simp [hf])), fun f hf => S.userFiles f (hp.subset (by simp [hf]))⟩

/-- The run of a start without early messages. -/
theorem startup_run {evs : List Ev} (S : Startup evs) (net : Net) (const : Int) {env : Str} {p : Nat} (hp : choosePort const env = some (p : Int))
    (hearly : sends S.early = []) :
    (run net const env St.start evs).dead = false ∧ (run net const env St.start evs).effects = evs.filterMap effectOf ∧
    arrivals (run net const env St.start evs).reqs =
      (sends (S.after.flatMap File.inits ++ S.main)).map fun q => ⟨p, .kind q.1, q.1, q.2⟩ := by
  obtain ⟨hb, ha⟩ := S.user
  have hub := user_flatMap hb
  have hua := user_flatMap ha
  have hev : evs = S.early ++ (.client :: ((S.late ++ S.before.flatMap File.inits) ++ (.setup :: (S.after.flatMap File.inits ++ S.main)))) := by
    conv_lhs => rw [S.order]
    simp [clientFile, List.flatMap_append, List.flatMap_cons]
  obtain ⟨a1, a2, a3, a4, a5⟩ := arrivals_quiet net const env S.early St.start S.userEarly hearly rfl
  generalize hst1 : run net const env St.start S.early = st1 at a1 a2 a3 a4 a5
  have u1 : User (S.late ++ S.before.flatMap File.inits) := by
    intro e he
    rcases List.mem_append.mp he with he | he
    · exact S.userLate e he
    · exact hub e he
  have u2 : User (S.after.flatMap File.inits ++ S.main) := by
    intro e he
    rcases List.mem_append.mp he with he | he
    · exact hua e he
    · exact S.userMain e he
  obtain ⟨b1, b2, b3, b4, b5⟩ := run_user net const env _ { st1 with ready := true } u1 rfl a3
  generalize hst2 : run net const env { st1 with ready := true } (S.late ++ S.before.flatMap File.inits) = st2 at b1 b2 b3 b4 b5
  obtain ⟨c1, c2, c3, c4, c5⟩ := run_user net const env _ { st2 with port := some (p : Int) } u2 b2 b3
  have hrun : run net const env St.start evs = run net const env { st2 with port := some (p : Int) } (S.after.flatMap File.inits ++ S.main) := by
    conv_lhs => rw [hev]
    rw [run_append, hst1]
    have h1 : run net const env st1 (.client :: ((S.late ++ S.before.flatMap File.inits) ++ (.setup :: (S.after.flatMap File.inits ++ S.main)))) =
        run net const env { st1 with ready := true } ((S.late ++ S.before.flatMap File.inits) ++ (.setup :: (S.after.flatMap File.inits ++ S.main))) := by
      have : step net const env st1 .client = { st1 with ready := true } := by simp [step, a3]
      rw [← this]; rfl
    rw [h1, run_append, hst2]
    have : step net const env st2 .setup = { st2 with port := some (p : Int) } := by simp [step, b3, hp]
    rw [← this]; rfl
  rw [hrun]
  refine ⟨c3, ?_, ?_⟩
  · rw [c4]
    dsimp only
    rw [b4]
    dsimp only
    rw [a5]
    conv_rhs => rw [hev]
    simp [St.start, effectOf, List.filterMap_append, List.filterMap_cons]
  · rw [c5]
    dsimp only
    rw [b5, expected_some]
    dsimp only
    rw [a1, a4]
    simp [St.start, arrivals, expected_none]

/-! ### Requests and lines -/

theorem ok_iff (r : Resp) : Ok r ↔ bad r = false := by
  cases r with
  | err => simp [Ok, bad]
  | status c => simp [Ok, bad]

theorem reaches_neg (n : Nat) (t : Target) : reaches (urlOf (.negSucc n) t) = none := by
  have hu : urlOf (.negSucc n) t = ['h', 't', 't', 'p', ':', '/', '/', '1', '2', '7', '.', '0', '.', '0', '.', '1', ':'] ++
      ('-' :: ((digits10 (n + 1)).map digit ++ path t)) := by
    simp [urlOf, scheme, host, itoa]
  have hd : dial (urlOf (.negSucc n) t) = none := by
    unfold dial
    rw [hu, if_pos (List.prefix_append _ _)]
    have hdr : (['h', 't', 't', 'p', ':', '/', '/', '1', '2', '7', '.', '0', '.', '0', '.', '1', ':'] ++
      ('-' :: ((digits10 (n + 1)).map digit ++ path t))).drop 17 = '-' :: ((digits10 (n + 1)).map digit ++ path t) := rfl
    rw [hdr]
    dsimp only
    rw [if_neg]
    rintro ⟨-, h⟩
    rw [List.takeWhile_cons_of_pos (by decide), List.all_cons] at h
    have : decide ('0' ≤ '-' ∧ '-' ≤ '9') = false := by decide
    rw [this] at h
    cases h
  unfold reaches
  rw [hd]
  rfl

theorem reaches_endpoint (st : St) (k : Kind) : reaches (st.endpoint .error) = (reaches (st.endpoint (.kind k))).map fun q => (q.1, .error) := by
  unfold St.endpoint
  cases st.port with
  | none => rfl
  | some p => cases p with
    | ofNat n => exact (reaches_urlOf n .error).trans (by rw [show Int.ofNat n = (n : Int) from rfl, reaches_urlOf]; rfl)
    | negSucc n => simp only [reaches_neg]; rfl

theorem step_dead {net : Net} {const : Int} {env : Str} {st : St} (h : st.dead = true) (e : Ev) : step net const env st e = st := by
  rcases e with (_ | _) | _ | _ <;> simp [step, h]

theorem run_dead {net : Net} {const : Int} {env : Str} : ∀ (evs : List Ev) {st : St}, st.dead = true → run net const env st evs = st
  | [], _, _ => rfl
  | e :: evs, st, h => by
    have : run net const env st (e :: evs) = run net const env (step net const env st e) evs := rfl
    rw [this, step_dead h, run_dead evs h]

theorem exchange_run {net : Net} {const : Int} {env : Str} : ∀ (evs : List Ev) {st : St} {ss : List (Kind × Nat)}, Exchange net st.reqs st.lines ss →
    (run net const env st evs).dead = false →
    Exchange net (run net const env st evs).reqs (run net const env st evs).lines (ss ++ sends evs)
  | [], st, ss, h, _ => by simpa [run, sends] using h
  | e :: evs, st, ss, h, hd => by
    have hrun : run net const env st (e :: evs) = run net const env (step net const env st e) evs := rfl
    have hst : st.dead = false := by
      cases hdd : st.dead with
      | false => rfl
      | true => rw [run_dead _ hdd] at hd; rw [hdd] at hd; cases hd
    rw [hrun] at hd ⊢
    rcases e with (⟨k, n⟩ | n) | _ | _
    · have hs : step net const env st (.act (.send k n)) = postMessage net st k n := by simp [step, hst]
      have hse : ss ++ sends (.act (.send k n) :: evs) = (ss ++ [(k, n)]) ++ sends evs := by
        rw [List.append_assoc]; rfl
      rw [hs] at hd ⊢
      rw [hse]
      refine exchange_run evs ?_ hd
      cases hr : st.ready with
      | false =>
        exfalso
        have : postMessage net st k n = { st with dead := true } := by simp [postMessage, hr]
        rw [this, run_dead _ rfl] at hd
        cases hd
      | true =>
        obtain ⟨-, -, -, -, ⟨hb, h1, h2⟩ | ⟨hb, h1, h2⟩⟩ := postMessage_ready (net := net) hr k n
        · rw [h1, h2]
          exact .sent h ((ok_iff _).mpr hb)
        · rw [h1, h2]
          cases hb2 : bad (net (st.reqs ++ [⟨st.endpoint (.kind k), .msg k n⟩, ⟨st.endpoint .error, .fail n⟩])) with
          | false => exact .reported h (by rw [ok_iff, hb]; simp) ((ok_iff _).mpr hb2) (reaches_endpoint st k)
          | true => exact .printed h (by rw [ok_iff, hb]; simp) (by rw [ok_iff, hb2]; simp) (reaches_endpoint st k)
    · have hs : step net const env st (.act (.effect n)) = { st with effects := st.effects ++ [n] } := by simp [step, hst]
      rw [hs] at hd ⊢
      have := exchange_run (st := { st with effects := st.effects ++ [n] }) evs h hd
      simpa [sends, sendOf, List.filterMap_cons] using this
    · have hs : step net const env st .client = { st with ready := true } := by simp [step, hst]
      rw [hs] at hd ⊢
      have := exchange_run (st := { st with ready := true }) evs h hd
      simpa [sends, sendOf, List.filterMap_cons] using this
    · cases hp : choosePort const env with
      | none =>
        have hs : step net const env st .setup = { st with dead := true } := by simp [step, hst, hp]
        rw [hs, run_dead _ rfl] at hd
        cases hd
      | some p =>
        have hs : step net const env st .setup = { st with port := some p } := by simp [step, hst, hp]
        rw [hs] at hd ⊢
        have := exchange_run (st := { st with port := some p }) evs h hd
        simpa [sends, sendOf, List.filterMap_cons] using this

/-! ### The template -/

theorem setSlot_lt {vs : List (Option Expr)} {i : Nat} (h : i < vs.length) (v : Str) : setSlot vs i v = vs.set i (some (.lit v)) := by
  unfold setSlot
  rw [if_neg (by omega)]

/-- The value at the place of a name. -/
def newAt (vals : Str → Option Str) (x : Str) (v : Option Expr) : Option Expr := match vals x with
  | some l => some (.lit l)
  | none => v

theorem replaceNames_full (vals : Str → Option Str) : ∀ (xs : List Str) (pre vs : List (Option Expr)), vs.length = xs.length →
    replaceNames vals pre.length xs (pre ++ vs) = pre ++ List.zipWith (newAt vals) xs vs
  | [], pre, [], _ => by simp [replaceNames]
  | [], _, _ :: _, h => by simp at h
  | _ :: _, _, [], h => by simp at h
  | x :: xs, pre, v :: vs, h => by
    have hlen : vs.length = xs.length := by simpa using h
    have key : ∀ w, replaceNames vals (pre.length + 1) xs (pre ++ w :: vs) = pre ++ w :: List.zipWith (newAt vals) xs vs := by
      intro w
      have := replaceNames_full vals xs (pre ++ [w]) vs hlen
      simpa using this
    unfold replaceNames
    cases hx : vals x with
    | none =>
      dsimp only
      rw [key]
      simp [newAt, hx]
    | some l =>
      dsimp only
      rw [setSlot_lt (by simp), List.set_append_right _ _ (Nat.le_refl _)]
      simp only [Nat.sub_self, List.set_cons_zero]
      rw [key]
      simp [newAt, hx]

theorem replaceNames_none {vals : Str → Option Str} : ∀ {xs : List Str} (i : Nat) (vs : List (Option Expr)), (∀ x ∈ xs, vals x = none) →
    replaceNames vals i xs vs = vs
  | [], _, _, _ => rfl
  | x :: xs, i, vs, h => by
    unfold replaceNames
    rw [h x (by simp)]
    exact replaceNames_none _ _ fun y hy => h y (by simp [hy])

theorem replaceNames_length (vals : Str → Option Str) : ∀ (xs : List Str) (i : Nat) (vs : List (Option Expr)), i + xs.length ≤ vs.length →
    (replaceNames vals i xs vs).length = vs.length
  | [], _, _, _ => rfl
  | x :: xs, i, vs, h => by
    simp only [List.length_cons] at h
    unfold replaceNames
    split
    · rw [setSlot_lt (by omega), replaceNames_length vals xs _ _ (by rw [List.length_set]; omega), List.length_set]
    · exact replaceNames_length vals xs _ _ (by omega)

theorem any_none_zip (vals : Str → Option Str) : ∀ (xs : List Str) (vs : List (Option Expr)), vs.any Option.isNone = false →
    (List.zipWith (newAt vals) xs vs).any Option.isNone = false
  | [], _, _ => by simp
  | _ :: _, [], _ => by simp
  | x :: xs, v :: vs, h => by
    simp only [List.any_cons, Bool.or_eq_false_iff] at h
    simp only [List.zipWith_cons_cons, List.any_cons, Bool.or_eq_false_iff]
    refine ⟨?_, any_none_zip vals xs vs h.2⟩
    unfold newAt
    split
    · rfl
    · exact h.1

theorem filterMap_length : ∀ (vs : List (Option Expr)), vs.any Option.isNone = false → (vs.filterMap id).length = vs.length
  | [], _ => rfl
  | none :: _, h => by simp at h
  | some e :: vs, h => by
    simp only [List.any_cons, Bool.or_eq_false_iff] at h
    have : (some e :: vs).filterMap id = e :: vs.filterMap id := rfl
    rw [this, List.length_cons, List.length_cons, filterMap_length vs h.2]

theorem zip_new (vals : Str → Option Str) (i : Nat) : ∀ (xs : List Str) (vs : List (Option Expr)), vs.any Option.isNone = false →
    xs.zip (((List.zipWith (newAt vals) xs vs).filterMap id).map (Value.is · i)) =
    (xs.zip ((vs.filterMap id).map (Value.is · i))).map (configured vals)
  | [], _, _ => by simp
  | _ :: _, [], _ => by simp
  | x :: xs, none :: vs, h => by simp at h
  | x :: xs, some e :: vs, h => by
    simp only [List.any_cons, Bool.or_eq_false_iff] at h
    have ih := zip_new vals i xs vs h.2
    simp only [List.zipWith_cons_cons]
    cases hx : vals x with
    | none =>
      have : newAt vals x (some e) = some e := by simp [newAt, hx]
      rw [this]
      have hc : ∀ (a : Expr) l, (some a :: l).filterMap id = a :: l.filterMap id := fun _ _ => rfl
      simp only [hc, List.map_cons, List.zip_cons_cons, ih]
      simp [configured, hx]
    | some l =>
      have : newAt vals x (some e) = some (.lit l) := by simp [newAt, hx]
      rw [this]
      have hc : ∀ (a : Expr) l, (some a :: l).filterMap id = a :: l.filterMap id := fun _ _ => rfl
      simp only [hc, List.map_cons, List.zip_cons_cons, ih]
      simp [configured, hx]

theorem specValues_full {tok : Tok} {i : Nat} {prev : List Expr} {xs : List Str} {vs : List (Option Expr)} {q : List Value × List Expr}
    (hl : vs.length = xs.length) (h : specValues tok i prev xs vs = some q) :
    vs.any Option.isNone = false ∧ q = ((vs.filterMap id).map (Value.is · i), vs.filterMap id) := by
  unfold specValues at h
  split at h
  · cases h
  · rename_i hn
    have hn : vs.any Option.isNone = false := Bool.eq_false_iff.mpr hn
    dsimp only at h
    rw [if_pos (by rw [filterMap_length _ hn, hl])] at h
    simp only [Option.some.injEq] at h
    exact ⟨hn, h.symm⟩

theorem specValues_of {tok : Tok} {i : Nat} {prev : List Expr} {xs : List Str} {vs : List (Option Expr)} (hl : vs.length = xs.length)
    (hn : vs.any Option.isNone = false) : specValues tok i prev xs vs = some ((vs.filterMap id).map (Value.is · i), vs.filterMap id) := by
  unfold specValues
  rw [if_neg (by rw [hn]; simp)]
  dsimp only
  rw [if_pos (by rw [filterMap_length _ hn, hl])]

theorem group_full (vals : Str → Option Str) (tok : Tok) : ∀ (ss : List VSpec) (i : Nat) (prev prev' : List Expr) (q : List (Str × Value)),
    (∀ s ∈ ss, s.values.length = s.names.length) → groupValues tok i prev ss = some q →
    groupValues tok i prev' (ss.map (replaceSpec vals)) = some (q.map (configured vals))
  | [], _, _, _, q, _, h => by
    simp only [groupValues, Option.some.injEq] at h
    subst h
    rfl
  | s :: ss, i, prev, prev', q, hl, h => by
    simp only [groupValues] at h
    obtain ⟨q1, h1, h2⟩ := Option.bind_eq_some_iff.mp h
    obtain ⟨q2, h3, rfl⟩ := Option.map_eq_some_iff.mp h2
    obtain ⟨hn, rfl⟩ := specValues_full (hl s (by simp)) h1
    have hr : replaceSpec vals s = ⟨s.names, List.zipWith (newAt vals) s.names s.values⟩ := by
      unfold replaceSpec
      have := replaceNames_full vals s.names [] s.values (hl s (by simp))
      simp only [List.length_nil, List.nil_append] at this
      rw [this]
    have hl2 : (List.zipWith (newAt vals) s.names s.values).length = s.names.length := by
      rw [List.length_zipWith, hl s (by simp), Nat.min_self]
    simp only [List.map_cons, groupValues]
    rw [hr]
    dsimp only
    rw [specValues_of hl2 (any_none_zip vals _ _ hn), Option.bind_some]
    dsimp only
    rw [group_full vals tok ss (i + 1) _ _ q2 (fun s hs => hl s (by simp [hs])) h3]
    simp only [Option.map_some, List.map_append]
    rw [zip_new vals i _ _ hn]

theorem group_none {vals : Str → Option Str} {ss : List VSpec} (h : ∀ s ∈ ss, ∀ x ∈ s.names, vals x = none) : ss.map (replaceSpec vals) = ss := by
  conv_rhs => rw [← List.map_id ss]
  refine List.map_congr_left fun s hs => ?_
  unfold replaceSpec
  rw [replaceNames_none _ _ (h s hs)]
  rfl

theorem mem_names {tok : Tok} : ∀ {ss : List VSpec} {i : Nat} {prev : List Expr} {q : List (Str × Value)}, groupValues tok i prev ss = some q →
    ∀ p ∈ q, ∃ s ∈ ss, p.1 ∈ s.names
  | [], _, _, q, h, p, hp => by
    simp only [groupValues, Option.some.injEq] at h
    subst h
    cases hp
  | s :: ss, i, prev, q, h, p, hp => by
    simp only [groupValues] at h
    obtain ⟨q1, h1, h2⟩ := Option.bind_eq_some_iff.mp h
    obtain ⟨q2, h3, rfl⟩ := Option.map_eq_some_iff.mp h2
    rcases List.mem_append.mp hp with hp | hp
    · exact ⟨s, by simp, (List.of_mem_zip (a := p.1) (b := p.2) hp).1⟩
    · obtain ⟨s', hs, hx⟩ := mem_names h3 p hp
      exact ⟨s', by simp [hs], hx⟩

theorem configured_none {vals : Str → Option Str} {q : List (Str × Value)} (h : ∀ p ∈ q, vals p.1 = none) : q.map (configured vals) = q := by
  conv_rhs => rw [← List.map_id q]
  refine List.map_congr_left fun p hp => ?_
  simp [configured, h p hp]

theorem gen_values {vals : Str → Option Str} {tok : Tok} {ss : List VSpec} {q : List (Str × Value)}
    (hf : (∀ s ∈ ss, ∀ x ∈ s.names, vals x = none) ∨ ∀ s ∈ ss, s.values.length = s.names.length) (h : groupValues tok 0 [] ss = some q) :
    groupValues tok 0 [] (ss.map (replaceSpec vals)) = some (q.map (configured vals)) := by
  rcases hf with hf | hf
  · rw [group_none hf, h, configured_none]
    intro p hp
    obtain ⟨s, hs, hx⟩ := mem_names h p hp
    exact hf s hs _ hx
  · exact group_full vals tok ss 0 [] [] q hf h

theorem update_values (vals : Str → Option Str) : ∀ (ds : List Decl) (q : List (Str × Value)), Fits vals ds → fileValues ds = some q →
    fileValues (updateConsts vals ds) = some (q.map (configured vals))
  | [], q, _, h => by
    simp only [fileValues, Option.some.injEq] at h
    subst h; rfl
  | .other n :: ds, q, hf, h => by
    simp only [fileValues, updateConsts] at h ⊢
    exact update_values vals ds q hf h
  | .gen .type_ ss :: ds, q, hf, h => by
    simp only [fileValues, updateConsts] at h ⊢
    exact update_values vals ds q hf h
  | .gen .const ss :: ds, q, hf, h => by
    simp only [fileValues, updateConsts] at h ⊢
    obtain ⟨q1, h1, h2⟩ := Option.bind_eq_some_iff.mp h
    obtain ⟨q2, h3, rfl⟩ := Option.map_eq_some_iff.mp h2
    rw [gen_values hf.1 h1, Option.bind_some, update_values vals ds q2 hf.2 h3]
    simp
  | .gen .var ss :: ds, q, hf, h => by
    simp only [fileValues, updateConsts] at h ⊢
    obtain ⟨q1, h1, h2⟩ := Option.bind_eq_some_iff.mp h
    obtain ⟨q2, h3, rfl⟩ := Option.map_eq_some_iff.mp h2
    rw [gen_values hf.1 h1, Option.bind_some, update_values vals ds q2 hf.2 h3]
    simp

theorem update_skeleton (vals : Str → Option Str) : ∀ ds, skeleton (updateConsts vals ds) = skeleton ds
  | [] => rfl
  | .other n :: ds => by simp only [updateConsts, skeleton, update_skeleton vals ds]
  | .gen .type_ ss :: ds => by simp only [updateConsts, skeleton, update_skeleton vals ds]
  | .gen .const ss :: ds => by simp [updateConsts, skeleton, update_skeleton vals ds, replaceSpec, Function.comp_def]
  | .gen .var ss :: ds => by simp [updateConsts, skeleton, update_skeleton vals ds, replaceSpec, Function.comp_def]

end Verif.Client
