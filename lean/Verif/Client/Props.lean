import Verif.Client.Lemmas

/-! C119–C121: messages reach the server of the run; failures to send; the configured client. -/

namespace Verif.Client

/-! ### C119 -/

/-- Of a package in which no variable is given its value by code that sends messages before the client has its own, exactly the messages sent by `init`
functions of later files and by the program itself reach a server: that of the run, at the handler for their kind, once and in order. -/
theorem C119_exactly {evs : List Ev} (S : Startup evs) (net : Net) (const : Int) (p : Nat) (hp : p < 2 ^ 63) (hearly : sends S.early = []) :
    arrivals (run net const (envValue p) St.start evs).reqs =
      (sends (S.after.flatMap File.inits ++ S.main)).map fun q => ⟨p, .kind q.1, q.1, q.2⟩ :=
  (startup_run S net const (choosePort_env const hp) hearly).2.2

/-- All messages reach the server if none is sent while variables get their values and by `init` functions of files whose names come before that of the
client. -/
theorem C119_delivered_partial {evs : List Ev} (S : Startup evs) (net : Net) (const : Int) (p : Nat) (hp : p < 2 ^ 63) (hearly : sends S.early = [])
    (hlate : sends S.late = []) (hbefore : ∀ f ∈ S.files, nameLt f.name clientName → sends f.inits = []) :
    arrivals (run net const (envValue p) St.start evs).reqs = (sends evs).map fun q => ⟨p, .kind q.1, q.1, q.2⟩ := by
  rw [C119_exactly S net const p hp hearly]
  congr 1
  have hb : sends (S.before.flatMap File.inits) = [] := by
    have hlt : ∀ f ∈ S.before, nameLt f.name clientName := by
      intro f hf
      exact (List.pairwise_append.mp S.sorted).2.2 f hf clientFile (by simp)
    have hmem : ∀ f ∈ S.before, f ∈ S.files := by
      intro f hf
      have hp : (S.before ++ S.after).Perm S.files := by
        have h1 : (clientFile :: (S.before ++ S.after)).Perm (S.before ++ clientFile :: S.after) := List.perm_middle.symm
        exact (h1.trans S.perm).cons_inv
      exact hp.subset (by simp [hf])
    unfold sends
    rw [List.filterMap_eq_nil_iff]
    intro e he
    obtain ⟨f, hf, he⟩ := List.mem_flatMap.mp he
    exact List.filterMap_eq_nil_iff.mp (hbefore f (hmem f hf) (hlt f hf)) e he
  conv_rhs => rw [S.order]
  have hc : ∀ l : List Ev, sends (.client :: l) = sends l := fun _ => rfl
  have hs : ∀ l : List Ev, sends (.setup :: l) = sends l := fun _ => rfl
  simp only [List.flatMap_append, List.flatMap_cons, clientFile, sends_append, hearly, hb, List.nil_append, List.append_assoc,
    List.cons_append, hc, hs, hlate]

/-- The package with one file that has an `init` function sending messages. -/
def sample (name : Str) : List Ev := [.client] ++ ([⟨name, [.act (.send .point 1)]⟩, clientFile].flatMap File.inits) ++ [.act (.send .state 2), .act (.effect 7)]

/-- `init` of `a.go` sends the first message before the client knows its server. -/
theorem C119_init_violated : ∃ (evs : List Ev) (S : Startup evs), sends S.early = [] ∧
    sends evs = [(.point, 1), (.state, 2)] ∧ ∀ (net : Net) (const : Int) (p : Nat), p < 2 ^ 63 →
      arrivals (run net const (envValue p) St.start evs).reqs = [⟨p, .kind .state, .state, 2⟩] := by
  let S : Startup (sample ['a', '.', 'g', 'o']) := by
   refine ⟨[], [], [⟨['a', '.', 'g', 'o'], [.act (.send .point 1)]⟩], [.act (.send .state 2), .act (.effect 7)],
    [⟨['a', '.', 'g', 'o'], [.act (.send .point 1)]⟩], [], ?_, ?_, ?_, ?_, ?_, ?_, rfl⟩
   · intro e he; cases he
   · intro e he; cases he
   · intro e he
     simp at he
     rcases he with rfl | rfl <;> exact ⟨_, rfl⟩
   · intro f hf e he
     simp at hf
     subst hf
     simp at he
     subst he
     exact ⟨_, rfl⟩
   · exact List.Perm.swap _ _ _
   · simp only [List.singleton_append, List.pairwise_cons, List.mem_singleton, forall_eq, List.not_mem_nil, false_imp_iff, implies_true, List.Pairwise.nil, and_true]
     unfold nameLt
     decide
  refine ⟨_, S, rfl, rfl, ?_⟩
  intro net const p hp
  rw [C119_exactly S net const p hp rfl]
  rfl

/-- Messages sent while the program runs reach the server: the hypotheses of C119 hold for a package with a file `a.go` without such `init` function. -/
def quiet : List Ev := [.client] ++ ([⟨['a', '.', 'g', 'o'], [.act (.effect 1)]⟩, clientFile].flatMap File.inits) ++ [.act (.send .state 2), .act (.send .panic 3)]

example : ∃ S : Startup quiet,
    sends S.early = [] ∧ sends S.late = [] ∧ (∀ f ∈ S.files, nameLt f.name clientName → sends f.inits = []) ∧
    ∀ net, arrivals (run net 0 (envValue 44440) St.start quiet).reqs = [⟨44440, .kind .state, .state, 2⟩, ⟨44440, .kind .panic, .panic, 3⟩] := by
  let S : Startup quiet := by
    refine ⟨[], [], [⟨['a', '.', 'g', 'o'], [.act (.effect 1)]⟩], [.act (.send .state 2), .act (.send .panic 3)], [⟨['a', '.', 'g', 'o'], [.act (.effect 1)]⟩], [],
      ?_, ?_, ?_, ?_, List.Perm.swap _ _ _, ?_, rfl⟩
    · intro e he; cases he
    · intro e he; cases he
    · intro e he
      simp at he
      rcases he with rfl | rfl <;> exact ⟨_, rfl⟩
    · intro f hf e he
      simp at hf
      subst hf
      simp at he
      subst he
      exact ⟨_, rfl⟩
    · simp only [List.singleton_append, List.pairwise_cons, List.mem_singleton, forall_eq, List.not_mem_nil, false_imp_iff, implies_true, List.Pairwise.nil, and_true]
      unfold nameLt
      decide
  have hb : ∀ f ∈ S.files, nameLt f.name clientName → sends f.inits = [] := by
    intro f hf _
    have : f ∈ [(⟨['a', '.', 'g', 'o'], [.act (.effect 1)]⟩ : File)] := hf
    simp at this
    subst this
    rfl
  exact ⟨S, rfl, rfl, hb, fun net => C119_delivered_partial S net 0 44440 (by decide) rfl rfl hb⟩

/-! ### C120 -/

/-- However the network answers, a message costs one request and, exactly if that fails, one more that reports the failure to the same server; a failure of the
report is printed and not reported again. -/
theorem C120_once (evs : List Ev) (net : Net) (const : Int) (env : Str) (h : (run net const env St.start evs).dead = false) :
    Exchange net (run net const env St.start evs).reqs (run net const env St.start evs).lines (sends evs) := by
  have := exchange_run (net := net) (const := const) (env := env) evs (st := St.start) (ss := []) .none h
  simpa using this

/-- At most two requests for each message and at most one line. -/
theorem C120_bounded (evs : List Ev) (net : Net) (const : Int) (env : Str) (h : (run net const env St.start evs).dead = false) :
    (run net const env St.start evs).reqs.length ≤ 2 * (sends evs).length ∧ (run net const env St.start evs).lines ≤ (sends evs).length := by
  have key : ∀ {reqs l ss}, Exchange net reqs l ss → reqs.length ≤ 2 * ss.length ∧ l ≤ ss.length := by
    intro reqs l ss h
    induction h with
    | none => simp
    | sent _ _ ih => simp only [List.length_append, List.length_singleton]; omega
    | reported _ _ _ _ ih => simp only [List.length_append, List.length_cons, List.length_nil]; omega
    | printed _ _ _ _ ih => simp only [List.length_append, List.length_cons, List.length_nil]; omega
  exact key (C120_once evs net const env h)

/-- Sending messages does not stop the program, however the network answers, if none is sent before the client's variables have their values. -/
theorem C120_continues_partial {evs : List Ev} (S : Startup evs) (net : Net) (const : Int) (p : Nat) (hp : p < 2 ^ 63) (hearly : sends S.early = []) :
    (run net const (envValue p) St.start evs).dead = false ∧ (run net const (envValue p) St.start evs).effects = evs.filterMap effectOf :=
  let h := startup_run S net const (choosePort_env const hp) hearly
  ⟨h.1, h.2.1⟩

/-- A variable of the package gets its value from a method called through an interface. Go does not see that the method, having been instrumented, uses the
client, and may call it before the client's variables have their values: `Post` on a nil client ends the program. -/
theorem C120_nil_violated : ∃ (evs : List Ev) (_ : Startup evs), evs.filterMap effectOf = [7] ∧
    ∀ (net : Net) (const : Int) (env : Str), (run net const env St.start evs).dead = true ∧ (run net const env St.start evs).effects = [] := by
  refine ⟨[.act (.send .point 1), .client, .setup, .act (.effect 7)], ⟨[.act (.send .point 1)], [], [], [.act (.effect 7)], [], [], ?_, ?_, ?_, ?_, ?_, ?_, rfl⟩, rfl, ?_⟩
  · intro e he
    simp at he
    exact ⟨_, he⟩
  · intro e he; cases he
  · intro e he
    simp at he
    exact ⟨_, he⟩
  · intro f hf; cases hf
  · exact List.Perm.refl _
  · simp
  · intro net const env
    exact ⟨rfl, rfl⟩

/-- A server that answers 400 to the first message and does not answer the report. -/
def refuse : Net := fun reqs => match reqs with
  | [_] => .status 400
  | [_, _] => .err
  | _ => .status 200

example : let st := run refuse 0 (envValue 5) St.start [.client, .setup, .act (.send .state 1), .act (.send .point 2), .act (.effect 3)]
    st.reqs.map (·.body) = [.msg .state 1, .fail 1, .msg .point 2] ∧ st.lines = 1 ∧ st.effects = [3] ∧ st.dead = false := by decide +kernel

/-! ### C121 -/

/-- The client written into a package has the package's name, the configured value for every configured name, all other values as in the template, and the same
declarations otherwise. -/
theorem C121_configured_partial (src : Source) (pkg : Str) (vals : Str → Option Str) (q : List (Str × Value)) (hf : Fits vals src.decls)
    (hq : fileValues src.decls = some q) :
    (rewrite src pkg vals).pkg = pkg ∧ fileValues (rewrite src pkg vals).decls = some (q.map (configured vals)) ∧
    skeleton (rewrite src pkg vals).decls = skeleton src.decls :=
  ⟨rfl, update_values vals src.decls q hf hq, update_skeleton vals src.decls⟩

/-- Every configured name that is declared with a value has the configured one. -/
theorem C121_value_partial (src : Source) (pkg : Str) (vals : Str → Option Str) (q : List (Str × Value)) (hf : Fits vals src.decls)
    (hq : fileValues src.decls = some q) (x : Str) (e : Expr) (i : Nat) (hx : (x, .is e i) ∈ q) (v : Str) (hv : vals x = some v) :
    ∃ q', fileValues (rewrite src pkg vals).decls = some q' ∧ (x, .is (.lit v) i) ∈ q' := by
  refine ⟨_, (C121_configured_partial src pkg vals q hf hq).2.1, ?_⟩
  refine List.mem_map.mpr ⟨(x, .is e i), hx, ?_⟩
  simp [configured, hv]

/-- The constants of the template, astclient.go:22–28, and one of its variables. -/
def template : Source := ⟨['l', 'e', 'n', 's'], [.gen .const [⟨[['h']], [some (.orig 0)]⟩, ⟨[['p']], [some (.orig 1)]⟩, ⟨[['r']], [some (.orig 2)]⟩, ⟨[['l']], [some (.orig 3)]⟩],
  .gen .var [⟨[['s']], [some (.orig 4)]⟩, ⟨[['e']], []⟩], .other 5]⟩

def settings : Str → Option Str
  | ['p'] => some ['0']
  | ['r'] => some ['2', '0']
  | ['l'] => some ['9', '9']
  | _ => none

example : Fits settings template.decls := by
  refine ⟨Or.inr ?_, Or.inl ?_, trivial⟩
  · simp
  · simp [settings]

example : fileValues (rewrite template ['m'] settings).decls = some [(['h'], .is (.orig 0) 0), (['p'], .is (.lit ['0']) 1), (['r'], .is (.lit ['2', '0']) 2),
    (['l'], .is (.lit ['9', '9']) 3), (['s'], .is (.orig 4) 0), (['e'], .zero)] := by decide

/-- `const ( p = 1; q )` repeats the value put in for `p`. -/
theorem C121_repeat_violated : ∃ (src : Source) (vals : Str → Option Str) (x : Str) (v w : Value), vals x = none ∧
    (∃ q, fileValues src.decls = some q ∧ (x, v) ∈ q) ∧ (∃ q, fileValues (rewrite src ['m'] vals).decls = some q ∧ (x, w) ∈ q ∧ (x, v) ∉ q) := by
  refine ⟨⟨['l'], [.gen .const [⟨[['p']], [some (.orig 1)]⟩, ⟨[['q']], []⟩]]⟩, settings, ['q'], .is (.orig 1) 1, .is (.lit ['0']) 1, rfl, ⟨_, rfl, by decide⟩, ⟨_, rfl, by decide⟩⟩

/-- `var s, p int` gets a nil entry for `s`, which cannot be printed. -/
theorem C121_gap_violated : ∃ (src : Source) (vals : Str → Option Str), (fileValues src.decls).isSome = true ∧
    fileValues (rewrite src ['m'] vals).decls = none :=
  ⟨⟨['l'], [.gen .var [⟨[['s'], ['p']], []⟩]]⟩, settings, by decide, by decide⟩

end Verif.Client
