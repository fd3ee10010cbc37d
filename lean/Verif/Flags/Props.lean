import Verif.Flags.Lemmas

/-!
# Properties of the command line (C127–C130)
-/

namespace Verif.Flags

/-- A library for the examples: integers are not read, and the directory is joined. -/
def sampleLib : Lib where
  parseInt s := if s = ['7'] then some 7 else none
  itoa i := if i = 7 then ['7'] else ['0']
  join s := s ++ ['/', 'p', 'k', 'g', '/', 'm', 'o', 'd']

def sampleEnv : Env := ⟨['/', 'g'], []⟩

/-! ## C127: no argument is ignored -/

/-- The flags there are without those of the caller: their names, and whether they take a text, a number or nothing. -/
theorem C127_names : (flagsOf []).map (fun d => (d.1.name, d.1.kind)) =
    ["project", "module", "modules", "gomod", "gowork"].map (fun n => (n.toList, Kind.text)) ++ [("monitorport".toList, .int)] ++
    ["json", "charts"].map (fun n => (n.toList, Kind.text)) ++ ["fieldrecurse", "fieldlen", "cachemb"].map (fun n => (n.toList, Kind.int)) ++
    ["mutationscope", "mutationset", "mutationtests"].map (fun n => (n.toList, Kind.text)) ++
    [("tmpcopy".toList, .bool), ("timemultiplier".toList, .int), ("h".toList, .bool), ("help".toList, .bool)] := by decide +kernel

/-- **C127** (partial). If a configuration is returned, then the command line is a list of settings, each written in one of the allowed forms with a value of the kind of the
flag, and every field of the configuration is the last value given for its flag, or the default of the flag; after the settings there is nothing, or an argument that
is not a flag, or "--". Missing: what follows such an argument is not read, see `C127_violated`. -/
theorem C127_settings_partial (L : Lib) (env : Env) (custom : List Custom) (args : List Str) (c : Config) (h : parseFlags L env custom args = .ok c) :
    ∃ cs ss vs tail, customDecls custom = some cs ∧ args = ss.flatMap render ++ tail ∧ Meaning L (flagsOf cs) ss vs ∧ Agrees (flagsOf cs) vs c ∧
      (tail = [] ∨ ∃ s r, tail = s :: r ∧ (Plain s ∨ s = ['-', '-'])) := by
  unfold parseFlags at h
  split at h
  · cases h
  rename_i cs hc
  split at h
  · cases h
  rename_i ds hd
  split at h
  · cases h
  rename_i set left hp
  dsimp only at h
  split at h
  · cases h
  split at h
  · cases h
  split at h
  · cases h
  rename_i e _
  simp only [Outcome.ok.injEq] at h
  subst h
  obtain ⟨ss, vs, tail, h1, h2, h3, h4⟩ := parse_ok (fs := flagsOf cs) hd args [] set left hp
  refine ⟨cs, ss, vs, tail, hc, h1, h2, ?_, h4⟩
  rw [List.append_nil] at h3
  subst h3
  exact config_agrees hc hd h2 e

/-- What `parseFlags` does with a list of settings. -/
theorem parseFlags_settings {L : Lib} {env : Env} {custom : List Custom} {cs : List (Decl × Val)} {ds : List Decl} (hc : customDecls custom = some cs)
    (hd : defineAll [] (flagsOf cs) = some ds) {ss : List Setting} {vs : List (Str × Val)} (hm : Meaning L (flagsOf cs) ss vs) :
    parseFlags L env custom (ss.flatMap render) =
      (let vals := vs.reverse ++ (flagsOf cs).map fun d => (d.1.name, d.2)
       if boolOf vals nH || boolOf vals nHelp then .exit 0
       else if refused vals then .error
       else match setupEnvironment L env with
         | none => .error
         | some e => .ok (config L vals cs e)) := by
  have h := parse_settings (L := L) hd hm [] []
  rw [List.append_nil, List.append_nil, parse] at h
  unfold parseFlags
  rw [hc]
  dsimp only
  rw [show standard ++ cs ++ help = flagsOf cs from rfl, hd]
  dsimp only
  rw [h]
  try rfl

/-- **C127** (partial). A command line that is a list of settings of existing flags is accepted by the parser: the program does not end with the exit code of a wrong usage,
and if there is a configuration then it agrees with these settings. The custom flags only have to be such that the program does not panic on an empty command line. -/
theorem C127_accepted_partial (L : Lib) (env : Env) (custom : List Custom) (cs : List (Decl × Val)) (ss : List Setting) (vs : List (Str × Val))
    (hc : customDecls custom = some cs) (hp : parseFlags L env custom [] ≠ .panic) (hm : Meaning L (flagsOf cs) ss vs) :
    parseFlags L env custom (ss.flatMap render) ≠ .panic ∧ parseFlags L env custom (ss.flatMap render) ≠ .exit 2 ∧
      ∀ c, parseFlags L env custom (ss.flatMap render) = .ok c → Agrees (flagsOf cs) vs c := by
  cases hd : defineAll [] (flagsOf cs) with
  | none =>
    exfalso
    apply hp
    unfold parseFlags
    rw [hc]
    dsimp only
    rw [show standard ++ cs ++ help = flagsOf cs from rfl, hd]
  | some ds =>
    rw [parseFlags_settings hc hd hm]
    dsimp only
    split
    · simp
    split
    · simp
    split
    · simp
    · refine ⟨by simp, by simp, ?_⟩
      intro c e
      simp only [Outcome.ok.injEq] at e
      subst e
      exact config_agrees hc hd hm _

theorem final_default {cs : List (Decl × Val)} {ds : List Decl} (hd : defineAll [] (flagsOf cs) = some ds) {L : Lib} {ss : List Setting} {vs : List (Str × Val)}
    (hm : Meaning L (flagsOf cs) ss vs) {name : Str} {v d : Val} {k : Kind} (hf : Final (flagsOf cs) vs name v) (hs : ∀ s ∈ ss, s.name ≠ name)
    (hk : (⟨name, k⟩, d) ∈ standard) : v = d := by
  have hn : ∀ p ∈ vs, p.1 ≠ name := by
    clear hf
    unfold Meaning at hm
    generalize flagsOf cs = fs at hm
    induction hm with
    | nil => simp
    | cons h hl ih =>
      intro p hp
      rcases List.mem_cons.mp hp with rfl | hp
      · rw [h.1]; exact hs _ (by simp)
      · exact ih (fun s h => hs s (by simp [h])) p hp
  have h1 := final_unique hd hf
  have h2 := final_unique hd (v := d) (name := name) (vs := vs) (.inr ⟨hn, _, standard_mem hk, rfl, rfl⟩)
  rw [h1] at h2
  exact Option.some.inj h2

/-- **C127**. In the configuration for a list of settings, every flag that is not among them has the default that is documented for it. -/
theorem C127_defaults (L : Lib) (env : Env) (custom : List Custom) (cs : List (Decl × Val)) (ss : List Setting) (vs : List (Str × Val)) (c : Config)
    (hc : customDecls custom = some cs) (hm : Meaning L (flagsOf cs) ss vs) (h : parseFlags L env custom (ss.flatMap render) = .ok c) : Documented ss c := by
  cases hd : defineAll [] (flagsOf cs) with
  | none =>
    exfalso
    unfold parseFlags at h
    rw [hc] at h
    dsimp only at h
    rw [show standard ++ cs ++ help = flagsOf cs from rfl, hd] at h
    cases h
  | some ds =>
    have hp : parseFlags L env custom [] ≠ .panic := by
      have := parseFlags_settings (env := env) hc hd (ss := []) (vs := []) (L := L) .nil
      rw [List.flatMap_nil] at this
      rw [this]
      dsimp only
      split
      · simp
      split
      · simp
      split <;> simp
    have ha := (C127_accepted_partial L env custom cs ss vs hc hp hm).2.2 c h
    refine ⟨fun e => ?_, fun e => ?_, fun e => ?_, fun e => ?_, fun e => ?_, fun e => ?_, fun e => ?_, fun e => ?_, fun e => ?_, fun e => ?_, fun e => ?_,
      fun e => ?_, fun e => ?_, fun e => ?_, fun e => ?_⟩
    · exact Val.text.inj (final_default hd hm ha.module_ e (k := .text) (d := .text []) (by decide +kernel))
    · exact Val.text.inj (final_default hd hm ha.modules e (k := .text) (d := .text []) (by decide +kernel))
    · exact Val.text.inj (final_default hd hm ha.gomod e (k := .text) (d := .text []) (by decide +kernel))
    · exact Val.text.inj (final_default hd hm ha.gowork e (k := .text) (d := .text []) (by decide +kernel))
    · exact Val.text.inj (final_default hd hm ha.json e (k := .text) (d := .text "modreport.json".toList) (by decide +kernel))
    · exact Val.text.inj (final_default hd hm ha.charts e (k := .text) (d := .text "modreport.png".toList) (by decide +kernel))
    · exact Val.int.inj (final_default hd hm ha.port e (k := .int) (d := .int 44440) (by decide +kernel))
    · exact Val.int.inj (final_default hd hm ha.recurse e (k := .int) (d := .int 20) (by decide +kernel))
    · exact Val.int.inj (final_default hd hm ha.len e (k := .int) (d := .int 1024) (by decide +kernel))
    · exact Val.int.inj (final_default hd hm ha.cache e (k := .int) (d := .int 200) (by decide +kernel))
    · exact Val.text.inj (final_default hd hm ha.scope e (k := .text) (d := .text "line".toList) (by decide +kernel))
    · exact Val.text.inj (final_default hd hm ha.mode e (k := .text) (d := .text "fast".toList) (by decide +kernel))
    · exact Val.text.inj (final_default hd hm ha.tests e (k := .text) (d := .text "targeted".toList) (by decide +kernel))
    · exact Val.bool.inj (final_default hd hm ha.tmpcopy e (k := .bool) (d := .bool true) (by decide +kernel))
    · exact Val.int.inj (final_default hd hm ha.multiplier e (k := .int) (d := .int 2) (by decide +kernel))

/-- Two settings, one of them twice. -/
example : ∃ c, parseFlags sampleLib sampleEnv [] [['-'] ++ nProject, ['p'], ['-', '-'] ++ nModule ++ ['=', 'm'], ['-'] ++ nPort, ['7'], ['-'] ++ nModule, ['k']] = .ok c ∧
    c.projectDir = ['p'] ∧ c.moduleVersion = ['k'] ∧ c.port = 7 ∧ c.tmpCopy = true := ⟨_, rfl, by decide +kernel⟩

example : Meaning sampleLib (flagsOf []) [⟨nProject, ['p'], .apart, false⟩, ⟨nTmpcopy, ['f'], .joined, true⟩] [(nProject, .text ['p']), (nTmpcopy, .bool false)] :=
  .cons ⟨rfl, ⟨by decide, by decide, by decide⟩, (⟨nProject, .text⟩, .text []), by decide, rfl, rfl⟩
    (.cons ⟨rfl, ⟨by decide, by decide, by decide⟩, (⟨nTmpcopy, .bool⟩, .bool true), by decide, rfl, false, (parseBool_iff _ _).mp (by decide), rfl⟩ .nil)

/-- **C127** is violated: with `-project p -module m -tmpcopy false -mutationscope none` a configuration is returned, but it says that the copy is made and that lines are
mutated: "false" is an argument that is not a flag, and nothing behind it is read or reported. -/
theorem C127_violated : ¬ ∀ (L : Lib) (env : Env) (custom : List Custom) (args : List Str) (c : Config), parseFlags L env custom args = .ok c →
    ∃ cs ss vs, customDecls custom = some cs ∧ args = ss.flatMap render ∧ Meaning L (flagsOf cs) ss vs ∧ Agrees (flagsOf cs) vs c := by
  intro h
  obtain ⟨cs, ss, vs, h1, h2, h3, h4⟩ := h sampleLib sampleEnv []
    [['-'] ++ nProject, ['p'], ['-'] ++ nModule, ['m'], ['-'] ++ nTmpcopy, ['f', 'a', 'l', 's', 'e'], ['-'] ++ nScope, ['n', 'o', 'n', 'e']] _ rfl
  have hd : ∃ ds, defineAll [] (flagsOf []) = some ds := ⟨_, rfl⟩
  obtain ⟨ds, hd⟩ := hd
  simp only [customDecls, Option.some.injEq] at h1
  subst h1
  have hp := parse_settings (L := sampleLib) hd h3 [] []
  rw [List.append_nil, ← h2, List.append_nil, parse] at hp
  have hd' : defineAll [] (flagsOf []) = some ((flagsOf []).map (·.1)) := by decide +kernel
  rw [hd', Option.some.injEq] at hd
  subst hd
  have hq : (parse sampleLib ((flagsOf []).map (·.1))
      [['-'] ++ nProject, ['p'], ['-'] ++ nModule, ['m'], ['-'] ++ nTmpcopy, ['f', 'a', 'l', 's', 'e'], ['-'] ++ nScope, ['n', 'o', 'n', 'e']] []).map (·.2) =
      some [['f', 'a', 'l', 's', 'e'], ['-'] ++ nScope, ['n', 'o', 'n', 'e']] := by decide +kernel
  rw [hp] at hq
  simp at hq

/-- The configuration of that command line. -/
theorem C127_switch_violated : ∃ c, parseFlags sampleLib sampleEnv []
    [['-'] ++ nProject, ['p'], ['-'] ++ nModule, ['m'], ['-'] ++ nTmpcopy, ['f', 'a', 'l', 's', 'e'], ['-'] ++ nScope, ['n', 'o', 'n', 'e']] = .ok c ∧
    c.tmpCopy = true ∧ c.scope = ['l', 'i', 'n', 'e'] := ⟨_, rfl, by decide +kernel⟩

/-! ## C128: the module cache is that of the go command -/

/-- **C128** (partial). The module cache of the configuration is GOMODCACHE if this is set, and otherwise "pkg/mod" in GOPATH, provided GOPATH names one directory; GOPATH is
kept. Missing: a GOPATH of several directories, see `C128_violated`. -/
theorem C128_cache_partial (L : Lib) (env : Env) (custom : List Custom) (args : List Str) (c : Config) (h : parseFlags L env custom args = .ok c) (hg : ':' ∉ env.gopath) :
    c.gomodcache = goModCache L env ∧ c.gopath = env.gopath ∧ (env.gopath ≠ [] ∨ env.gomodcache ≠ []) := by
  unfold parseFlags at h
  split at h
  · cases h
  split at h
  · cases h
  split at h
  · cases h
  dsimp only at h
  split at h
  · cases h
  split at h
  · cases h
  split at h
  · cases h
  rename_i e he
  simp only [Outcome.ok.injEq] at h
  subst h
  have htake : env.gopath.takeWhile (· ≠ ':') = env.gopath := by
    generalize env.gopath = l at hg
    clear he
    induction l with
    | nil => rfl
    | cons x l ih =>
      have hx : x ≠ ':' := fun e => hg (by simp [e])
      rw [List.takeWhile_cons_of_pos (by simpa using hx), ih fun e => hg (by simp [e])]
  unfold goModCache
  rw [htake]
  unfold setupEnvironment at he
  show e.2 = _ ∧ e.1 = _ ∧ _
  split at he
  · rename_i h1
    split at he
    · cases he
    · rename_i h2
      simp only [Option.some.injEq] at he
      subst he
      simp [h1, h2]
  · rename_i h1
    simp only [Option.some.injEq] at he
    subst he
    simp [h1]

example : ∃ c, parseFlags sampleLib sampleEnv [] [['-'] ++ nProject ++ ['=', 'p'], ['-'] ++ nModule ++ ['=', 'm']] = .ok c ∧
    c.gomodcache = ['/', 'g', '/', 'p', 'k', 'g', '/', 'm', 'o', 'd'] := ⟨_, rfl, by decide +kernel⟩

/-- **C128** is violated for a GOPATH of two directories: the go command uses the first, but the configuration has the whole list with "/pkg/mod" behind it. -/
theorem C128_violated : ¬ ∀ (L : Lib) (env : Env) (custom : List Custom) (args : List Str) (c : Config), parseFlags L env custom args = .ok c → c.gomodcache = goModCache L env := by
  intro h
  have := h sampleLib ⟨['/', 'a', ':', '/', 'b'], []⟩ [] [['-'] ++ nProject ++ ['=', 'p'], ['-'] ++ nModule ++ ['=', 'm']] _ rfl
  revert this
  decide +kernel

/-! ## C129: the custom flags -/

theorem customDecls_mem : ∀ (cs : List Custom) (ds : List (Decl × Val)), customDecls cs = some ds → ∀ (f : Custom), f ∈ cs →
    f.type ∈ [['s', 't', 'r', 'i', 'n', 'g'], ['i', 'n', 't'], ['b', 'o', 'o', 'l']] → ∃ d ∈ ds, d.1.name = f.name ∧ d.2 = f.default
  | [], _, _, f, hf, _ => by cases hf
  | c :: cs, ds, h, f, hf, ht => by
    unfold customDecls at h
    split at h
    · rename_i e ds' h1 h2
      simp only [Option.some.injEq] at h
      subst h
      rcases List.mem_cons.mp hf with rfl | hf
      · refine ⟨e, by simp, ?_⟩
        unfold customDecl at h1
        split at h1
        · split at h1 <;> simp at h1
          rename_i hx; subst h1; exact ⟨rfl, hx.symm⟩
        · split at h1
          · split at h1 <;> simp at h1
            rename_i hx; subst h1; exact ⟨rfl, hx.symm⟩
          · split at h1
            · split at h1 <;> simp at h1
              rename_i hx; subst h1; exact ⟨rfl, hx.symm⟩
            · simp at h1
      · obtain ⟨d, hd, e⟩ := customDecls_mem cs ds' h2 f hf ht
        exact ⟨d, by simp [hd], e⟩
    · rename_i ds' h1 h2
      simp only [Option.some.injEq] at h
      subst h
      rcases List.mem_cons.mp hf with rfl | hf
      · exfalso
        unfold customDecl at h1
        split at h1
        · split at h1 <;> simp at h1
        · split at h1
          · split at h1 <;> simp at h1
          · split at h1
            · split at h1 <;> simp at h1
            · rename_i n1 n2 n3
              simp [n1, n2, n3] at ht
      · exact customDecls_mem cs _ h2 f hf ht
    · cases h

theorem customDecls_back : ∀ (cs : List Custom) (ds : List (Decl × Val)), customDecls cs = some ds → ∀ d ∈ ds, ∃ f ∈ cs, f.name = d.1.name
  | [], ds, h, d, hd => by simp [customDecls] at h; subst h; cases hd
  | c :: cs, ds, h, d, hd => by
    unfold customDecls at h
    split at h
    · rename_i e ds' h1 h2
      simp only [Option.some.injEq] at h
      subst h
      rcases List.mem_cons.mp hd with rfl | hd
      · refine ⟨c, by simp, ?_⟩
        unfold customDecl at h1
        split at h1
        · split at h1 <;> simp at h1
          subst h1; rfl
        · split at h1
          · split at h1 <;> simp at h1
            subst h1; rfl
          · split at h1
            · split at h1 <;> simp at h1
              subst h1; rfl
            · simp at h1
      · obtain ⟨f, hf, e⟩ := customDecls_back cs ds' h2 d hd
        exact ⟨f, by simp [hf], e⟩
    · rename_i ds' h1 h2
      simp only [Option.some.injEq] at h
      subst h
      obtain ⟨f, hf, e⟩ := customDecls_back cs _ h2 d hd
      exact ⟨f, by simp [hf], e⟩
    · cases h

/-- **C129** (partial). For every custom flag whose type is "string", "int" or "bool" the configuration has exactly one text, and it is that of the last value given or of the
default of the flag; and every entry is that of a custom flag. Missing: other types, see `C129_violated`. -/
theorem C129_custom_partial (L : Lib) (env : Env) (custom : List Custom) (cs : List (Decl × Val)) (ss : List Setting) (vs : List (Str × Val)) (c : Config)
    (hc : customDecls custom = some cs) (hm : Meaning L (flagsOf cs) ss vs) (h : parseFlags L env custom (ss.flatMap render) = .ok c) :
    (∀ f ∈ custom, f.type ∈ [['s', 't', 'r', 'i', 'n', 'g'], ['i', 'n', 't'], ['b', 'o', 'o', 'l']] →
      ∃ v, (((∃ before after, vs = before ++ (f.name, v) :: after ∧ ∀ p ∈ after, p.1 ≠ f.name) ∨ ((∀ p ∈ vs, p.1 ≠ f.name) ∧ v = f.default))) ∧
        ∀ t, (f.name, t) ∈ c.custom ↔ t = asText L v) ∧
    ∀ p ∈ c.custom, ∃ f ∈ custom, f.name = p.1 := by
  have hd : ∃ ds, defineAll [] (flagsOf cs) = some ds := by
    cases hd : defineAll [] (flagsOf cs) with
    | none =>
      unfold parseFlags at h
      rw [hc] at h
      dsimp only at h
      rw [show standard ++ cs ++ help = flagsOf cs from rfl, hd] at h
      cases h
    | some ds => exact ⟨ds, rfl⟩
  obtain ⟨ds, hd⟩ := hd
  rw [parseFlags_settings hc hd hm] at h
  dsimp only at h
  split at h
  · cases h
  split at h
  · cases h
  split at h
  · cases h
  simp only [Outcome.ok.injEq] at h
  subst h
  refine ⟨?_, ?_⟩
  · intro f hf ht
    obtain ⟨d, hd1, hd2, hd3⟩ := customDecls_mem custom cs hc f hf ht
    have hdf : d ∈ flagsOf cs := by simp [flagsOf, hd1]
    obtain ⟨v, h1, h2, h3⟩ := final_total hc hd hm hdf
    refine ⟨v, ?_, ?_⟩
    · rw [hd2] at h3
      rcases h3 with h3 | ⟨h3, d', hd', e1, e2⟩
      · exact Or.inl h3
      · refine Or.inr ⟨h3, ?_⟩
        have : value ([].reverse ++ (flagsOf cs).map fun d => (d.1.name, d.2)) f.name = some v := (value_final (vs := []) (flags_nodup hd)).mpr (Or.inr ⟨by simp, d', hd', e1, e2⟩)
        have h' : value ([].reverse ++ (flagsOf cs).map fun d => (d.1.name, d.2)) f.name = some f.default :=
          (value_final (vs := []) (flags_nodup hd)).mpr (Or.inr ⟨by simp, d, hdf, hd2, hd3⟩)
        rw [this, Option.some.injEq] at h'
        exact h'
    · intro t
      have hs : showVal L v = asText L v := by
        cases v with
        | text s => rfl
        | int i => rfl
        | bool b => cases b <;> rfl
      rw [← hs]
      simp only [config, List.mem_map, Prod.mk.injEq]
      constructor
      · rintro ⟨d', hd', e1, e2⟩
        rw [e1, ← hd2, h1] at e2
        exact e2.symm
      · rintro rfl
        exact ⟨d, hd1, hd2, by rw [h1]⟩
  · intro p hp
    simp only [config, List.mem_map] at hp
    obtain ⟨d, hd', rfl⟩ := hp
    exact customDecls_back custom cs hc d hd'

example : ∃ c, parseFlags sampleLib sampleEnv [⟨['x'], .int 3, ['i', 'n', 't']⟩, ⟨['y'], .bool true, ['b', 'o', 'o', 'l']⟩]
    [['-'] ++ nProject ++ ['=', 'p'], ['-'] ++ nModule ++ ['=', 'm'], ['-', 'x'], ['7']] = .ok c ∧ c.custom = [(['x'], ['7']), (['y'], ['t', 'r', 'u', 'e'])] :=
  ⟨_, rfl, by decide +kernel⟩

/-- **C129** is violated for a custom flag of another type: it is not defined, and the configuration has no entry for it, without an error. -/
theorem C129_violated : ¬ ∀ (L : Lib) (env : Env) (custom : List Custom) (args : List Str) (c : Config), parseFlags L env custom args = .ok c →
    ∀ f ∈ custom, ∃ t, (f.name, t) ∈ c.custom := by
  intro h
  have := h sampleLib sampleEnv [⟨['x'], .int 3, ['i', 'n', 't', '6', '4']⟩] [['-'] ++ nProject ++ ['=', 'p'], ['-'] ++ nModule ++ ['=', 'm']] _ rfl _ (List.mem_singleton.mpr rfl)
  obtain ⟨t, ht⟩ := this
  have : ∀ (c : Config), c.custom = [] → ¬ (['x'], t) ∈ c.custom := by
    intro c e
    rw [e]
    simp
  exact this _ (by decide +kernel) ht

/-! ## C130: when there is a configuration -/

/-- **C130**. For a list of settings there is a configuration exactly if help is not asked for, a project is named, an update is named in at least one of the four ways, not both
of a "go.mod" and a "go.work" are given, and the environment says where modules are. The values are those of the last settings. -/
theorem C130_configuration (L : Lib) (env : Env) (custom : List Custom) (cs : List (Decl × Val)) (ss : List Setting) (vs : List (Str × Val)) (p m ms g w : Str) (h1 h2 : Bool)
    (hc : customDecls custom = some cs) (hp : parseFlags L env custom [] ≠ .panic) (hm : Meaning L (flagsOf cs) ss vs)
    (vp : Final (flagsOf cs) vs nProject (.text p)) (vm : Final (flagsOf cs) vs nModule (.text m)) (vms : Final (flagsOf cs) vs nModules (.text ms))
    (vg : Final (flagsOf cs) vs nGomod (.text g)) (vw : Final (flagsOf cs) vs nGowork (.text w)) (vh1 : Final (flagsOf cs) vs nH (.bool h1))
    (vh2 : Final (flagsOf cs) vs nHelp (.bool h2)) :
    ((∃ c, parseFlags L env custom (ss.flatMap render) = .ok c) ↔
      h1 = false ∧ h2 = false ∧ p ≠ [] ∧ (m ≠ [] ∨ ms ≠ [] ∨ g ≠ [] ∨ w ≠ []) ∧ (g = [] ∨ w = []) ∧ (env.gopath ≠ [] ∨ env.gomodcache ≠ [])) ∧
    (parseFlags L env custom (ss.flatMap render) = .exit 0 ↔ h1 = true ∨ h2 = true) := by
  cases hd : defineAll [] (flagsOf cs) with
  | none =>
    exfalso
    apply hp
    unfold parseFlags
    rw [hc]
    dsimp only
    rw [show standard ++ cs ++ help = flagsOf cs from rfl, hd]
  | some ds =>
    rw [parseFlags_settings hc hd hm]
    have e1 := final_unique hd vp
    have e2 := final_unique hd vm
    have e3 := final_unique hd vms
    have e4 := final_unique hd vg
    have e5 := final_unique hd vw
    have e6 := final_unique hd vh1
    have e7 := final_unique hd vh2
    generalize vs.reverse ++ (flagsOf cs).map (fun d => (d.1.name, d.2)) = vals at e1 e2 e3 e4 e5 e6 e7
    dsimp only
    have b1 : boolOf vals nH = h1 := by unfold boolOf; rw [e6]
    have b2 : boolOf vals nHelp = h2 := by unfold boolOf; rw [e7]
    have hr : refused vals = true ↔ (m = [] ∧ ms = [] ∧ g = [] ∧ w = []) ∨ p = [] ∨ (g ≠ [] ∧ w ≠ []) := by
      unfold refused textOf
      rw [e1, e2, e3, e4, e5]
      simp only [Bool.or_eq_true, Bool.and_eq_true, decide_eq_true_eq]
      tauto
    have no : p ≠ [] → (m ≠ [] ∨ ms ≠ [] ∨ g ≠ [] ∨ w ≠ []) → (g = [] ∨ w = []) → ¬ ((m = [] ∧ ms = [] ∧ g = [] ∧ w = []) ∨ p = [] ∨ (g ≠ [] ∧ w ≠ [])) := by
      clear * -
      tauto
    have yes : ¬ ((m = [] ∧ ms = [] ∧ g = [] ∧ w = []) ∨ p = [] ∨ (g ≠ [] ∧ w ≠ [])) → p ≠ [] ∧ (m ≠ [] ∨ ms ≠ [] ∨ g ≠ [] ∨ w ≠ []) ∧ (g = [] ∨ w = []) := by
      clear * -
      tauto
    rw [b1, b2]
    by_cases hh : (h1 || h2) = true
    · rw [if_pos hh]
      simp only [Bool.or_eq_true] at hh
      refine ⟨⟨?_, ?_⟩, ⟨fun _ => hh, fun _ => rfl⟩⟩
      · rintro ⟨c, e⟩; cases e
      · rintro ⟨rfl, rfl, _⟩; simp at hh
    · rw [if_neg hh]
      have hh1 : h1 = false ∧ h2 = false := by simpa using hh
      obtain ⟨rfl, rfl⟩ := hh1
      by_cases hx : refused vals = true
      · rw [if_pos hx]
        rw [hr] at hx
        refine ⟨⟨?_, ?_⟩, ⟨fun e => (by cases e), fun e => (by simp at e)⟩⟩
        · rintro ⟨c, e⟩; cases e
        · rintro ⟨_, _, q1, q2, q3, _⟩; exact absurd hx (no q1 q2 q3)
      · rw [if_neg hx]
        rw [hr] at hx
        unfold setupEnvironment
        by_cases g1 : env.gomodcache = []
        · by_cases g2 : env.gopath = []
          · rw [if_pos g1, if_pos g2]
            dsimp only
            refine ⟨⟨?_, ?_⟩, ⟨fun e => (by cases e), fun e => (by simp at e)⟩⟩
            · rintro ⟨c, e⟩; cases e
            · rintro ⟨_, _, _, _, _, q⟩; exact (q.elim (· g2) (· g1)).elim
          · rw [if_pos g1, if_neg g2]
            dsimp only
            refine ⟨⟨fun _ => ⟨rfl, rfl, (yes hx).1, (yes hx).2.1, (yes hx).2.2, Or.inl g2⟩, fun _ => ⟨_, rfl⟩⟩, ⟨fun e => (by cases e), fun e => (by simp at e)⟩⟩
        · rw [if_neg g1]
          dsimp only
          refine ⟨⟨fun _ => ⟨rfl, rfl, (yes hx).1, (yes hx).2.1, (yes hx).2.2, Or.inr g1⟩, fun _ => ⟨_, rfl⟩⟩, ⟨fun e => (by cases e), fun e => (by simp at e)⟩⟩

/-- The values of the hypotheses of `C130_configuration` exist and are unique. -/
theorem C130_values (L : Lib) (env : Env) (custom : List Custom) (cs : List (Decl × Val)) (ss : List Setting) (vs : List (Str × Val)) (hc : customDecls custom = some cs)
    (hp : parseFlags L env custom [] ≠ .panic) (hm : Meaning L (flagsOf cs) ss vs) (n : Str) (hn : n ∈ [nProject, nModule, nModules, nGomod, nGowork]) :
    ∃! t, Final (flagsOf cs) vs n (.text t) := by
  cases hd : defineAll [] (flagsOf cs) with
  | none =>
    exfalso
    apply hp
    unfold parseFlags
    rw [hc]
    dsimp only
    rw [show standard ++ cs ++ help = flagsOf cs from rfl, hd]
  | some ds =>
    have hk : ∃ d ∈ flagsOf cs, d.1.name = n ∧ d.1.kind = .text := by
      have : ∀ n ∈ [nProject, nModule, nModules, nGomod, nGowork], ∃ d ∈ standard, d.1.name = n ∧ d.1.kind = .text := by decide
      obtain ⟨d, h1, h2⟩ := this n hn
      exact ⟨d, standard_mem h1, h2⟩
    refine ⟨_, text_final hc hd hm hk, ?_⟩
    intro t ht
    unfold textOf
    rw [final_unique hd ht]

example : parseFlags sampleLib sampleEnv [] [['-'] ++ nProject ++ ['=', 'p'], ['-'] ++ nGomod ++ ['=', 'm'], ['-'] ++ nGowork ++ ['=', 'm']] = .error ∧
    parseFlags sampleLib sampleEnv [] [['-'] ++ nProject ++ ['=', 'p']] = .error ∧ parseFlags sampleLib sampleEnv [] [['-', 'h']] = .exit 0 ∧
    parseFlags sampleLib sampleEnv [] [['-'] ++ nPort, ['x']] = .exit 2 := by decide +kernel

end Verif.Flags
