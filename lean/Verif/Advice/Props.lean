import Verif.Advice.Lemmas

/-!
C152: when a version of a module is missing, the user is told which one.
-/

namespace Verif.Advice

open Verif.Module (Bytes Change cacheDir escapePath)

/-- C152. If the first version that cannot be loaded belongs to a requested module and is missing, the answer names this module and this version.
Partial: only for paths and versions that cannot be mistaken for each other (`Clear`). -/
theorem C152_told_partial {cache : Bytes} {disk : Disk} {requested more : List Change} (hc : Clear cache requested more) {c : Change} {v : Bytes} (hm : c ∈ requested)
    (h : First disk (requested ++ more) c v) : ∃ s, run cache disk requested more = some s ∧ s = .missing c.name v ∧ Tells (message s) c.name v := by
  obtain ⟨⟨b, a, hsplit, hb⟩, hw, ha⟩ := h
  obtain ⟨e, he⟩ := Option.isSome_iff_exists.1 (hc.names c (by simp [hm])).2.2.2
  have hv : v = c.new ∨ v = c.prior := hw.imp id (·.1)
  have hrun : analyse cache disk [] (requested ++ more) = some (absentText cache c.name e v) := by
    rw [hsplit]
    refine analyse_skip (attempt_absent he hw ha) (by simp) fun d hd => ⟨(hb d hd).1, ?_⟩
    exact (attempt_none (hc.names d (by rw [hsplit]; simp [hd])).2.2.2).2 (hb d hd).2
  refine ⟨.missing c.name v, ?_, rfl, ?_⟩
  · simp only [run, hrun, Option.map_some, Option.some.injEq]
    rcases List.append_eq_append_iff.1 hsplit with ⟨r, hr, _⟩ | ⟨r, hr, hr'⟩
    · exact absurd rfl (hb c (by rw [hr]; simp [hm])).1
    · cases r with
      | nil =>
        simp only [List.append_nil] at hr
        exact absurd rfl (hb c (hr ▸ hm)).1
      | cons d r =>
        simp only [List.cons_append, List.cons.injEq] at hr'
        rw [← hr'.1] at hr
        exact advice_own hc hr (fun d hd => (hb d hd).1) hv he
  · refine ⟨utf ", run: go install " ++ c.name ++ utf "@" ++ v, ?_⟩
    have : utf " not found on disk, run: go install " = utf " not found on disk" ++ utf ", run: go install " := by decide +kernel
    simp only [message, this, List.append_assoc]

/-- C152. If it belongs to a dependency that is looked at besides, the error is passed on, and names it. Partial as before. -/
theorem C152_dependency_partial {cache : Bytes} {disk : Disk} {requested more : List Change} (hc : Clear cache requested more) {c : Change} {v : Bytes}
    (hm : ∀ d ∈ requested, d.name ≠ c.name) (h : First disk (requested ++ more) c v) :
    ∃ err, run cache disk requested more = some (.other err) ∧ Occurs (utf "loading module " ++ c.name ++ utf "@" ++ v ++ utf ":") (message (.other err)) := by
  obtain ⟨⟨b, a, hsplit, hb⟩, hw, ha⟩ := h
  have hmem : c ∈ requested ++ more := by rw [hsplit]; simp
  obtain ⟨e, he⟩ := Option.isSome_iff_exists.1 (hc.names c hmem).2.2.2
  have hrun : analyse cache disk [] (requested ++ more) = some (absentText cache c.name e v) := by
    rw [hsplit]
    refine analyse_skip (attempt_absent he hw ha) (by simp) fun d hd => ⟨(hb d hd).1, ?_⟩
    exact (attempt_none (hc.names d (by rw [hsplit]; simp [hd])).2.2.2).2 (hb d hd).2
  refine ⟨absentText cache c.name e v, by simp only [run, hrun, Option.map_some, advice_more hc hmem hm (hw.imp id (·.1)) he], utf "error analyzing changes failure ", ?_, ?_⟩
  rotate_left
  have h1 : utf "error analyzing changes failure " = utf "error analyzing changes " ++ (utf "failure" ++ [32]) := by decide +kernel
  have h2 : utf "loading module " = utf "loading" ++ 32 :: (utf "module" ++ [32]) := by decide +kernel
  have h3 : utf "@" = [64] := by decide +kernel
  have h4 : utf ":" = [58] := by decide +kernel
  simp only [message, absentText, h1, h2, h3, h4, List.append_assoc, List.cons_append, List.nil_append]
  all_goals rfl

/-- C152. What is said to be missing is missing, and needed for a requested module. Partial: only where no directory of the cache is broken, besides `Clear`. -/
theorem C152_true_partial {cache : Bytes} {disk : Disk} {requested more : List Change} (hc : Clear cache requested more)
    (hb : ∀ m v, Needed (requested ++ more) m v → ∀ t, disk m v ≠ .broken t) {m v : Bytes} (h : run cache disk requested more = some (.missing m v)) :
    disk m v = .absent ∧ Needed requested m v := by
  simp only [run, Option.map_eq_some_iff] at h
  obtain ⟨err, hr, hs⟩ := h
  obtain ⟨b, c, a, hsplit, -, hbn, hat⟩ := analyse_some hr
  have hmem : c ∈ requested ++ more := by rw [hsplit]; simp
  obtain ⟨e, he⟩ := Option.isSome_iff_exists.1 (hc.names c hmem).2.2.2
  obtain ⟨w, hw, hd, rfl⟩ := absent_of_attempt he (fun v hv => hb _ _ ⟨c, hmem, rfl, hv⟩) hat
  have hv : w = c.new ∨ w = c.prior := hw.imp id (·.1)
  have other : (∀ d ∈ requested, d.name ≠ c.name) → disk m v = .absent ∧ Needed requested m v := fun hn => by
    rw [advice_more hc hmem hn hv he] at hs; cases hs
  rcases List.append_eq_append_iff.1 hsplit with ⟨r, hq, _⟩ | ⟨r, hq, hr'⟩
  · exact other fun d hd => hbn d (by rw [hq]; simp [hd])
  · cases r with
    | nil =>
      simp only [List.append_nil] at hq
      exact other fun d hd => hbn d (hq ▸ hd)
    | cons d r =>
      simp only [List.cons_append, List.cons.injEq] at hr'
      rw [← hr'.1] at hq
      rw [advice_own hc hq hbn hv he, Said.missing.injEq] at hs
      obtain ⟨rfl, rfl⟩ := hs
      exact ⟨hd, c, by rw [hq]; simp, rfl, hv⟩

/-- C152. The analysis goes on if and only if all versions are there. -/
theorem C152_goes_on {cache : Bytes} {disk : Disk} {requested more : List Change} (hn : ((requested ++ more).map (·.name)).Nodup)
    (he : ∀ c ∈ requested ++ more, (escapePath c.name).isSome) :
    run cache disk requested more = none ↔ ∀ m v, Needed (requested ++ more) m v → disk m v = .good := by
  rw [run, Option.map_eq_none_iff, analyse_none hn (by simp)]
  constructor
  · rintro h m v ⟨c, hc, rfl, rfl | rfl⟩
    · exact ((attempt_none (he c hc)).1 (h c hc)).1
    · exact ((attempt_none (he c hc)).1 (h c hc)).2
  · exact fun h c hc => (attempt_none (he c hc)).2 ⟨h _ _ ⟨c, hc, rfl, Or.inl rfl⟩, h _ _ ⟨c, hc, rfl, Or.inr rfl⟩⟩

/-! ### Cases -/

def lib : Change := ⟨utf "x.org/Lib", utf "v1.2.0", utf "v1.3.1", false⟩
def net : Change := ⟨utf "y.org/net", utf "v0.5.0", utf "v0.6.0", false⟩
def dep : Change := ⟨utf "z.org/dep", utf "v2.0.0", utf "v2.0.1", true⟩

/-- A cache without one version of one module. -/
def without (m v : Bytes) : Disk := fun m' v' => if m' = m ∧ v' = v then .absent else .good

instance (t : Bytes) : Decidable (Plain t) := by unfold Plain; infer_instance

theorem not_occurs {t s : Bytes} (h : contains s t = false) : ¬ Occurs t s := fun ho => by rw [(contains_iff t s).2 ho] at h; cases h

/-- `Clear` can be checked. -/
theorem clear_of {cache : Bytes} {requested more : List Change}
    (h1 : (requested ++ more).all (fun c => decide (Plain c.name ∧ Plain c.new ∧ Plain c.prior) && (escapePath c.name).isSome) = true)
    (h2 : requested.all (fun c => (requested ++ more).all fun d => c.name == d.name ||
      [d.new, d.prior].all fun v => (wordsOf cache d.name v).all fun w => !contains w c.name) = true)
    (h3 : requested.all (fun c => (wordsOf cache c.name c.new).all fun w => !contains w c.prior) = true) : Clear cache requested more := by
  simp only [List.all_eq_true, Bool.and_eq_true, Bool.or_eq_true, decide_eq_true_eq, Bool.not_eq_true', beq_iff_eq] at h1 h2 h3
  refine ⟨fun c hc => ⟨(h1 c hc).1.1, (h1 c hc).1.2.1, (h1 c hc).1.2.2, (h1 c hc).2⟩, fun c hc d hd hne v hv w hw => ?_, fun c hc w hw => not_occurs (h3 c hc w hw)⟩
  refine not_occurs ((h2 c hc d hd).resolve_left hne v ?_ w hw)
  rcases hv with rfl | rfl <;> simp

theorem clear_case : Clear (utf "/go/pkg/mod") [lib, net] [dep] := clear_of (by decide +kernel) (by decide +kernel) (by decide +kernel)

example : run (utf "/go/pkg/mod") (without net.name net.prior) [lib, net] [dep] = some (.missing (utf "y.org/net") (utf "v0.5.0")) := by
  obtain ⟨s, h, rfl, -⟩ := C152_told_partial clear_case (disk := without net.name net.prior) (c := net) (v := net.prior) (by simp)
    ⟨⟨[lib], [dep], rfl, by decide +kernel⟩, Or.inr ⟨rfl, by decide +kernel⟩, by decide +kernel⟩
  exact h

example : ∃ err, run (utf "/go/pkg/mod") (without dep.name dep.new) [lib, net] [dep] = some (.other err) := by
  obtain ⟨err, h, -⟩ := C152_dependency_partial clear_case (disk := without dep.name dep.new) (c := dep) (v := dep.new) (by decide +kernel)
    ⟨⟨[lib, net], [], rfl, by decide +kernel⟩, Or.inl rfl, by decide +kernel⟩
  exact ⟨err, h⟩

/-! ### Violations -/

/-- A newer version that begins like the older one is missing; the older one is said to be missing, which is there. -/
theorem C152_version_violated : ∃ (c : Change), c.prior = utf "v1.2.1" ∧ c.new = utf "v1.2.10" ∧
    ∀ disk, disk = without c.name c.new → run (utf "/go/pkg/mod") disk [c] [] = some (.missing c.name c.prior) ∧ disk c.name c.prior = .good :=
  ⟨⟨utf "x.org/Lib", utf "v1.2.1", utf "v1.2.10", false⟩, rfl, rfl, fun disk h => by subst h; exact ⟨by decide +kernel, by decide +kernel⟩⟩

/-- Modules that are published together: the one whose path is the longer one is missing, the other one is said to be missing. The same for a dependency. -/
theorem C152_name_violated : ∃ (a b : Change), a.name = utf "x.org/otel" ∧ b.name = utf "x.org/otel/trace" ∧
    ∀ disk, disk = without b.name b.new → disk a.name a.new = .good ∧ run (utf "/go/pkg/mod") disk [a, b] [] = some (.missing a.name a.new) ∧
      run (utf "/go/pkg/mod") disk [a] [b] = some (.missing a.name a.new) :=
  ⟨⟨utf "x.org/otel", utf "v1.0.0", utf "v1.1.0", false⟩, ⟨utf "x.org/otel/trace", utf "v1.0.0", utf "v1.1.0", false⟩, rfl, rfl,
    fun disk h => by subst h; exact ⟨by decide +kernel, by decide +kernel, by decide +kernel⟩⟩

/-- A module whose directory is there but cannot be loaded (an old one without go.mod file) is said to be missing; the error itself is not shown. -/
theorem C152_broken_violated : ∃ (disk : Disk), disk lib.name lib.prior = .broken (utf "go: go.mod file not found in current directory or any parent directory") ∧
    run (utf "/go/pkg/mod") disk [lib] [] = some (.missing lib.name lib.prior) :=
  ⟨fun m v => if m = lib.name ∧ v = lib.prior then .broken (utf "go: go.mod file not found in current directory or any parent directory") else .good,
    by decide +kernel, by decide +kernel⟩

end Verif.Advice
