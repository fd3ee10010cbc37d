import Verif.Pkgs.Lemmas

/-! C136 and C137: the package found for a directory, and the files that are type-checked. -/

namespace Verif.Pkgs

section Examples

/-- "a.go", "b.go", "a_test.go", "doc.go". -/
def aGo : Bytes := [97, 46, 103, 111]
def bGo : Bytes := [98, 46, 103, 111]
def aTest : Bytes := [97, 95, 116, 101, 115, 116, 46, 103, 111]
def docGo : Bytes := [100, 111, 99, 46, 103, 111]
/-- "p" and "p_test". -/
def pName : Bytes := [112]
def pTest : Bytes := [112, 95, 116, 101, 115, 116]

/-- Two files of a package, one of them for another system, and a test of the external test package. -/
def exDir : List File :=
  [⟨aGo, false, true, some true, some pName⟩, ⟨aTest, false, true, some true, some pTest⟩, ⟨bGo, false, true, some false, some [113]⟩]

/-- The same with a file of the package `documentation`. -/
def exDoc : List File := exDir ++ [⟨docGo, false, true, some true, some documentation⟩]

theorem not_ends {f : File} {s : Bytes} (h : s.isSuffixOf f.name = false) : ¬ EndsIn f s := by
  rw [← endsIn_iff, h]; simp

theorem ends {f : File} {s : Bytes} (h : s.isSuffixOf f.name = true) : EndsIn f s := (endsIn_iff f s).mp h

theorem source_iff (f : File) : Source f ↔ f.isDir = false ∧ goSuffix.isSuffixOf f.name = true ∧ testSuffix.isSuffixOf f.name = false ∧ f.fits = some true := by
  unfold Source
  rw [← endsIn_iff, ← endsIn_iff, Bool.not_eq_true]
  exact Iff.rfl

instance (f : File) : Decidable (Source f) := decidable_of_iff _ (source_iff f).symm

theorem exDoc_builds : Builds exDoc pName := by
  unfold Builds
  decide

end Examples

/-- C136: a name is found exactly if the directory can be read, has a source file, and every source file has this name in its package clause. -/
theorem C136_exact (entries : List File) (p : Bytes) :
    detect entries = some p ↔ Readable entries ∧ (∃ f ∈ entries, Source f) ∧ ∀ f ∈ entries, Source f → f.pkg = some p := by
  obtain ⟨h1, h2⟩ := parseDir_spec entries
  unfold detect
  cases hp : parseDir entries with
  | none =>
      simp only [reduceCtorEq, false_iff]
      exact fun h => (h2.mp hp) h.1
  | some pkgs =>
      have hc := h1 pkgs hp
      have hr : Readable entries := by
        by_contra hn
        rw [h2.mpr hn] at hp; cases hp
      have hkey : ∀ q, q ∈ pkgs.keys ↔ ∃ f ∈ entries, Source f ∧ f.pkg = some q := by
        intro q
        rw [AMap.mem_keys]
        constructor
        · intro hq
          obtain ⟨fs, hfs⟩ := Option.isSome_iff_exists.mp hq
          obtain ⟨m1, m2⟩ := hc.mem q fs hfs
          obtain ⟨f, hf⟩ := List.exists_mem_of_ne_nil fs m1
          obtain ⟨n1, n2, n3⟩ := (m2 f).mp hf
          exact ⟨f, n1, n2, n3⟩
        · rintro ⟨f, hf, hs, hq⟩
          exact hc.all f hf hs q hq
      have hval : ∀ f ∈ entries, Source f → ∃ q, f.pkg = some q ∧ q ∈ pkgs.keys := by
        intro f hf hs
        obtain ⟨q, hq⟩ := Option.ne_none_iff_exists'.mp (hr.2 f hf hs)
        exact ⟨q, hq, (hkey q).mpr ⟨f, hf, hs, hq⟩⟩
      have hnd := hc.nodup
      dsimp only
      cases hks : pkgs.keys with
      | nil =>
          simp only [reduceCtorEq, false_iff]
          rintro ⟨_, ⟨f, hf, hs⟩, _⟩
          obtain ⟨q, _, hq⟩ := hval f hf hs
          rw [hks] at hq; cases hq
      | cons a t =>
          cases t with
          | nil =>
              simp only [Option.some.injEq]
              have ha : ∃ f ∈ entries, Source f ∧ f.pkg = some a := (hkey a).mp (by simp [hks])
              obtain ⟨f, hf, hs, hfa⟩ := ha
              constructor
              · rintro rfl
                refine ⟨hr, ⟨f, hf, hs⟩, fun g hg hgs => ?_⟩
                obtain ⟨q, hq, hqk⟩ := hval g hg hgs
                rw [hks, List.mem_singleton] at hqk
                rw [hq, hqk]
              · rintro ⟨_, _, hall⟩
                have := hall f hf hs
                rw [hfa] at this; cases this; rfl
          | cons b t =>
              simp only [reduceCtorEq, false_iff]
              rintro ⟨_, _, hall⟩
              obtain ⟨f, hf, hs, hfa⟩ := (hkey a).mp (by simp [hks])
              obtain ⟨g, hg, hgs, hgb⟩ := (hkey b).mp (by simp [hks])
              have e1 := hall f hf hs
              have e2 := hall g hg hgs
              rw [hfa] at e1; rw [hgb] at e2
              cases e1; cases e2
              rw [hks] at hnd
              simp at hnd

example : detect exDir = some pName := by decide

/-- C136, the full statement: whenever the directory can be read, the name found is that of the package the go command builds. -/
def FindsPackage : Prop := ∀ entries p, Readable entries → Builds entries p → detect entries = some p

/-- C136: the name is that of the package built if no source file is of the package `documentation`. Missing from `FindsPackage`: directories with such a file. -/
theorem C136_found_partial (entries : List File) (p : Bytes) (hr : Readable entries) (hb : Builds entries p)
    (hd : ∀ f ∈ entries, Source f → f.pkg ≠ some documentation) : detect entries = some p := by
  rw [C136_exact]
  obtain ⟨⟨f, hf, hs, _⟩, hall⟩ := hb
  exact ⟨hr, ⟨f, hf, hs⟩, fun g hg hgs => (hall g hg hgs).resolve_right (hd g hg hgs)⟩

/-- C136: a name that is found is the one of the package built, for a directory that is more than documentation. -/
theorem C136_right (entries : List File) (p q : Bytes) (h : detect entries = some q) (hb : Builds entries p) : q = p := by
  obtain ⟨⟨f, hf, hs, hp, _⟩, _⟩ := hb
  have := ((C136_exact entries q).mp h).2.2 f hf hs
  rw [hp] at this
  cases this; rfl

/-- C136: a file of the package `documentation`, which the go command leaves out, makes the detection fail. -/
theorem C136_documentation_violated : ¬ FindsPackage := by
  intro h
  have := h exDoc pName ⟨by
    have : ∀ f ∈ exDoc, f.isDir = false → f.info = true := by decide
    exact fun f hf h1 _ => this f hf h1, by decide⟩ exDoc_builds
  revert this
  decide

/-- C137, the full statement: for a file of the directory, the files checked are given up, or are the sources of its package together with the file itself. -/
def ChecksPackage : Prop := ∀ entries target p, target ∈ entries → target.pkg = some p →
  toCheck entries p = .gaveUp ∨ ∃ fs, toCheck entries p = .files fs ∧ target ∈ fs ∧ ∀ f, f ≠ target → (f ∈ fs ↔ f ∈ entries ∧ Source f ∧ f.pkg = some p)

/-- C137: for a source file of the directory that is not a test and fits the build, the check is given up exactly if the directory cannot be read, and otherwise is over the sources of the file's package, the file among them, each once if the directory lists it once. Missing from `ChecksPackage`: tests and files left out of the build. -/
theorem C137_sources_partial (entries : List File) (target : File) (p : Bytes) (ht : target ∈ entries) (hs : Source target) (hp : target.pkg = some p) :
    (¬ Readable entries ∧ toCheck entries p = .gaveUp) ∨
    (Readable entries ∧ ∃ fs, toCheck entries p = .files fs ∧ target ∈ fs ∧ fs.Sublist entries ∧ ∀ f, f ∈ fs ↔ f ∈ entries ∧ Source f ∧ f.pkg = some p) := by
  obtain ⟨h1, h2⟩ := parseDir_spec entries
  unfold toCheck
  cases hd : parseDir entries with
  | none => exact Or.inl ⟨h2.mp hd, rfl⟩
  | some pkgs =>
      right
      have hc := h1 pkgs hd
      have hr : Readable entries := by
        by_contra hn
        rw [h2.mpr hn] at hd; cases hd
      obtain ⟨fs, hfs⟩ := Option.isSome_iff_exists.mp (hc.all target ht hs p hp)
      refine ⟨hr, fs, ?_, ((hc.mem p fs hfs).2 target).mpr ⟨ht, hs, hp⟩, hc.sub p fs hfs, (hc.mem p fs hfs).2⟩
      cases pkgs with
      | nil => simp at hfs
      | cons a t => dsimp only; rw [hfs]

example : toCheck exDir pName = .files [⟨aGo, false, true, some true, some pName⟩] := by decide

/-- C137: asked about a file of an external test package beside the sources of a package, a nil pointer is dereferenced. -/
theorem C137_crash_violated : (∃ target ∈ exDir, target.pkg = some pTest) ∧ Readable exDir ∧ toCheck exDir pTest = .crash := by
  refine ⟨by decide, ⟨?_, by decide⟩, by decide⟩
  have : ∀ f ∈ exDir, f.isDir = false → f.info = true := by decide
  exact fun f hf h1 _ => this f hf h1

/-- A test in the package itself. -/
def exInside : List File := [⟨aGo, false, true, some true, some pName⟩, ⟨aTest, false, true, some true, some pName⟩]

/-- C137: for a test in the package itself, the files that are checked do not include it, so nothing is known about its types. -/
theorem C137_inside_violated : ¬ ChecksPackage := by
  intro h
  rcases h exInside ⟨aTest, false, true, some true, some pName⟩ pName (by decide) rfl with h | ⟨fs, h, hm, _⟩
  · revert h; decide
  · have e : toCheck exInside pName = .files [⟨aGo, false, true, some true, some pName⟩] := by decide
    rw [e] at h
    cases h
    revert hm
    decide

/-- C137: a nil pointer is dereferenced exactly if the directory can be read and has sources, but none of the package asked about. -/
theorem C137_crash_exact (entries : List File) (p : Bytes) :
    toCheck entries p = .crash ↔ Readable entries ∧ (∃ f ∈ entries, Source f) ∧ ∀ f ∈ entries, Source f → f.pkg ≠ some p := by
  obtain ⟨h1, h2⟩ := parseDir_spec entries
  unfold toCheck
  cases hd : parseDir entries with
  | none =>
      simp only [reduceCtorEq, false_iff]
      exact fun h => (h2.mp hd) h.1
  | some pkgs =>
      have hc := h1 pkgs hd
      have hr : Readable entries := by
        by_contra hn
        rw [h2.mpr hn] at hd; cases hd
      cases pkgs with
      | nil =>
          simp only [reduceCtorEq, false_iff]
          rintro ⟨_, ⟨f, hf, hs⟩, _⟩
          obtain ⟨q, hq⟩ := Option.ne_none_iff_exists'.mp (hr.2 f hf hs)
          have := hc.all f hf hs q hq
          simp at this
      | cons a t =>
          dsimp only
          have hsrc : ∃ f ∈ entries, Source f := by
            have ha : a.1 ∈ AMap.keys (a :: t) := by simp [AMap.keys]
            rw [AMap.mem_keys] at ha
            obtain ⟨fs, hfs⟩ := Option.isSome_iff_exists.mp ha
            obtain ⟨m1, m2⟩ := hc.mem a.1 fs hfs
            obtain ⟨f, hf⟩ := List.exists_mem_of_ne_nil fs m1
            obtain ⟨n1, n2, _⟩ := (m2 f).mp hf
            exact ⟨f, n1, n2⟩
          cases hg : AMap.get (a :: t) p with
          | none =>
              simp only [true_iff]
              refine ⟨hr, hsrc, fun f hf hs hfp => ?_⟩
              have := hc.all f hf hs p hfp
              rw [hg] at this; cases this
          | some fs =>
              simp only [reduceCtorEq, false_iff]
              rintro ⟨_, _, hno⟩
              obtain ⟨m1, m2⟩ := hc.mem p fs hg
              obtain ⟨f, hf⟩ := List.exists_mem_of_ne_nil fs m1
              obtain ⟨n1, n2, n3⟩ := (m2 f).mp hf
              exact hno f n1 n2 n3

/-- C137: the check is given up exactly if the directory cannot be read or has no sources; so files are never checked without a source among them. -/
theorem C137_gaveUp_exact (entries : List File) (p : Bytes) : toCheck entries p = .gaveUp ↔ ¬ Readable entries ∨ ∀ f ∈ entries, ¬ Source f := by
  obtain ⟨h1, h2⟩ := parseDir_spec entries
  unfold toCheck
  cases hd : parseDir entries with
  | none =>
      simp only [true_iff]
      exact .inl (h2.mp hd)
  | some pkgs =>
      have hc := h1 pkgs hd
      have hr : Readable entries := by
        by_contra hn
        rw [h2.mpr hn] at hd; cases hd
      cases pkgs with
      | nil =>
          simp only [true_iff]
          refine .inr fun f hf hs => ?_
          obtain ⟨q, hq⟩ := Option.ne_none_iff_exists'.mp (hr.2 f hf hs)
          have := hc.all f hf hs q hq
          simp at this
      | cons a t =>
          dsimp only
          have hsrc : ∃ f ∈ entries, Source f := by
            have ha : a.1 ∈ AMap.keys (a :: t) := by simp [AMap.keys]
            rw [AMap.mem_keys] at ha
            obtain ⟨fs, hfs⟩ := Option.isSome_iff_exists.mp ha
            obtain ⟨m1, m2⟩ := hc.mem a.1 fs hfs
            obtain ⟨f, hf⟩ := List.exists_mem_of_ne_nil fs m1
            obtain ⟨n1, n2, _⟩ := (m2 f).mp hf
            exact ⟨f, n1, n2⟩
          obtain ⟨f, hf, hs⟩ := hsrc
          have hno : ¬ (¬ Readable entries ∨ ∀ f ∈ entries, ¬ Source f) := by
            rintro (h | h)
            · exact h hr
            · exact h f hf hs
          cases hg : AMap.get (a :: t) p with
          | none => simp only [reduceCtorEq, false_iff]; exact hno
          | some fs => simp only [reduceCtorEq, false_iff]; exact hno

/-- A directory with nothing but tests. -/
example : toCheck [⟨aTest, false, true, some true, some pTest⟩] pTest = .gaveUp := by decide

end Verif.Pkgs
