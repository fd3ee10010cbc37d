import Verif.Workspace.Lemmas

/-! Properties C98–C101. -/

namespace Verif.Workspace
open Verif Verif.Util

/-! ### C98 -/

/-- The directories returned, taken from the workspace root as `resolveGoModPath` does, are exactly those the entries name. Missing: absolute paths
with "...", and each directory being listed once; see below. -/
theorem C98_exact_partial (w : World) (hw : Sane w) (root : Pth) (hr : Rooted root) (raws : List Bytes) (hn : ∀ raw ∈ raws, ¬ AbsEllipsis raw)
    (out : List Pth) (h : parseGoWork w root (.use raws) = some out) (d : List Bytes) :
    (∃ p ∈ out, w.place (resolve root p) = d) ↔ ∃ raw ∈ raws, Uses w root.comps raw d := by
  obtain ⟨h1, h2, -⟩ := parse_spec hw hr hn h
  constructor
  · rintro ⟨p, hp, rfl⟩
    obtain ⟨e, he, hu⟩ := h1 p hp
    rw [added_resolve hr he]
    exact hu
  · rintro ⟨raw, hraw, hu⟩
    obtain ⟨p, hp, hA⟩ := h2 d raw hraw hu
    exact ⟨p, hp, by rw [added_resolve hr hA]; rfl⟩

/-- Without "..." and absolute paths, every directory is returned once, relative to the root. -/
theorem C98_once_partial (w : World) (hw : Sane w) (root : Pth) (hr : Rooted root) (raws : List Bytes) (hn : ∀ raw ∈ raws, Relative raw)
    (out : List Pth) (h : parseGoWork w root (.use raws) = some out) :
    (∀ p ∈ out, p.abs = false) ∧ (out.map fun p => w.place (resolve root p)).Nodup ∧ out.Pairwise fun a b => render a ≤ render b := by
  obtain ⟨h1, -, h3⟩ := parse_spec hw hr (fun raw hraw ha => (hn raw hraw).2 ha.2) h
  have hrel := h3 hn
  have hform : ∃ ps, out = sortedSet render ps := by
    simp only [parseGoWork, Option.map_eq_some_iff] at h
    obtain ⟨l, -, rfl⟩ := h
    exact ⟨_, rfl⟩
  obtain ⟨ps, rfl⟩ := hform
  refine ⟨hrel, ?_, sorted_sortedSet _ _⟩
  refine List.Nodup.map_on ?_ (nodup_sortedSet _ _)
  intro p hp q hq he
  obtain ⟨d, hd, -⟩ := h1 p hp
  obtain ⟨e, hE, -⟩ := h1 q hq
  rw [added_resolve hr hd, added_resolve hr hE] at he
  simp only [World.place, if_true] at he
  subst he
  rcases hd.2 with rfl | rfl
  · simpa using hrel _ hp
  · rcases hE.2 with rfl | rfl
    · simpa using hrel _ hq
    · rfl

/-- Expanding the file fails if and only if the directory before "..." is missing or a glob is malformed, for some entry. -/
theorem C98_error (w : World) (root : Pth) (hr : Rooted root) (raws : List Bytes) (hn : ∀ raw ∈ raws, ¬ AbsEllipsis raw) :
    parseGoWork w root (.use raws) = none ↔ ∃ raw ∈ raws, (∃ pre, raw = pre ++ dots ∧ leads root.comps pre ∉ w.dirs) ∨
      (¬ dots <:+ raw ∧ IsGlob raw ∧ w.glob ⟨true, leads root.comps raw⟩ = none) := by
  have key : ∀ raws : List Bytes, entries w root raws = none ↔ ∃ raw ∈ raws, entry w root raw = none := by
    intro raws
    induction raws with
    | nil => simp [entries]
    | cons raw rest ih =>
      simp only [entries, List.mem_cons, exists_eq_or_imp]
      cases ha : entry w root raw with
      | none => simp
      | some a => simp [ih]
  have hwalk : ∀ s, walk w ⟨true, s⟩ = none ↔ s ∉ w.dirs := by
    intro s
    unfold walk World.isDir
    rw [place_abs w rfl]
    by_cases hd : s ∈ w.dirs <;> simp [hd]
  have one : ∀ raw, ¬ AbsEllipsis raw → (entry w root raw = none ↔ (∃ pre, raw = pre ++ dots ∧ leads root.comps pre ∉ w.dirs) ∨
      (¬ dots <:+ raw ∧ IsGlob raw ∧ w.glob ⟨true, leads root.comps raw⟩ = none)) := by
    intro raw hraw
    by_cases hs : hasEllipsis raw = true
    · obtain ⟨pre, rfl⟩ := (dots_suffix raw).mp hs
      have hrel : isAbs (pre ++ dots) = false := by
        by_contra hc
        exact hraw ⟨by
          have hc' : isAbs (pre ++ dots) = true := by simpa only [Bool.not_eq_false] using hc
          unfold isAbs at hc'
          exact beq_iff_eq.mp hc', pre, rfl⟩
      unfold entry
      rw [hrel, if_neg (by simp), if_pos hs, trim_eq, join_eq hr, hwalk, ← leads_rel (by rw [← isAbs_append]; exact hrel)]
      constructor
      · intro h; exact Or.inl ⟨pre, rfl, h⟩
      · rintro (⟨pre', h1, h2⟩ | ⟨h1, -⟩)
        · rw [List.append_cancel_right h1]; exact h2
        · exact absurd ⟨pre, rfl⟩ h1
    · have hns : ¬ dots <:+ raw := fun hc => hs ((dots_suffix raw).mpr hc)
      have hno : ¬ ∃ pre, raw = pre ++ dots ∧ leads root.comps pre ∉ w.dirs := fun ⟨pre, h1, _⟩ => hns ⟨pre, h1.symm⟩
      simp only [hno, hns, not_false_eq_true, true_and, false_or]
      unfold entry
      by_cases ha : isAbs raw = true
      · have hp : parseP raw = ⟨true, leads root.comps raw⟩ := by unfold parseP; rw [ha, leads_abs ha]; simp [mkP]
        rw [if_pos ha, if_neg hs, hp, ← meta_iff]
        by_cases hm : hasMeta raw = true <;> simp [hm]
      · have ha' : isAbs raw = false := by simpa using ha
        rw [if_neg ha, if_neg hs, join_eq hr, ← leads_rel ha', ← meta_iff]
        by_cases hm : hasMeta raw = true <;> simp [hm]
  simp only [parseGoWork, Option.map_eq_none_iff, key]
  constructor
  · rintro ⟨raw, h1, h2⟩; exact ⟨raw, h1, (one raw (hn raw h1)).mp h2⟩
  · rintro ⟨raw, h1, h2⟩; exact ⟨raw, h1, (one raw (hn raw h1)).mpr h2⟩

/-- The workspace in /w, with modules in /w/a, /w/b and /m. -/
def w0 : World := ⟨[[119]], [[], [[119]], [[119], [97]], [[119], [98]], [[109]]],
  fun d => if d = [[119], [97]] ∨ d = [[119], [98]] ∨ d = [[109]] then .reqs [] else .absent, fun _ => some []⟩

theorem sane_w0 : Sane w0 :=
  ⟨by intro c hc; simp only [w0, List.mem_singleton] at hc; subst hc; unfold Name; decide,
   by
    intro d hd c hc
    simp only [w0, List.mem_cons, List.not_mem_nil, or_false] at hd
    rcases hd with rfl | rfl | rfl | rfl | rfl <;> simp only [List.mem_cons, List.not_mem_nil, or_false] at hc <;>
      first | exact hc.elim | (rcases hc with rfl | rfl <;> (unfold Name; decide)),
   by intro p ms h _ m hm; simp only [w0, Option.some.injEq] at h; subst h; simp at hm⟩

theorem rooted_w : Rooted ⟨true, [[119]]⟩ := ⟨rfl, by intro c hc; simp only [List.mem_singleton] at hc; subst hc; unfold Name; decide⟩

/-- An absolute path with "...", here "/m/...", is looked for below the workspace root: the directory is there, but the file cannot be expanded. -/
theorem C98_absolute_violated : ∃ (w : World) (root : Pth) (raw : Bytes) (d : List Bytes), Sane w ∧ Rooted root ∧ Uses w root.comps raw d ∧
    parseGoWork w root (.use [raw]) = none :=
  ⟨w0, ⟨true, [[119]]⟩, [47, 109, 47, 46, 46, 46], [[109]], sane_w0, rooted_w,
    .below [47, 109, 47] _ rfl (by decide) (by decide) (by unfold HasMod; simp [w0]), by decide +kernel⟩

/-- "./a" and "./..." list the directory /w/a twice, once relative and once absolute. -/
theorem C98_twice_violated : ∃ (w : World) (root : Pth) (raws : List Bytes) (out : List Pth), Sane w ∧ Rooted root ∧
    parseGoWork w root (.use raws) = some out ∧ ¬ (out.map fun p => w.place (resolve root p)).Nodup :=
  ⟨w0, ⟨true, [[119]]⟩, [[46, 47, 97], [46, 47, 46, 46, 46]], [⟨true, [[119], [97]]⟩, ⟨true, [[119], [98]]⟩, ⟨false, [[97]]⟩], sane_w0, rooted_w,
    by decide +kernel, by decide +kernel⟩

/-- "./a", "../m/./x/.." and "./b/" in /w: two below the root and one outside. -/
example : parseGoWork w0 ⟨true, [[119]]⟩ (.use [[46, 47, 97], [46, 46, 47, 109, 47, 46, 47, 120, 47, 46, 46], [46, 47, 98, 47]]) =
    some [⟨false, [[46, 46], [109]]⟩, ⟨false, [[97]]⟩, ⟨false, [[98]]⟩] := by decide +kernel

/-- "./q/...", where /w/q does not exist. -/
example : parseGoWork w0 ⟨true, [[119]]⟩ (.use [[46, 47, 97], [46, 47, 113, 47, 46, 46, 46]]) = none ∧
    leads [[119]] [46, 47, 113, 47] ∉ w0.dirs := by decide +kernel

/-! ### C99 -/

/-- For relative entries without "...": the changes reported are exactly those between the go.mod files at the same place in both trees, for the
directories used by either file; the comparison fails only for a go.mod file that cannot be read. Missing: entries with "..." and absolute entries,
see below. -/
theorem C99_exact_partial (w : World) (hw : Sane w) (proj newRoot : Pth) (hp : Rooted proj) (hq : Rooted newRoot) (old new : List Bytes)
    (ho : ∀ raw ∈ old, Relative raw) (hn : ∀ raw ∈ new, Relative raw) (order : List Pth → List Pth) (hord : ∀ l, (order l).Perm l)
    (cs : List Module.Change) (h : compareWork w proj newRoot (.use old) (.use new) order = some cs) (c : Module.Change) :
    c ∈ cs ↔ ∃ q, ((∃ raw ∈ old, ∃ d, Uses w proj.comps raw d ∧ relComps proj.comps d = q) ∨ (∃ raw ∈ new, ∃ d, Uses w newRoot.comps raw d ∧ relComps newRoot.comps d = q)) ∧
      ∃ a b, w.mods (clean (proj.comps ++ q)) = .reqs a ∧ w.mods (clean (newRoot.comps ++ q)) = .reqs b ∧ Differs a b c := by
  unfold compareWork at h
  cases ha : parseGoWork w proj (.use old) with
  | none => rw [ha] at h; simp at h
  | some A =>
    cases hb : parseGoWork w newRoot (.use new) with
    | none => rw [ha, hb] at h; simp at h
    | some B =>
      rw [ha, hb] at h
      simp only at h
      rw [mem_compareDirs h c]
      obtain ⟨a1, a2, a3⟩ := parse_spec hw hp (fun raw hraw hx => (ho raw hraw).2 hx.2) ha
      obtain ⟨b1, b2, b3⟩ := parse_spec hw hq (fun raw hraw hx => (hn raw hraw).2 hx.2) hb
      have rel : ∀ {r p : Pth} {d}, Added r p d → p.abs = false → p = ⟨false, relComps r.comps d⟩ := by
        rintro r p d ⟨-, rfl | rfl⟩ hh
        · simp at hh
        · rfl
      have pl : ∀ (r : Pth), Rooted r → ∀ q, w.place (resolve r ⟨false, q⟩) = clean (r.comps ++ q) := by
        intro r hr q
        unfold resolve
        rw [if_neg (by simp), join_eq hr]
        rfl
      constructor
      · rintro ⟨p, hpm, x, y, h1, h2, h3⟩
        rw [(hord _).mem_iff, List.mem_dedup, List.mem_append] at hpm
        rcases hpm with hpm | hpm
        · obtain ⟨d, hd, raw, hraw, hu⟩ := a1 p hpm
          have e := rel hd (a3 ho p hpm)
          subst e
          rw [pl _ hp] at h1
          rw [pl _ hq] at h2
          exact ⟨_, Or.inl ⟨raw, hraw, d, hu, rfl⟩, x, y, h1, h2, (Module.C34_exact x y c).mp h3⟩
        · obtain ⟨d, hd, raw, hraw, hu⟩ := b1 p hpm
          have e := rel hd (b3 hn p hpm)
          subst e
          rw [pl _ hp] at h1
          rw [pl _ hq] at h2
          exact ⟨_, Or.inr ⟨raw, hraw, d, hu, rfl⟩, x, y, h1, h2, (Module.C34_exact x y c).mp h3⟩
      · rintro ⟨q, hu, x, y, h1, h2, h3⟩
        refine ⟨⟨false, q⟩, ?_, x, y, by rw [pl _ hp]; exact h1, by rw [pl _ hq]; exact h2, (Module.C34_exact x y c).mpr h3⟩
        rw [(hord _).mem_iff, List.mem_dedup, List.mem_append]
        rcases hu with ⟨raw, hraw, d, hu, rfl⟩ | ⟨raw, hraw, d, hu, rfl⟩
        · obtain ⟨p, h4, h5⟩ := a2 d raw hraw hu
          rw [← rel h5 (a3 ho p h4)]; exact Or.inl h4
        · obtain ⟨p, h4, h5⟩ := b2 d raw hraw hu
          rw [← rel h5 (b3 hn p h4)]; exact Or.inr h4

/-- The comparison does not fail if both files can be expanded and every go.mod file can be read. -/
theorem C99_error (w : World) (proj newRoot : Pth) (old new : WorkFile) (order : List Pth → List Pth)
    (h : compareWork w proj newRoot old new order = none) :
    parseGoWork w proj old = none ∨ parseGoWork w newRoot new = none ∨ ∃ d, w.mods d = .broken := by
  unfold compareWork at h
  cases ha : parseGoWork w proj old with
  | none => exact Or.inl rfl
  | some A =>
    cases hb : parseGoWork w newRoot new with
    | none => exact Or.inr (Or.inl rfl)
    | some B =>
      rw [ha, hb] at h
      obtain ⟨d, -, h1 | h1⟩ := compareDirs_none h
      · exact Or.inr (Or.inr ⟨_, h1⟩)
      · exact Or.inr (Or.inr ⟨_, h1⟩)

/-- If all entries are absolute or end in "...", nothing is ever reported, whatever changed: every go.mod file is compared with itself. -/
theorem C99_blind_violated (w : World) (hw : Sane w) (proj newRoot : Pth) (hp : Rooted proj) (hq : Rooted newRoot) (old new : List Bytes)
    (ho : ∀ raw ∈ old ++ new, raw.head? = some 47 ∨ dots <:+ raw) (hg : ∀ d rs, w.mods d = .reqs rs → (rs.map Module.Req.path).Nodup)
    (order : List Pth → List Pth) (hord : ∀ l, (order l).Perm l) (cs : List Module.Change)
    (h : compareWork w proj newRoot (.use old) (.use new) order = some cs) : cs = [] := by
  have habs : ∀ (root : Pth), Rooted root → ∀ raw, (raw.head? = some 47 ∨ dots <:+ raw) → ∀ l, entry w root raw = some l → ∀ p ∈ l, p.abs = true := by
    intro root hr raw hx l hl p hpl
    have hstart : ∀ s, Rooted ⟨true, clean (root.comps ++ splitPath s)⟩ := by
      intro s
      refine ⟨rfl, clean_names ?_⟩
      intro c hc
      rcases List.mem_append.mp hc with hc | hc
      · exact (hr.2 c hc).2.2.2
      · exact splitPath_no_slash _ c hc
    by_cases hs : hasEllipsis raw = true
    · have hk : walk w (root.join (splitPath (trimEllipsis raw))) = some l := by
        unfold entry at hl
        rw [if_pos hs, if_pos hs] at hl
        simpa using hl
      rw [join_eq hr] at hk
      exact ((mem_walk hw (hstart _) hk p).mp hpl).1
    · have ha : isAbs raw = true := by
        rcases hx with hx | hx
        · simpa [isAbs] using hx
        · exact absurd ((dots_suffix raw).mpr hx) hs
      unfold entry at hl
      rw [if_pos ha, if_neg hs] at hl
      have hpp : (parseP raw).abs = true := by unfold parseP mkP; exact ha
      split at hl
      · cases hgl : w.glob (parseP raw) with
        | none => rw [hgl] at hl; simp at hl
        | some ms =>
          rw [hgl] at hl
          simp only [Option.map_some, Option.some.injEq] at hl
          subst hl
          exact (hw.glob _ _ hgl hpp p (List.mem_of_mem_filter hpl)).1
      · simp only [Option.some.injEq] at hl
        subst hl
        simp only [List.mem_singleton] at hpl
        rw [hpl]; exact hpp
  have hparse : ∀ (root : Pth), Rooted root → ∀ raws : List Bytes, (∀ raw ∈ raws, raw.head? = some 47 ∨ dots <:+ raw) → ∀ out,
      parseGoWork w root (.use raws) = some out → ∀ p ∈ out, p.abs = true := by
    intro root hr raws hraws out hout p hpo
    simp only [parseGoWork, Option.map_eq_some_iff] at hout
    obtain ⟨l, hl, rfl⟩ := hout
    rw [mem_sortedSet, List.mem_map] at hpo
    obtain ⟨q, hql, rfl⟩ := hpo
    obtain ⟨raw, h1, a, h2, h3⟩ := (entries_mem hl q).mp hql
    exact habs root hr raw (hraws raw h1) a h2 q h3
  rw [List.eq_nil_iff_forall_not_mem]
  intro c hc
  unfold compareWork at h
  cases ha : parseGoWork w proj (.use old) with
  | none => rw [ha] at h; simp at h
  | some A =>
    cases hb : parseGoWork w newRoot (.use new) with
    | none => rw [ha, hb] at h; simp at h
    | some B =>
      rw [ha, hb] at h
      simp only at h
      obtain ⟨p, hpm, x, y, h1, h2, h3⟩ := (mem_compareDirs h c).mp hc
      rw [(hord _).mem_iff, List.mem_dedup, List.mem_append] at hpm
      have hpa : p.abs = true := by
        rcases hpm with hpm | hpm
        · exact hparse proj hp old (fun r hr => ho r (by simp [hr])) A ha p hpm
        · exact hparse newRoot hq new (fun r hr => ho r (by simp [hr])) B hb p hpm
      rw [resolve_abs hpa] at h1 h2
      rw [h1] at h2
      simp only [Module.ModFile.reqs.injEq] at h2
      subst h2
      exact diff_self (hg _ _ h1) c h3

/-- The project in /w and the updated workspace in /n, each with a module in the directory a: dependency x goes from 1 to 2. -/
def w1 : World := ⟨[[119]], [[], [[119]], [[119], [97]], [[110]], [[110], [97]]],
  fun d => if d = [[119], [97]] then .reqs [⟨[120], [49], false⟩] else if d = [[110], [97]] then .reqs [⟨[120], [50], false⟩] else .absent, fun _ => some []⟩

/-- Both workspaces use "./...": the change is not found. -/
theorem C99_ellipsis_violated : ∃ (w : World) (proj newRoot : Pth) (raw : Bytes) (d e : List Bytes) (a b : List Module.Req) (c : Module.Change),
    Rooted proj ∧ Rooted newRoot ∧ Uses w proj.comps raw d ∧ Uses w newRoot.comps raw e ∧ relComps proj.comps d = relComps newRoot.comps e ∧
    w.mods d = .reqs a ∧ w.mods e = .reqs b ∧ Differs a b c ∧ compareWork w proj newRoot (.use [raw]) (.use [raw]) id = some [] :=
  ⟨w1, ⟨true, [[119]]⟩, ⟨true, [[110]]⟩, [46, 47, 46, 46, 46], [[119], [97]], [[110], [97]], [⟨[120], [49], false⟩], [⟨[120], [50], false⟩], ⟨[120], [49], [50], false⟩,
    rooted_w, ⟨rfl, by intro c hc; simp only [List.mem_singleton] at hc; subst hc; unfold Name; decide⟩,
    .below [46, 47] _ rfl (by decide) (by decide) (by unfold HasMod; simp [w1]), .below [46, 47] _ rfl (by decide) (by decide) (by unfold HasMod; simp [w1]),
    by decide, by simp [w1], by simp [w1],
    ⟨⟨[120], [50], false⟩, by simp, rfl, rfl, rfl, ⟨[], ⟨[120], [49], false⟩, [], rfl, rfl, rfl, by simp⟩, by decide⟩, by decide +kernel⟩

/-- "use ./a" finds the change, "use ./..." does not. -/
example : compareWork w1 ⟨true, [[119]]⟩ ⟨true, [[110]]⟩ (.use [[46, 47, 97]]) (.use [[46, 47, 97]]) id = some [⟨[120], [49], [50], false⟩] ∧
    compareWork w1 ⟨true, [[119]]⟩ ⟨true, [[110]]⟩ (.use [[46, 47, 46, 46, 46]]) (.use [[46, 47, 46, 46, 46]]) id = some [] := by decide +kernel

/-- An updated go.work given by a relative path, in the directory n of the working directory: "./..." finds n/a, which is then looked for in n/n/a. -/
example : compareWork { w1 with cwd := [] } ⟨true, [[119]]⟩ ⟨false, [[110]]⟩ (.use [[46, 47, 98]]) (.use [[46, 47, 46, 46, 46]]) id = some [] := by decide +kernel

/-! ### C100 -/

/-- A relative path leads from the working directory: names below it, ".." above it. -/
theorem C100_relative (w : World) (hw : Sane w) (n : Nat) (cs : List Bytes) (h : Names cs) :
    w.place ⟨false, cs⟩ = w.cwd ++ cs ∧ w.place ⟨false, List.replicate n [46, 46] ++ cs⟩ = w.cwd.take (w.cwd.length - n) ++ cs := by
  have gen : ∀ n, w.place ⟨false, List.replicate n [46, 46] ++ cs⟩ = w.cwd.take (w.cwd.length - n) ++ cs := by
    intro n
    show clean (w.cwd ++ _) = _
    rw [clean_append hw.cwd, cleanRev_dotdots, cleanRev_keep cs _ h, List.reverse_append, List.reverse_reverse, List.drop_reverse, List.reverse_reverse]
  have := gen 0
  rw [List.replicate_zero, List.nil_append, Nat.sub_zero, List.take_length] at this
  exact ⟨this, gen n⟩

/-- The go.mod files found are the one at the root and those of directories the workspace names, if they exist, each once, in order of their names. For
workspaces without absolute paths with "..." (see C98). -/
theorem C100_files_partial (w : World) (hw : Sane w) (proj : Pth) (hp : Rooted proj) (work : WorkFile) (raws : List Bytes)
    (hwork : work = .absent ∧ raws = [] ∨ work = .use raws) (hn : ∀ raw ∈ raws, ¬ AbsEllipsis raw) (out : List Pth) (h : goModDirs w proj work = some out) :
    (∀ d : List Bytes, ⟨true, d⟩ ∈ out ↔ HasMod w d ∧ (d = proj.comps ∨ ∃ raw ∈ raws, Uses w proj.comps raw d)) ∧ (∀ p ∈ out, Rooted p) ∧
    out.Nodup ∧ out.Pairwise fun a b => render (a.join ["go.mod".toUTF8.toList]) ≤ render (b.join ["go.mod".toUTF8.toList]) := by
  have hgm : "go.mod".toUTF8.toList = goMod := by decide +kernel
  rw [hgm]
  refine ⟨?_, goModDirs_rooted hw hp h, ?_⟩
  · intro d
    have hproj : proj = ⟨true, proj.comps⟩ := by have := hp.1; cases proj; simp_all
    rw [mem_goModDirs h]
    constructor
    · rintro (⟨h1, h2⟩ | ⟨ds, h1, p, h2, h3, h4⟩)
      · rw [hasMod_iff w hp.1] at h2
        rw [← h1] at h2
        exact ⟨h2, Or.inl (by rw [← h1])⟩
      · rcases hwork with ⟨rfl, -⟩ | rfl
        · simp [parseGoWork] at h1
        · refine ⟨(hasMod_iff w rfl).mp h4, Or.inr ?_⟩
          have := (C98_exact_partial w hw proj hp raws hn ds h1 d).mp ⟨p, h2, by rw [h3]; rfl⟩
          exact this
    · rintro ⟨h1, rfl | h2⟩
      · exact Or.inl ⟨hproj.symm, (hasMod_iff w hp.1).mpr h1⟩
      · rcases hwork with ⟨-, rfl⟩ | rfl
        · simp at h2
        · right
          cases hpw : parseGoWork w proj (.use raws) with
          | none => simp [goModDirs, hpw] at h
          | some ds =>
            obtain ⟨raw, hraw, hu⟩ := h2
            obtain ⟨p, h4, h5⟩ := (parse_spec hw hp hn hpw).2.1 d raw hraw hu
            exact ⟨ds, rfl, p, h4, added_resolve hp h5, (hasMod_iff w rfl).mpr h1⟩
  · obtain ⟨ps, rfl⟩ := goModDirs_form h
    exact ⟨nodup_sortedSet _ _, sorted_sortedSet _ _⟩

/-- A workspace with "/m/..." (see C98): the module is there, and the project has no patterns at all. -/
theorem C100_absolute_violated : ∃ (w : World) (proj : Pth) (raw : Bytes) (d : List Bytes), Sane w ∧ Rooted proj ∧ Uses w proj.comps raw d ∧ HasMod w d ∧
    goModDirs w proj (.use [raw]) = none :=
  ⟨w0, ⟨true, [[119]]⟩, [47, 109, 47, 46, 46, 46], [[109]], sane_w0, rooted_w,
    .below [47, 109, 47] _ rfl (by decide) (by decide) (by unfold HasMod; simp [w0]), by unfold HasMod; simp [w0], by decide +kernel⟩

/-- There is one pattern for each go.mod file, and it stands for exactly the directory of that file, inside or outside the project directory. -/
theorem C100_patterns (w : World) (hw : Sane w) (proj : Pth) (hp : Rooted proj) (work : WorkFile) (out : List Pth) (h : goModDirs w proj work = some out) :
    ∃ pats, patterns w proj work = some pats ∧ List.Forall₂ (fun (d : Pth) pat => Means proj.comps pat d.comps) out pats := by
  refine ⟨out.map (pattern proj), by unfold patterns; rw [h]; rfl, ?_⟩
  have hr := goModDirs_rooted hw hp h
  clear h
  induction out with
  | nil => exact .nil
  | cons d ds ih => exact .cons (pattern_means hp (hr d (by simp))) (ih fun x hx => hr x (by simp [hx]))

/-- There is an error if there is neither a go.mod nor a go.work file, or the go.work file cannot be read or expanded, and only then. -/
theorem C100_error (w : World) (proj : Pth) (work : WorkFile) :
    goModDirs w proj work = none ↔ (work = .absent ∧ w.hasMod proj = false) ∨ (work ≠ .absent ∧ parseGoWork w proj work = none) := by
  cases work with
  | absent => by_cases hm : w.hasMod proj = true <;> simp [goModDirs, hm]
  | broken => simp [goModDirs, parseGoWork]
  | use raws =>
    cases hpw : parseGoWork w proj (.use raws) <;> simp [goModDirs, hpw]

/-- Modules at the root, below, in a directory "..x" of the project and outside. -/
example : (pattern ⟨true, [[119]]⟩ ⟨true, [[119]]⟩, pattern ⟨true, [[119]]⟩ ⟨true, [[119], [97], [98]]⟩, pattern ⟨true, [[119]]⟩ ⟨true, [[119], [46, 46, 120]]⟩,
    pattern ⟨true, [[119]]⟩ ⟨true, [[109]]⟩) =
    ([46, 47, 46, 46, 46], [46, 47, 97, 47, 98, 47, 46, 46, 46], [47, 119, 47, 46, 46, 120, 47, 46, 46, 46], [47, 109, 47, 46, 46, 46]) := by decide +kernel

/-- The modules of /w: a, b and, outside, /m. -/
example : goModDirs w0 ⟨true, [[119]]⟩ (.use [[46, 47, 98], [46, 47, 97], [47, 109], [46, 47, 99]]) =
    some [⟨true, [[109]]⟩, ⟨true, [[119], [97]]⟩, ⟨true, [[119], [98]]⟩] := by decide +kernel

/-! ### C101 -/

open Classical in
/-- The analysis of modules given on the command line starts with exactly those some go.mod file of the project requires, in the order given, with the
version asked for as new version, and a version some go.mod file requires as prior version. -/
theorem C101_targets (w : World) (proj : Pth) (work : WorkFile) (mods : List Pth) (hm : goModDirs w proj work = some mods) (hg : GoodMods w (mods.map w.place))
    (ask : Ask) (hne : ask.modules ≠ []) (order : List Pth → List Pth) (cs : List Module.Change) (b : Bool) (h : initial w proj work ask order = some (cs, b)) :
    b = true ∧ cs.map (fun c => (c.name, c.new)) = ask.modules.filter (fun a => ∃ v, RequiredIn w (mods.map w.place) a.1 v) ∧
    ∀ c ∈ cs, RequiredIn w (mods.map w.place) c.name c.prior := by
  unfold initial at h
  rw [hm] at h
  simp only at h
  rw [if_pos hne, Option.map_eq_some_iff] at h
  obtain ⟨cs', h1, h2⟩ := h
  simp only [Prod.mk.injEq] at h2
  obtain ⟨rfl, rfl⟩ := h2
  refine ⟨rfl, ?_⟩
  generalize ask.modules = asks at h1
  clear hne hm
  induction asks generalizing cs' with
  | nil => simp only [targets, Option.some.injEq] at h1; subst h1; simp
  | cons a asks ih =>
    obtain ⟨name, version⟩ := a
    simp only [targets] at h1
    cases hf : findVersion w name mods with
    | none => rw [hf] at h1; simp at h1
    | some o =>
      rw [hf] at h1
      cases o with
      | none =>
        obtain ⟨e1, e2⟩ := ih cs' h1
        have hno : ¬ ∃ v, RequiredIn w (mods.map w.place) name v := fun ⟨v, hv⟩ => findVersion_none hf hg v hv
        refine ⟨?_, e2⟩
        rw [List.filter_cons, if_neg (by simpa using hno)]
        exact e1
      | some r =>
        simp only [Option.map_eq_some_iff] at h1
        obtain ⟨rest, hr, rfl⟩ := h1
        obtain ⟨e1, e2⟩ := ih rest hr
        obtain ⟨q1, q2, d, q3, rs, q4, q5⟩ := findVersion_some hf
        have hreq : RequiredIn w (mods.map w.place) name r.version := ⟨w.place d, List.mem_map_of_mem q3, rs, q4, r, q5, q1, rfl⟩
        refine ⟨?_, ?_⟩
        · rw [List.filter_cons, if_pos (by simpa using ⟨_, hreq⟩)]
          simp [e1]
        · intro c hc
          rcases List.mem_cons.mp hc with rfl | hc
          · exact hreq
          · exact e2 c hc

/-- If the go.mod files that require a module agree on its version, that is the prior version. Missing: workspaces whose modules require different
versions, see below. -/
theorem C101_prior_partial (w : World) (proj : Pth) (work : WorkFile) (mods : List Pth) (hm : goModDirs w proj work = some mods) (hg : GoodMods w (mods.map w.place))
    (ask : Ask) (hne : ask.modules ≠ []) (order : List Pth → List Pth) (cs : List Module.Change) (b : Bool) (h : initial w proj work ask order = some (cs, b))
    (c : Module.Change) (hc : c ∈ cs) (hag : ∀ v v', RequiredIn w (mods.map w.place) c.name v → RequiredIn w (mods.map w.place) c.name v' → v = v') :
    ∀ v, RequiredIn w (mods.map w.place) c.name v ↔ v = c.prior := by
  have := (C101_targets w proj work mods hm hg ask hne order cs b h).2.2 c hc
  exact fun v => ⟨fun hv => hag v c.prior hv this, fun hv => hv ▸ this⟩

/-- The modules a and b of /w require x in version v1.1.0 and v1.2.0. -/
def w2 : World := ⟨[], [[], [[119]], [[119], [97]], [[119], [98]]],
  fun d => if d = [[119], [97]] then .reqs [⟨[120], [118, 49, 46, 49, 46, 48], false⟩]
    else if d = [[119], [98]] then .reqs [⟨[120], [118, 49, 46, 50, 46, 48], false⟩] else .absent, fun _ => some []⟩

/-- The prior version is that of the go.mod file whose name comes first, not the highest, which is the one the workspace is built with. -/
theorem C101_prior_violated : ∃ (w : World) (proj : Pth) (work : WorkFile) (mods : List Pth) (ask : Ask) (c : Module.Change) (v : Bytes), Rooted proj ∧
    goModDirs w proj work = some mods ∧ GoodMods w (mods.map w.place) ∧ initial w proj work ask id = some ([c], true) ∧
    RequiredIn w (mods.map w.place) c.name v ∧ Module.compareSem c.prior v < 0 ∧ Module.compareSem v c.new < 0 := by
  refine ⟨w2, ⟨true, [[119]]⟩, .use [[46, 47, 97], [46, 47, 98]], [⟨true, [[119], [97]]⟩, ⟨true, [[119], [98]]⟩],
    ⟨[([120], [118, 49, 46, 51, 46, 48])], none, none⟩, ⟨[120], [118, 49, 46, 49, 46, 48], [118, 49, 46, 51, 46, 48], false⟩, [118, 49, 46, 50, 46, 48], rooted_w, by decide +kernel, ?_,
    by decide +kernel, ?_, by decide +kernel, by decide +kernel⟩
  · intro d hd rs hrs
    simp only [World.place, List.map_cons, if_true, List.map_nil, List.mem_cons, List.not_mem_nil, or_false] at hd
    rcases hd with rfl | rfl <;> simp [w2] at hrs <;> subst hrs <;> simp
  · exact ⟨[[119], [98]], by decide +kernel, [⟨[120], [118, 49, 46, 50, 46, 48], false⟩], by simp [w2], ⟨[120], [118, 49, 46, 50, 46, 48], false⟩, by simp, rfl, rfl⟩

/-! ### C144 -/

/-- The patterns given to the static analysis stand for the project directory, if it has a go.mod file, and the directories the workspace names, and for nothing else.
For workspaces without absolute paths with "..." (see C98). -/
theorem C144_patterns_partial (w : World) (hw : Sane w) (proj : Pth) (hp : Rooted proj) (work : WorkFile) (raws : List Bytes)
    (hwork : work = .absent ∧ raws = [] ∨ work = .use raws) (hn : ∀ raw ∈ raws, ¬ AbsEllipsis raw) (pats : List Bytes) (h : graphPatterns w proj work = some pats) :
    (∀ pat ∈ pats, ∃ d, Means proj.comps pat d) ∧
    ∀ d : List Bytes, (∃ pat ∈ pats, Means proj.comps pat d) ↔ (HasMod w proj.comps ∧ d = proj.comps) ∨ ∃ raw ∈ raws, Uses w proj.comps raw d := by
  have hroot : ∀ pat ∈ (if w.hasMod proj then [[46, 47] ++ dots] else []), HasMod w proj.comps ∧ Means proj.comps pat proj.comps := by
    intro pat hpat
    by_cases hm : w.hasMod proj = true
    · rw [if_pos hm, List.mem_singleton] at hpat
      subst hpat
      exact ⟨(hasMod_iff w hp.1).mp hm, means_root hp⟩
    · rw [if_neg hm] at hpat
      cases hpat
  have hroot' : HasMod w proj.comps → [46, 47] ++ dots ∈ (if w.hasMod proj then [[46, 47] ++ dots] else []) := by
    intro hm
    rw [if_pos ((hasMod_iff w hp.1).mpr hm)]
    simp
  rcases hwork with ⟨rfl, rfl⟩ | rfl
  · have e : pats = (if w.hasMod proj then [[46, 47] ++ dots] else []) := by
      unfold graphPatterns at h
      dsimp only at h
      generalize (if w.hasMod proj then [[46, 47] ++ dots] else []) = r at h ⊢
      split at h
      · cases h
      · exact (Option.some.inj h).symm
    rw [e]
    refine ⟨fun pat hpat => ⟨_, (hroot pat hpat).2⟩, fun d => ⟨?_, ?_⟩⟩
    · rintro ⟨pat, h1, h2⟩
      exact .inl ⟨(hroot pat h1).1, means_unique h2 (hroot pat h1).2⟩
    · rintro (⟨h1, rfl⟩ | ⟨raw, h1, _⟩)
      · exact ⟨_, hroot' h1, means_root hp⟩
      · cases h1
  · cases hpw : parseGoWork w proj (.use raws) with
    | none => simp [graphPatterns, hpw] at h
    | some ds =>
      have e : pats = (if w.hasMod proj then [[46, 47] ++ dots] else []) ++ ds.map graphPattern := by
        unfold graphPatterns at h
        rw [hpw] at h
        dsimp only at h
        generalize (if w.hasMod proj then [[46, 47] ++ dots] else []) = r at h ⊢
        split at h
        · cases h
        · exact (Option.some.inj h).symm
      obtain ⟨s1, s2, _⟩ := parse_spec hw hp hn hpw
      have hds : ∀ pat ∈ ds.map graphPattern, ∃ d, Means proj.comps pat d ∧ ∃ raw ∈ raws, Uses w proj.comps raw d := by
        intro pat hpat
        obtain ⟨p, hp1, rfl⟩ := List.mem_map.mp hpat
        obtain ⟨d, ha, hu⟩ := s1 p hp1
        exact ⟨d, graph_means hp ha, hu⟩
      rw [e]
      refine ⟨fun pat hpat => ?_, fun d => ⟨?_, ?_⟩⟩
      · rcases List.mem_append.mp hpat with hpat | hpat
        · exact ⟨_, (hroot pat hpat).2⟩
        · obtain ⟨d, hd, _⟩ := hds pat hpat
          exact ⟨d, hd⟩
      · rintro ⟨pat, h1, h2⟩
        rcases List.mem_append.mp h1 with h1 | h1
        · exact .inl ⟨(hroot pat h1).1, means_unique h2 (hroot pat h1).2⟩
        · obtain ⟨d', hd, hu⟩ := hds pat h1
          rw [means_unique h2 hd]
          exact .inr hu
      · rintro (⟨h1, rfl⟩ | ⟨raw, h1, h2⟩)
        · exact ⟨_, List.mem_append_left _ (hroot' h1), means_root hp⟩
        · obtain ⟨p, hp1, ha⟩ := s2 d raw h1 h2
          exact ⟨_, List.mem_append_right _ (List.mem_map.mpr ⟨p, hp1, rfl⟩), graph_means hp ha⟩

/-- The static analysis looks at the directories whose tests are run, if all directories the workspace names have a go.mod file. -/
theorem C144_agree_partial (w : World) (hw : Sane w) (proj : Pth) (hp : Rooted proj) (work : WorkFile) (raws : List Bytes)
    (hwork : work = .absent ∧ raws = [] ∨ work = .use raws) (hn : ∀ raw ∈ raws, ¬ AbsEllipsis raw) (hm : ∀ raw ∈ raws, ∀ d, Uses w proj.comps raw d → HasMod w d)
    (gs ps : List Bytes) (hg : graphPatterns w proj work = some gs) (hps : patterns w proj work = some ps) (d : List Bytes) :
    (∃ pat ∈ gs, Means proj.comps pat d) ↔ ∃ pat ∈ ps, Means proj.comps pat d := by
  rw [(C144_patterns_partial w hw proj hp work raws hwork hn gs hg).2 d]
  obtain ⟨out, ho⟩ : ∃ out, goModDirs w proj work = some out := by
    cases e : goModDirs w proj work with
    | none => simp [patterns, e] at hps
    | some out => exact ⟨out, rfl⟩
  obtain ⟨ps', e, hf⟩ := C100_patterns w hw proj hp work out ho
  rw [hps] at e
  cases e
  obtain ⟨hmem, hr, hx⟩ := C100_files_partial w hw proj hp work raws hwork hn out ho
  clear hx
  have key : (∃ pat ∈ ps, Means proj.comps pat d) ↔ (⟨true, d⟩ : Pth) ∈ out := by
    clear hmem ho hps hg
    induction hf with
    | nil => simp
    | @cons p pat l l' a _ ih =>
      have ih := ih fun p hp => hr p (by simp [hp])
      have hp' := hr p (by simp)
      simp only [List.mem_cons, exists_eq_or_imp]
      constructor
      · rintro (h | h)
        · left
          rw [means_unique h a]
          cases p
          simp_all [Rooted]
        · exact .inr (ih.mp h)
      · rintro (h | h)
        · left
          rw [← h] at a
          exact a
        · exact .inr (ih.mpr h)
  rw [key, hmem d]
  constructor
  · rintro (⟨h1, rfl⟩ | ⟨raw, h1, h2⟩)
    · exact ⟨h1, .inl rfl⟩
    · exact ⟨hm raw h1 d h2, .inr ⟨raw, h1, h2⟩⟩
  · rintro ⟨h1, rfl | h2⟩
    · exact .inl ⟨h1, rfl⟩
    · exact .inr h2

/-- There is an error if the workspace cannot be read or expanded, or there is nothing to look at, and only then. -/
theorem C144_error (w : World) (proj : Pth) (work : WorkFile) :
    graphPatterns w proj work = none ↔ (work ≠ .absent ∧ parseGoWork w proj work = none) ∨
      (w.hasMod proj = false ∧ (work = .absent ∨ parseGoWork w proj work = some [])) := by
  cases work with
  | absent => by_cases hm : w.hasMod proj = true <;> simp [graphPatterns, hm]
  | broken => simp [graphPatterns, parseGoWork]
  | use raws =>
    cases hpw : parseGoWork w proj (.use raws) <;> by_cases hm : w.hasMod proj = true <;> simp [graphPatterns, hpw, hm]

/-- A directory named by the workspace that has no go.mod file is looked at by the static analysis, and its tests are not run. -/
theorem C144_agree_violated : ∃ (w : World) (proj : Pth) (raw : Bytes) (gs ps : List Bytes) (d : List Bytes), Sane w ∧ Rooted proj ∧
    graphPatterns w proj (.use [raw]) = some gs ∧ patterns w proj (.use [raw]) = some ps ∧ (∃ pat ∈ gs, Means proj.comps pat d) ∧ ¬ ∃ pat ∈ ps, Means proj.comps pat d :=
  ⟨w0, ⟨true, [[119]]⟩, [46, 47, 99], [[46, 47, 99, 47, 46, 46, 46]], [], [[119], [99]], sane_w0, rooted_w, by decide +kernel, by decide +kernel,
    ⟨_, List.mem_singleton.mpr rfl, [46, 47, 99], rfl, Or.inr (Or.inl ⟨_, rfl⟩), by decide +kernel⟩, by simp⟩

/-- A module below the root, one outside, and one with an absolute path. -/
example : graphPatterns w0 ⟨true, [[119]]⟩ (.use [[46, 47, 98], [46, 46, 47, 109], [47, 119, 47, 97]]) =
    some [[46, 47, 46, 46, 47, 109, 47, 46, 46, 46], [47, 119, 47, 97, 47, 46, 46, 46], [46, 47, 98, 47, 46, 46, 46]] := by decide +kernel

end Verif.Workspace
