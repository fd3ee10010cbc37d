import Verif.Outside.Lemmas

/-! Property C173. -/

namespace Verif.Outside
open Verif Verif.Monitor
open Verif.Result (Bytes)

/-- A file of a module in the cache of GOPATH, or in a cache at its usual place elsewhere, is reported by its module, version and path there. Missing: other places of the cache. -/
theorem C173_module_partial (cwd : List Bytes) (dir gopath root rest : Bytes) (hf : First root)
    (hd : ¬ Util.Within (Util.absClean cwd (root ++ cacheDir ++ rest)) (Util.absClean cwd dir))
    (hg : (gopath = root ∧ root.getLast? ≠ some 47) ∨ ¬ Util.Within (Util.absClean cwd (root ++ cacheDir ++ rest)) (Util.absClean cwd gopath))
    (hr : ¬ [46, 47] <+: rest) : trimStackFile cwd dir gopath (root ++ cacheDir ++ rest) = some rest := by
  have hne : cacheDir ≠ [] := by decide +kernel
  have h1 : (afterFirst pkgMod (root ++ cacheDir ++ rest)).getD (root ++ cacheDir ++ rest) = rest := by
    rw [pkgMod_eq, afterFirst_first hne hf]; rfl
  have h0 : (afterFirst pkgMod (cacheDir ++ rest)).getD (cacheDir ++ rest) = rest := by
    have := afterFirst_first (root := []) (rest := rest) hne fun x y e => by
      have := congrArg List.length e
      have hl : cacheDir.length = 9 := by decide +kernel
      simp [hl] at this
      omega
    rw [pkgMod_eq]
    simp only [List.nil_append] at this
    rw [this]; rfl
  have hdot : ¬ dotSlash.isPrefixOf rest = true := fun e => hr (List.isPrefixOf_iff_prefix.1 e)
  unfold trimStackFile
  rw [if_neg fun e => within_no hd e.2]
  unfold trimExternal trimGoroot
  split
  · rename_i hin
    rcases hg with ⟨rfl, hl⟩ | hg
    · rw [if_neg hl, if_pos (by simp)]
      simp only [Option.map_some, List.append_assoc, List.drop_left]
      rw [h0, if_neg hdot]
    · exact absurd hin.2 (within_no hg)
  · simp only [Option.map_some]
    rw [h1, if_neg hdot]

/-- So what is reported of a module does not depend on the place of GOPATH. -/
theorem C173_places_partial (cwd : List Bytes) (dir dir' root root' rest : Bytes) (hf : First root) (hf' : First root') (hl : root.getLast? ≠ some 47) (hl' : root'.getLast? ≠ some 47)
    (hd : ¬ Util.Within (Util.absClean cwd (root ++ cacheDir ++ rest)) (Util.absClean cwd dir))
    (hd' : ¬ Util.Within (Util.absClean cwd (root' ++ cacheDir ++ rest)) (Util.absClean cwd dir')) (hr : ¬ [46, 47] <+: rest) :
    trimStackFile cwd dir root (root ++ cacheDir ++ rest) = trimStackFile cwd dir' root' (root' ++ cacheDir ++ rest) := by
  rw [C173_module_partial cwd dir root root rest hf hd (Or.inl ⟨rfl, hl⟩) hr, C173_module_partial cwd dir' root' root' rest hf' hd' (Or.inl ⟨rfl, hl'⟩) hr]

/-- C173 fails for the standard library: as GOPATH is passed in place of GOROOT, the path of any file outside of the project, GOPATH and module caches is reported as it is,
with the place of the Go installation in it. -/
theorem C173_std_violated (cwd : List Bytes) (dir gopath file : Bytes) (hn : NoCache file) (hd : ¬ Util.Within (Util.absClean cwd file) (Util.absClean cwd dir))
    (hg : ¬ Util.Within (Util.absClean cwd file) (Util.absClean cwd gopath)) (hs : ¬ [46, 47] <+: file) : trimStackFile cwd dir gopath file = some file := by
  have hne : cacheDir ≠ [] := by decide +kernel
  unfold trimStackFile
  rw [if_neg fun e => within_no hd e.2]
  unfold trimExternal trimGoroot
  rw [if_neg fun e => within_no hg e.2]
  simp only [Option.map_some]
  rw [pkgMod_eq, afterFirst_none hne hn]
  simp only [Option.getD_none]
  have hs' : ¬ dotSlash.isPrefixOf file = true := fun e => hs (List.isPrefixOf_iff_prefix.1 e)
  rw [if_neg hs']

/-- It would not be if GOROOT were passed: then files of the library are reported relative to it. -/
theorem C173_std_meant (cwd : List Bytes) (hc : ∀ c ∈ cwd, Util.Name c) (dir goroot rest : Bytes) (tail : List Bytes) (hg : goroot ≠ []) (hl : goroot.getLast? ≠ some 47)
    (ht : Util.absClean cwd (goroot ++ 47 :: rest) = Util.absClean cwd goroot ++ tail) (hdot : ∀ c cs, tail = c :: cs → ¬ [46, 46] <+: c)
    (hn : NoCache (47 :: rest)) (hd : ¬ Util.Within (Util.absClean cwd (goroot ++ 47 :: rest)) (Util.absClean cwd dir)) :
    trimStackFile cwd dir goroot (goroot ++ 47 :: rest) = some (47 :: rest) := by
  have hne : cacheDir ≠ [] := by decide +kernel
  have hin : Util.fileWithinDir cwd (goroot ++ 47 :: rest) goroot = true := by
    rw [Util.C58_within_partial cwd hc]
    · exact ⟨tail, ht.symm⟩
    · intro c cs h
      rw [ht] at h
      exact hdot c cs (List.append_cancel_left h)
  unfold trimStackFile
  rw [if_neg fun e => within_no hd e.2]
  unfold trimExternal trimGoroot
  rw [if_pos ⟨hg, hin⟩, if_neg hl]
  simp only
  rw [if_pos (by simp)]
  simp only [Option.map_some, List.drop_left]
  rw [pkgMod_eq, afterFirst_none hne hn]
  simp only [Option.getD_none]
  rw [if_neg]
  intro e
  have := List.isPrefixOf_iff_prefix.1 e
  simp [dotSlash] at this

/-- The same holds for a root written with a final slash: the slash stays in the reported path. -/
theorem C173_std_slash (cwd : List Bytes) (hc : ∀ c ∈ cwd, Util.Name c) (dir goroot rest : Bytes) (tail : List Bytes)
    (ht : Util.absClean cwd (goroot ++ 47 :: rest) = Util.absClean cwd (goroot ++ [47]) ++ tail) (hdot : ∀ c cs, tail = c :: cs → ¬ [46, 46] <+: c)
    (hn : NoCache (47 :: rest)) (hd : ¬ Util.Within (Util.absClean cwd (goroot ++ 47 :: rest)) (Util.absClean cwd dir)) :
    trimStackFile cwd dir (goroot ++ [47]) (goroot ++ 47 :: rest) = some (47 :: rest) := by
  have hne : cacheDir ≠ [] := by decide +kernel
  have hin : Util.fileWithinDir cwd (goroot ++ 47 :: rest) (goroot ++ [47]) = true := by
    rw [Util.C58_within_partial cwd hc]
    · exact ⟨tail, ht.symm⟩
    · intro c cs h
      rw [ht] at h
      exact hdot c cs (List.append_cancel_left h)
  unfold trimStackFile
  rw [if_neg fun e => within_no hd e.2]
  unfold trimExternal trimGoroot
  rw [if_pos ⟨by simp, hin⟩, if_pos (by simp)]
  simp only
  rw [if_pos (by simp)]
  simp only [List.length_append, List.length_cons, List.length_nil, Nat.zero_add, Nat.add_sub_cancel, Option.map_some, List.drop_left]
  rw [pkgMod_eq, afterFirst_none hne hn]
  simp only [Option.getD_none]
  rw [if_neg]
  intro e
  have := List.isPrefixOf_iff_prefix.1 e
  simp [dotSlash] at this

/-! ### A case -/

def b (s : String) : Bytes := s.toUTF8.toList

/-- C173 fails for a module cache at another place (GOMODCACHE), and for one below a directory that looks like a cache. -/
theorem C173_cache_violated : (∃ cache rest : Bytes, trimStackFile [] (b "/p") (b "/home/u/go") (cache ++ 47 :: rest) = some (cache ++ 47 :: rest)) ∧
    ∃ root rest : Bytes, trimStackFile [] (b "/p") root (root ++ cacheDir ++ rest) = some rest ∧ trimStackFile [] (b "/p") (b "/home/u/go") (root ++ cacheDir ++ rest) ≠ some rest :=
  ⟨⟨b "/cache", b "m@v1.0.0/a.go", by decide +kernel⟩, b "/pkg/mod/x", b "m@v1.0.0/a.go", by decide +kernel, by decide +kernel⟩

example : trimStackFile [] (b "/p") (b "/home/u/go") (b "/home/u/go" ++ cacheDir ++ b "m@v1.0.0/a.go") = some (b "m@v1.0.0/a.go") ∧
    trimStackFile [] (b "/p") (b "/home/u/go") (b "/usr/local/go/src/fmt/print.go") = some (b "/usr/local/go/src/fmt/print.go") ∧
    trimStackFile [] (b "/p") (b "/usr/local/go") (b "/usr/local/go" ++ 47 :: b "src/fmt/print.go") = some (b "/src/fmt/print.go") ∧
    trimStackFile [] (b "/p") (b "/usr/local/go" ++ [47]) (b "/usr/local/go" ++ 47 :: b "src/fmt/print.go") = some (b "/src/fmt/print.go") := by decide +kernel

/-- The cache of a user is the first one: its path has nothing but short names. -/
example : First (b "/g") := by
  intro x y e
  have hl : cacheDir.length = 9 := by decide +kernel
  have hb : (b "/g").length = 2 := by decide +kernel
  have := congrArg List.length e
  simp only [List.length_append, List.length_dropLast, hl, hb] at this
  have hx : x.length = 0 ∨ x.length = 1 := by omega
  have h := congrArg (fun l => (l.drop x.length).take 9) e
  simp only [List.append_assoc, List.drop_left] at h
  rw [List.take_left' hl] at h
  rcases hx with hx | hx <;> rw [hx] at h <;> revert h <;> decide +kernel

end Verif.Outside
