import Verif.Workspace.Model
import Verif.Util.Spec
import Verif.Module.Spec

/-!
What the entries of a workspace file mean, in terms of places: lists of names from the root of the file system.
-/

namespace Verif.Workspace
open Verif Verif.Util

/-- The names of a path to somewhere. -/
def Names (cs : List Bytes) : Prop := ∀ c ∈ cs, Name c

/-- A cleaned absolute path. -/
def Rooted (p : Pth) : Prop := p.abs = true ∧ Names p.comps

/-- Directories have proper names, and `filepath.Glob` gives cleaned absolute paths for absolute patterns. -/
structure Sane (w : World) : Prop where
  cwd : Names w.cwd
  dirs : ∀ d ∈ w.dirs, Names d
  glob : ∀ p ms, w.glob p = some ms → p.abs = true → ∀ m ∈ ms, Rooted m

/-- There is a go.mod file. -/
def HasMod (w : World) (d : List Bytes) : Prop := (match w.mods d with | .absent => False | _ => True)

/-- Where the path of an entry leads, from the directory `root`. -/
def leads (root : List Bytes) (path : Bytes) : List Bytes := absClean root path

/-- The path contains one of the characters *, ?, [ and ]. -/
def IsGlob (raw : Bytes) : Prop := 42 ∈ raw ∨ 63 ∈ raw ∨ 91 ∈ raw ∨ 93 ∈ raw

/-- The directories an entry of a workspace file in `root` names. -/
inductive Uses (w : World) (root : List Bytes) (raw : Bytes) : List Bytes → Prop
  | plain : ¬ dots <:+ raw → ¬ IsGlob raw → Uses w root raw (leads root raw)
  | glob (ms : List Pth) (m : Pth) : ¬ dots <:+ raw → IsGlob raw → w.glob ⟨true, leads root raw⟩ = some ms → m ∈ ms → m.comps ∈ w.dirs →
      Uses w root raw m.comps
  | below (pre : Bytes) (d : List Bytes) : raw = pre ++ dots → leads root pre <+: d → d ∈ w.dirs → HasMod w d → Uses w root raw d

/-- An absolute path with "...". -/
def AbsEllipsis (raw : Bytes) : Prop := raw.head? = some 47 ∧ dots <:+ raw

/-- A relative path without "...". -/
def Relative (raw : Bytes) : Prop := raw.head? ≠ some 47 ∧ ¬ dots <:+ raw

/-- The version change between two go.mod files. -/
def Differs (a b : List Module.Req) (c : Module.Change) : Prop :=
  ∃ r ∈ b, c.name = r.path ∧ c.new = r.version ∧ c.indirect = r.indirect ∧ Module.Requires a r.path c.prior ∧ c.prior ≠ c.new

/-- The directory whose packages a pattern of the go command stands for, in the directory `proj`: the path before "...", which has to be absolute or begin
with "./" or "../", else it is an import path. -/
def Means (proj : List Bytes) (pat : Bytes) (dir : List Bytes) : Prop :=
  ∃ q, pat = q ++ 47 :: dots ∧ (pat.head? = some 47 ∨ [46, 47] <+: pat ∨ [46, 46, 47] <+: pat) ∧ absClean proj (q ++ [47]) = dir

/-- A go.mod file of the project requires the module in this version. -/
def RequiredIn (w : World) (dirs : List (List Bytes)) (name version : Bytes) : Prop :=
  ∃ d ∈ dirs, ∃ rs, w.mods d = .reqs rs ∧ ∃ r ∈ rs, r.path = name ∧ r.version = version

/-- Every go.mod file requires a module at most once, and with a version (`modfile` accepts no other). -/
def GoodMods (w : World) (dirs : List (List Bytes)) : Prop :=
  ∀ d ∈ dirs, ∀ rs, w.mods d = .reqs rs → (rs.map Module.Req.path).Nodup ∧ ∀ r ∈ rs, r.version ≠ []

end Verif.Workspace
