import Verif.AMap

/-!
Permissions of files: `CopyFile` and `replaceFile`, `/repo/lens/file.go:51–95`, `backupOrigFile` and the write of a commit, `/repo/lens/asttweak.go:143–155 and 385–398`,
`Restore`, `/repo/lens/asttweak.go:88–106`, `CopyDir`, `/repo/lens/file.go:97–133`, and the backup of go.mod, `/repo/lens/astexec.go:120–150`.

A file has nine bits of permissions. Trusted: `os.Create` and `os.WriteFile` give a new file the asked permissions without those of the mask, leave those of an existing
one, and fail if it may not be written; a rename keeps them. Simplified: the owner runs the tool; directories may be written; no links (see `Verif/Files`, `Verif/Copy`).
-/

namespace Verif.Modes
open Verif

abbrev Path := List Char
abbrev Mode := BitVec 9

structure File where
  content : Nat
  mode : Mode
deriving DecidableEq, Repr

abbrev Disk := AMap Path File

/-- The owner may read or write: bits 8 and 7. -/
def canRead (m : Mode) : Bool := m.getLsbD 8
def canWrite (m : Mode) : Bool := m.getLsbD 7
/-- Somebody may execute: bits 6, 3 and 0. -/
def canExec (m : Mode) : Bool := m.getLsbD 6 || m.getLsbD 3 || m.getLsbD 0

/-- `0o666` and `0o644`. -/
def rwAll : Mode := 0b110110110#9
def rwOwner : Mode := 0b110100100#9

/-- Writing a file, `os.Create` with a copy or `os.WriteFile`; `none` is an error. -/
def write (umask : Mode) (asked : Mode) (d : Disk) (p : Path) (content : Nat) : Option Disk :=
  match d.get p with
  | some f => if canWrite f.mode then some (d.set p ⟨content, f.mode⟩) else none
  | none => some (d.set p ⟨content, asked &&& ~~~umask⟩)

/-- `CopyFile`, file.go:64–95. -/
def copyFile (umask : Mode) (d : Disk) (src dst : Path) : Option Disk :=
  match d.get src with
  | some f => if canRead f.mode then write umask rwAll d dst f.content else none
  | none => none

/-- `.bkp` -/
def bkp (p : Path) : Path := p ++ ['.', 'b', 'k', 'p']

/-- The write of a commit, asttweak.go:143–155: the backup is made unless there is one. -/
def commit (umask : Mode) (d : Disk) (p : Path) (content : Nat) : Option Disk := do
  let d1 ← if (d.get (bkp p)).isSome then some d else copyFile umask d p (bkp p)
  write umask rwOwner d1 p content

def commits (umask : Mode) (p : Path) : Disk → List Nat → Option Disk
  | d, [] => some d
  | d, c :: cs => (commit umask d p c).bind fun d => commits umask p d cs

/-- `replaceFile`, file.go:51–60, as the cleanup of a file: the backup is renamed. -/
def restore (d : Disk) (p : Path) : Option Disk :=
  match d.get (bkp p) with
  | some f => some ((d.del (bkp p)).set p f)
  | none => none

/-- `CopyDir`, file.go:97–133, on the files of a tree; `cp` gives the path in the copy. -/
def copyAll (umask : Mode) (cp : Path → Path) : Disk → List Path → Option Disk
  | d, [] => some d
  | d, p :: ps => (copyFile umask d p (cp p)).bind fun d => copyAll umask cp d ps

end Verif.Modes
