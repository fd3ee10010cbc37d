import Verif.Monitor.Model

/-! What C173 claims: a file outside of the project is reported without the place of the module cache or of the Go installation. -/

namespace Verif.Outside
open Verif Verif.Monitor

/-- The directory of modules below GOPATH. -/
def cacheDir : List UInt8 := "/pkg/mod/".toUTF8.toList

/-- The cache below `root` is the first in a path below it. -/
def First (root : List UInt8) : Prop := ∀ x y, root ++ cacheDir.dropLast ≠ x ++ cacheDir ++ y

/-- The file is not in a module cache at its usual place. -/
def NoCache (file : List UInt8) : Prop := ∀ x y, file ≠ x ++ cacheDir ++ y

end Verif.Outside
