import Verif.Module.Model

/-!
The versions that are compared and the versions that tests are built with: `AnalyzeModuleChanges`, `/repo/lens/module.go:103–263`, for one go.mod file, and the update of the project by `go get`,
`/repo/lens/astexec.go:152–161`.

Simplified: a project with one go.mod file, whose `parseProjectDeps` is the file itself (module.go:428–438); modules without workspaces. Trusted: what `go get` does when versions are raised; that tests are
built with the versions of the specification.
-/

namespace Verif.Versions

open Module (Change Env)

abbrev Bytes := List UInt8

/-- The requirements in the go.mod file of each version of each module, `parseGoMod`, module.go:306–323. -/
abbrev Graph := Bytes → Bytes → AMap Bytes Bytes

/-- What the analysis loads, module.go:177–243: the functions that differ, and the requirements of the old and the new version. -/
def envOf {F : Type} (g : Graph) (funcs : Change → List F) (main : AMap Bytes Bytes) : Env F := ⟨fun c => some (funcs c, g c.name c.prior, g c.name c.new), main⟩

/-- `go get name@new` for each of the modules, astexec.go:152–161. -/
def update (main : AMap Bytes Bytes) (reqs : List Change) : AMap Bytes Bytes := reqs.foldl (fun (m : AMap Bytes Bytes) c => m.set c.name c.new) main

end Verif.Versions
