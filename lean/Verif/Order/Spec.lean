import Verif.Module.Spec

/-!
What C170 claims: the analysis of changed modules, `AnalyzeModuleChanges`, `/repo/lens/module.go:103–263`, modelled in `Verif/Module`, gives the same for every order
in which Go iterates over maps (functions of a package, module.go:207; requirements of a module, module.go:243) and for every order of the requests. The model has maps as
lists, so two orders are two environments with lists in another order.
-/

namespace Verif.Order
open Verif Verif.Module

/-- One and the same outside, with maps iterated in another order. -/
structure SameEnv {F : Type} (env env' : Env F) : Prop where
  project : ∀ n, env.project.get n = env'.project.get n
  none : ∀ c, env.load c = none ↔ env'.load c = none
  some : ∀ c fs od nd fs' od' nd', env.load c = some (fs, od, nd) → env'.load c = some (fs', od', nd') →
    fs.Perm fs' ∧ (∀ n, od.get n = od'.get n) ∧ nd.Perm nd'

/-- The changes that come up, where a requested module is only taken in the version requested. -/
inductive Wanted {F : Type} (env : Env F) (trans : Bool) (reqs : List Change) : Change → Prop
  | request {c} : c ∈ reqs → Wanted env trans reqs c
  | follow {c d fs oldDeps newDeps} : Wanted env trans reqs c → env.load c = some (fs, oldDeps, newDeps) → trans = true →
      FollowUp env.project oldDeps newDeps d → d.name ∉ reqs.map (·.name) → Wanted env trans reqs d

/-- No module comes up in two versions. -/
def Single {F : Type} (env : Env F) (trans : Bool) (reqs : List Change) : Prop :=
  ∀ c d, Wanted env trans reqs c → Wanted env trans reqs d → c.name = d.name → c = d

/-- The same modules in the same versions, with the same functions. -/
def SameResult {F : Type} (s s' : AState F) : Prop :=
  (∀ c, c ∈ s.seen ↔ c ∈ s'.seen) ∧ ∀ n, ((s.data.get n).getD []).Perm ((s'.data.get n).getD [])

end Verif.Order
