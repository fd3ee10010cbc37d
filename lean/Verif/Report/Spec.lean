import Verif.Report.Model

/-! What is wanted of the report. -/

namespace Verif.Report
open Verif

/-- Sorted, and every entry once. -/
def Strict (l : List Bytes) : Prop := l.Pairwise (· < ·)

/-- `slices.SortFunc`: the positions of all rows, in an order in which no row comes after one that compares greater. -/
def IsSort (srt : List Key → List Nat) : Prop :=
  ∀ ks, (srt ks).Perm (List.range ks.length) ∧ ((srt ks).filterMap fun i => ks[i]?).Pairwise fun a b => cmp a b ≤ 0

/-- A test that passes no more is riskier than one that does or never did; otherwise more changed fields are riskier. -/
def Riskier (a b : Key) : Prop :=
  (a.verdict = .fail ∧ b.verdict ≠ .fail) ∨ ((a.verdict = .fail ↔ b.verdict = .fail) ∧ a.diff > b.diff)

/-- Written by the tool: the name begins with "TestGen_". -/
def Generated (a : Key) : Prop := [84, 101, 115, 116, 71, 101, 110, 95] <+: a.name

/-- What a chart shows apart from the texts of field changes. -/
def Chart.shown (c : Chart) : Head × (Nat × Nat) × List Key := (c.head, c.totals, c.rows.map (·.key))

/-- Strings used by the charts survive in JSON. -/
def TextOk (js : Bytes → Bytes) (i : Input) : Prop :=
  (∀ m ∈ i.changed, js m.name = m.name ∧ js m.prior = m.prior ∧ js m.next = m.next) ∧ js [] = [] ∧
    ∀ t ∈ i.results, js t.ident = t.ident ∧ js t.name = t.name ∧ ∀ c ∈ t.times, js c.1 = c.1

/-- Counts are at most 2^53. -/
def CountsOk (i : Input) : Prop :=
  (∀ n ∈ [i.funcs, (reachableIdents i.callers).length, i.reached, i.untracked, i.same, i.diff, i.mutations, i.squashed], n ≤ 2 ^ 53) ∧
    ∀ t ∈ i.results, t.diff ≤ 2 ^ 53 ∧ ∀ c ∈ t.times, c.2.pre ≤ 2 ^ 53 ∧ c.2.post ≤ 2 ^ 53

/-- The module named in the title: the only one changed, or else the only one required directly. -/
def IsRoot (ms : List Mod) (r : Mod) : Prop :=
  (∃ m, ms = [m] ∧ r = m) ∨ (ms.length ≠ 1 ∧ (ms.filter fun m => !m.indirect) = [r]) ∨
    (ms.length ≠ 1 ∧ (ms.filter fun m => !m.indirect).length ≠ 1 ∧ r = ⟨[], [], [], false⟩)

/-- The unabridged text of a caller. -/
def fullText (c : Bytes) (names : List Bytes) : Bytes := c ++ [91] ++ List.intercalate [124] names ++ [93]

end Verif.Report
