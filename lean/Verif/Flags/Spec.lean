import Verif.Flags.Model
import Mathlib.Data.List.Forall2

/-!
What C127–C130 claim: a command line as a list of settings, written in the forms that are allowed, and what each setting means.
-/

namespace Verif.Flags

/-- How a setting is written. -/
inductive Form where
  | joined
  | apart
  | alone
  deriving DecidableEq, Repr

/-- A flag with its value, one or two dashes. -/
structure Setting where
  name : Str
  value : Str
  form : Form
  double : Bool
  deriving DecidableEq, Repr

def dashes (s : Setting) : Str := if s.double then ['-', '-'] else ['-']

/-- "-name=value", "-name value", or "-name" for a switch. -/
def render (s : Setting) : List Str := match s.form with
  | .joined => [dashes s ++ s.name ++ '=' :: s.value]
  | .apart => [dashes s ++ s.name, s.value]
  | .alone => [dashes s ++ s.name]

/-- A name that can be written on the command line. -/
def NameOk (n : Str) : Prop := n ≠ [] ∧ n.head? ≠ some '-' ∧ '=' ∉ n

/-- The texts a switch takes. -/
def SwitchText (s : Str) (b : Bool) : Prop :=
  (b = true ∧ s ∈ ["1", "t", "T", "TRUE", "true", "True"].map String.toList) ∨ (b = false ∧ s ∈ ["0", "f", "F", "FALSE", "false", "False"].map String.toList)

/-- A setting of a flag of a given kind that has a value of this kind. A switch does not take the next argument as its value. -/
def Proper (L : Lib) (k : Kind) (s : Setting) (v : Val) : Prop := match k, s.form with
  | .text, .joined => v = .text s.value
  | .text, .apart => v = .text s.value
  | .text, .alone => False
  | .int, .joined => ∃ i, L.parseInt s.value = some i ∧ v = .int i
  | .int, .apart => ∃ i, L.parseInt s.value = some i ∧ v = .int i
  | .int, .alone => False
  | .bool, .joined => ∃ b, SwitchText s.value b ∧ v = .bool b
  | .bool, .apart => False
  | .bool, .alone => v = .bool true

/-- The flags there are. -/
def flagsOf (cs : List (Decl × Val)) : List (Decl × Val) := standard ++ cs ++ help

/-- A list of settings of existing flags, with their values. -/
def Meaning (L : Lib) (fs : List (Decl × Val)) (ss : List Setting) (vs : List (Str × Val)) : Prop :=
  List.Forall₂ (fun s p => p.1 = s.name ∧ NameOk s.name ∧ ∃ d ∈ fs, d.1.name = s.name ∧ Proper L d.1.kind s p.2) ss vs

/-- What a flag is at the end: the last value given, or its default. -/
def Final (fs : List (Decl × Val)) (vs : List (Str × Val)) (name : Str) (v : Val) : Prop :=
  (∃ before after, vs = before ++ (name, v) :: after ∧ ∀ p ∈ after, p.1 ≠ name) ∨
  ((∀ p ∈ vs, p.1 ≠ name) ∧ ∃ d ∈ fs, d.1.name = name ∧ d.2 = v)

/-- The field of the configuration for each standard flag, as documented. -/
structure Agrees (fs : List (Decl × Val)) (vs : List (Str × Val)) (c : Config) : Prop where
  project : Final fs vs nProject (.text c.projectDir)
  module_ : Final fs vs nModule (.text c.moduleVersion)
  modules : Final fs vs nModules (.text c.modulesVersion)
  gomod : Final fs vs nGomod (.text c.goModFile)
  gowork : Final fs vs nGowork (.text c.goWorkFile)
  port : Final fs vs nPort (.int c.port)
  json : Final fs vs nJson (.text c.jsonFile)
  charts : Final fs vs nCharts (.text c.chartsFile)
  recurse : Final fs vs nRecurse (.int c.recurse)
  len : Final fs vs nLen (.int c.len)
  cache : Final fs vs nCache (.int c.cacheMB)
  scope : Final fs vs nScope (.text c.scope)
  mode : Final fs vs nSet (.text c.mode)
  tests : Final fs vs nTests (.text c.tests)
  tmpcopy : Final fs vs nTmpcopy (.bool c.tmpCopy)
  multiplier : Final fs vs nMultiplier (.int c.multiplier)

/-- The defaults of README.md:78–98: a flag that is not given has the documented value. -/
structure Documented (ss : List Setting) (c : Config) : Prop where
  module_ : (∀ s ∈ ss, s.name ≠ "module".toList) → c.moduleVersion = []
  modules : (∀ s ∈ ss, s.name ≠ "modules".toList) → c.modulesVersion = []
  gomod : (∀ s ∈ ss, s.name ≠ "gomod".toList) → c.goModFile = []
  gowork : (∀ s ∈ ss, s.name ≠ "gowork".toList) → c.goWorkFile = []
  json : (∀ s ∈ ss, s.name ≠ "json".toList) → c.jsonFile = "modreport.json".toList
  charts : (∀ s ∈ ss, s.name ≠ "charts".toList) → c.chartsFile = "modreport.png".toList
  port : (∀ s ∈ ss, s.name ≠ "monitorport".toList) → c.port = 44440
  recurse : (∀ s ∈ ss, s.name ≠ "fieldrecurse".toList) → c.recurse = 20
  len : (∀ s ∈ ss, s.name ≠ "fieldlen".toList) → c.len = 1024
  cache : (∀ s ∈ ss, s.name ≠ "cachemb".toList) → c.cacheMB = 200
  scope : (∀ s ∈ ss, s.name ≠ "mutationscope".toList) → c.scope = "line".toList
  mode : (∀ s ∈ ss, s.name ≠ "mutationset".toList) → c.mode = "fast".toList
  tests : (∀ s ∈ ss, s.name ≠ "mutationtests".toList) → c.tests = "targeted".toList
  tmpcopy : (∀ s ∈ ss, s.name ≠ "tmpcopy".toList) → c.tmpCopy = true
  multiplier : (∀ s ∈ ss, s.name ≠ "timemultiplier".toList) → c.multiplier = 2

/-- An argument that is not a flag: what Go calls the first non-flag argument. -/
def Plain (s : Str) : Prop := s = [] ∨ s = ['-'] ∨ s.head? ≠ some '-'

/-- The directory of the go command: GOMODCACHE, or "pkg/mod" in the first directory of GOPATH. -/
def goModCache (L : Lib) (e : Env) : Str := if e.gomodcache ≠ [] then e.gomodcache else L.join (e.gopath.takeWhile (· ≠ ':'))

/-- The text of a value: a text is itself, a number in decimal digits, a switch "true" or "false". -/
def asText (L : Lib) : Val → Str
  | .text s => s
  | .int i => L.itoa i
  | .bool b => if b then ['t', 'r', 'u', 'e'] else ['f', 'a', 'l', 's', 'e']

end Verif.Flags
