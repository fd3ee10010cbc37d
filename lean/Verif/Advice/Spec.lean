import Verif.Advice.Model

/-! What the user should be told when a version of a module is missing. -/

namespace Verif.Advice

open Verif.Module (Bytes Change escapePath)

/-- `t` occurs in `s`. -/
def Occurs (t s : Bytes) : Prop := ∃ a b, s = a ++ t ++ b

/-- A version of a module that the changes need. -/
def Needed (cs : List Change) (m v : Bytes) : Prop := ∃ c ∈ cs, c.name = m ∧ (v = c.new ∨ v = c.prior)

/-- Paths and versions of modules: neither empty nor with a space, ':' or '@'. -/
def Plain (t : Bytes) : Prop := t ≠ [] ∧ 32 ∉ t ∧ 58 ∉ t ∧ 64 ∉ t

/-- The words of the error about a version of a module. -/
def wordsOf (cache m v : Bytes) : List Bytes :=
  [utf "failure", utf "loading", utf "module", m, v, utf "failed", utf "to", utf "stat", cache ++ utf "/" ++ (escapePath m).getD [], utf "no", utf "such",
    utf "file", utf "or", utf "directory"]

/-- The paths and versions of the changes cannot be mistaken for each other: no requested path is part of another path of a change or of another word, and no
version is part of the newer one. -/
structure Clear (cache : Bytes) (requested more : List Change) : Prop where
  names : ∀ c ∈ requested ++ more, Plain c.name ∧ Plain c.new ∧ Plain c.prior ∧ (escapePath c.name).isSome
  apart : ∀ c ∈ requested, ∀ d ∈ requested ++ more, c.name ≠ d.name → ∀ v, v = d.new ∨ v = d.prior → ∀ w ∈ wordsOf cache d.name v, ¬ Occurs c.name w
  versions : ∀ c ∈ requested, ∀ w ∈ wordsOf cache c.name c.new, ¬ Occurs c.prior w

/-- The text says that this version of this module is missing. -/
def Tells (text m v : Bytes) : Prop := ∃ rest, text = utf "module " ++ (m ++ (utf "@" ++ (v ++ (utf " not found on disk" ++ rest))))

/-- The first of the needed versions that is missing: all of the changes before are there, and of this change the new version is looked at first. -/
structure First (disk : Disk) (all : List Change) (c : Change) (v : Bytes) : Prop where
  split : ∃ before after, all = before ++ c :: after ∧ (∀ d ∈ before, d.name ≠ c.name ∧ disk d.name d.new = .good ∧ disk d.name d.prior = .good)
  which : v = c.new ∨ v = c.prior ∧ disk c.name c.new = .good
  absent : disk c.name v = .absent

end Verif.Advice
