import Verif.Model.PyStr
import Mathlib.Data.List.Defs
/-
Independent specification of RDF records.
-/
namespace C21

/-- Words that give a **kern record another meaning than a mark for notes. -/
def otherMeanings : List Str :=
  ["no stem".toList, "cue size".toList, "hairpin accent".toList, "terminal long".toList, "long note".toList, "above".toList,
   "below".toList, "link".toList, "editorial accidental".toList, "phrase".toList]

/-- Words tested before "editorial accidental". -/
def beforeEditorial : List Str :=
  ["no stem".toList, "cue size".toList, "hairpin accent".toList, "terminal long".toList, "long note".toList, "above".toList,
   "below".toList, "link".toList]

def saysAny (words : List Str) (d : Str) : Prop := ∃ w ∈ words, w <:+: d

instance (words : List Str) (d : Str) : Decidable (saysAny words d) := by unfold saysAny; infer_instance

/-- A color as scores have them: a word without quotes or spaces, which is not one of the words with another meaning. -/
def PlainColor (c : Str) : Prop :=
  c ≠ [] ∧ (∀ ch ∈ c, ch ≠ '"' ∧ isPySpace ch = false) ∧ ¬ saysAny ["above".toList, "below".toList, "link".toList, "phrase".toList] c

/-- How many different things a list holds. -/
def distinct {α : Type} [DecidableEq α] (l : List α) : Nat := l.dedup.length

end C21
