import Mathlib.Data.List.Chain
import Verif.Model.NullTokens
/-
Spec for C125: the lines that fall into the duration of a note.
-/
namespace C21

/-- Lines in order of time, where interpretations, grace notes and comments have the time of the line they stand
before. -/
def TimedLines (xs : List NTSlice) : Prop :=
  xs.IsChain (fun x y => x.ts ≤ y.ts ∧ (x.kind ≠ .notes → x.ts = y.ts))

/-- Line `i` has a note that still sounds in line `j` below it. -/
def SoundsIn (xs : List NTSlice) (i j : Nat) : Prop :=
  i < j ∧ ∃ x y d, xs[i]? = some x ∧ x.kind = .notes ∧ x.cell = some (.note d) ∧ xs[j]? = some y ∧ y.ts < x.ts + d

/-- A note starts in a line of notes in which an earlier note still sounds. -/
def NotesOverlap (xs : List NTSlice) : Prop :=
  ∃ i j y, SoundsIn xs i j ∧ xs[j]? = some y ∧ y.kind = .notes ∧ ∃ c, y.cell = some c ∧ c ≠ .null

end C21
