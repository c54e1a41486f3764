import Verif.Model.Pitch
/-
What linked ties are (C28): marks `[`, `_`, `]` preceded by the linking signifier.
-/
namespace C21

/-- The note carries the signifier followed by the mark. -/
def hasTieMark (sig : Str) (mark : Char) (text : Str) : Bool := isInfix (sig ++ [mark]) text

/-- A tie may leave the note. -/
def opensTie (sig text : Str) : Bool := hasTieMark sig '[' text || hasTieMark sig '_' text
/-- A tie may arrive at the note. -/
def closesTie (sig text : Str) : Bool := hasTieMark sig ']' text || hasTieMark sig '_' text
/-- The note takes part in linked ties. -/
def tieMarked (sig text : Str) : Bool := opensTie sig text || closesTie sig text

/-- The notes are tied in pairs `(i, j)`, by place in the file: `j` is a later note at which a tie may arrive, `i` one it may leave,
both have the same pitch, and no note between them with that pitch has a linked tie mark. -/
def TiedAt {α : Type} (sig : Str) (notes : List (α × Str)) (i j : Nat) : Prop :=
  ∃ x y, notes[i]? = some x ∧ notes[j]? = some y ∧ i < j ∧ opensTie sig x.2 = true ∧ closesTie sig y.2 = true ∧
    kernToBase40 x.2 = kernToBase40 y.2 ∧
    ∀ k z, i < k → k < j → notes[k]? = some z → tieMarked sig z.2 = true → kernToBase40 z.2 ≠ kernToBase40 x.2

end C21
