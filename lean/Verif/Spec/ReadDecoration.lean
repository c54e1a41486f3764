import Verif.Model.ReadDecoration
import Verif.Spec.Decoration
/-
Specification for C68.
-/
namespace C21

/-- Does the decoration show the group: it has a bracket, or barlines go through? -/
def SGroup.visible (g : SGroup) : Bool := g.bar || g.sym = .brace || g.sym = .bracket || g.sym = .square

/-- The symbol as it can be read back: there is no sign for a line. -/
def readSym : GSym → GSym
  | .line => .none
  | .brace => .brace
  | .bracket => .bracket
  | .square => .square
  | .none => .none

/-- The group in the score that is read: the same symbol and barlines, and the same staves, named by their place in the list of staves. -/
def SGroup.readBack (staffList : List Nat) (g : SGroup) : ReadGroup := ⟨readSym g.sym, g.bar, (g.nums.map staffList.idxOf).insertionSort (· ≤ ·)⟩

/-- The invisible group around everything that the reader adds if no visible group has all staves. -/
def addedRoot (staffList : List Nat) (gs : List SGroup) : List ReadGroup :=
  if ∃ g ∈ gs, g.visible = true ∧ ∀ n ∈ staffList, n ∈ g.nums then [] else [⟨.none, false, List.range staffList.length⟩]

end C21
