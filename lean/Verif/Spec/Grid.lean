import Verif.Model.Grid
/-
Spec for C35, C36, C69: the cells of a line of the grid, and the spines of an exported file.
-/
namespace C21

/-- The token at a part, staff and voice, if there is one. -/
def GSlice.cell (sl : GSlice) (p s v : Nat) : Option Str :=
  (((sl.parts[p]?).bind (fun part => part.staves[s]?)).bind (fun st => st.voices[v]?)).bind GCell.text?

/-- Everything beside the voices. -/
def GSlice.staffSide (sl : GSlice) (p s : Nat) : Option (Option Str) × List (Option Str) :=
  match (sl.parts[p]?).bind (fun part => part.staves[s]?) with
  | none => (some none, [])
  | some st => (some st.xmlId, st.verses)

/-- Dynamics, figured bass and harmony of a part. -/
def GSlice.partSide (sl : GSlice) (p : Nat) : Option (Option Str × Option Str × Option Str) :=
  (sl.parts[p]?).map (fun part => (part.dynamics, part.figuredBass, part.harmony))

/-- A spine of the exported file. -/
inductive SpineId
  | voice (p s v : Nat)
  | xmlId (p s : Nat)
  | verse (p s i : Nat)
  | dynam (p : Nat)
  | figuredBass (p : Nat)
  | harmony (p : Nat)
  deriving DecidableEq, Repr

/-- The spines of a staff with `n` voices. -/
def staffSpines (g : SideCounts) (p s n : Nat) : List SpineId :=
  (List.range n).map (.voice p s) ++ List.replicate (flagAt g.xmlIds p) (.xmlId p s) ++
    (List.range (g.verseCount p s)).map (.verse p s)

/-- The side spines of a part. -/
def partSpines (g : SideCounts) (p : Nat) : List SpineId :=
  List.replicate (flagAt g.dynamics p) (.dynam p) ++ List.replicate (flagAt g.figuredBass p) (.figuredBass p) ++
    List.replicate (flagAt g.harmony p) (.harmony p)

/-- The spines of the file when the staves have these numbers of voices: parts and staves from the last to the first. -/
def fileSpines (g : SideCounts) (voices : List (List Nat)) : List SpineId :=
  (List.range voices.length).reverse.flatMap (fun p =>
    (List.range (voices.getD p []).length).reverse.flatMap (fun s => staffSpines g p s ((voices.getD p []).getD s 0)) ++
      partSpines g p)

/-- The numbers of voices of a line; a staff without voices takes one spine. -/
def GSlice.shape (sl : GSlice) : List (List Nat) := sl.parts.map (fun part => part.staves.map (fun st => max st.voices.length 1))

/-- What a line holds for a spine. -/
def GSlice.content (sl : GSlice) : SpineId → Option Str
  | .voice p s v => sl.cell p s v
  | .xmlId p s => (((sl.parts[p]?).bind (fun part => part.staves[s]?))).bind (fun st => st.xmlId)
  | .verse p s i => (((sl.parts[p]?).bind (fun part => part.staves[s]?)).bind (fun st => st.verses[i]?)).bind id
  | .dynam p => (sl.parts[p]?).bind (fun part => part.dynamics)
  | .figuredBass p => (sl.parts[p]?).bind (fun part => part.figuredBass)
  | .harmony p => (sl.parts[p]?).bind (fun part => part.harmony)

/-- The grid has been told of all verses and harmonies of the line. -/
def SidesFit (g : SideCounts) (sl : GSlice) : Prop :=
  ∀ p part, sl.parts[p]? = some part →
    (part.harmony.isSome = true → flagAt g.harmony p = 1) ∧
    ∀ s st, part.staves[s]? = some st → st.verses.length ≤ g.verseCount p s

/-- The exclusive interpretation of a spine. -/
def SpineId.interp : SpineId → Str
  | .voice .. => "**kern".toList
  | .xmlId .. => "**xmlid".toList
  | .verse .. => "**text".toList
  | .dynam _ => "**dynam".toList
  | .figuredBass _ => "**fb".toList
  | .harmony _ => "**harte".toList

/-- The part of a spine. -/
def SpineId.part : SpineId → Nat
  | .voice p .. => p
  | .xmlId p _ => p
  | .verse p .. => p
  | .dynam p => p
  | .figuredBass p => p
  | .harmony p => p

/-- One voice in each staff. -/
def oneVoice (counts : List Nat) : List (List Nat) := counts.map (fun n => List.replicate n 1)

end C21
