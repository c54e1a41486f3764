import Verif.Model.PyNum
/-
Model of arpeggios on a line of a Humdrum file: the marks written by /repo/converter21/humdrum/m21convert.py and the
arpeggios /repo/converter21/humdrum/humdrumfile.py reads from them.
-/
namespace C21

/-- A cell of a line before export: its spine (`track`, from the left), whether the spine holds notes, whether it is
an invisible rest, and its arpeggios: a mark of its own, and spanners by number. -/
structure ArpNote where
  id : Nat
  track : Nat
  kern : Bool
  hidden : Bool
  mark : Bool
  spans : List Nat
deriving DecidableEq, Repr

/-- A cell of the file: the colons in its text. -/
structure ArpCell where
  id : Nat
  track : Nat
  kern : Bool
  hidden : Bool
  colons : Nat
deriving DecidableEq, Repr

/-- m21convert.py:2568-2577 `_allSpannedGeneralNotesInSameMeasure`: whether the notes of a spanner are in more than
one staff (the notes of an arpeggio are simultaneous, so of one measure number). -/
def crossStaff (line : List ArpNote) (g : Nat) : Bool :=
  match line.filter (fun c => decide (g ∈ c.spans)) with
  | [] => false
  | a :: l => l.any fun b => b.track ≠ a.track

/-- m21convert.py:2636-2644: the colons of a note.  The marks of all its arpeggios stand side by side. -/
def colonsOf (line : List ArpNote) (c : ArpNote) : Nat :=
  (if c.mark then 1 else 0) + (c.spans.map fun g => if crossStaff line g then 2 else 1).sum

/-- The line of the file. -/
def arpCells (line : List ArpNote) : List ArpCell :=
  line.map fun c => ⟨c.id, c.track, c.kern, c.hidden, colonsOf line c⟩

/-- Spines without notes, and invisible rests, are passed over. -/
def ArpCell.skipped (c : ArpCell) : Bool := !c.kern || c.hidden

/-- humdrumfile.py:6572-6595 `_isLeftmostSystemArpeggioToken`; the cells before, from right to left. -/
def leftmostSystem : List ArpCell → Bool
  | [] => true
  | d :: ds => if d.skipped then leftmostSystem ds else if d.colons ≥ 1 then false else leftmostSystem ds

/-- humdrumfile.py:6597-6622 `_getSystemArpeggioTokens`, after the first. -/
def systemArp : List ArpCell → List ArpCell
  | [] => []
  | d :: ds => if d.skipped then systemArp ds else if d.colons < 2 then [] else d :: systemArp ds

/-- humdrumfile.py:6624-6654 `_isLeftmostStaffArpeggioToken`. -/
def leftmostStaff (t : Nat) : List ArpCell → Bool
  | [] => true
  | d :: ds =>
    if d.track ≠ t then true
    else if d.skipped then leftmostStaff t ds else if d.colons ≥ 1 then false else leftmostStaff t ds

/-- humdrumfile.py:6656-6689 `_getStaffArpeggioTokens`, after the first. -/
def staffArp (t : Nat) : List ArpCell → List ArpCell
  | [] => []
  | d :: ds =>
    if d.track ≠ t then []
    else if d.skipped then staffArp t ds else if d.colons < 1 then [] else d :: staffArp t ds

/-- humdrumfile.py:6534-6570 `_addArpeggio`: the cells of the arpeggio that a note starts; one of one cell is a mark,
a longer one a spanner. -/
def arpAt (before : List ArpCell) (c : ArpCell) (after : List ArpCell) : Option (List ArpCell) :=
  if c.colons ≥ 2 then
    if leftmostSystem before.reverse then some (c :: systemArp after) else none
  else if c.colons ≥ 1 then
    if leftmostStaff c.track before.reverse then some (c :: staffArp c.track after) else none
  else none

/-- All arpeggios of a line, by the numbers of their cells. -/
def readArps : List ArpCell → List ArpCell → List (List Nat)
  | _, [] => []
  | before, c :: after =>
    ((arpAt before c after).toList.map fun l => l.map (·.id)) ++ readArps (before ++ [c]) after

end C21
