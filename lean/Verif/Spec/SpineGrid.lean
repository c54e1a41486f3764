import Verif.Spec.Manip
import Verif.Model.SpineGrid
/-
Spec for C123: the spines a reader of the exported file sees.

The reader knows the spines by their staff. A line with spines must have one token for every voice of every staff, in
the order of the spines; a line of manipulators changes the spines; global lines do not matter.
-/
namespace C21

/-- The lines read one after the other. The result is the spines after the last line, or `none` if a line does not fit.
A staff with no voice is written with one null token. -/
def readGrid : List Nat → List GridLine → Option (List Nat)
  | s, [] => some s
  | s, .row r :: rest =>
    if r.kind = .reh ∨ r.kind = .glob then readGrid s rest
    else if s = spinesFrom 0 (r.voices.map (fun v => max v 1)) then readGrid s rest
    else none
  | s, .manip m :: rest => (readManip none s (manipTexts m)).bind (fun s' => readGrid s' rest)

/-- One spine for every staff. -/
def oneEach (g : SpineGrid) : List Nat := spinesFrom 0 (g.parts.map (fun _ => 1))

/-- The grids of scores: there is a measure; measures have a length and a line with spines; lines with spines have all
staves and global lines one token; the first measure has music; the last line of the last measure has spines. There are
no bar lines yet. -/
structure ScoreGrid (g : SpineGrid) : Prop where
  some_measure : g.measures ≠ []
  long : ∀ m ∈ g.measures, m.zero = false
  lines : ∀ m ∈ g.measures, ∃ r ∈ m.rows, r.kind = .music ∨ r.kind = .interp
  staves : ∀ m ∈ g.measures, ∀ r ∈ m.rows, (r.kind = .music ∨ r.kind = .interp) → r.voices.length = g.parts.length
  global : ∀ m ∈ g.measures, ∀ r ∈ m.rows, (r.kind = .reh ∨ r.kind = .glob) → r.voices = [1]
  no_bar : ∀ m ∈ g.measures, ∀ r ∈ m.rows, r.kind ≠ .bar
  music : ∀ m, g.measures.head? = some m → ∃ r ∈ m.rows, r.kind = .music
  final : ∀ m, g.measures.getLast? = some m → ∀ r, m.rows.getLast? = some r → r.kind = .music ∨ r.kind = .interp

/-- All staves belong to one part. -/
def OneGridPart (g : SpineGrid) : Prop := ∃ p, ∀ q ∈ g.parts, q = p

/-- On no line do two neighbouring staves both have several voices. -/
def SparseVoices (g : SpineGrid) : Prop :=
  ∀ m ∈ g.measures, ∀ r ∈ m.rows, ∀ (i a b : Nat), r.voices[i]? = some a → r.voices[i + 1]? = some b → ¬ (2 ≤ a ∧ 2 ≤ b)

/-- The lines of one kind, by name. -/
def namesOf (k : GKind) (rows : List GRow) : List Nat := (rows.filter (fun r => decide (r.kind = k))).map (·.id)

/-- The lines that are no manipulators. -/
def plainRows (lines : List GridLine) : List GRow := lines.filterMap (fun l => match l with | .row r => some r | .manip _ => none)

/-- Lines other than bar lines and rehearsal marks, by name. -/
def bodyNames (rows : List GRow) : List Nat :=
  (rows.filter (fun r => decide (r.kind ≠ .bar ∧ r.kind ≠ .reh))).map (·.id)

/-- Lines other than rehearsal marks, by kind and name. -/
def lineKeys (rows : List GRow) : List (GKind × Nat) :=
  (rows.filter (fun r => decide (r.kind ≠ .reh))).map (fun r => (r.kind, r.id))

end C21
