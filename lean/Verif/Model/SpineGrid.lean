import Verif.Model.Manip
/-
From the grid of an exported score to the lines of the file: bar lines, spine manipulators and the order of the lines,
humdrum/humgrid.py:340-380, 939-1050, 1214-1385, 1540-1608 and humdrum/gridmeasure.py:785-862.

A line of the grid is its kind, a name for what is on it, and the number of voices of each staff in the order in which
the staves are written. Side spines (lyrics, dynamics, chord symbols) have one token on every line and are left out. The
steps of `transferTokens` that change no number of voices (humgrid.py:341-349, 352-353, 358-363) are left out too, and so
are lines marked invalid (gridmeasure.py:818-821).
-/
namespace C21

/-- What kind of line: a bar line, music (notes, grace notes, local layout comments, verse labels), any other line with
spines, a global rehearsal mark `!!LO:REH`, any other global line (humdrum/gridcommon.py:56-91,
gridmeasure.py:824-831). -/
inductive GKind
  | bar
  | music
  | interp
  | reh
  | glob
  deriving DecidableEq, Repr

/-- `hasSpines` (humdrum/gridslice.py:333-336). -/
def GKind.spined : GKind → Bool
  | .reh => false
  | .glob => false
  | _ => true

/-- A line of the grid (humdrum/gridslice.py:46-100). Global lines have one part of one staff
(gridmeasure.py:108, 694, 717, 724, 740, 775). -/
structure GRow where
  kind : GKind
  id : Nat
  voices : List Nat
  deriving DecidableEq, Repr

/-- A measure of the grid; `zero` if its duration is 0. -/
structure GMeasure where
  zero : Bool
  rows : List GRow
  deriving DecidableEq, Repr

/-- A grid: for every staff, in the order of writing, the index of its part; and the measures. -/
structure SpineGrid where
  parts : List Nat
  measures : List GMeasure
  deriving DecidableEq, Repr

/-- A line of the grid or an inserted line of manipulators. -/
inductive GridLine
  | row (r : GRow)
  | manip (m : List MStaff)
  deriving DecidableEq, Repr

/-! ### Bar lines -/

/-- The number of voices of a new bar line: the lesser of the numbers of the lines before and after, at least 1
(humgrid.py:997-1004). -/
def barVoices (prev : Option (List Nat)) (vs : List Nat) : List Nat :=
  match prev with
  | none => vs.map (fun v => max (min v 1) 1)
  | some ps => List.zipWith (fun v p => max (min v p) 1) vs ps

/-- The bar line comes after leading rehearsal marks (humgrid.py:965-979). -/
def insertBarRow (b : GRow) (rows : List GRow) : List GRow :=
  rows.takeWhile (fun r => decide (r.kind = .reh)) ++ b :: rows.dropWhile (fun r => decide (r.kind = .reh))

/-- One measure of `addMeasureLines` (humgrid.py:940-1018); `prev` is the last line with spines of the measure before. -/
def barMeasure (prev : Option (List Nat)) (m : GMeasure) : GMeasure :=
  match m.rows.find? (fun r => r.kind.spined) with
  | none => m
  | some r => if m.zero then m else { m with rows := insertBarRow ⟨.bar, 0, barVoices prev r.voices⟩ m.rows }

/-- The voices of the last line with spines (gridmeasure.py:1265-1269). -/
def lastVoices (m : GMeasure) : Option (List Nat) := (m.rows.reverse.find? (fun r => r.kind.spined)).map (·.voices)

/-- `addMeasureLines` (humgrid.py:939-1018). -/
def addBarsFrom : Option (List Nat) → List GMeasure → List GMeasure
  | _, [] => []
  | prev, m :: ms => barMeasure prev m :: addBarsFrom (lastVoices (barMeasure prev m)) ms

/-- `addLastBarline` (humgrid.py:1021-1054) in the last measure: the parts and staves are those of its last line, whatever
it is. -/
def endMeasure (m : GMeasure) : GMeasure :=
  match m.rows.getLast? with
  | none => m
  | some r => { m with rows := m.rows ++ [⟨.bar, 1, r.voices.map (fun _ => 1)⟩] }

/-- `addLastBarline` (humgrid.py:1021-1054). -/
def addLastBar : List GMeasure → List GMeasure
  | [] => []
  | [m] => [endMeasure m]
  | m :: ms => m :: addLastBar ms

/-! ### Where manipulators are needed -/

/-- `hasSpines` of a line (humdrum/gridslice.py:333-336). -/
def GridLine.spined : GridLine → Bool
  | .row r => r.kind.spined
  | .manip _ => true

/-- The numbers of voices of a line. -/
def GridLine.voices : GridLine → List Nat
  | .row r => r.voices
  | .manip m => m.map (fun x => x.voices.length)

/-- `isMeasureSlice` (humdrum/gridslice.py:249-250). -/
def GridLine.isBar : GridLine → Bool
  | .row r => decide (r.kind = .bar)
  | .manip _ => false

/-- Is it an inserted line? -/
def GridLine.isManip : GridLine → Bool
  | .row _ => false
  | .manip _ => true

/-- The staves of two lines. -/
def stepsOf (parts a b : List Nat) : List StaffStep :=
  List.zipWith (fun p x => ⟨p, x.1, x.2⟩) parts (a.zip b)

/-- `manipulatorCheckTwoSlices` (humgrid.py:1390-1521): nothing if the lines differ in their parts or staves. -/
def checkTwo (parts a b : List Nat) : Option (List MStaff) :=
  if a.length = b.length then manipCheck (stepsOf parts a b) else none

/-- `getNextSpinedLine` (humgrid.py:1360-1385): in the rest of the measure, else (`next`) in the measure after it. -/
def nextVoices (next : Option (List Nat)) (rest : List GridLine) : Option (List Nat) :=
  match rest.find? (·.spined) with
  | some l => some l.voices
  | none => next

/-- The line inserted between two lines, if any. -/
def betweenLines (parts : List Nat) (a : List Nat) (b : Option (List Nat)) : List GridLine :=
  match b with
  | none => []
  | some b =>
    match checkTwo parts a b with
    | none => []
    | some m => [.manip m]

/-- The loop over the lines of one measure (humgrid.py:1316-1341). -/
def walkRows (parts : List Nat) (next : Option (List Nat)) : List GridLine → List GridLine
  | [] => []
  | l :: rest =>
    if l.spined then l :: (betweenLines parts l.voices (nextVoices next rest) ++ walkRows parts next rest)
    else l :: walkRows parts next rest

/-- `lastSpinedLine` after a measure (humgrid.py:1327-1331). -/
def lastAfter (last next : Option (List Nat)) (lines : List GridLine) : Option (List Nat) :=
  match lines.reverse.find? (·.spined) with
  | none => last
  | some l => some (next.getD l.voices)

/-- The check after a measure against the end that is missing (humgrid.py:1343-1348). -/
def endCheck (parts : List Nat) (fakeLast : Option (List Nat)) (last : Option (List Nat)) : List GridLine :=
  match fakeLast, last with
  | some b, some a => betweenLines parts a (some b)
  | _, _ => []

/-- The loop over the measures (humgrid.py:1303-1348); with `skip` the first line of the next measure that is not empty is
not looked at. -/
def walkMeasures (parts : List Nat) (fakeLast : Option (List Nat)) : Option (List Nat) → Bool → List (List GridLine) →
    List (List GridLine)
  | _, _, [] => []
  | last, skip, [] :: ms => [] :: walkMeasures parts fakeLast last skip ms
  | last, skip, (l :: ls) :: ms =>
    ((if skip then l :: walkRows parts (nextVoices none (ms.headD [])) ls
      else walkRows parts (nextVoices none (ms.headD [])) (l :: ls)) ++
      endCheck parts fakeLast (lastAfter last (nextVoices none (ms.headD [])) (if skip then ls else l :: ls))) ::
    walkMeasures parts fakeLast (lastAfter last (nextVoices none (ms.headD [])) (if skip then ls else l :: ls)) false ms

/-- One voice in every staff: the bar line that stands for a missing one (humgrid.py:1214-1245). -/
def onesOf (parts : List Nat) : List Nat := parts.map (fun _ => 1)

/-- Is a bar line missing at the start (humgrid.py:1263-1277)? -/
def fakeFirst (parts : List Nat) (ms : List (List GridLine)) : Option (List Nat) :=
  match ms.find? (fun m => !m.isEmpty) with
  | some (l :: _) => if l.isBar then none else some (onesOf parts)
  | _ => none

/-- Is a bar line missing at the end (humgrid.py:1279-1292)? -/
def fakeLast (parts : List Nat) (ms : List (List GridLine)) : Option (List Nat) :=
  match (ms.reverse.find? (fun m => !m.isEmpty)).bind List.getLast? with
  | some l => if l.isBar then none else some (onesOf parts)
  | none => none

/-- The manipulators at the start (humgrid.py:1299-1306). -/
def firstManip (parts : List Nat) (ms : List (List GridLine)) : Option (List MStaff) :=
  match fakeFirst parts ms, nextVoices (nextVoices none ((ms.drop 1).headD [])) (ms.headD []) with
  | some a, some b => checkTwo parts a b
  | _, _ => none

/-- They are inserted in the measure the variable `measure` holds after the second search, the last one that is not empty
(humgrid.py:1280-1292, 1305). -/
def insertInLast (m : List MStaff) : List (List GridLine) → List (List GridLine)
  | [] => []
  | l :: ls => if ls.any (fun x => !x.isEmpty) then l :: insertInLast m ls
    else if l.isEmpty then l :: ls else (.manip m :: l) :: ls

/-- `manipulatorCheck` (humgrid.py:1254-1350). -/
def addManips (parts : List Nat) (ms : List (List GridLine)) : List (List GridLine) :=
  match firstManip parts ms with
  | none => walkMeasures parts (fakeLast parts ms) none false ms
  | some m => walkMeasures parts (fakeLast parts ms) none true (insertInLast m ms)

/-! ### Clean up -/

/-- `matchVoices` (humgrid.py:1575-1608) of a line with the line before it. -/
def padRow (p : Option GRow) (r : GRow) : GRow :=
  match p with
  | none => r
  | some p => { r with voices := if p.voices.length = r.voices.length then List.zipWith max p.voices r.voices else r.voices }

/-- `matchVoices` (humgrid.py:1575-1608) of manipulators with the line before them. -/
def padManip (p : Option GRow) (m : List MStaff) : List MStaff :=
  match p with
  | none => m
  | some p =>
    if p.voices.length = m.length then List.zipWith (fun v x => ⟨x.part, padVoices v x.voices⟩) p.voices m else m

/-- `cleanupManipulators` (humgrid.py:1540-1568) in one measure; the first argument of type `Option` is the line before,
if it is no line of manipulators. -/
def cleanRows (f : Nat) : Option GRow → List GridLine → Option (List GridLine × Option GRow)
  | prev, [] => some ([], prev)
  | prev, .row r :: rest => (cleanRows f (some (padRow prev r)) rest).map (fun o => (.row (padRow prev r) :: o.1, o.2))
  | prev, .manip m :: rest =>
    (cleanupLoop f [padManip prev m]).bind (fun ls =>
      (cleanRows f none rest).map (fun o => (ls.map .manip ++ o.1, o.2)))

/-- `cleanupManipulators` (humgrid.py:1540-1568). -/
def cleanMeasures (f : Nat) : Option GRow → List (List GridLine) → Option (List (List GridLine))
  | _, [] => some []
  | prev, m :: ms => (cleanRows f prev m).bind (fun o => (cleanMeasures f o.2 ms).map (o.1 :: ·))

/-! ### Writing -/

/-- Does this line call for the first bar line (gridmeasure.py:824-831)? -/
def GridLine.calls : GridLine → Bool
  | .row r => decide (r.kind = .music)
  | .manip _ => true

/-- The first measure (gridmeasure.py:805-858): its bar line and the rehearsal marks wait until the music starts. -/
def writeFirst : Option GRow → List GRow → List GridLine → List GridLine
  | _, _, [] => []
  | bar, rehs, l :: rest =>
    if l.calls then rehs.map .row ++ (bar.toList.map .row ++ l :: rest)
    else
      match l with
      | .manip m => .manip m :: writeFirst bar rehs rest
      | .row r =>
        if r.kind = .bar ∧ bar = none then writeFirst (some r) rehs rest
        else if r.kind = .reh then writeFirst bar (rehs ++ [r]) rest
        else .row r :: writeFirst bar rehs rest

/-- All measures (humgrid.py:371-378, gridmeasure.py:812-815). -/
def writeMeasures (zero : Bool) : List (List GridLine) → List GridLine
  | [] => []
  | m :: ms => (if zero then m else writeFirst none [] m) ++ ms.flatten

/-- The measures with their bar lines (humgrid.py:355, 359). -/
def barred (g : SpineGrid) : List GMeasure := addLastBar (addBarsFrom none g.measures)

/-- Is the first measure of length 0? -/
def zeroFirst (g : SpineGrid) : Bool := (g.measures.head?.map (·.zero)).getD false

/-- `transferTokens` (humgrid.py:340-380) without the lines before and after the measures: manipulators are cleaned up
only if there are any. `f` bounds the steps of the clean up. -/
def exportGrid (f : Nat) (g : SpineGrid) : Option (List GridLine) :=
  let w := addManips g.parts ((barred g).map (fun m => m.rows.map GridLine.row))
  (if w.any (fun m => m.any (·.isManip)) then cleanMeasures f none w else some w).map (writeMeasures (zeroFirst g))

end C21
