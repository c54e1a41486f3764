import Verif.Model.DurSplit
import Mathlib.Data.List.Sort
/-
The events of a measure and the order in which the exporter handles them (humdrum/measuredata.py, humdrum/humdrumwriter.py).
-/
namespace C21

/-- An event of a staff's measure (eventdata.py): its start, its duration, whether it starts or stops a dynamic wedge, and
a number to tell it from others. -/
structure MEvent where
  time : Rat
  dur : Rat
  wedge : Bool
  id : Nat
  deriving DecidableEq, Repr

/-- Is it kept with the notes? (measuredata.py:566) -/
def MEvent.lasting (e : MEvent) : Bool := e.dur ≠ 0 || e.wedge

/-- `SimultaneousEvents` (measuredata.py:36-41). -/
structure Bin where
  time : Rat
  zero : List MEvent
  nonZero : List MEvent
  deriving DecidableEq, Repr

/-- The distinct times (measuredata.py:547-551): a time is appended unless it is the last one. -/
def distinctTimes : List Rat → List MEvent → List Rat
  | times, [] => times
  | times, e :: rest => distinctTimes (if times.getLast? = some e.time then times else times ++ [e.time]) rest

/-- `_sortEvents` (measuredata.py:544-572). The dictionary from times to bins is modelled by looking for the events of a
time. -/
def sortEvents (events : List MEvent) : List Bin :=
  (distinctTimes [] (events.insertionSort (fun a b => a.time ≤ b.time))).map (fun t =>
    ⟨t, (events.insertionSort (fun a b => a.time ≤ b.time)).filter (fun e => e.time = t && !e.lasting),
      (events.insertionSort (fun a b => a.time ≤ b.time)).filter (fun e => e.time = t && e.lasting)⟩)

/-! ### The merging loop of `_insertMeasure` (humdrumwriter.py:1342-1417) -/

/-- What one round of the loop collects. What is left of a staff's bins models `curIndex`. -/
structure Round where
  now : List Bin
  rest : List (List Bin)
  next : Rat
  allEnd : Bool

/-- The bins of one staff after those of a time (humdrumwriter.py:1402-1409). -/
def afterTime (p : Rat) : List Bin → List Bin
  | [] => []
  | b :: bs => if b.time = p then bs else b :: bs

/-- The bin taken (humdrumwriter.py:1405-1409). -/
def takenAt (p : Rat) : List Bin → List Bin
  | [] => []
  | b :: _ => if b.time = p then [b] else []

/-- The next time and the end flag (humdrumwriter.py:1411-1414). -/
def lookAhead (left : List Bin) (next : Rat) (allEnd : Bool) : Rat × Bool :=
  match left with
  | [] => (next, allEnd)
  | c :: _ => (if next < 0 ∨ c.time < next then c.time else next, false)

/-- One staff in a round (humdrumwriter.py:1401-1414). -/
def roundStaff (p : Rat) (bins : List Bin) (acc : Round) : Round :=
  ⟨acc.now ++ takenAt p bins, afterTime p bins :: acc.rest, (lookAhead (afterTime p bins) acc.next acc.allEnd).1,
    (lookAhead (afterTime p bins) acc.next acc.allEnd).2⟩

/-- A round over all staves, last staff first (humdrumwriter.py:1395-1414). -/
def round (p : Rat) (staves : List (List Bin)) : Round := staves.foldr (roundStaff p) ⟨[], [], -1, true⟩

/-- The times and bins handed to `_convertNowEvents`, which does nothing if there are no bins
(humdrumwriter.py:1394-1416, 1460-1462). `fuel` bounds the number of rounds; it is never used up (`merge_spec`). -/
def mergeLoop : Nat → Rat → List (List Bin) → Option (List (Rat × List Bin))
  | 0, _, _ => none
  | fuel + 1, p, staves =>
    if (round p staves).allEnd then some (if (round p staves).now = [] then [] else [(p, (round p staves).now)])
    else (mergeLoop fuel (round p staves).next (round p staves).rest).map
      (fun l => if (round p staves).now = [] then l else (p, (round p staves).now) :: l)

/-- The first time of a staff, -1 if it has no events (humdrumwriter.py:1369-1372). -/
def firstTime : List Bin → Rat
  | [] => -1
  | b :: _ => b.time

/-- The earlier of a time and the first time of a staff (humdrumwriter.py:1373-1376). -/
def earlier (next : Rat) (st : List Bin) : Rat :=
  if next < 0 then firstTime st else if firstTime st < next then firstTime st else next

/-- The time the loop starts with (humdrumwriter.py:1345, 1373-1376). -/
def startTime (staves : List (List Bin)) : Rat := staves.foldl earlier (-1)

/-- Rounds enough. -/
def mergeFuel (staves : List (List Bin)) : Nat := (staves.map List.length).sum + 2

/-- What `_convertNowEvents` gets from the staves' events: the time, the events of no duration of all staves, then the
others (humdrumwriter.py:1454-1483, 1527-1528, 2129-2133). -/
structure Call where
  time : Rat
  zero : List MEvent
  nonZero : List MEvent
  deriving DecidableEq, Repr

/-- `_insertMeasure` from the events of the staves to the calls. -/
def measureCalls (staves : List (List MEvent)) : Option (List Call) :=
  (mergeLoop (mergeFuel (staves.map sortEvents)) (startTime (staves.map sortEvents)) (staves.map sortEvents)).map
    (fun l => l.map (fun c => ⟨c.1, c.2.flatMap Bin.zero, c.2.flatMap Bin.nonZero⟩))

/-! ### Rests for the gaps of a voice (measuredata.py:256-358) -/

/-- An element of a voice: its offset in the measure and its quarter length. -/
structure VElem where
  offset : Rat
  ql : Rat
  deriving DecidableEq, Repr

/-- An event made from a voice: start, duration, and whether it is a rest made up by the exporter. -/
structure VEvent where
  time : Rat
  dur : Rat
  madeUp : Bool
  deriving DecidableEq, Repr

/-- Rests one after the other (measuredata.py:275-282, 352-358). -/
def restsFrom : Rat → List Rat → List VEvent
  | _, [] => []
  | t, d :: ds => ⟨t, d, true⟩ :: restsFrom (t + d) ds

/-- The rests of a gap (measuredata.py:314-325): the time does not move on from one rest to the next. -/
def gapRests (t : Rat) (ds : List Rat) : List VEvent := ds.map (fun d => ⟨t, d, true⟩)

/-- The loop over the elements (measuredata.py:289-345). Left out: `sf` and `sfz` moved to a note, dynamic wedges. -/
def fillLoop (start : Rat) : Rat → List VElem → List VEvent
  | _, [] => []
  | cur, e :: es =>
    if cur < start + e.offset then
      gapRests cur (splitQL (start + e.offset - cur)) ++
        ⟨start + e.offset, e.ql, false⟩ :: fillLoop start (start + e.offset + e.ql) es
    else ⟨start + e.offset, e.ql, false⟩ :: fillLoop start (cur + e.ql) es

/-- `_parseEventsIn` (measuredata.py:256-358) for a measure that starts at `start` and lasts `measureDur`. -/
def voiceEvents (start measureDur emptyStart emptyEnd : Rat) (elems : List VElem) : List VEvent :=
  (if 0 < emptyStart then restsFrom start (splitQL emptyStart) else []) ++
  fillLoop start (if 0 < emptyStart then start + (splitQL emptyStart).sum else start) elems ++
  (if 0 < emptyEnd then restsFrom (start + measureDur - emptyEnd) (splitQL emptyEnd) else [])

/-! ### Grace notes (humdrumwriter.py:1691-1720) -/

/-- `slices[startn + n]` gets the note of a voice (humdrumwriter.py:1717-1720). -/
def graceVoice {α : Type} (v : Nat) : List (List (Option α)) → Nat → List α → List (List (Option α))
  | lines, _, [] => lines
  | lines, n, note :: rest => graceVoice v (lines.modify n (fun line => line.set v (some note))) (n + 1) rest

/-- All voices, one after the other (humdrumwriter.py:1714-1720). -/
def graceVoices {α : Type} (most : Nat) : Nat → List (List (Option α)) → List (List α) → List (List (Option α))
  | _, lines, [] => lines
  | v, lines, notes :: rest => graceVoices most (v + 1) (graceVoice v lines (most - notes.length) notes) rest

/-- The longest run of grace notes (humdrumwriter.py:1700-1704). -/
def mostGraces {α : Type} (voices : List (List α)) : Nat := voices.foldl (fun m l => max m l.length) 0

/-- `_addGraceLines` (humdrumwriter.py:1691-1720): a line has a place for every voice. -/
def graceLines {α : Type} (voices : List (List α)) : List (List (Option α)) :=
  graceVoices (mostGraces voices) 0 (List.replicate (mostGraces voices) (List.replicate voices.length none)) voices

end C21
