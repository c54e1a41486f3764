import Mathlib.Data.List.Sort
import Mathlib.Data.Rat.Init
import Mathlib.Algebra.Order.Ring.Unbundled.Rat
/-
How beams, tuplets and two-note tremolos are written as nested elements of an MEI layer (mei/meilayer.py:244-272, 446-620), and
what the reader makes of a two-note tremolo (mei/meireader.py:6041-6050, 9681-9699).

Simplifications: the objects of the voice are numbered from 0; a spanner is given by its kind and its first and last object (the
sets of notes in `nestsReasonably` are given as lists); spanners that cross the measure are left out before; staff changes and
tremolos on one note, which are opened and closed around a single object, are left out.
-/
namespace C21

/-- Beam, tuplet or tremolo between two notes. -/
inductive SpKind where
  | beam
  | tuplet
  | ftrem
deriving DecidableEq, Repr

/-- A spanner over the objects `first … last` of a voice. -/
structure NSpan where
  kind : SpKind
  first : Nat
  last : Nat
deriving DecidableEq, Repr

/-- When objects start and end. -/
structure ObjTimes where
  off : Nat → Rat
  stop : Nat → Rat

/-- shared/m21utilities.py:1644-1653 `getSpannerQuarterLength`. -/
def spanLen (t : ObjTimes) (s : NSpan) : Rat := t.stop s.last - t.off s.first

/-- mei/meilayer.py:455-462 `beamsBeforeTupletsBeforeTremolos`. -/
def kindNo : SpKind → Nat
  | .beam => 1
  | .tuplet => 2
  | .ftrem => 3

/-- mei/meilayer.py:446-562 `getOrderedBeamTupletFTremStarts` for the spanners that are written as elements: two stable sorts with
`reverse=True`. -/
def startsAt (t : ObjTimes) (sps : List NSpan) (i : Nat) : List NSpan :=
  ((sps.filter (fun s => s.first = i)).insertionSort (fun a b => kindNo b.kind ≤ kindNo a.kind)).insertionSort
    (fun a b => spanLen t b ≤ spanLen t a)

/-- mei/meilayer.py:564-620 `getOrderedBeamTupletFTremEnds`: two stable sorts. -/
def endsAt (t : ObjTimes) (sps : List NSpan) (i : Nat) : List NSpan :=
  ((sps.filter (fun s => s.last = i)).insertionSort (fun a b => kindNo a.kind ≤ kindNo b.kind)).insertionSort
    (fun a b => spanLen t a ≤ spanLen t b)

/-- What is written. -/
inductive LayerEv where
  | opened (s : NSpan)
  | obj (i : Nat)
  | closed (s : NSpan)
deriving DecidableEq, Repr

/-- mei/meilayer.py:244-270: what is written for one object. -/
def objEvents (t : ObjTimes) (sps : List NSpan) (i : Nat) : List LayerEv :=
  (startsAt t sps i).map .opened ++ .obj i :: (endsAt t sps i).map .closed

/-- The layer from object `i` on, with `n` more objects. -/
def layerEvents (t : ObjTimes) (sps : List NSpan) : Nat → Nat → List LayerEv
  | _, 0 => []
  | i, n + 1 => objEvents t sps i ++ layerEvents t sps (i + 1) n

/-- mei/meilayer.py:464-500 `nestsReasonably`: `tuplet` and `beams` are sets of notes. -/
def nestsReasonably (tuplet : List Nat) (beams : List (List Nat)) : Bool :=
  beams.all fun beam =>
    if tuplet.all (fun x => x ∉ beam) then true
    else if tuplet.all (fun x => x ∈ beam) then true
    else if !beam.all (fun x => x ∈ tuplet) then false
    else beams.all fun beam1 =>
      if beam1 = beam then true
      else if beam1.all (fun x => x ∉ tuplet) then true
      else beam1.all (fun x => x ∈ tuplet)

/-- The children of the first two-note tremolo in some events, until it is closed: what the reader sees as its notes. Elements
inside it are skipped as unknown, with their contents (mei/meireader.py:9681-9699 has no beam or tuplet). The depth counts the
elements open inside. -/
def ftremNotes : Nat → List LayerEv → List Nat
  | _, [] => []
  | 0, .obj i :: r => i :: ftremNotes 0 r
  | 0, .closed _ :: _ => []
  | d, .opened _ :: r => ftremNotes (d + 1) r
  | d + 1, .obj _ :: r => ftremNotes (d + 1) r
  | d + 1, .closed _ :: r => ftremNotes d r

/-- The events after the opening of a spanner. -/
def afterOpening (s : NSpan) : List LayerEv → List LayerEv
  | [] => []
  | .opened s' :: r => if s' = s then r else afterOpening s r
  | _ :: r => afterOpening s r

/-- mei/meireader.py:6041-6050: a two-note tremolo must have exactly two notes or chords; otherwise MeiElementError. -/
def ftremReadable (s : NSpan) (evs : List LayerEv) : Bool := (ftremNotes 0 (afterOpening s evs)).length = 2

end C21
