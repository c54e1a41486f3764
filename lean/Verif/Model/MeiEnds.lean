import Verif.Model.Arpeggios
/-
Model of hairpins and octave lines of an MEI file with a start note and an end note: `MeiReader._ppHairpins`
(converter21/mei/meireader.py:1198-1249), `_ppOctaves` (1495-1552), and the functions by which the notes find them,
`addOttavas` (2403-2423) and `addHairpins` (2425-2440).

Simplifications: the random id of a spanner is the position of its element; placement, staff and time stamps are left out.
-/
namespace C21

/-- A `hairpin` or `octave` element: `@startid`, `@endid`, and `@form`, or `@dis` and `@dis.place` (meireader.py:1210-1212,
1521-1524). -/
structure TwoEl where
  startRef : Str
  endRef : Str
  what : Str
  side : Str
  deriving DecidableEq

/-- The class made for a hairpin (meireader.py:1213-1220). `none`: a warning and no spanner. -/
def hairKind (e : TwoEl) : Option Str :=
  if e.what = "cres".toList then some "Crescendo".toList
  else if e.what = "dim".toList then some "Diminuendo".toList
  else none

/-- `_M21_OTTAVA_TYPE_FROM_DIS_AND_DIS_PLACE` (meireader.py:1486-1493). -/
def ottTable : List ((Str × Str) × Str) :=
  [(("8".toList, "above".toList), "8va".toList), (("8".toList, "below".toList), "8vb".toList),
   (("15".toList, "above".toList), "15ma".toList), (("15".toList, "below".toList), "15mb".toList),
   (("22".toList, "above".toList), "22da".toList), (("22".toList, "below".toList), "22db".toList)]

/-- The type of an octave line (meireader.py:1525-1535). `none`: a warning and no spanner. -/
def ottKind (e : TwoEl) : Option Str :=
  if e.what = [] ∨ e.side = [] then none else ottTable.lookup (e.what, e.side)

/-- What is written to `m21HairpinStart` or `m21OttavaStart` (meireader.py:1242-1243, 1545-1546). -/
def twoStarts (kind : TwoEl → Option Str) (es : List TwoEl) : List (Str × Nat) :=
  es.zipIdx.filterMap (fun p => if (kind p.1).isSome = true ∧ removeHash p.1.startRef ≠ [] then some (removeHash p.1.startRef, p.2) else none)

/-- What is written to `m21HairpinEnd` or `m21OttavaEnd` (meireader.py:1244-1245, 1547-1548). -/
def twoEnds (kind : TwoEl → Option Str) (es : List TwoEl) : List (Str × Nat) :=
  es.zipIdx.filterMap (fun p => if (kind p.1).isSome = true ∧ removeHash p.1.endRef ≠ [] then some (removeHash p.1.endRef, p.2) else none)

/-- `addHairpins` and `addOttavas` for one note (meireader.py:2403-2440): the spanners it is added to, in this order. -/
def twoAdds (kind : TwoEl → Option Str) (es : List TwoEl) (id : Str) : List Nat :=
  (lastFor (twoStarts kind es) id).toList ++ (lastFor (twoEnds kind es) id).toList

/-- The notes added to spanner `i` when the notes of the file are read one after the other. -/
def twoAdded (kind : TwoEl → Option Str) (es : List TwoEl) (notes : List Str) (i : Nat) : List Str :=
  notes.flatMap (fun n => (twoAdds kind es n).filterMap (fun j => if j = i then some n else none))

/-- The elements of spanner `i`: music21's `addSpannedElements` adds no element a second time. -/
def twoMembers (kind : TwoEl → Option Str) (es : List TwoEl) (notes : List Str) (i : Nat) : List Str :=
  (twoAdded kind es notes i).foldl (fun acc n => if n ∈ acc then acc else acc ++ [n]) []

/-- The spanners made, by the position of their element, with their kind (meireader.py:1239, 1544). -/
def twoSpanners (kind : TwoEl → Option Str) (es : List TwoEl) : List (Nat × Str) :=
  es.zipIdx.filterMap (fun p => (kind p.1).map (fun k => (p.2, k)))

end C21
