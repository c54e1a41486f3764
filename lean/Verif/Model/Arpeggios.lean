import Verif.Model.MeiSlurs
/-
Model of the arpeggios of an MEI file: `MeiReader._ppArpeggios` (converter21/mei/meireader.py:1572-1652) and `addArpeggio`
(2508-2533), by which a note finds its arpeggios.

Simplifications: the random id of a spanner is the position of its element, and the type of the spanner is written beside it; `@plist` is given split at spaces. The note is
taken to have no attributes of these names in the file.
-/
namespace C21

/-- An `arpeg` element (meireader.py:1596-1630). Values that are not there are empty. -/
structure ArpEl where
  plist : List Str
  startId : Str
  endId : Str
  arrow : Str
  order : Str
  deriving DecidableEq

/-- `_ARPEGGIO_ARROW_AND_ORDER_TO_ARPEGGIOTYPE` (meireader.py:1554-1570). -/
def arpTable : List ((Str × Str) × Str) :=
  [((("".toList), ("".toList)), "normal".toList), (("".toList, "up".toList), "normal".toList), (("".toList, "down".toList), "down".toList),
   (("".toList, "nonarp".toList), "non-arpeggio".toList),
   (("false".toList, "".toList), "normal".toList), (("false".toList, "up".toList), "normal".toList),
   (("false".toList, "down".toList), "down".toList), (("false".toList, "nonarp".toList), "non-arpeggio".toList),
   (("true".toList, "".toList), "up".toList), (("true".toList, "up".toList), "up".toList),
   (("true".toList, "down".toList), "down".toList), (("true".toList, "nonarp".toList), "non-arpeggio".toList)]

/-- The lookup, with `normal` for all other values (meireader.py:1625-1630). -/
def arpType (arrow order : Str) : Str := (arpTable.lookup (arrow, order)).getD "normal".toList

/-- The list of ids (meireader.py:1598-1618). -/
def arpIds (e : ArpEl) : List Str :=
  let p1 := if e.startId = [] then e.plist else e.startId :: e.plist.erase e.startId
  if e.endId = [] then p1 else p1.erase e.endId ++ [e.endId]

/-- What is written to `m21ArpeggioMarkSpanner` (meireader.py:1632-1646). -/
def arpSpanWrites (p : ArpEl × Nat) : List (Str × (Nat × Str)) :=
  if 1 < (arpIds p.1).length then (arpIds p.1).map (fun x => (removeHash x, (p.2, arpType p.1.arrow p.1.order))) else []

/-- What is written to `m21ArpeggioMarkType` (meireader.py:1647-1649). -/
def arpTypeWrites (e : ArpEl) : List (Str × Str) :=
  match arpIds e with
  | [x] => [(removeHash x, arpType e.arrow e.order)]
  | _ => []

/-- The last value written for a note. -/
def lastFor {α : Type} (ws : List (Str × α)) (id : Str) : Option α := (ws.filterMap (fun w => if w.1 = id then some w.2 else none)).getLast?

/-- `addArpeggio` (meireader.py:2508-2523): the spanner a note is put into, by the position of its element, and
the type of this spanner. -/
def arpSpanOf (es : List ArpEl) (id : Str) : Option (Nat × Str) := lastFor (es.zipIdx.flatMap arpSpanWrites) id

/-- `addArpeggio` (meireader.py:2525-2531): the type of the mark of the note's own. -/
def arpMarkOf (es : List ArpEl) (id : Str) : Option Str := lastFor (es.flatMap arpTypeWrites) id

end C21
