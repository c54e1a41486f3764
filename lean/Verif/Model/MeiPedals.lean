import Verif.Model.PyStr
/-
Model of the pedal marks of an MEI file: `MeiReader._ppPedals` (converter21/mei/meireader.py:1654-1815), which puts each
`pedal` element into a pedal mark, and `MeiReader.addPedals` (2340-2401), which a note uses to find its pedals.

Simplifications: the random id of a new mark is the position of the element it was made for. Function, form and
placement are left out, and so is `getPedalObject`, which adds a note or an anchor to the mark. The version of music21
is taken to support pedal marks.
-/
namespace C21

/-- `@dir` (meireader.py:1680); `other` is any other value or none. -/
inductive PedalDir | down | half | up | bounce | other
  deriving DecidableEq, Repr

/-- A `pedal` element (meireader.py:1677-1687). `startId` is empty if there is none. -/
structure PedalEl where
  dir : PedalDir
  staff : Str
  startId : Str
  deriving DecidableEq

/-- `currentOpenPedalSpanners[staffAttr] = …` (meireader.py:1668). -/
def setOpen (op : Str → Option Nat) (s : Str) (v : Option Nat) : Str → Option Nat := fun x => if x = s then v else op x

/-- `down`, `half` and `up` (meireader.py:1693-1736): end the open mark of the staff, or open one. -/
def pedalToggle (op : Str → Option Nat) (e : PedalEl) (i : Nat) : (Str → Option Nat) × Option (Nat × PedalDir) :=
  match op e.staff with
  | some m => (setOpen op e.staff none, some (m, e.dir))
  | none => (setOpen op e.staff (some i), some (i, e.dir))

/-- One pass of the loop (meireader.py:1670-1770): the mark and the direction, after `overrideDirAttr`. -/
def meiPedalStep (op : Str → Option Nat) (p : PedalEl × Nat) : (Str → Option Nat) × Option (Nat × PedalDir) :=
  match p.1.dir with
  | .down => pedalToggle op p.1 p.2
  | .half => pedalToggle op p.1 p.2
  | .up => pedalToggle op p.1 p.2
  | .bounce =>
    match op p.1.staff with
    | some m => (op, some (m, .bounce))
    | none => (setOpen op p.1.staff (some p.2), some (p.2, .down))
  | .other => (op, none)

/-- The loop (meireader.py:1670): for each position the mark and the direction. -/
def runPedals (op : Str → Option Nat) : List (PedalEl × Nat) → List (Nat × Option (Nat × PedalDir))
  | [] => []
  | p :: ps => (p.2, (meiPedalStep op p).2) :: runPedals (meiPedalStep op p).1 ps

/-- `_ppPedals` (meireader.py:1654-1815). -/
def ppPedals (es : List PedalEl) : List (Nat × Option (Nat × PedalDir)) := runPedals (fun _ => none) es.zipIdx

/-- The attribute that is written: `m21PedalStart`, `m21PedalEnd` or `m21Pedal` (meireader.py:1778-1789). -/
inductive PedalAttr | start | stop | mid
  deriving DecidableEq

/-- The choice of the attribute (meireader.py:1778-1789). -/
def attrFor : PedalDir → PedalAttr
  | .down => .start
  | .half => .start
  | .up => .stop
  | .bounce => .mid
  | .other => .mid

/-- Everything written to `m21Attr`, in order (meireader.py:1772-1789). -/
def pedalWrites (es : List PedalEl) : List ((Str × PedalAttr) × (Nat × PedalDir)) :=
  (es.zip (ppPedals es)).filterMap (fun q =>
    match q.2.2 with
    | some r => if q.1.startId = [] then none else some ((q.1.startId, attrFor q.1.dir), r)
    | none => none)

/-- What is found at a note: the last write (meireader.py:1778-1789, 2354-2364). -/
def lastWrite (ws : List ((Str × PedalAttr) × (Nat × PedalDir))) (k : Str × PedalAttr) : Option (Nat × PedalDir) :=
  (ws.filterMap (fun w => if w.1 = k then some w.2 else none)).getLast?

/-- `addPedals` (meireader.py:2353-2372): the marks a note is put into, with the direction. -/
def notePedals (es : List PedalEl) (id : Str) : List (Nat × PedalDir) :=
  ((lastWrite (pedalWrites es) (id, .start)).toList.map (fun r => (r.1, PedalDir.down))) ++
  ((lastWrite (pedalWrites es) (id, .stop)).toList.map (fun r => (r.1, PedalDir.up))) ++
  (lastWrite (pedalWrites es) (id, .mid)).toList

end C21
