import Verif.Model.PyStr
/-
Model of reading slurs from MEI: `_ppSlurs`, `_ppConclude` and `addSlurs` (converter21/mei/meireader.py:877-979, 1908-1944,
2245-2338).

Simplifications: notes and chords are numbered in the order in which they are read; notes within chords are left out
(their slurs are moved to the chord). A slur is its local id, its placement and the notes and chords it joins in the
order in which they were added. The random ids (`uuid4`) are values of a function. An attribute that is missing is
empty. music21 is trusted: `addSpannedElements` adds an element that is not there yet at the end, and `getByIdLocal`
gives the spanners with the id in the order in which they were added to the bundle.
-/
namespace C21

/-- A `<slur>` element with its attributes. -/
structure MSlurEl where
  startid : Str
  endid : Str
  curvedir : Str
  deriving DecidableEq

/-- A `<note>` or `<chord>` with its id (empty if it has none) and its attribute `slur`. -/
structure MSlurObj where
  xid : Str
  slur : Option Str
  deriving DecidableEq

/-- A slur of music21. -/
structure MSlurSp where
  idLocal : Option Str
  place : Option Str
  els : List Nat
  deriving DecidableEq

/-- `removeOctothorpe` (mei/meishared.py:127-139). -/
def removeHash : Str → Str
  | '#' :: rest => rest
  | s => s

/-- One attribute in `m21Attr`: ids of elements with the text of the attribute. -/
abbrev MIdAttrs := List (Str × Str)

/-- The text for an id. -/
def attrText : MIdAttrs → Str → Option Str
  | [], _ => none
  | (k, v) :: rest, id => if k = id then some v else attrText rest id

/-- meireader.py:961-971: set the text of an id or add to it after a comma. -/
def addIdTo (id v : Str) : MIdAttrs → MIdAttrs
  | [] => [(id, v)]
  | (k, w) :: rest => if k = id then (k, w ++ ',' :: v) :: rest else (k, w) :: addIdTo id v rest

/-- What `_ppSlurs` makes: `m21SlurStart`, `m21SlurEnd` and the slurs. -/
structure MSlurPre where
  starts : MIdAttrs
  ends : MIdAttrs
  bundle : List MSlurSp

/-- meireader.py:973-975. -/
def curvePlace (c : Str) : Option Str :=
  if c = "above".toList ∨ c = "below".toList then some c else none

/-- One `<slur>` (meireader.py:946-979); `uid n` is the id of the slur made after `n` others. -/
def ppSlur (uid : Nat → Str) (p : MSlurPre) (e : MSlurEl) : MSlurPre :=
  if removeHash e.startid ≠ [] ∨ removeHash e.endid ≠ [] then
    { starts := if removeHash e.startid ≠ [] then addIdTo (removeHash e.startid) (uid p.bundle.length) p.starts else p.starts
      ends := if removeHash e.endid ≠ [] then addIdTo (removeHash e.endid) (uid p.bundle.length) p.ends else p.ends
      bundle := p.bundle ++ [⟨some (uid p.bundle.length), curvePlace e.curvedir, []⟩] }
  else p

/-- `_ppSlurs` (meireader.py:943-979). -/
def ppSlurs (uid : Nat → Str) (es : List MSlurEl) : MSlurPre := es.foldl (ppSlur uid) ⟨[], [], []⟩

/-- The ids in an attribute of an element (meireader.py:1934-1944, 2306-2313). -/
def idsIn (a : MIdAttrs) (xid : Str) : List Str :=
  if xid = [] then []
  else
    match attrText a xid with
    | none => []
    | some s => if s = [] then [] else splitOn ',' s

/-- `addSpannedElements` for one element. -/
def addOnce (obj : Nat) (els : List Nat) : List Nat := if obj ∈ els then els else els ++ [obj]

/-- `safeAddToSpannerByIdLocal` (meireader.py:2245-2264). -/
def addToSpanner (clear : Bool) (obj : Nat) (id : Str) : List MSlurSp → List MSlurSp
  | [] => []
  | s :: rest =>
    if s.idLocal = some id then
      { s with els := addOnce obj s.els, idLocal := if clear then none else s.idLocal } :: rest
    else s :: addToSpanner clear obj id rest

/-- A word of the attribute `slur` (meireader.py:2323-2338). -/
def addSlurWord (obj : Nat) (b : List MSlurSp) (w : Str) : List MSlurSp :=
  match w with
  | 'i' :: num => b ++ [⟨some num, none, [obj]⟩]
  | 't' :: num => addToSpanner true obj num b
  | _ => b

/-- The part of `addSlurs` for `<slur>` elements (meireader.py:2306-2318). -/
def addElemSlurs (p : MSlurPre) (obj : Nat) (o : MSlurObj) (b : List MSlurSp) : List MSlurSp :=
  (idsIn p.ends o.xid).foldl (fun b id => addToSpanner false obj id b)
    ((idsIn p.starts o.xid).foldl (fun b id => addToSpanner false obj id b) b)

/-- The part of `addSlurs` for the attribute `slur` (meireader.py:2320-2338). -/
def addAttrSlurs (obj : Nat) (o : MSlurObj) (b : List MSlurSp) : List MSlurSp :=
  match o.slur with
  | none => b
  | some s => (splitOn ' ' s).foldl (addSlurWord obj) b

/-- `addSlurs` for the notes and chords in the order in which they are read (meireader.py:2266-2338, 4898, 5506). -/
def readObjs (p : MSlurPre) : Nat → List MSlurObj → List MSlurSp → List MSlurSp
  | _, [], b => b
  | i, o :: os, b => readObjs p (i + 1) os (addAttrSlurs i o (addElemSlurs p i o b))

/-- All slurs of a document. -/
def readSlurs (uid : Nat → Str) (es : List MSlurEl) (objs : List MSlurObj) : List MSlurSp :=
  readObjs (ppSlurs uid es) 0 objs (ppSlurs uid es).bundle

end C21
