import Verif.Model.MeiSlurs
/-
Model of trills, mordents and turns attached to notes by id in an MEI file: `MeiReader._ppTrills`
(converter21/mei/meireader.py:1322-1344), `_ppMordents` (1407-1433), `_ppTurns` (1459-1484), and the functions that make the
ornaments of a note, `addTrill` (2562-2600), `addMordent` (2602-2664) and `addTurn` (2666-2742).

Simplifications: the table of accidentals is a function `acc`, empty for accidentals it does not have. Ornamental pitches,
extensions of trills and staves are left out. The three loops write to different attributes and are one loop here.
-/
namespace C21

/-- The three elements. -/
inductive MOrnKind where
  | trill | mordent | turn
  deriving DecidableEq

/-- Their attributes. -/
inductive MOrnField where
  | place | form | theType | accUpper | accLower | delayed
  deriving DecidableEq

/-- An element (meireader.py:1324-1334, 1409-1423, 1461-1470). Attributes that are not there are empty; `@place` has a default of
its own. -/
structure MOrnEl where
  kind : MOrnKind
  startRef : Str
  place : Option Str
  form : Str
  theType : Str
  accUpper : Str
  accLower : Str
  delayed : Str

/-- The value that is written (meireader.py:1328, 1410, 1462: the default of `@place`). -/
def mornValue (e : MOrnEl) : MOrnField → Str
  | .place => e.place.getD "place_unspecified".toList
  | .form => e.form
  | .theType => e.theType
  | .accUpper => e.accUpper
  | .accLower => e.accLower
  | .delayed => e.delayed

/-- The attributes beside `@place` that are written (meireader.py:1337-1340, 1426-1431, 1473-1482). -/
def mornFields : MOrnKind → List MOrnField
  | .trill => [.accUpper, .accLower]
  | .mordent => [.form, .accUpper, .accLower]
  | .turn => [.form, .theType, .accUpper, .accLower, .delayed]

/-- What is written for one element (meireader.py:1331-1342, 1414-1431, 1467-1482). -/
def mornWrites (e : MOrnEl) : List ((Str × MOrnKind × MOrnField) × Str) :=
  if removeHash e.startRef = [] then []
  else ((removeHash e.startRef, e.kind, .place), mornValue e .place) ::
    (mornFields e.kind).filterMap (fun f => if mornValue e f = [] then none else some ((removeHash e.startRef, e.kind, f), mornValue e f))

/-- `elem.get(name, '')` on the note: the last value written. -/
def mornAttr (es : List MOrnEl) (id : Str) (k : MOrnKind) (f : MOrnField) : Str :=
  (((es.flatMap mornWrites).filterMap (fun w => if w.1 = (id, k, f) then some w.2 else none)).getLast?).getD []

/-- An ornament: music21's class is given by kind and inversion; trills and mordents have one accidental. -/
structure MOrn where
  kind : MOrnKind
  inverted : Bool
  accid : Str
  accid2 : Str
  delayed : Bool
  place : Option Str
  deriving DecidableEq

/-- `_m21AccidentalNameFromAccid` (meireader.py:2535-2541). -/
def mornAccid (acc : Str → Str) (s : Str) : Str := if s = [] then [] else acc s

/-- The one accidental of trills and mordents (meireader.py:2570-2576, 2617-2621). -/
def mornOneAccid (acc : Str → Str) (u l : Str) : Str := if u ≠ [] then mornAccid acc u else mornAccid acc l

/-- The form of a mordent (meireader.py:2623-2632). -/
def mordentForm (form u l : Str) : Str :=
  let f1 := if u ≠ [] ∧ form = [] then "upper".toList else form
  let f2 := if l ≠ [] ∧ f1 = [] then "lower".toList else f1
  if f2 = [] then "lower".toList else f2

/-- The form of a turn (meireader.py:2684-2688). -/
def turnForm (form ty : Str) : Str :=
  if form = [] then (if ty = "slashed".toList then "lower".toList else "upper".toList) else form

/-- The placement (meireader.py:2593-2596, 2659-2662, 2737-2740). -/
def mornPlace (p : Str) : Option Str := if p ≠ [] ∧ p ≠ "place_unspecified".toList then some p else none

/-- `addTrill`, `addMordent`, `addTurn` (meireader.py:2562-2742). `error`: a mordent of another form, where the variable
`mordent` is used without a value (2634-2648). -/
def mornBuild (acc : Str → Str) (k : MOrnKind) (v : MOrnField → Str) : Except Unit (Option MOrn) :=
  if v .place = [] then .ok none
  else
    match k with
    | .trill => .ok (some ⟨.trill, false, mornOneAccid acc (v .accUpper) (v .accLower), [], false, mornPlace (v .place)⟩)
    | .mordent =>
      let form := mordentForm (v .form) (v .accUpper) (v .accLower)
      if form = "upper".toList then .ok (some ⟨.mordent, true, mornOneAccid acc (v .accUpper) (v .accLower), [], false, mornPlace (v .place)⟩)
      else if form = "lower".toList then .ok (some ⟨.mordent, false, mornOneAccid acc (v .accUpper) (v .accLower), [], false, mornPlace (v .place)⟩)
      else .error ()
    | .turn =>
      .ok (some ⟨.turn, decide (turnForm (v .form) (v .theType) ≠ "upper".toList), mornAccid acc (v .accUpper), mornAccid acc (v .accLower),
        decide (v .delayed = "true".toList), mornPlace (v .place)⟩)

/-- The ornament of one kind a note gets. -/
def mornRead (acc : Str → Str) (es : List MOrnEl) (id : Str) (k : MOrnKind) : Except Unit (Option MOrn) :=
  mornBuild acc k (mornAttr es id k)

end C21
