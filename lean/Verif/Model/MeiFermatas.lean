import Verif.Model.MeiSlurs
/-
Model of fermatas attached to notes by id in an MEI file: `MeiReader._ppFermatas` (converter21/mei/meireader.py:1278-1296) and
`fermataFromNoteChordOrRestElement` (4537-4571).

Simplifications: the note has no `@fermata` attribute of its own. music21's new fermata is upright and of shape `normal`.
-/
namespace C21

/-- A `fermata` element (meireader.py:1280-1292). `@form` and `@shape` are empty if not there. -/
structure FermEl where
  startRef : Str
  place : Option Str
  form : Str
  shape : Str

/-- The attributes `fermata`, `fermata_form`, `fermata_shape` of a note in `m21Attr`. -/
structure FermAttrs where
  place : Str
  form : Str
  shape : Str

/-- One element, seen from the note `id` (meireader.py:1280-1296). -/
def fermStep (id : Str) (st : Option FermAttrs) (e : FermEl) : Option FermAttrs :=
  if removeHash e.startRef = [] then st
  else if removeHash e.startRef = id then
    some ⟨e.place.getD "above".toList, if e.form = [] then (st.elim [] FermAttrs.form) else e.form,
      if e.shape = [] then (st.elim [] FermAttrs.shape) else e.shape⟩
  else st

/-- The loop (meireader.py:1278-1279). -/
def fermAttrs (es : List FermEl) (id : Str) : Option FermAttrs := es.foldl (fermStep id) none

/-- A music21 fermata. -/
structure FermOut where
  type : Str
  shape : Str
  placement : Option Str
  deriving DecidableEq

/-- `fermata.type` after the placement (meireader.py:4551-4554). -/
def fermType1 (place : Str) : Str :=
  if place = "above".toList then "upright".toList else if place = "below".toList then "inverted".toList else "upright".toList

/-- `fermataFromNoteChordOrRestElement` (meireader.py:4537-4571). -/
def fermBuild (a : FermAttrs) : FermOut :=
  ⟨if a.form = "norm".toList then "upright".toList else if a.form = "inv".toList then "inverted".toList else fermType1 a.place,
   if a.shape = "angular".toList then "angled".toList else if a.shape = "square".toList then "square".toList else "normal".toList,
   if a.place = "above".toList ∨ a.place = "below".toList then some a.place else none⟩

/-- The fermata a note gets. -/
def fermRead (es : List FermEl) (id : Str) : Option FermOut := (fermAttrs es id).map fermBuild

end C21
