import Verif.Model.PyStr
/-
Model of the directions, dynamics and tempos of an MEI file that are attached to a note by `@startid`:
`MeiReader._ppDirsDynamsTempos` (converter21/mei/meireader.py:1817-1906), which writes them to attributes of the note, and
`MeiReader.addDirsDynamsTempos` (2442-2504), which makes the objects from these attributes.

Simplifications: the text and its styles are given as `MeiShared.textFromElem` returns them, stripped. What is made of
text and styles for a direction, a dynamic or a tempo is left out; so is the staff, which is read but not used. The note
is taken to have no attributes of these names in the file, so that `_ppConclude` just sets them.
-/
namespace C21

/-- The three elements, and the three attribute names (meireader.py:1831-1841). -/
inductive TextKind | dir | dynam | tempo
  deriving DecidableEq, Repr

/-- What is written besides the text (meireader.py:1889-1904). -/
inductive TextField | place | midiBPM | fontStyle | fontWeight | fontFamily | justify | enclosure
  deriving DecidableEq, Repr

/-- `@enclose` (meireader.py:1876-1880). -/
inductive TextEnclose | paren | brack | no
  deriving DecidableEq

/-- A `dir`, `dynam` or `tempo` element. `fingering`: its type is `fingering`. Values that are not there are empty. -/
structure TextEl where
  kind : TextKind
  fingering : Bool
  startId : Str
  text : Str
  enclose : TextEnclose
  field : TextField → Str

/-- The name in the attribute (meireader.py:1831-1839). -/
def attrName : TextKind → TextKind
  | .dir => .dir
  | .dynam => .dynam
  | .tempo => .dynam

/-- The text that is written (meireader.py:1876-1880). -/
def enclosedText (e : TextEl) : Str :=
  match e.enclose with
  | .paren => "( ".toList ++ e.text ++ " )".toList
  | .brack => "[ ".toList ++ e.text ++ " ]".toList
  | .no => e.text

/-- The value of a field; `@midi.bpm` only of a tempo (meireader.py:1859-1862). -/
def fieldOf (e : TextEl) (f : TextField) : Str :=
  if f = .midiBPM ∧ e.kind ≠ .tempo then [] else e.field f

/-- All fields, in the order of the code (meireader.py:1889-1904). -/
def allTextFields : List TextField := [.place, .midiBPM, .fontStyle, .fontWeight, .fontFamily, .justify, .enclosure]

/-- What is written for an element, in order (meireader.py:1843-1904). -/
def textWrites (e : TextEl) : List ((Str × TextKind × Option TextField) × Str) :=
  if e.kind = .dir ∧ e.fingering = true then []
  else if e.startId = [] then []
  else if e.text = [] then []
  else ((e.startId, attrName e.kind, none), enclosedText e) ::
    allTextFields.filterMap (fun f => if fieldOf e f = [] then none else some ((e.startId, attrName e.kind, some f), fieldOf e f))

/-- `_ppDirsDynamsTempos` (meireader.py:1817-1906): first all directions, then all dynamics, then all tempos. -/
def ppTexts (els : List TextEl) : List ((Str × TextKind × Option TextField) × Str) :=
  (els.filter (fun e => e.kind = .dir) ++ els.filter (fun e => e.kind = .dynam) ++ els.filter (fun e => e.kind = .tempo)).flatMap textWrites

/-- `elem.get(…, '')`: the last write, or the empty text (meireader.py:2447-2470). -/
def lookText (ws : List ((Str × TextKind × Option TextField) × Str)) (k : Str × TextKind × Option TextField) : Str :=
  ((ws.filterMap (fun w => if w.1 = k then some w.2 else none)).getLast?).getD []

/-- A text that is made an object of the given kind, with its styles. -/
structure TextRead where
  kind : TextKind
  text : Str
  fields : List (TextField × Str)
  deriving DecidableEq

/-- The fields that are read: `@midi.bpm` only for a tempo (meireader.py:2461-2470, 2499). -/
def fieldsRead : TextKind → List TextField
  | .tempo => [.place, .midiBPM, .fontStyle, .fontWeight, .fontFamily, .justify, .enclosure]
  | _ => [.place, .fontStyle, .fontWeight, .fontFamily, .justify, .enclosure]

/-- `addDirsDynamsTempos` (meireader.py:2442-2504) for the note with the given id. -/
def noteTexts (els : List TextEl) (id : Str) : List TextRead :=
  [TextKind.dir, .dynam, .tempo].filterMap (fun k =>
    if lookText (ppTexts els) (id, k, none) = [] then none
    else some ⟨k, lookText (ppTexts els) (id, k, none), (fieldsRead k).map (fun f => (f, lookText (ppTexts els) (id, k, some f)))⟩)

end C21
