import Verif.Model.KernArtic
import Verif.Model.Signifier
import Verif.Model.Recip
/-
How a note looks in **kern: grace notes, noteheads, stems, cue size, color, invisible notes.

Models converter21/humdrum/m21convert.py 882-898, 1041-1063, 1066-1110, 1140-1173, 1211-1236, 1346-1355, 2912-2925 (written) and
converter21/humdrum/humdrumfile.py 7466-7483, 7557-7564, 7611, 7726-7742, 7764-7776, 7858-7870, 7913-7953, 8490-8525 (read).
-/
namespace C21

/-- The durations `kernGraceTypeFromM21Duration` tells apart: not a grace note, `AppoggiaturaDuration`, `GraceDuration` with its
`stealTimePrevious`, `stealTimeFollowing` and `slash`. -/
inductive GraceDur
  | none
  | appoggiatura
  | grace (previous following : Option Rat) (slash : Option Bool)
deriving DecidableEq

/-- `kernGraceTypeFromM21Duration`. m21convert.py 1066-1097. -/
def graceText : GraceDur → Str
  | .none => []
  | .appoggiatura => ['q', 'q']
  | .grace previous following slash =>
    if previous.isSome then ['q']
    else if following.isSome then ['q', 'q']
    else if slash = some true then ['q']
    else if slash = some false then ['q', 'q']
    else ['q']

/-- `stemDirection`; `unset` stands for 'unspecified' and None. -/
inductive StemDir
  | unset | up | down | noStem
deriving DecidableEq, Repr

/-- What the exporter looks at. `size` and `color` are `style.noteSize` and `style.color` (None without style), `hidden` is
`style.hideObjectOnPrint`, `head` and `fill` are `notehead` and `noteheadFill`. -/
structure NoteLook where
  grace : GraceDur
  head : Option Str
  fill : Option Bool
  stem : StemDir
  size : Option Str
  color : Option Str
  hidden : Bool
deriving DecidableEq

/-- A note to be written: the parts of its token that do not depend on its look, and its look. The articulations are cut in two at the
caesura, if there is one. -/
structure LookNote where
  slurStarts : Str
  tieStart : Str
  recip : Str
  pitch : Str
  editorial : Option Bool
  sf : Str
  expressions : Str
  artics : Str
  caesura : Bool
  moreArtics : Str
  beam : Str
  tieStop : Str
  slurStops : Str
  look : NoteLook

/-- The recip of `kernRecipAndGraceTypeFromGeneralNote`: none for grace notes without stem. m21convert.py 882-898. -/
def lookRecip (n : LookNote) : Str :=
  if graceText n.look.grace ≠ [] ∧ n.look.stem = .noStem then [] else n.recip

/-- `_getHumdrumStemDirStringFromM21GeneralNote`. m21convert.py 2912-2925. -/
def stemText : StemDir → Str
  | .down => ['\\']
  | .up => ['/']
  | _ => []

/-- `_getKernInvisibilityFromGeneralNote`. m21convert.py 1346-1353. -/
def invisibleText (hidden : Bool) : Str := if hidden then ['y', 'y'] else []

/-- The cue size request. m21convert.py 1166-1168. -/
def cueRequest (l : NoteLook) : List RDFDef := if l.size = some "cue".toList then [.cueSize] else []

/-- The color request: `if noteColor:` m21convert.py 1170-1172. -/
def colorRequest (l : NoteLook) : List RDFDef :=
  match l.color with
  | some (c :: cs) => [.noteColor (c :: cs)]
  | _ => []

/-- The requests of a note in the order they are made: accidental, caesura, cue size, color. m21convert.py 1048-1057, 1166-1172. -/
def lookRequests (n : LookNote) : List RDFDef :=
  (n.editorial.map RDFDef.editorial).toList ++ (if n.caesura then [.caesura] else []) ++ cueRequest n.look ++ colorRequest n.look

/-- The characters returned for the requests `ds`, as text. -/
def signText (ds : List RDFDef) (cs : List Char) (wanted : List RDFDef) : Str :=
  wanted.filterMap (fun d => ((ds.zip cs).find? (fun p => p.1 = d)).map (·.2))

/-- The token of a note, given the text for requests. m21convert.py 1041-1063 with 1174-1177. -/
def lookTokenWith (n : LookNote) (sign : List RDFDef → Str) : Str :=
  noteToken {
    slurStarts := n.slurStarts, tieStart := n.tieStart, recip := lookRecip n, grace := graceText n.look.grace,
    pitch := n.pitch ++ sign (n.editorial.map RDFDef.editorial).toList,
    sf := n.sf, expressions := n.expressions,
    artics := n.artics ++ sign (if n.caesura then [.caesura] else []) ++ n.moreArtics,
    cueSize := sign (cueRequest n.look), color := sign (colorRequest n.look),
    stem := stemText n.look.stem, beam := n.beam, invisible := invisibleText n.look.hidden,
    tieStop := n.tieStop, slurStops := n.slurStops }

/-- The token of a note, given the characters for its requests. -/
def lookToken (n : LookNote) (cs : List Char) : Str := lookTokenWith n (signText (lookRequests n) cs)

/-- `_getNoteHeadLayoutsFromM21GeneralNote`: the value of `head` in the layout. m21convert.py 1211-1236. -/
def headValue (l : NoteLook) : Option Str :=
  if l.fill = none ∧ (l.head = none ∨ l.head = some "normal".toList) then none
  else if l.fill = some true then some "solid".toList
  else if l.fill = some false then some "open".toList
  else if l.head = some "diamond".toList then some "diamond".toList
  else if l.head = some "cross".toList then some "plus".toList
  else none

/-- The tokens of all the notes of a score, in the order they are converted. -/
def writeLooks (reserved : Str) : List LookNote → SigSt RDFDef → Except PyErr (List Str × SigSt RDFDef)
  | [], S => .ok ([], S)
  | n :: ns, S =>
    match chooseAll reserved ((lookRequests n).map (fun d => (d, d.favorite))) S with
    | .error e => .error e
    | .ok (cs, S1) =>
      match writeLooks reserved ns S1 with
      | .error e => .error e
      | .ok (toks, S2) => .ok (lookToken n cs :: toks, S2)

/-! ### Reading -/

/-- What the reader makes of a grace note: an appoggiatura or an ordinary one. -/
inductive GraceRead
  | none | ordinary | appoggiatura
deriving DecidableEq, Repr

/-- `_replaceGeneralNoteWithGrace`. humdrumfile.py 7466-7483, 7562-7564. -/
def readQSigns (tok : Str) : GraceRead :=
  if isInfix ['q', 'q'] tok then .appoggiatura else if tok.contains 'q' then .ordinary else .none

/-- The duration returned by `_convertRhythm`, without tremolos: grace signs are removed. humdrumfile.py 8495-8525. -/
def noteDuration (tok : Str) : Except PyErr Rat := recipToDuration (tok.filter (fun c => !(c == 'q')))

/-- `_setStemDirection`, and notes without duration have no stem. Stem directions of beams are never written and left out.
humdrumfile.py 7943-7953, 7726-7735. -/
def readStem (tok : Str) : Except PyErr StemDir :=
  match noteDuration tok with
  | .error e => .error e
  | .ok d => .ok (if d = 0 then .noStem else if tok.contains '/' then .up else if tok.contains '\\' then .down else .unset)

/-- Cue size by signifier; cue-sized layers and layout parameters for it are never written. humdrumfile.py 7767-7769. -/
def readCue (K : Known) (tok : Str) : Bool := !(K.cueSize == []) && isInfix K.cueSize tok

/-- Invisible notes. humdrumfile.py 7737-7741. -/
def readHidden (tok : Str) : Bool := isInfix ['y', 'y'] tok

/-- `_setNoteHead`, given the layout parameter; `known` are the noteheads music21 accepts. Returns notehead and fill.
humdrumfile.py 7913-7940. The *head interpretation is never written. -/
def readHead (known : List Str) (value : Str) : Option Str × Option Bool :=
  if value = [] then (none, none)
  else if value = "solid".toList then (none, some true)
  else if value = "open".toList then (none, some false)
  else if value = "rhombus".toList then (some "diamond".toList, none)
  else if startsWith value "dia".toList then (some "diamond".toList, none)
  else if value = "plus".toList then (some "cross".toList, none)
  else if known.contains value then (some value, none)
  else (none, none)

/-- The look of a note after import. -/
structure LookSeen where
  grace : GraceRead
  stem : StemDir
  cue : Bool
  color : Option Str
  hidden : Bool
deriving DecidableEq

/-- The parts of `_convertNote` above; spine colors are never written. -/
def readLook (K : Known) (tok : Str) : Except PyErr LookSeen :=
  match readStem tok with
  | .error e => .error e
  | .ok s => .ok ⟨readQSigns tok, s, readCue K tok, markColor K tok, readHidden tok⟩

end C21
