import Verif.Model.PyNum
/-
The grid of the exporter: cells, lines and header lines
(humdrum/gridcommon.py, gridvoice.py, gridstaff.py, gridside.py, gridslice.py, humgrid.py).
-/
namespace C21

/-- `SliceType` (gridcommon.py:56-91), with the separators ending in `_`. -/
inductive SliceKind
  | notes | duration_ | graceNotes | data_ | measures | measure_ | stria | clefs | transpositions | keyDesignations
  | keySigs | timeSigs | meterSigs | tempos | labels | labelAbbrs | ottavas | pedals | verseLabels | sectionNames
  | tupletDisplay | regularInterpretation_ | exclusives | terminators | manipulators | manipulator_ | interpretation_
  | layouts | localComments | spined_ | globalComments | globalLayouts | referenceRecords | other_ | invalid
  deriving DecidableEq, Repr

/-- The numbers of `SliceType` (gridcommon.py:56-91). -/
def SliceKind.num (k : SliceKind) : Nat := k.ctorIdx + 1

/-- `isDataSlice` (gridslice.py:236-240). -/
def SliceKind.isData (k : SliceKind) : Bool := k.num ≤ SliceKind.data_.num
/-- `isInterpretationSlice` (gridslice.py:228-234). -/
def SliceKind.isInterp (k : SliceKind) : Bool := SliceKind.measure_.num ≤ k.num && k.num ≤ SliceKind.interpretation_.num
/-- `hasSpines` (gridslice.py:332-336). -/
def SliceKind.hasSpines (k : SliceKind) : Bool := k.num < SliceKind.spined_.num

/-- A place for a voice: `None`, a `GridVoice` without token, a `GridVoice` with a token (gridvoice.py:31-43;
gridstaff.py:35). Only the text of a token is modelled. -/
inductive GCell
  | absent
  | empty
  | tok (text : Str)
  deriving DecidableEq, Repr

/-- The text if there is a token. -/
def GCell.text? : GCell → Option Str
  | .tok t => some t
  | _ => none

/-- `GridStaff` with its side (gridstaff.py:34-37; gridside.py:28-35). -/
structure GStaff where
  voices : List GCell := []
  xmlId : Option Str := none
  verses : List (Option Str) := []
  deriving DecidableEq, Repr

/-- `GridPart` with its side (gridpart.py; gridside.py:28-35). -/
structure GPart where
  staves : List GStaff := []
  dynamics : Option Str := none
  figuredBass : Option Str := none
  harmony : Option Str := none
  deriving DecidableEq, Repr

/-- `GridSlice` (gridslice.py:47-92). -/
structure GSlice where
  time : Rat
  kind : SliceKind
  parts : List GPart
  deriving DecidableEq, Repr

/-- The constructor with staff counts (gridslice.py:70-83): one empty voice per staff. -/
def newSlice (time : Rat) (kind : SliceKind) (staffCounts : List Nat) : GSlice :=
  ⟨time, kind, staffCounts.map (fun n => { staves := List.replicate n { voices := [.empty] } })⟩

/-- `initializeBySlice` (gridslice.py:654-664). -/
def sliceLike (time : Rat) (kind : SliceKind) (old : GSlice) : GSlice :=
  ⟨time, kind, old.parts.map (fun p => { staves := p.staves.map (fun s => { voices := s.voices.map (fun _ => .empty) }) })⟩

/-- Grow a list to at least `n + 1` entries (gridslice.py:158-160, 165-167; gridstaff.py:73-75; gridside.py:79-80). -/
def growTo {α : Type} (l : List α) (n : Nat) (d : α) : List α := l ++ List.replicate (n + 1 - l.length) d

/-- `voice.token = tok` (gridslice.py:169-176): an `AttributeError` if the voice is `None`. -/
def GCell.put (tok : Str) : GCell → Except PyErr GCell
  | .absent => .error .attributeError
  | _ => .ok (.tok tok)

/-- Setting a voice of a list of voices, growing it (gridslice.py:164-176). A negative index counts from the end. -/
def putVoice (voices : List GCell) (voice : Int) (tok : Str) : Except PyErr (List GCell) :=
  if 0 ≤ voice then
    ((growTo voices voice.toNat .empty).getD voice.toNat .empty).put tok |>.map
      (fun c => (growTo voices voice.toNat .empty).set voice.toNat c)
  else if -(voices.length : Int) ≤ voice then
    ((voices.getD ((voices.length : Int) + voice).toNat .empty).put tok).map
      (fun c => voices.set ((voices.length : Int) + voice).toNat c)
  else .error .indexError

/-- `addToken` within a part (gridslice.py:152-176). -/
def GPart.addToken (part : GPart) (staff : Nat) (voice : Int) (tok : Str) : Except PyErr GPart :=
  (putVoice ((growTo part.staves staff {}).getD staff {}).voices voice tok).map
    (fun vs => { part with staves := (growTo part.staves staff {}).set staff { (growTo part.staves staff {}).getD staff {} with voices := vs } })

/-- `addToken` (gridslice.py:139-176). -/
def GSlice.addToken (sl : GSlice) (tok : Str) (part staff voice : Int) : Except PyErr GSlice :=
  if 0 ≤ part ∧ part < sl.parts.length then
    if staff < 0 then .error .humdrumInternal
    else ((sl.parts.getD part.toNat {}).addToken staff.toNat voice tok).map
      (fun p => { sl with parts := sl.parts.set part.toNat p })
  else .error .humdrumInternal

/-- `setTokenLayer` (gridstaff.py:68-78). The duration of the voice is not modelled. -/
def GStaff.setTokenLayer (st : GStaff) (layer : Int) (tok : Str) : Except PyErr GStaff :=
  if layer < 0 then .error .humdrumInternal
  else .ok { st with voices := (growTo st.voices layer.toNat .absent).set layer.toNat (.tok tok) }

/-- The null token written by `setNullTokenLayer` (gridstaff.py:90-101). -/
def SliceKind.nullStr (k : SliceKind) : Except PyErr Str :=
  if k.num < SliceKind.data_.num then .ok ".".toList
  else if k.num ≤ SliceKind.measure_.num then .ok "=".toList
  else if k.num ≤ SliceKind.interpretation_.num then .ok "*".toList
  else if k.num ≤ SliceKind.spined_.num then .ok "!".toList
  else .error .humdrumInternal

/-- The existing token of a layer (gridstaff.py:103-105). -/
def GStaff.tokenAt (st : GStaff) (layer : Nat) : Option Str := (st.voices.getD layer .absent).text?

/-- `setNullTokenLayer` (gridstaff.py:80-115), for a layer that is not negative. -/
def GStaff.setNullTokenLayer (st : GStaff) (layer : Nat) (k : SliceKind) : Except PyErr GStaff :=
  if k = .invalid ∨ k = .globalLayouts ∨ k = .globalComments ∨ k = .referenceRecords then .ok st
  else
    match k.nullStr with
    | .error e => .error e
    | .ok nul =>
      match st.tokenAt layer with
      | none => st.setTokenLayer layer nul
      | some t => if t = nul then .ok st else .error .humdrumExport

/-- `setVerse` (gridside.py:68-82), for an index that is not negative. -/
def GStaff.setVerse (st : GStaff) (i : Nat) (tok : Option Str) : GStaff :=
  if i = st.verses.length then { st with verses := st.verses ++ [tok] }
  else if i < st.verses.length then { st with verses := st.verses.set i tok }
  else { st with verses := (growTo st.verses i none).set i tok }

/-- `getVerse` (gridside.py:63-66). -/
def GStaff.getVerse (st : GStaff) (i : Int) : Option Str :=
  if 0 ≤ i ∧ i < st.verses.length then st.verses.getD i.toNat none else none

/-! ### Lines -/

/-- What the grid knows about its side spines: `_xmlIds`, `_verseCount`, `_dynamics`, `_figuredBass`, `_harmony`
(humgrid.py:50-58). -/
structure SideCounts where
  xmlIds : List Bool
  verses : List (List Nat)
  dynamics : List Bool
  figuredBass : List Bool
  harmony : List Bool

/-- `xmlIdCount`, `dynamicsCount`, `figuredBassCount`, `harmonyCount` (humgrid.py:194-258): 0 beyond the list. -/
def flagAt (l : List Bool) (p : Nat) : Nat := if l.getD p false then 1 else 0
/-- `verseCount` (humgrid.py:181-186): the list for a part starts with an entry for the part itself. -/
def SideCounts.verseCount (g : SideCounts) (p s : Nat) : Nat := (g.verses.getD p []).getD (s + 1) 0

/-- The token or the empty string of the slice (gridslice.py:404-408, 560-600). -/
def orEmpty (e : Str) (o : Option Str) : Str := o.getD e

/-- The text for empty places (gridslice.py:344-367) without a recip spine. The first staff and its list of voices are
looked at only on barlines; a barline slice whose first part has no staff is an `IndexError`. -/
def emptyStr (sl : GSlice) : Except PyErr Str :=
  if sl.kind = .measures then
    match sl.parts with
    | [] => .ok ".".toList
    | p :: _ =>
      match p.staves with
      | [] => .error .indexError
      | s :: _ =>
        match s.voices with
        | [] => .ok "=YYYYYY".toList
        | v :: _ => .ok (v.text?.getD "=YYYYYY".toList)
  else if sl.kind.isInterp then .ok "*".toList
  else if sl.kind = .layouts then .ok "!".toList
  else if !sl.kind.hasSpines then .ok "???".toList
  else .ok ".".toList

/-- The voices of a staff (gridslice.py:398-408). -/
def voiceTexts (e : Str) (st : GStaff) : List Str :=
  if st.voices = [] then [e] else st.voices.map (fun v => orEmpty e v.text?)

/-- `transferSidesFromStaff` (gridslice.py:578-605). -/
def staffSides (g : SideCounts) (e : Str) (p s : Nat) (st : GStaff) : List Str :=
  (if flagAt g.xmlIds p > 0 then [orEmpty e st.xmlId] else []) ++
  st.verses.map (orEmpty e) ++ List.replicate (g.verseCount p s - st.verses.length) e

/-- `transferSidesFromPart` (gridslice.py:540-575). -/
def partSides (g : SideCounts) (e : Str) (p : Nat) (part : GPart) : List Str :=
  (if flagAt g.dynamics p > 0 then [orEmpty e part.dynamics] else []) ++
  (if flagAt g.figuredBass p > 0 then [orEmpty e part.figuredBass] else []) ++
  (match part.harmony with
   | some h => [h]
   | none => []) ++
  List.replicate (flagAt g.harmony p - (if part.harmony.isSome then 1 else 0)) e

/-- The staves of a part, last first (gridslice.py:394-414). -/
def stavesTexts (g : SideCounts) (e : Str) (p : Nat) : Nat → List GStaff → List Str
  | _, [] => []
  | s, st :: rest => stavesTexts g e p (s + 1) rest ++ (voiceTexts e st ++ staffSides g e p s st)

/-- The parts, last first (gridslice.py:390-425). -/
def partsTexts (g : SideCounts) (e : Str) : Nat → List GPart → List Str
  | _, [] => []
  | p, part :: rest => partsTexts g e (p + 1) rest ++ (stavesTexts g e p 0 part.staves ++ partSides g e p part)

/-- A slice without spines: the first staff of the first part (gridslice.py:390-412). -/
def globalTexts (e : Str) (sl : GSlice) : List Str :=
  match sl.parts with
  | [] => []
  | p :: _ =>
    match p.staves with
    | [] => []
    | s :: _ => voiceTexts e s

/-- `transferTokens` (gridslice.py:344-427) without a recip spine: the tokens of the line. -/
def sliceTexts (g : SideCounts) (sl : GSlice) : Except PyErr (List Str) :=
  (emptyStr sl).map (fun e => if sl.kind.hasSpines then partsTexts g e 0 sl.parts else globalTexts e sl)

/-! ### Header and last line -/

/-- The staves of one part on a header line, last first: one token and the side spines of the staff
(humgrid.py:2154-2160, 2190-2200, 2234-2243). `f` gives the token of a main spine and of its verses and xml ids. -/
def headerStaves (g : SideCounts) (p : Nat) (main xmlId verse : Str) : Nat → Nat → List Str
  | _, 0 => []
  | s, n + 1 => headerStaves g p main xmlId verse (s + 1) n ++
      (main :: List.replicate (flagAt g.xmlIds p) xmlId ++ List.replicate (g.verseCount p s) verse)

/-- The side spines of one part on a header line (humgrid.py:2246-2262). -/
def headerPart (g : SideCounts) (p : Nat) (dynam fb harm : Str) : List Str :=
  List.replicate (flagAt g.dynamics p) dynam ++ List.replicate (flagAt g.figuredBass p) fb ++
    List.replicate (flagAt g.harmony p) harm

/-- `insertExclusiveInterpretationLine` (humgrid.py:2226-2262) for the staff counts of the slice it looks at. -/
def exclusiveLine (g : SideCounts) : Nat → List Nat → List Str
  | _, [] => []
  | p, n :: rest => exclusiveLine g (p + 1) rest ++
      (headerStaves g p "**kern".toList "**xmlid".toList "**text".toList 0 n ++
        headerPart g p "**dynam".toList "**fb".toList "**harte".toList)

/-- `insertPartIndications` (humgrid.py:2180-2216). -/
def partLine (g : SideCounts) : Nat → List Nat → List Str
  | _, [] => []
  | p, n :: rest => partLine g (p + 1) rest ++
      (headerStaves g p ("*part".toList ++ natStr (p + 1)) ("*part".toList ++ natStr (p + 1)) ("*part".toList ++ natStr (p + 1)) 0 n ++
        headerPart g p ("*part".toList ++ natStr (p + 1)) ("*part".toList ++ natStr (p + 1)) ("*part".toList ++ natStr (p + 1)))

/-- `insertDataTerminationLine` (humgrid.py:2272-2315). It walks the parts and staves forward, but all tokens are equal. -/
def terminationLine (g : SideCounts) : Nat → List Nat → List Str
  | _, [] => []
  | p, n :: rest =>
      (headerStaves g p "*-".toList "*-".toList "*-".toList 0 n ++ headerPart g p "*-".toList "*-".toList "*-".toList) ++
        terminationLine g (p + 1) rest

/-- The staff counts the header lines use: those of the very first slice, spined or not (humgrid.py:2151, 2188, 2232,
2281). `none`: no header line. -/
def headerCounts (measures : List (List GSlice)) : Option (List Nat) :=
  match measures with
  | [] => none
  | [] :: _ => none
  | (sl :: _) :: _ => some (sl.parts.map (fun p => p.staves.length))

end C21
