import Verif.Model.KernArtic
import Verif.Model.Pitch
/-
Ties in Humdrum files: m21convert.py 2988-3030 (written), humdrumfile.py 274-317, 840-879, 7744-7749, 8248-8450 (read).
Linked ties (the RDF link signifier) are never written by the exporter; they are modelled in Model/Tie and left out here.
-/
namespace C21

/-- music21's tie types. -/
inductive KTieType
  | start | stop | cont | letRing | contLetRing
deriving DecidableEq, Repr

/-- music21's tie styles. -/
inductive KTieStyle
  | normal | dotted | dashed | hidden
deriving DecidableEq, Repr

/-- music21's tie placements. -/
inductive KTiePlace
  | unset | above | below
deriving DecidableEq, Repr

/-- A music21 `Tie`. -/
structure KTie where
  type : KTieType
  style : KTieStyle
  place : KTiePlace
deriving DecidableEq, Repr

/-- The sign of the tie. m21convert.py 3002-3007. -/
def tieSign : KTieType → Str
  | .start => ['[']
  | .stop => [']']
  | .cont => ['_']
  | _ => []

/-- The style and placement written after the sign. m21convert.py 3010-3020. -/
def tieSuffix (t : KTie) : Str :=
  if t.type = .start ∨ t.type = .cont then
    if t.style = .hidden then ['y']
    else match t.place with
      | .above => ['>']
      | .below => ['<']
      | .unset => []
  else []

/-- The layouts of the tie. m21convert.py 3021-3025. -/
def tieLayouts (t : KTie) : List Str :=
  if t.type = .start ∨ t.type = .cont then
    match t.style with
    | .dotted => ["!LO:T:dot".toList]
    | .dashed => ["!LO:T:dash".toList]
    | _ => []
  else []

/-- `_getTieStartStopAndLayoutsFromM21GeneralNote`. m21convert.py 2988-3030. -/
def writeTie : Option KTie → Str × Str × List Str
  | none => ([], [], [])
  | some t =>
    if t.type = .start then (tieSign t.type ++ tieSuffix t, [], tieLayouts t)
    else if t.type = .stop ∨ t.type = .cont then ([], tieSign t.type ++ tieSuffix t, tieLayouts t)
    else ([], [], [])

/-- A note (a subtoken) as the reader sees it: its layer, the time and duration of its token, its text, and the layout parameters
`T:dot`, `T:dash`, `T:a`, `T:b` that reach it (`token.layoutParameter('T', …, subTokenIdx)`; Model/LinkedParams). -/
structure TieNoteIn where
  layer : Nat
  start : Rat
  dur : Rat
  text : Str
  dot : Bool
  dash : Bool
  loAbove : Bool
  loBelow : Bool

/-- A `HumdrumTie`: the number of its start note, and that note. humdrumfile.py 274-298. -/
structure OpenKTie where
  idx : Nat
  src : TieNoteIn

/-- `tie.pitch`. humdrumfile.py 293. -/
def OpenKTie.pitch (o : OpenKTie) : Int := kernToMidiNoteNumber o.src.text

/-- `tie.endTime`. humdrumfile.py 294-295. -/
def OpenKTie.endTime (o : OpenKTie) : Rat := o.src.start + o.src.dur

/-- `ss.ties` of one staff, and `note.tie` of its notes. -/
structure KTieSt where
  opens : List OpenKTie
  tie : Nat → Option KTie

def KTieSt.set (S : KTieSt) (i : Nat) (t : KTie) : KTieSt :=
  { S with tie := fun j => if j = i then some t else S.tie j }

/-- The style that `_addTieStyle` gives a new tie. humdrumfile.py 8424-8429. -/
def readTieStyle (n : TieNoteIn) : KTieStyle :=
  if isInfix ['[', 'y'] n.text || isInfix ['_', 'y'] n.text then .hidden
  else if n.dot then .dotted
  else if n.dash then .dashed
  else .normal

/-- The placement from layout parameters. humdrumfile.py 8435-8438. -/
def layoutTiePlace (n : TieNoteIn) : KTiePlace :=
  if n.loAbove then .above else if n.loBelow then .below else .unset

/-- Whether the text has `[` or `_` followed by the signifier. humdrumfile.py 8441-8450. -/
def hasTieSignifier (sg : Str) (n : TieNoteIn) : Bool :=
  !sg.isEmpty && (isInfix ('[' :: sg) n.text || isInfix ('_' :: sg) n.text)

/-- The placement that `_addTieStyle` gives a new tie. humdrumfile.py 8434-8450. -/
def readTiePlace (ab be : Str) (n : TieNoteIn) : KTiePlace :=
  if hasTieSignifier be n then .below
  else if hasTieSignifier ab n then .above
  else layoutTiePlace n

/-- The type a tie start gives its note. humdrumfile.py 304-306 and 856-858. -/
def openTieType (o : OpenKTie) : KTieType := if '_' ∈ o.src.text then .cont else .start

/-- `_processTieStart`, without linked ties. humdrumfile.py 8294-8307, called at 7744-7746. -/
def kTieStart (i : Nat) (n : TieNoteIn) (S : KTieSt) : KTieSt :=
  if '[' ∈ n.text ∨ '_' ∈ n.text then { S with opens := S.opens ++ [⟨i, n⟩] } else S

/-- Whether the tie end in `n` is disjunct. humdrumfile.py 8341. -/
def disjunctEnd (n : TieNoteIn) : Bool := isInfix [']', ']'] n.text || isInfix ['_', '_'] n.text

/-- Whether the open tie can end in `n`. humdrumfile.py 8351-8361 and 8366-8376. -/
def tieFits (n : TieNoteIn) (o : OpenKTie) : Bool :=
  if o.pitch ≠ kernToMidiNoteNumber n.text then false
  else if disjunctEnd n && isInfix ['[', '['] o.src.text then true
  else if disjunctEnd n && isInfix ['_', '_'] o.src.text then true
  else decide (o.endTime = n.start)

/-- The search for the open tie, in the layer and then in the staff. humdrumfile.py 8347-8376. -/
def findTie (n : TieNoteIn) (opens : List OpenKTie) : Option OpenKTie :=
  match opens.find? (fun o => o.src.layer == n.layer && tieFits n o) with
  | some o => some o
  | none => opens.find? (tieFits n)

/-- `note.tie = Tie('stop')`. humdrumfile.py 312-313 and 879. -/
def setStop (i : Nat) (S : KTieSt) : KTieSt := S.set i ⟨.stop, .normal, .unset⟩

/-- The open tie is closed by `n`: its start note gets the tie, with the style read from `n`. humdrumfile.py 299-315, 8389-8403. -/
def closeTie (ab be : Str) (i : Nat) (n : TieNoteIn) (o : OpenKTie) (S : KTieSt) : KTieSt :=
  let S1 := S.set o.idx ⟨openTieType o, readTieStyle n, readTiePlace ab be n⟩
  let S2 := if ']' ∈ n.text then setStop i S1 else S1
  { S2 with opens := S2.opens.eraseP (fun x => x.idx == o.idx) }

/-- `_processTieEnd`, without linked ties. humdrumfile.py 8337-8403 and 874-879, called at 7747-7749. -/
def kTieEnd (ab be : Str) (i : Nat) (n : TieNoteIn) (S : KTieSt) : KTieSt :=
  if ']' ∈ n.text ∨ '_' ∈ n.text then
    match findTie n S.opens with
    | some o => closeTie ab be i n o S
    | none => if '_' ∈ n.text then S else setStop i S
  else S

/-- The ties of the notes of a staff, in the order in which they are read. humdrumfile.py 7744-7749. -/
def kTieWalk (ab be : Str) : Nat → List TieNoteIn → KTieSt → KTieSt
  | _, [], S => S
  | i, n :: ns, S => kTieWalk ab be (i + 1) ns (kTieEnd ab be i n (kTieStart i n S))

/-- `_processHangingTieStart`. humdrumfile.py 855-862. -/
def hangingTie (ab be : Str) (S : KTieSt) (o : OpenKTie) : KTieSt :=
  S.set o.idx ⟨openTieType o, readTieStyle o.src, readTiePlace ab be o.src⟩

/-- All the ties of a staff: the notes, then `_processHangingTieStarts`. humdrumfile.py 840-844. -/
def readKTies (ab be : Str) (ns : List TieNoteIn) : Nat → Option KTie :=
  let S := kTieWalk ab be 0 ns ⟨[], fun _ => none⟩
  (S.opens.foldl (hangingTie ab be) S).tie

/-- A note to be written: its layer, time and duration, its tie and the other parts of its token. -/
structure TieNoteOut where
  layer : Nat
  start : Rat
  dur : Rat
  tie : Option KTie
  parts : NoteParts

/-- The token of the note. m21convert.py 1058, 1166, 1170-1173, 1192-1204. -/
def tieNoteText (n : TieNoteOut) : Str :=
  noteToken { n.parts with tieStart := (writeTie n.tie).1, tieStop := (writeTie n.tie).2.1 }

/-- The note as it is read back; the layouts written for the note are those that reach it, with the parameter they name. -/
def tieNoteBack (n : TieNoteOut) : TieNoteIn where
  layer := n.layer
  start := n.start
  dur := n.dur
  text := tieNoteText n
  dot := (writeTie n.tie).2.2.contains "!LO:T:dot".toList
  dash := (writeTie n.tie).2.2.contains "!LO:T:dash".toList
  loAbove := false
  loBelow := false

end C21
