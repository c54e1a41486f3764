import Verif.Model.PyStr
/-
Articulations and fermatas of a **kern note token: how the exporter writes them and how the importer
finds them again.

Models converter21/humdrum/m21convert.py 182-205 (the two tables), 454-595 (m21Articulations),
2538-2562 (_getHumdrumStringFromM21Articulations), the fermata branch of
_getHumdrumStringAndLayoutsFromM21Expressions (2629-2633), the order of the parts of a note's token
(1041-1063 and 1170-1210), and converter21/humdrum/humdrumfile.py 6907-6952 (_addFermata) with
7352-7362 (_getDirection).
-/
namespace C21

/-- The music21 articulation classes that have a **kern character, `Caesura` (which gets a character
from the exporter's list of user signifiers), and every other class by its name.
m21convert.py 182-205. -/
inductive ArtClass
  | staccato | staccatissimo | tenuto | strongAccent | accent | breathMark | harmonic | upBow | downBow
  | pizzicato | caesura
  | other (name : Str)
deriving DecidableEq, Repr

/-- music21's `placement` of an articulation: `None` (or anything else), 'above', 'below'. -/
inductive ArtPlace
  | unset | above | below
deriving DecidableEq, Repr

/-- `humdrumArticulationStringToM21ArticulationClassName`, in its order. m21convert.py 182-193. -/
def articReadTable : List (Str × ArtClass) :=
  [("'".toList, .staccato), ("`".toList, .staccatissimo), ("~".toList, .tenuto),
   ("^^".toList, .strongAccent), ("^".toList, .accent), (",".toList, .breathMark),
   ("o".toList, .harmonic), ("v".toList, .upBow), ("u".toList, .downBow), ("\"".toList, .pizzicato)]

/-- `m21ArticulationClassNameToHumdrumArticulationString.get(name, '')`. m21convert.py 195-206. -/
def articChars : ArtClass → Str
  | .staccato => "'".toList
  | .staccatissimo => "`".toList
  | .tenuto => "~".toList
  | .strongAccent => "^^".toList
  | .accent => "^".toList
  | .breathMark => ",".toList
  | .harmonic => "o".toList
  | .upBow => "v".toList
  | .downBow => "u".toList
  | .pizzicato => "\"".toList
  | .caesura => []
  | .other _ => []

/-- The placement character written after an articulation. m21convert.py 2556-2560. -/
def placeChars : ArtPlace → Str
  | .unset => []
  | .above => ['>']
  | .below => ['<']

/-- One articulation's text: its character, or the caesura signifier, then the placement (written even
when no character is known). `caes` is what `reportCaesuraToOwner` returns. m21convert.py 2544-2560. -/
def writeArtic (caes : Char) (a : ArtClass × ArtPlace) : Str :=
  (if articChars a.1 ≠ [] then articChars a.1 else if a.1 = .caesura then [caes] else [])
    ++ placeChars a.2

/-- `_getHumdrumStringFromM21Articulations`. m21convert.py 2538-2562. -/
def writeArtics (caes : Char) (as : List (ArtClass × ArtPlace)) : Str :=
  as.flatMap (writeArtic caes)

/-- `ch == 'y' and next != 'y'` at the start of the rest of the token. m21convert.py 534-541. -/
def loneY : Str → Bool
  | [] => false
  | c :: r => c == 'y' && r.head? != some 'y'

/-- What the characters after an articulation say: gestural?, placement. `ab`/`be` are the file's
signifiers for above and below, if it declares them. m21convert.py 524-548. -/
def articInfo (ab be : Option Char) : Str → Bool × ArtPlace
  | [] => (false, .unset)
  | c :: r =>
    (loneY (c :: r) || (ab == some c && loneY r) || (be == some c && loneY r),
     if ab = some c then .above else if be = some c then .below else .unset)

/-- The main loop of `m21Articulations`: every entry made in the three dictionaries, in order. A later
entry for the same key replaces the earlier one. Python's `isdigit` also skips non-ASCII digits; those
are never articulation keys, so it makes no difference. m21convert.py 479-548. -/
def articScan (ab be : Option Char) : Str → List (Str × Bool × ArtPlace)
  | [] => []
  | '^' :: '^' :: r => (['^', '^'], articInfo ab be r) :: articScan ab be r
  | '\'' :: '\'' :: r => (['`'], articInfo ab be r) :: articScan ab be r
  | c :: r =>
    if c.isDigit then articScan ab be r
    else ([c], articInfo ab be r) :: articScan ab be r

/-- The value a dictionary holds for `k` after the entries were made in order. -/
def lastEntry (k : Str) : List (Str × Bool × ArtPlace) → Option (Bool × ArtPlace)
  | [] => none
  | (k', v) :: es =>
    match lastEntry k es with
    | some w => some w
    | none => if k' = k then some v else none

/-- One row of the final loop over the table. m21convert.py 567-590. -/
def articRow (es : List (Str × Bool × ArtPlace)) (row : Str × ArtClass) :
    Option (ArtClass × ArtPlace) :=
  match lastEntry row.1 es with
  | some (false, p) => some (row.2, p)
  | some (true, _) => none
  | none => none

/-- `m21Articulations`. m21convert.py 454-595. -/
def readArtics (ab be : Option Char) (tok : Str) : List (ArtClass × ArtPlace) :=
  articReadTable.filterMap (articRow (articScan ab be tok))

/-- music21's fermata types; `Fermata()` is upright. -/
inductive FermataType
  | upright | inverted
deriving DecidableEq, Repr

/-- The fermata branch of `_getHumdrumStringAndLayoutsFromM21Expressions`. m21convert.py 2629-2633. -/
def writeFermata : FermataType → Str
  | .upright => [';', '<']
  | .inverted => [';']

/-- `_getDirection(token, ';')` : above / below / no direction. humdrumfile.py 7352-7362. -/
def fermataDirection (ab be : Option Char) (tok : Str) : ArtPlace :=
  if ab.any (fun c => isInfix [';', c] tok) then .above
  else if be.any (fun c => isInfix [';', c] tok) then .below
  else .unset

/-- `_addFermata` for a note: the fermatas appended to its expressions. humdrumfile.py 6907-6952. -/
def readFermatas (ab be : Option Char) (tok : Str) : List FermataType :=
  if !tok.contains ';' then []
  else if isInfix ['y', 'y'] tok then []
  else if isInfix [';', ';'] tok then [.upright, .inverted]
  else match fermataDirection ab be tok with
    | .below => [.inverted]
    | .above => [.upright]
    | .unset => [.upright]

/-- The parts of a single note's token. m21convert.py 1041-1063 and 1170-1210. -/
structure NoteParts where
  slurStarts : Str
  tieStart : Str
  recip : Str
  grace : Str
  pitch : Str
  sf : Str
  expressions : Str
  artics : Str
  cueSize : Str
  color : Str
  stem : Str
  beam : Str
  invisible : Str
  tieStop : Str
  slurStops : Str

/-- The token built from its parts: prefix, recip, grace type, pitch, postfix.
m21convert.py 1058 with 1170-1173, 1192-1204. -/
def noteToken (p : NoteParts) : Str :=
  (p.slurStarts ++ p.tieStart) ++ p.recip ++ p.grace ++ p.pitch ++
  (p.sf ++ p.expressions ++ p.artics ++ p.cueSize ++ p.color ++ p.stem ++ p.beam ++ p.invisible
    ++ p.tieStop ++ p.slurStops)

end C21
