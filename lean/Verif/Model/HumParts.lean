import Verif.Model.Pitch
import Verif.Model.ClefMeter
import Verif.Model.KeySig
/-
The start of a staff's spine in a Humdrum file: instrument name, abbreviation and transposition, clef and signatures.

Models converter21/humdrum/humdrumwriter.py 1235-1297, 1974-1993, partdata.py 79-112, m21convert.py 770-803, 2496-2510 (written) and
converter21/humdrum/humdrumfile.py 598-628, 11868-12058 with humdrumtoken.py 1051-1745 (read).
-/
namespace C21

/-! ### Intervals -/

/-- A music21 interval: `generic.value` (a third up is 3, down -3, never 0) and `semitones`, which is taken to be whole. -/
structure Ivl where
  generic : Int
  semis : Int
deriving DecidableEq, Repr

/-- `Interval.reverse()` of music21: unisons have no direction. -/
def Ivl.rev (i : Ivl) : Ivl := ⟨if i.generic = 1 ∨ i.generic = -1 then 1 else -i.generic, -i.semis⟩

/-- `humdrumTransposeStringFromM21Interval`. m21convert.py 790-803. -/
def transTextOf (i : Ivl) : Str := diatonicChromaticToTrans (if i.generic < 0 then i.generic + 1 else i.generic - 1) i.semis

/-- `m21IntervalFromTranspose`. m21convert.py 770-787. -/
def ivlOfTransText (s : Str) : Option Ivl :=
  match transToDiatonicChromatic s with
  | none => none
  | some (dia, chroma) =>
    if dia = 0 ∧ chroma = 0 then none
    else some ⟨if dia < 0 then dia - 1 else dia + 1, chroma⟩

/-- `isTransposingInstrument`: no semitones and a perfect interval, which is then a unison. shared/m21utilities.py 1071-1079. -/
def isTransposing : Option Ivl → Bool
  | none => false
  | some i => !(i.semis = 0 ∧ (i.generic = 1 ∨ i.generic = -1))

/-! ### Writing -/

/-- `instrumentTransposeTokenFromM21Instrument`, written for transposing instruments only. m21convert.py 2496-2510,
humdrumwriter.py 1547-1550, 1984-1990. -/
def transToken (t : Option Ivl) : Option Str :=
  match t with
  | some i => if isTransposing (some i) then some ("*ITr".toList ++ transTextOf i.rev) else none
  | none => none

/-- The name token. humdrumwriter.py 1280-1293. -/
def nameToken (name : Option Str) : Option Str :=
  match name with
  | none => none
  | some n =>
    if n = [] then none
    else if isInfix "MusicXML".toList n then none
    else if isInfix "Part_".toList n then none
    else if isInfix "Unnamed".toList n then none
    else some ("*I\"".toList ++ n)

/-- The abbreviation token. humdrumwriter.py 1268-1273. -/
def abbrevToken (abbr : Option Str) : Option Str :=
  match abbr with
  | none => none
  | some a => if a = [] then none else some ("*I'".toList ++ a)

/-- `_findPartName` and `_findPartAbbrev` for the names of the staves. partdata.py 79-112. -/
def findPartText : List (Option Str) → Option Str
  | [] => some []
  | [n] => n
  | ns => some ((ns.filterMap id).find? (fun n => n ≠ []) |>.getD [])

/-- The instrument tokens of staff `s` (from the top, of `count`) of a part: names are put into the last staff only.
humdrumwriter.py 1267-1297. -/
def instTokens (name abbr : Option Str) (count s : Nat) (t : Option Ivl) : List Str :=
  (if s = count - 1 then (nameToken name).toList ++ (abbrevToken abbr).toList else []) ++ (transToken t).toList

/-! ### Reading -/

/-- What a token at the start of a spine is taken for, in the order of the tests. -/
inductive HeadKind
  | clef (c : Str) | oclef (c : Str) | part | staff | stria | omet | keySig | okey | key | scale
  | itrans (t : Str) | groupAbbrev (t : Str) | abbr (t : Str) | groupName (t : Str) | name (t : Str)
  | code (t : Str) | classCode (t : Str) | met | time | stem | other
deriving DecidableEq, Repr

def endsInChar (s : Str) (c : Char) : Bool := s.getLast? == some c

/-- `isKeyDesignation`: the pattern `^\*([a-gA-G][#-]*):` (what follows is optional). humdrumtoken.py 52, 1439. -/
def isKeyDesigText : Str → Bool
  | '*' :: l :: r => "abcdefgABCDEFG".toList.contains l && (r.dropWhile (fun c => c == '#' || c == '-')).head? == some ':'
  | _ => false

/-- The chain of tests of `_createPart` for a **kern spine. Lower case letters are those of ASCII; clefs put on by the reader itself
(the 'auto' value) are left out. humdrumfile.py 11902-11985, humdrumtoken.py 1051-1140, 1309-1320, 1359-1560, 1578-1745. -/
def headKind (s : Str) : HeadKind :=
  if startsWith s "*clef".toList then .clef (s.drop 5)
  else if startsWith s "*oclef".toList then .oclef (s.drop 6)
  else if startsWith s "*part".toList then .part
  else if startsWith s "*staff".toList then .staff
  else if startsWith s "*stria".toList then .stria
  else if startsWith s "*omet(".toList && endsInChar s ')' then .omet
  else if startsWith s "*k[".toList && endsInChar s ']' then .keySig
  else if startsWith s "*ok[".toList && endsInChar s ']' then .okey
  else if isKeyDesigText s then .key
  else if startsWith s "*scale:".toList then .scale
  else if startsWith s "*size:".toList then .scale
  else if startsWith s "*ITrd".toList then .itrans (s.drop 4)
  else if !(s.length < 5) && startsWith s "*I''".toList then .groupAbbrev (s.drop 4)
  else if !(s.length < 4) && !((s.drop 3).head? == some '\'') && startsWith s "*I'".toList then .abbr (s.drop 3)
  else if !(s.length < 5) && startsWith s "*I\"\"".toList then .groupName (s.drop 4)
  else if !(s.length < 4) && !((s.drop 3).head? == some '"') && startsWith s "*I\"".toList then .name (s.drop 3)
  else if !(s.length < 3) && startsWith s "*I".toList && (s.drop 2).head?.any isLowerAZ then .code (s.drop 2)
  else if startsWith s "*IC".toList then .classCode (s.drop 3)
  else if startsWith s "*met(".toList && endsInChar s ')' then .met
  else if isTimeSigText s then .time
  else if startsWith s "*stem".toList then .stem
  else .other

/-- What the scan has gathered. Tokens are kept with their whole text. -/
structure HeadSt where
  clef : Option Str
  clefChanges : List Str
  part : Option Str
  staff : Option Str
  stria : Option Str
  keySig : Option Str
  key : Option Str
  scale : Option Str
  met : Option Str
  time : Option Str
  itrans : Option Str
  groupAbbrev : Option Str
  abbr : Option Str
  groupName : Option Str
  name : Option Str
  code : Option Str
  classCode : Option Str
deriving DecidableEq

def HeadSt.init : HeadSt := ⟨none, [], none, none, none, none, none, none, none, none, none, none, none, none, none, none, none⟩

/-- One step of the scan. `group` is the group number of the spine. The lists of original clefs, keys and mensurations are left out.
humdrumfile.py 11902-11985. -/
def headStep (partCount : Nat) (group : Int) (st : HeadSt) (s : Str) : Except PyErr HeadSt :=
  match headKind s with
  | .clef c =>
    match st.clef with
    | some t => .ok (if t.drop 5 = c then st else { st with clefChanges := st.clefChanges ++ [s] })
    | none =>
      match c.getLast? with
      | none => .error .indexError
      | some l => .ok (if isDig l || c.head? == some 'X' then { st with clef := some s } else st)
  | .oclef c => if c = [] then .error .indexError else .ok st
  | .part => .ok { st with part := some s }
  | .staff => .ok { st with staff := some s }
  | .stria => .ok { st with stria := some s }
  | .keySig => .ok { st with keySig := some s }
  | .key => .ok { st with key := some s }
  | .scale => .ok { st with scale := some s }
  | .itrans t => .ok { st with itrans := some t }
  | .groupAbbrev t => .ok (if 1 < partCount ∧ 0 ≤ group ∧ t ≠ [] then { st with groupAbbrev := some t } else st)
  | .abbr t => .ok (if 1 < partCount then { st with abbr := some t } else st)
  | .groupName t => .ok (if 0 < group ∧ t ≠ [] then { st with groupName := some t } else st)
  | .name t => .ok { st with name := some t }
  | .code t => .ok { st with code := some t }
  | .classCode t => .ok { st with classCode := some t }
  | .met => .ok { st with met := some s }
  | .time => .ok { st with time := some s }
  | .omet => .ok st
  | .okey => .ok st
  | .stem => .ok st
  | .other => .ok st

/-- The scan of the tokens before the first data line. humdrumfile.py 11900-12009. -/
def headScan (partCount : Nat) (group : Int) : List Str → HeadSt → Except PyErr HeadSt
  | [], st => .ok st
  | s :: r, st =>
    match headStep partCount group st s with
    | .error e => .error e
    | .ok st' => headScan partCount group r st'

/-- `getInstrumentNameFromCode`; `codes` is the table of instrument codes. humdrumfile.py 598-621. -/
def nameFromCode (codes : Str → Option Str) (code : Str) (trans : Option Str) : Str :=
  match codes code with
  | none => code
  | some n =>
    if trans = none ∨ trans = some [] then n
    else if trans = some "*ITrd1c2".toList then n ++ " in B-flat".toList
    else if trans = some "*ITrd2c3".toList then n ++ " in A".toList
    else if trans = some "*ITrd5c9".toList then n ++ " in E-flat".toList
    else if trans = some "*ITrd-2c-3".toList then n ++ " in E-flat".toList
    else n

/-- The instrument put into a part: its name and abbreviation as music21's `fromString` and the assignment give them, and its
transposition. -/
structure Inst where
  name : Str
  abbr : Option Str
  trans : Option Ivl
deriving DecidableEq

/-- The name of the instrument. humdrumfile.py 12014-12025. -/
def instName (codes classes : Str → Option Str) (st : HeadSt) : Option Str :=
  match st.name with
  | some n => some n
  | none =>
    match st.code with
    | some c => some (nameFromCode codes c st.itrans)
    | none =>
      match st.classCode with
      | some c => some ((classes c).getD c)
      | none =>
        match st.abbr with
        | some a => some a
        | none => if st.itrans.isSome then some "UnknownTransposingInstrument".toList else none

/-- The instrument. humdrumfile.py 12027-12058. -/
def headInst (codes classes : Str → Option Str) (st : HeadSt) : Option Inst :=
  match instName codes classes st with
  | none => none
  | some n =>
    if n = [] then none
    else some {
      name := n
      abbr := if st.abbr.any (fun a => a ≠ [] ∧ a ≠ n) then st.abbr else none
      trans := match st.itrans with
        | some t => if t = [] then none else (ivlOfTransText t).map Ivl.rev
        | none => none }

end C21
