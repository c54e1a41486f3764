import Verif.Model.Accidental
import Mathlib.Algebra.Order.Ring.Unbundled.Rat
/-
Trills, mordents and turns in the **kern token of a note: written on export, read on import.

Models converter21/humdrum/m21convert.py 2578-2649 (the ornament and trill extension parts of
_getHumdrumStringAndLayoutsFromM21Expressions), 2665-2815
(_getHumdrumStringAndLayoutsFromM21TrillMordentTurn) and converter21/humdrum/humdrumfile.py 6694-6726
(_addOrnaments), 6733-6818 (_addTrill, up to the trill extension), 6989-7003 (_computeM21Accidental),
7026-7180 (_addMordent), 7207-7340 (_addTurn). The accidentals worked out beforehand
(humdrumfilecontent.py 1238-1460) are `ornament` of Model/Accidental. Tokens are single notes here, not
chords: no space in the text, subtoken 0.
-/
namespace C21

/-- An ornament as the exporter sees it. `semis` is the interval from the first pitch of the note to the
ornamental pitch in semitones, 0 for a note without pitches; `acc` is the modifier of the ornamental
pitch's accidental if that accidental is displayed and has one. Placement is not looked at. -/
inductive ExpOrn
  | trill (semis : Rat) (acc : Option Str)
  | mordent (semis : Rat) (acc : Option Str)
  | turn (inverted delayed : Bool) (upper lower : Rat) (uacc lacc : Option Str)
  | trillLineStart
  | trillLineMore

/-- m21convert.py 2698-2714 -/
def trillText (semis : Rat) : Str :=
  if semis = 0 then ['t']
  else if (-1 ≤ semis ∧ semis ≤ 1) then (if semis > 0 then ['t'] else ['t', '<'])
  else if semis > 0 then ['T'] else ['T', '<']

/-- m21convert.py 2735-2750. The comment there says 'm' for a mordent without an interval. -/
def mordentText (semis : Rat) : Str :=
  if semis = 0 then ['t']
  else if (-1 ≤ semis ∧ semis ≤ 1) then (if semis > 0 then ['m'] else ['w'])
  else if semis > 0 then ['M'] else ['W']

/-- m21convert.py 2793-2815: `upperCh`, `lowerCh`. -/
def turnChar (semis : Rat) : Char :=
  if semis = 0 then 's' else if (-1 ≤ semis ∧ semis ≤ 1) then 's' else 'S'

/-- m21convert.py 2778-2791: `prefix`. -/
def turnPrefix (inverted delayed : Bool) : Str :=
  if inverted then (if delayed then ['$'] else ['s', '$'])
  else if delayed then ['S'] else ['s', 'S']

/-- The text of one expression. m21convert.py 2597-2627, 2665-2815. -/
def ornText : ExpOrn → Str
  | .trill s _ => trillText s
  | .mordent s _ => mordentText s
  | .turn i d u l _ _ => turnPrefix i d ++ [turnChar u, turnChar l]
  | .trillLineStart => []
  | .trillLineMore => "TTT".toList

/-- The layout comments of one expression: code, parameter, value. m21convert.py 2685-2695, 2722-2732,
2756-2774. -/
def ornLayouts : ExpOrn → List (Str × Str × Str)
  | .trill _ a => (a.map fun x => ("TR".toList, "acc".toList, x)).toList
  | .mordent _ a => (a.map fun x => ("MOR".toList, "acc".toList, x)).toList
  | .turn _ _ _ _ u l => (u.map fun x => ("TURN".toList, "uacc".toList, x)).toList ++
      (l.map fun x => ("TURN".toList, "lacc".toList, x)).toList
  | .trillLineStart => []
  | .trillLineMore => []

/-- The ornament text of a note. The result of `re.sub` at the end is thrown away, so a trill that starts
a line looks like any other. m21convert.py 2589-2649. -/
def ornsText (es : List ExpOrn) : Str := es.flatMap ornText

/-- An accidental of an ornament: shown, alteration. -/
abbrev OrnAcc := Option (Bool × Int)

/-- Placement of an ornament. -/
inductive OrnPlace
  | unset | above | below
deriving DecidableEq, Repr

/-- An ornament made by the importer. -/
inductive ReadOrn
  | trill (place : OrnPlace) (acc : OrnAcc)
  | mordent (lower : Bool) (place : OrnPlace) (acc : OrnAcc)
  | turn (inverted delayed : Bool) (place : OrnPlace) (upper lower : OrnAcc)
deriving DecidableEq, Repr

/-- `_LAYOUT_ACCIDENTAL_TO_ACCIDENTAL_NUM_STR` with `int`. humdrumfile.py 6713-6726, 6989-7003. -/
def layoutAccNum (s : Str) : Option Int :=
  if s = "#".toList then some 1
  else if s = "-".toList then some (-1)
  else if s = "n".toList then some 0
  else if s = "n-".toList then some (-1)
  else if s = "n#".toList then some 1
  else if s = "--".toList then some (-2)
  else if s = "##".toList then some 2
  else if s = "x".toList then some 2
  else if s = "#x".toList then some 3
  else if s = "x#".toList then some 3
  else if s = "###".toList then some 3
  else if s = "---".toList then some (-3)
  else none

/-- A forced accidental of a layout comment. humdrumfile.py 6781-6795. -/
def forceAcc (lo : Str) (a : OrnAcc) : OrnAcc :=
  if lo = [] then a
  else if lo = "none".toList ∨ lo = "false".toList then a.map fun x => (false, x.2)
  else (layoutAccNum lo).map fun n => (true, n)

/-- The same for mordents and turns, where 'true' is ignored. humdrumfile.py 7138-7149, 7276-7298. -/
def forceAcc' (lo : Str) (a : OrnAcc) : OrnAcc := if lo = "true".toList then a else forceAcc lo a

/-- The accidental found by the analysis: a visible one first. humdrumfile.py 6762-6775; the analysis
records only one of the two. -/
def autoAcc (out : OrnOut) (name : Str) : OrnAcc :=
  match out.find? fun e => e.1 == name with
  | some e => some e.2
  | none => none

def isTrillChar (c : Char) : Bool := c == 't' || c == 'T'
def isMordentChar (c : Char) : Bool := c == 'w' || c == 'W' || c == 'm' || c == 'M'
def isTurnChar (c : Char) : Bool := c == 's' || c == 'S' || c == '$'

/-- The placement marks just after an ornament; the exporter always declares both marks
(humdrumwriter.py 547-548). humdrumfile.py 6811-6818, 7324-7332. -/
def placeMark (rest : Str) : OrnPlace :=
  match rest with
  | '>' :: _ => .above
  | '<' :: _ => .below
  | _ => .unset

/-- What follows the trill sign. humdrumfile.py 6741-6756. -/
def afterTrill (s : Str) : Option Str :=
  match s.dropWhile fun c => !isTrillChar c with
  | [] => none
  | _ :: r =>
    match r with
    | c :: r' => if isTrillChar c then some r' else some (c :: r')
    | [] => some []

/-- `_addTrill`, up to the trill extension. humdrumfile.py 6733-6818. -/
def readTrill (s : Str) (out : OrnOut) (lo : Str) : List ReadOrn :=
  match afterTrill s with
  | none => []
  | some rest =>
    if isInfix "TTT".toList s || isInfix "ttt".toList s then []
    else [.trill (placeMark rest) (forceAcc lo (autoAcc out "trill".toList))]

/-- Whether a trill extension is started. humdrumfile.py 6758-6760, 6820-6822. -/
def readTrillLine (s : Str) : Bool :=
  (afterTrill s).isSome && !(isInfix "TTT".toList s || isInfix "ttt".toList s) &&
    (isInfix "TT".toList s || isInfix "tt".toList s)

def isMordentMark (c : Char) : Bool := c == 'y' || c == '>' || c == '<'

/-- The match of the mordent expression. humdrumfile.py 7042-7057. -/
def mordentMatch (s : Str) : Str :=
  let r := s.dropWhile fun c => !isMordentChar c
  r.takeWhile isMordentChar ++ (r.dropWhile isMordentChar).takeWhile isMordentMark

/-- The default place of the only mordent. humdrumfile.py 7083-7097. -/
def mordentDefault (subtrack : Nat) : OrnPlace :=
  if subtrack = 0 then .above else if subtrack % 2 ≠ 0 then .above else .below

/-- `_addMordent` for a note. humdrumfile.py 7026-7180. -/
def readMordent (s : Str) (subtrack : Nat) (out : OrnOut) (lo : Str) : List ReadOrn :=
  if s.contains 'r' then []
  else
    let m := mordentMatch s
    match m with
    | [] => []
    | c :: _ =>
      if m.contains 'y' then []
      else
        let p := mordentDefault subtrack
        let p := if m.contains '>' then .above else p
        let p := if m.contains '<' then .below else p
        [.mordent (c == 'w' || c == 'W') p (forceAcc' lo (autoAcc out "mordent".toList))]

/-- `_addTurn`. humdrumfile.py 7207-7340; `turnStr` is not empty, since it is only called for a text with
such a letter. -/
def readTurn (s : Str) (out : OrnOut) (llo ulo flo : Str) : List ReadOrn :=
  let r := s.dropWhile fun c => !isTurnChar c
  let t := r.takeWhile isTurnChar
  let rest := r.dropWhile isTurnChar
  if t = [] ∨ t = ['s'] then []
  else
    let delayed : Bool := t.head? != some 's'
    let inverted : Bool := if !delayed && t[1]? == some '$' then true else t.head? == some '$'
    let l := forceAcc' llo (autoAcc out "turnLower".toList)
    let u := forceAcc' ulo (autoAcc out "turnUpper".toList)
    let lu := if flo = "true".toList then (u, l) else (l, u)
    [.turn inverted delayed (placeMark rest) lu.2 lu.1]

/-- The layout parameters of a token, as a lookup; empty text if there is none. -/
abbrev OrnLo := Str → Str → Str

/-- `_addOrnaments` without fermatas. humdrumfile.py 6694-6711. -/
def readOrns (s : Str) (subtrack : Nat) (out : OrnOut) (lo : OrnLo) : List ReadOrn :=
  (if s.any isTrillChar then readTrill s out (lo "TR".toList "acc".toList) else []) ++
  (if s.any isMordentChar then readMordent s subtrack out (lo "MOR".toList "acc".toList) else []) ++
  (if s.any isTurnChar then
    readTurn s out (lo "TURN".toList "lacc".toList) (lo "TURN".toList "uacc".toList)
      (lo "TURN".toList "facc".toList) else [])

end C21
