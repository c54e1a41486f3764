import Verif.Model.PyNum
/-
Pitch conversion: convert.py:839-1396.
Python's `//` and `%` with a positive divisor are Lean's `Int` `/` and `%` (floor division).
-/
namespace C21

/-- convert.py:973-985 `kernToAccidentalCount`. -/
def kernToAccidentalCount : Str → Int
  | [] => 0
  | ch :: rest =>
    if ch = ' ' then 0
    else if ch = '-' then kernToAccidentalCount rest - 1
    else if ch = '#' then kernToAccidentalCount rest + 1
    else kernToAccidentalCount rest

/-- The chain of `if ch in 'cC'` ... tests of convert.py:1003-1016. -/
def diatonicOf (ch : Char) : Option Int :=
  if ch = 'c' ∨ ch = 'C' then some 0
  else if ch = 'd' ∨ ch = 'D' then some 1
  else if ch = 'e' ∨ ch = 'E' then some 2
  else if ch = 'f' ∨ ch = 'F' then some 3
  else if ch = 'g' ∨ ch = 'G' then some 4
  else if ch = 'a' ∨ ch = 'A' then some 5
  else if ch = 'b' ∨ ch = 'B' then some 6
  else none

/-- convert.py:995-1018 `kernToDiatonicPC`. -/
def kernToDiatonicPC : Str → Int
  | [] => -2000
  | ch :: rest =>
    if ch = ' ' then -2000
    else if ch = 'r' then -1000
    else match diatonicOf ch with
      | some d => d
      | none => kernToDiatonicPC rest

/-- The loop of convert.py:896-905; `none` is the early `return -1000` at an 'r'. -/
def octaveLoop (uc lc : Nat) : Str → Option (Nat × Nat)
  | [] => some (uc, lc)
  | ch :: rest =>
    if ch = ' ' then some (uc, lc)
    else if ch = 'r' then none
    else
      let uc := if ch ∈ "ABCDEFG".toList then uc + 1 else uc
      let lc := if ch ∈ "abcdefg".toList then lc + 1 else lc
      octaveLoop uc lc rest

/-- convert.py:888-917 `kernToOctaveNumber`. -/
def kernToOctaveNumber (text : Str) : Int :=
  if text = ".".toList then -1000
  else match octaveLoop 0 0 text with
    | none => -1000
    | some (uc, lc) =>
      if uc > 0 ∧ lc > 0 then -1000
      else if uc > 0 then 4 - uc
      else if lc > 0 then 3 + lc
      else -1000

/-- convert.py:854-878 `kernToBase40PC`. -/
def kernToBase40PC (text : Str) : Int :=
  let diatonic := kernToDiatonicPC text
  if diatonic < 0 then diatonic
  else
    let accID := kernToAccidentalCount text
    let output : Int :=
      if diatonic = 0 then 0
      else if diatonic = 1 then 6
      else if diatonic = 2 then 12
      else if diatonic = 3 then 17
      else if diatonic = 4 then 23
      else if diatonic = 5 then 29
      else if diatonic = 6 then 35
      else -1000
    output + accID + 2

/-- convert.py:839-846 `kernToBase40`. -/
def kernToBase40 (text : Str) : Int :=
  let pc := kernToBase40PC text
  if pc < 0 then pc else pc + 40 * kernToOctaveNumber text

/-- convert.py:926-949 `kernToBase12PC`. -/
def kernToBase12PC (text : Str) : Int :=
  let diatonic := kernToDiatonicPC text
  if diatonic < 0 then diatonic
  else
    let accid := kernToAccidentalCount text
    let output : Int :=
      if diatonic = 0 then 0
      else if diatonic = 1 then 2
      else if diatonic = 2 then 4
      else if diatonic = 3 then 5
      else if diatonic = 4 then 7
      else if diatonic = 5 then 9
      else if diatonic = 6 then 11
      else -1000
    output + accid

/-- convert.py:957-961 `kernToMidiNoteNumber`. -/
def kernToMidiNoteNumber (text : Str) : Int :=
  kernToBase12PC text + 12 * (kernToOctaveNumber text + 1)

/-- convert.py:1157-1164 `kernToBase7`. -/
def kernToBase7 (text : Str) : Int :=
  let diatonic := kernToDiatonicPC text
  if diatonic < 0 then diatonic else diatonic + 7 * kernToOctaveNumber text

/-- convert.py:1173-1194 `base7ToBase40`. -/
def base7ToBase40 (base7 : Int) : Int :=
  let octave := base7 / 7
  let b7pc := base7 % 7
  let b40pc : Int :=
    if b7pc = 0 then 0
    else if b7pc = 1 then 6
    else if b7pc = 2 then 12
    else if b7pc = 3 then 17
    else if b7pc = 4 then 23
    else if b7pc = 5 then 29
    else if b7pc = 6 then 35
    else 0
  octave * 40 + 2 + b40pc

/-- convert.py:1263-1287 `base40ToDiatonic`. -/
def base40ToDiatonic (b40 : Int) : Int :=
  if b40 < 0 then -1
  else
    let chroma := b40 % 40
    let octaveOffset := (b40 / 40) * 7
    if 0 ≤ chroma ∧ chroma ≤ 4 then 0 + octaveOffset
    else if 6 ≤ chroma ∧ chroma ≤ 10 then 1 + octaveOffset
    else if 12 ≤ chroma ∧ chroma ≤ 16 then 2 + octaveOffset
    else if 17 ≤ chroma ∧ chroma ≤ 21 then 3 + octaveOffset
    else if 23 ≤ chroma ∧ chroma ≤ 27 then 4 + octaveOffset
    else if 29 ≤ chroma ∧ chroma ≤ 33 then 5 + octaveOffset
    else if 35 ≤ chroma ∧ chroma ≤ 39 then 6 + octaveOffset
    else -1

/-- The results of the 40 tests of convert.py:1303-1382, by pitch class. -/
def accidentalTable : List Int :=
  [-2, -1, 0, 1, 2, 1000, -2, -1, 0, 1, 2, 1000, -2, -1, 0, 1, 2, -2, -1, 0, 1, 2, 1000, -2, -1, 0, 1, 2, 1000, -2, -1, 0, 1, 2, 1000, -2, -1, 0, 1, 2]

/-- convert.py:1295-1384 `base40ToAccidental`. -/
def base40ToAccidental (b40 : Int) : Int :=
  if b40 < 0 then 0
  else match accidentalTable[(b40 % 40).toNat]? with
    | some a => a
    | none => 0

/-- The note letters of convert.py:1207-1224, with `base.upper()` when `upper`. -/
def letterOf (diatonic : Int) (upper : Bool) : Char :=
  if diatonic = 0 then (if upper then 'C' else 'c')
  else if diatonic = 1 then (if upper then 'D' else 'd')
  else if diatonic = 2 then (if upper then 'E' else 'e')
  else if diatonic = 3 then (if upper then 'F' else 'f')
  else if diatonic = 4 then (if upper then 'G' else 'g')
  else if diatonic = 5 then (if upper then 'A' else 'a')
  else if diatonic = 6 then (if upper then 'B' else 'b')
  else (if upper then 'A' else 'a')

/-- convert.py:1202-1241 `base40ToKern`. -/
def base40ToKern (b40 : Int) : Except PyErr Str :=
  let octave := b40 / 40
  let accidental := base40ToAccidental b40
  let diatonic := base40ToDiatonic b40 % 7
  let base := letterOf diatonic (decide (octave < 4))
  let rep : Int := if octave > 4 then octave - 4 else if octave < 3 then 3 - octave else 0
  if rep > 12 then .error .humdrumInternal
  else
    let output := List.replicate (1 + rep).toNat base
    if accidental > 0 then .ok (output ++ List.replicate accidental.toNat '#')
    else if accidental < 0 then .ok (output ++ List.replicate (-accidental).toNat '-')
    else .ok output

/-- convert.py:1247-1250 `base7ToKern`. -/
def base7ToKern (base7 : Int) : Except PyErr Str := base40ToKern (base7ToBase40 base7)

/-- convert.py:1026-1132 `CLEF_TO_BASELINE_PITCH`. -/
def clefTable : List (String × String) :=
  [("G2", "e"), ("F4", "GG"), ("C3", "F"), ("C4", "D"), ("Gv2", "E"), ("C1", "c"),
   ("C2", "A"), ("C5", "BB"), ("G1", "g"), ("G3", "c"), ("G4", "A"), ("G5", "F"),
   ("F1", "F"), ("F2", "D"), ("F3", "BB"), ("F5", "EE"), ("Gv1", "G"), ("Gv3", "C"),
   ("Gv4", "AA"), ("Gv5", "FF"), ("Fv1", "FF"), ("Fv2", "DD"), ("Fv3", "BBB"), ("Fv4", "GGG"),
   ("Fv5", "EEE"), ("Cv1", "C"), ("Cv2", "AA"), ("Cv3", "FF"), ("Cv4", "DD"), ("Cv5", "BBB"),
   ("G^1", "gg"), ("G^2", "ee"), ("G^3", "cc"), ("G^4", "a"), ("G^5", "f"), ("F^1", "f"),
   ("F^2", "d"), ("F^3", "B"), ("F^4", "G"), ("F^5", "E"), ("C^1", "cc"), ("C^2", "a"),
   ("C^3", "f"), ("C^4", "d"), ("C^5", "B"), ("Gvv1", "GG"), ("Gvv2", "EE"), ("Gvv3", "CC"),
   ("Gvv4", "AAA"), ("Gvv5", "FFF"), ("Fvv1", "FFF"), ("Fvv2", "DDD"), ("Fvv3", "BBBB"), ("Fvv4", "GGGG"),
   ("Fvv5", "EEEE"), ("Cvv1", "CC"), ("Cvv2", "AAA"), ("Cvv3", "FFF"), ("Cvv4", "DDD"), ("Cvv5", "BBBB"),
   ("G^^1", "ggg"), ("G^^2", "eee"), ("G^^3", "ccc"), ("G^^4", "aa"), ("G^^5", "ff"), ("F^^1", "ff"),
   ("F^^2", "dd"), ("F^^3", "b"), ("F^^4", "g"), ("F^^5", "e"), ("C^^1", "ccc"), ("C^^2", "aa"),
   ("C^^3", "ff"), ("C^^4", "dd"), ("C^^5", "b")]

/-- `d[k]` / `k in d` in `clefTable`. -/
def clefLookup (name : Str) : Option Str :=
  (clefTable.find? (fun p => p.1.toList = name)).map (·.2.toList)

/-- convert.py:1134-1149 `kernClefToBaseline`. -/
def kernClefToBaseline (text : Str) : Int :=
  let look (name : Str) : Int := match clefLookup name with
    | some p => kernToBase7 p
    | none => kernToBase7 "e".toList
  if startsWith text "*clef".toList then look (text.drop 5)
  else if startsWith text "clef".toList then look (text.drop 4)
  else -1000

/-- `[+-]?\d+` at the start of a string: the value and the rest. Greedy; no backtracking is useful, since
what follows in the pattern is never a digit. -/
def signedInt : Str → Option (Int × Str)
  | '+' :: r => match r.takeWhile isDig with
    | [] => none
    | ds => some ((parseNat ds : Int), r.dropWhile isDig)
  | '-' :: r => match r.takeWhile isDig with
    | [] => none
    | ds => some (-(parseNat ds : Int), r.dropWhile isDig)
  | r => match r.takeWhile isDig with
    | [] => none
    | ds => some ((parseNat ds : Int), r.dropWhile isDig)

/-- The pattern `d([+-]?\d+)c([+-]?\d+)` matched at the start of the string (convert.py:1389). -/
def transHere : Str → Option (Int × Int)
  | 'd' :: r => match signedInt r with
    | some (d, 'c' :: r2) => (signedInt r2).map (fun p => (d, p.1))
    | _ => none
  | _ => none

/-- convert.py:1387-1392 `transToDiatonicChromatic` (`re.search`: leftmost match; `none` is `(None, None)`). -/
def transToDiatonicChromatic : Str → Option (Int × Int)
  | [] => none
  | c :: r => match transHere (c :: r) with
    | some p => some p
    | none => transToDiatonicChromatic r

/-- convert.py:1395-1396 `diatonicChromaticToTrans`. -/
def diatonicChromaticToTrans (d c : Int) : Str := 'd' :: intStr d ++ 'c' :: intStr c

end C21
