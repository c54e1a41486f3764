import Verif.Model.Pitch
import Mathlib.Data.Rat.Floor
/-
The pitch of a note in its **kern token: written on export, read on import.

Models converter21/humdrum/m21convert.py 227-249 (m21PitchName), 252-273 (m21StepName), 853-882
(kernPitchFromM21Unpitched, kernPitchFromM21OctaveAndStep), 1643-1713 (accidentalInfo,
kernPitchFromM21Pitch) and converter21/humdrum/humdrumfile.py 7566-7604 (the pitch part of _convertNote).
-/
namespace C21

/-- music21's step names. -/
inductive PStep
  | C | D | E | F | G | A | B
deriving DecidableEq, Repr

/-- `m21Step.upper()` -/
def PStep.upper : PStep → Char
  | .C => 'C' | .D => 'D' | .E => 'E' | .F => 'F' | .G => 'G' | .A => 'A' | .B => 'B'

/-- `m21Step.lower()` -/
def PStep.lower : PStep → Char
  | .C => 'c' | .D => 'd' | .E => 'e' | .F => 'f' | .G => 'g' | .A => 'a' | .B => 'b'

/-- The parts of a music21 accidental that the exporter looks at: `alter`, `displayStatus` (as a truth
value) and whether `displayStyle` is something else than 'normal'. -/
structure PAccid where
  alter : Rat
  displayed : Bool
  editorial : Bool
deriving DecidableEq

/-- Python's `int(x)`: towards zero. -/
def truncInt (x : Rat) : Int := if x < 0 then -(⌊-x⌋) else ⌊x⌋

/-- `accidentalInfo`: alter, isExplicit, isEditorial. m21convert.py 1643-1665. -/
def accidentalInfo (a : Option PAccid) : Int × Bool × Bool :=
  match a with
  | none => (0, false, false)
  | some a =>
    let alter := truncInt a.alter
    let micro : Bool := (alter : Rat) ≠ a.alter
    let alter := if micro then 0 else alter
    (alter, micro || a.displayed, a.displayed && a.editorial)

/-- `kernPitchFromM21OctaveAndStep`. m21convert.py 867-882; `range` of a negative number is empty. -/
def kernOctaveAndStep (octave : Int) (step : PStep) : Str :=
  if octave > 3 then List.replicate (octave - 3).toNat step.lower
  else List.replicate (4 - octave).toNat step.upper

/-- `kernPitchFromM21Pitch`. `octave` is the pitch's octave or its implicit one, `suffix` what
`reportEditorialAccidentalToOwner` returns. m21convert.py 1668-1713. -/
def kernPitch (suffix : Str) (step : PStep) (octave : Int) (accid : Option PAccid) : Str :=
  let info := accidentalInfo accid
  let alter := info.1
  kernOctaveAndStep octave step ++
  (if accid = none then []
   else if alter > 0 then List.replicate alter.toNat '#'
   else if alter < 0 then List.replicate (-alter).toNat '-'
   else []) ++
  (if info.2.2 then (if alter = 0 then 'n' :: suffix else suffix)
   else if info.2.1 then (if alter = 0 then ['n'] else ['X'])
   else [])

/-- `kernPitchFromM21Unpitched`. m21convert.py 853-864. -/
def kernUnpitched (step : PStep) (octave : Int) : Str :=
  if octave = 4 ∧ step = .B then ['R'] else 'R' :: kernOctaveAndStep octave step

/-- `diatonicToM21PitchName[diatonic]`, for a diatonic number from 0 to 6. m21convert.py 51-59. -/
def diatonicName (d : Int) : Char :=
  if d = 0 then 'C' else if d = 1 then 'D' else if d = 2 then 'E' else if d = 3 then 'F'
  else if d = 4 then 'G' else if d = 5 then 'A' else 'B'

/-- The accidental text of `m21PitchName`. m21convert.py 235-247. -/
def m21AccidText (s : Str) : Str :=
  let n : Int := (countChar '#' s : Int) - (countChar '-' s : Int)
  if n < 0 then List.replicate (-n).toNat '-' else List.replicate n.toNat '#'

/-- `m21PitchName`. m21convert.py 227-249. -/
def m21PitchName (s : Str) : Str :=
  let d := kernToDiatonicPC s
  if d < 0 then [] else diatonicName d :: m21AccidText s

/-- The pitch part of `_convertNote` for a pitched note: name and octave, or the note is given up.
humdrumfile.py 7570-7571, 7597-7604. -/
def readKernPitch (s : Str) : Option (Str × Int) :=
  let octave := kernToOctaveNumber s
  if octave < 0 then none else some (m21PitchName s, octave)

/-- The position of an unpitched note: step name and octave, from music21's default B4.
humdrumfile.py 7573-7593. -/
def readKernUnpitched (s : Str) : Char × Int :=
  let octave := kernToOctaveNumber s
  let d := kernToDiatonicPC s
  if octave ≥ 0 ∧ ¬ d < 0 then (diatonicName d, octave) else ('B', 4)

end C21
