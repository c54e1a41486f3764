import Verif.Model.PyNum
/-
Independent specification of **kern pitch spellings.
-/
namespace C21

/-- A pitch spelling: step 0..6 for C..B, octave (4 starts at middle C), alteration in semitones. -/
structure Pitch where
  step : Fin 7
  octave : Int
  alter : Int
deriving DecidableEq

/-- The lower-case and upper-case letters of the steps. -/
def stepLower : Fin 7 → Char := fun i => "cdefgab".toList[i.val]'(by simp)
def stepUpper : Fin 7 → Char := fun i => "CDEFGAB".toList[i.val]'(by simp)

/-- The **kern spelling: c, cc, ccc ... for octaves 4, 5, 6 ...; C, CC, CCC ... for octaves 3, 2, 1 ...;
then one '#' per sharp or one '-' per flat. -/
def Pitch.kern (p : Pitch) : Str :=
  (if p.octave ≥ 4 then List.replicate (p.octave - 3).toNat (stepLower p.step)
   else List.replicate (4 - p.octave).toNat (stepUpper p.step)) ++
  (if p.alter ≥ 0 then List.replicate p.alter.toNat '#' else List.replicate (-p.alter).toNat '-')

/-- Semitones above C of the natural steps. -/
def stepSemitones : Fin 7 → Int := fun i => [0, 2, 4, 5, 7, 9, 11][i.val]'(by simp)

/-- Position of the natural step in the base-40 octave (whole step = 6, half step = 5, C natural = 2). -/
def stepBase40 : Fin 7 → Int := fun i => [2, 8, 14, 19, 25, 31, 37][i.val]'(by simp)

def Pitch.base40 (p : Pitch) : Int := 40 * p.octave + stepBase40 p.step + p.alter
def Pitch.base7 (p : Pitch) : Int := 7 * p.octave + p.step.val
def Pitch.midi (p : Pitch) : Int := 12 * (p.octave + 1) + stepSemitones p.step + p.alter

/-- Text in a token that is not part of the pitch: anything but note letters, 'r', accidentals and spaces. -/
def PitchInert (s : Str) : Prop :=
  ∀ c ∈ s, c ∉ "abcdefgABCDEFGr#- ".toList

/-- Nothing, or a space and any further notes of a chord. -/
def MoreNotes (s : Str) : Prop := s = [] ∨ ∃ t, s = ' ' :: t

end C21
