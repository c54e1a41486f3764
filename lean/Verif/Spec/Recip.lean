import Verif.Model.PyNum
/-
Independent specification of **recip rhythms: how an undotted rhythm is written and what it means.
-/
namespace C21

/-- An undotted **recip rhythm. -/
inductive RBase where
  /-- `n`: the whole note divided by n (n > 0) -/
  | div (n : Nat)
  /-- `0`, `00`, ...: 2, 4, ... whole notes (one or more zeros) -/
  | breve (zeros : Nat)
  /-- `d%n`: n/d whole notes (d > 0) -/
  | ratio (d n : Nat)
deriving DecidableEq

/-- Rhythms the notation allows. -/
def RBase.Valid : RBase → Prop
  | .div n => n > 0
  | .breve z => z > 0
  | .ratio d _ => d > 0

/-- How the rhythm is written. -/
def RBase.text : RBase → Str
  | .div n => natStr n
  | .breve z => List.replicate z '0'
  | .ratio d n => natStr d ++ '%' :: natStr n

/-- Its duration in whole notes. -/
def RBase.wholes : RBase → Rat
  | .div n => 1 / n
  | .breve z => 2 ^ z
  | .ratio d n => n / d

/-- Characters of a token other than its rhythm: anything but digits, dots, spaces and the grace mark. -/
def Inert (s : Str) : Prop := ∀ c ∈ s, isDig c = false ∧ c ≠ '.' ∧ c ≠ ' ' ∧ c ≠ 'q'

/-- What may follow the first note of a chord: nothing, or a space and any text without a grace mark. -/
def ChordRest (s : Str) : Prop := s = [] ∨ ∃ t, s = ' ' :: t ∧ 'q' ∉ t

/-- The note shapes of **mens: maxima, long, breve, semibreve, minim, semiminim, fusa, semifusa. The
maxima is eight whole notes, and each shape is half the one before. -/
def mensShapes : Str := "XLSsMmUu".toList
def mensWhole (k : Nat) : Rat := 8 / 2 ^ k

/-- Characters that may precede the note shape in a **mens token without meaning anything to the rhythm. -/
def MensInert (s : Str) : Prop := ∀ c ∈ s, c ∉ mensShapes ∧ c ≠ 'p' ∧ c ≠ 'i' ∧ c ≠ ' '

end C21
