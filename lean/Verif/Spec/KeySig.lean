import Verif.Model.KeySig
/-
Spec for C50. The circle of fifths.
-/
namespace C21

/-- The steps in the order in which sharps come. -/
def fifths : List Char := "fcgdaeb".toList

/-- How a step is altered with a number of sharps (flats if negative): each seven sharps add one to all. -/
def fifthsAlter (sharps : Int) (place : Nat) : Int := (sharps - place + 6) / 7

/-- How a text like `f#c#` or `b--e-` alters a step: the sharps less the flats that come directly after it. -/
def textAlter (step : Char) (text : Str) : Int :=
  let marks := ((text.dropWhile (fun c => c ≠ step)).drop 1).takeWhile (fun c => c = '#' || c = '-')
  (marks.filter (fun c => c = '#')).length - (marks.filter (fun c => c = '-')).length

/-- One entry of a written key signature: a step with a natural sign or with sharps and flats. -/
structure KeyEntry where
  step : Char
  natural : Bool
  marks : Str

def KeyEntry.text (e : KeyEntry) : Str := e.step :: (if e.natural then ['n'] else e.marks)

/-- A real entry. -/
def KeyEntry.Valid (e : KeyEntry) : Prop := e.step ∈ "abcdefg".toList ∧ ∀ c ∈ e.marks, c = '#' ∨ c = '-'

/-- The text of a key signature. -/
def entriesText (l : List KeyEntry) : Str := l.flatMap KeyEntry.text

end C21
