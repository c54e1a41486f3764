import Mathlib.Data.Rat.Defs
import Mathlib.Algebra.Field.Rat
/-
Independent specification of note values.
-/
namespace C21

/-- A duration that is written with one note: a power of two with up to three dots. Each dot adds half of what was added before. -/
def Notatable (d : Rat) : Prop := ∃ (k : Int) (n : Nat), n ≤ 3 ∧ d = 2 ^ k * (2 - 1 / 2 ^ n)

end C21
