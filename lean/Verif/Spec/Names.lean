import Verif.Model.PyStr
/-
Specification for C45: roles spelled in words.
-/
namespace C21

/-- Words in small letters: no capitals, and a letter after every space (so no double and no trailing space). -/
structure SpacedRole (s : Str) : Prop where
  small : ∀ c ∈ s, ¬ ('A' ≤ c ∧ c ≤ 'Z')
  word : ∀ a b, s = a ++ ' ' :: b → ∃ c r, b = c :: r ∧ 'a' ≤ c ∧ c ≤ 'z'

end C21
