import Verif.Model.ChordText
/-
Spec for C129: chord symbol figures without the words that the conversion treats in a special way.
-/
namespace C21

/-- Accidentals of Unicode and SMuFL. -/
def IsAccidentalChar (c : Char) : Prop := c ∈ ['♭', '♯'] ∨ (0xE260 ≤ c.toNat ∧ c.toNat ≤ 0xE269 ∧ c.toNat ≠ 0xE261)

/-- A figure of ordinary characters without spaces, the letter `o` and the words `dim`, `add`, `alter` and `subtract`. -/
structure PlainFigure (fig : Str) : Prop where
  chars : ∀ c ∈ fig, ¬ IsAccidentalChar c ∧ c ≠ ' ' ∧ c ≠ 'o'
  dim : ¬ "dim".toList <:+: fig
  add : ¬ "add".toList <:+: fig
  alter : ¬ "alter".toList <:+: fig
  subtract : ¬ "subtract".toList <:+: fig

/-- The text of a character of a figure. -/
def printed (c : Char) : Char := if c = 'b' ∨ c = '-' then Char.ofNat 0xE260 else if c = '#' then Char.ofNat 0xE262 else c

end C21
