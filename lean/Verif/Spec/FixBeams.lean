import Mathlib.Data.List.Chain
import Mathlib.Data.List.Forall2
import Verif.Model.FixBeams
/-
Spec for C124: beams that make sense from one note of a voice to the next.
-/
namespace C21

/-- The notes of a voice through all measures of its part, without grace notes and chord symbols. -/
def beamLine (k : Nat) (part : List (List FBVoice)) : List FBNote :=
  part.flatMap (fun m => ((m.find? (fun v => decide (v.1 = k))).elim [] (·.2)).filter (fun n => !n.aside))

/-- The beam of the given number. -/
def beamNo (i : Nat) (n : FBNote) : Option FBeam := n.beams.find? (fun b => decide (b.num = i))

/-- Every beam of `n` that continues goes on in `t`. -/
def GoesOn (n t : FBNote) : Prop :=
  ∀ b ∈ n.beams, b.typ = .cont → ∃ c, beamNo b.num t = some c ∧ c.typ ≠ .start

/-- No beam stops in both. -/
def StopsOnce (n t : FBNote) : Prop :=
  ∀ b ∈ n.beams, b.typ = .stop → ∀ c, beamNo b.num t = some c → c.typ ≠ .stop

/-- No beam goes on into nothing. -/
structure GoodLine (l : List FBNote) : Prop where
  goes_on : l.IsChain GoesOn
  ends : ∀ n, l.getLast? = some n → ∀ b ∈ n.beams, b.typ ≠ .cont

/-- The voice has notes wherever it is, and is there in the last measure. -/
structure SoundsToEnd (k : Nat) (part : List (List FBVoice)) : Prop where
  notes : ∀ m ∈ part, ∀ v, m.find? (fun v => decide (v.1 = k)) = some v → ∃ n ∈ v.2, n.aside = false
  last : ∀ m, part.getLast? = some m → ∃ v, m.find? (fun v => decide (v.1 = k)) = some v

/-- What may become of a beam. -/
def FBeamKept (b c : FBeam) : Prop :=
  c.num = b.num ∧ (c.typ = b.typ ∨ ((b.typ = .cont ∨ b.typ = .stop) ∧ (c.typ = .cont ∨ c.typ = .stop)))

/-- What may become of a note. -/
def FBeamsKept (n m : FBNote) : Prop :=
  m.id = n.id ∧ m.aside = n.aside ∧ (n.aside = true → m.beams = n.beams) ∧ List.Forall₂ FBeamKept n.beams m.beams

end C21
