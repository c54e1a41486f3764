import Verif.Model.Barlines
/-
Specification for C46 and C47.
-/
namespace C21

/-- A measure number, with a suffix perhaps ("124a"): it has none of the characters that barlines are made of, and no "y". -/
def BarNumber (n : Str) : Prop := ∀ c ∈ n, c ∉ ['|', '!', '=', '\'', '`', '-', '.', ':', ';', 'y']

/-- The styles that survive: those of plain barlines except the dashed one, and the usual style of each kind of repeat. -/
def StyleSurvives (s : MStyle) : Prop :=
  (s.m = .notRepeat ∧ s.v ≠ .dashed) ∨ s = ⟨.final, .backward⟩ ∨ s = ⟨.heavyLight, .forward⟩ ∨ s = ⟨.lightHeavyLight, .both⟩

/-- The barlines (the right one of a measure, the left one of the next) that survive: a plain barline except a dashed one, or the usual end of
a repeat; on the left nothing, or the usual start of a repeat next to a regular barline or the end of a repeat. -/
def BarsSurvive (r : Bar) (l : Option Bar) : Prop :=
  (l = none ∧ ((r.dir = none ∧ r.type ≠ .dashed) ∨ (r.dir = some .stop ∧ r.type = .final))) ∨
  (l = some ⟨some .start, .heavyLight, false⟩ ∧ ((r.dir = none ∧ r.type = .regular) ∨ (r.dir = some .stop ∧ r.type = .final)))

/-- The types with which Humdrum can write a repeat. -/
def RepeatType (t : BarType) : Prop := t ≠ .dotted ∧ t ≠ .tick ∧ t ≠ .short ∧ t ≠ .none

/-- The strokes of a style: `true` for a heavy one. -/
def strokes : VStyle → List Bool
  | .regular => [false]
  | .heavy => [true]
  | .heavyLight => [true, false]
  | .final => [false, true]
  | .double => [false, false]
  | .heavyHeavy => [true, true]
  | .heavyLightHeavy => [true, false, true]
  | .lightHeavyLight => [false, true, false]
  | _ => []

/-- Neighbouring strokes of the same kind become one. -/
def mergeStrokes : List Bool → List Bool
  | [] => []
  | [a] => [a]
  | a :: b :: r => if a = b then mergeStrokes (b :: r) else a :: mergeStrokes (b :: r)

/-- The style has an end of a repeat. -/
def MStyle.ends (s : MStyle) : Prop := s.m = .backward ∨ s.m = .both

/-- The style has a start of a repeat. -/
def MStyle.starts (s : MStyle) : Prop := s.m = .forward ∨ s.m = .both

instance (s : MStyle) : Decidable (StyleSurvives s) := by unfold StyleSurvives; infer_instance
instance (r : Bar) (l : Option Bar) : Decidable (BarsSurvive r l) := by unfold BarsSurvive; infer_instance
instance (t : BarType) : Decidable (RepeatType t) := by unfold RepeatType; infer_instance
instance (s : MStyle) : Decidable s.ends := by unfold MStyle.ends; infer_instance
instance (s : MStyle) : Decidable s.starts := by unfold MStyle.starts; infer_instance

end C21
