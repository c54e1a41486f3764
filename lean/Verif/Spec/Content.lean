import Verif.Spec.Pitch
import Mathlib.Data.List.Defs
/-
Independent specifications of rest positions, repeated text, rhythmic scaling and spine colors.
-/
namespace C21

/-! ### Rests -/

/-- The last clef of a track among the interpretations before a place; `before` lists them in order (track, text). -/
def clefOf (track : Nat) (before : List (Nat × Str)) : Str :=
  ((before.filter (fun t => t.1 = track ∧ "*clef".toList <+: t.2)).map (·.2)).getLast?.getD "*clefG2".toList

/-- Where a rest notated `n` steps above the middle line is put: on the line there, or if `n` is a space, on the line below for
long rests and above for others. -/
def RestPlaced (n : Int) (long : Prop) (s : Int) : Prop :=
  (n % 2 = 0 → s = n) ∧ (n % 2 ≠ 0 → long → s = n - 1) ∧ (n % 2 ≠ 0 → ¬ long → s = n + 1)

/-! ### Repeated text -/

def ijOpens (t : Str) : Prop := t ∈ ["*ij".toList, "*edit".toList, "*italic".toList]
def ijCloses (t : Str) : Prop := t ∈ ["*Xij".toList, "*Xedit".toList, "*Xitalic".toList]

/-- A syllable: a token that is not a null token, interpretation, comment or barline. -/
def isSyllable (t : Str) : Prop := t ≠ ".".toList ∧ ¬ "*".toList <+: t ∧ ¬ "!".toList <+: t ∧ ¬ "=".toList <+: t

instance (t : Str) : Decidable (ijOpens t) := by unfold ijOpens; infer_instance
instance (t : Str) : Decidable (ijCloses t) := by unfold ijCloses; infer_instance
instance (t : Str) : Decidable (isSyllable t) := by unfold isSyllable; infer_instance

/-- A place is repeated text when the last mark before it opens. -/
def inRepeat (before : List Str) : Prop :=
  ∃ t, (before.filter (fun t => ijOpens t ∨ ijCloses t)).getLast? = some t ∧ ijOpens t

/-- A place begins repeated text when the last mark or syllable before it is a mark that opens. -/
def beginsRepeat (before : List Str) : Prop :=
  ∃ t, (before.filter (fun t => ijOpens t ∨ ijCloses t ∨ isSyllable t)).getLast? = some t ∧ ijOpens t

/-- The next syllable or closing mark is a closing mark. -/
def closesNext (after : List Str) : Prop :=
  ∃ t, (after.filter (fun t => ijCloses t ∨ isSyllable t)).head? = some t ∧ ijCloses t

/-! ### Rhythmic scaling -/

/-- The last scale given for a track; 1 at the start. `before` lists the scales given so far (track, scale). -/
def scaleOf (track : Nat) (before : List (Nat × Rat)) : Rat :=
  ((before.filter (fun t => t.1 = track)).map (·.2)).getLast?.getD 1

/-! ### Spine colors -/

/-- The color of a subspine: that of the last color mark before the music in its track that is for it (or for the whole track).
Subtrack 0 stands for the only subspine of a track; a mark in subspine 1 is also for that. -/
def colorOf (track sub : Nat) (marks : List (Nat × Nat × Str)) : Str :=
  ((marks.filter (fun m => m.1 = track ∧ (m.2.1 = sub ∨ m.2.1 = 0 ∨ (m.2.1 = 1 ∧ sub = 0)))).map (·.2.2)).getLast?.getD []

end C21
