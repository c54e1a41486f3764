import Verif.Model.RestVoice
import Verif.Spec.Measure
import Verif.Spec.DurSplit
/-
Spec for C75.
-/
namespace C21

/-- What stands in a spine, with the times of the lines. -/
def columnOf (id : SpineId) (l : List GSlice) : List (Rat × Str) :=
  l.filterMap (fun x => (x.content id).map (fun t => (x.time, t)))

/-- The number of voices of a staff. -/
def GSlice.voiceCount (x : GSlice) (p s : Nat) : Option Nat :=
  ((x.parts[p]?).bind (fun part => part.staves[s]?)).map (fun st => st.voices.length)

/-- A measure with its lines in order (C34), which have the staff, with at most `n` voices in it. -/
structure StaffFits (endTime : Rat) (p s n : Nat) (l : List GSlice) : Prop where
  ordered : Ordered endTime l
  has : ∀ x ∈ l, x.kind.hasSpines = true → (x.voiceCount p s).isSome
  most : ∀ x ∈ l, ∀ k, x.voiceCount p s = some k → k ≤ n

/-- The rests one after the other. -/
def restColumn (recip : Rat → Str) : Rat → List Rat → List (Rat × Str)
  | _, [] => []
  | t, d :: ds => (t, recip d ++ "ryy".toList) :: restColumn recip (t + d) ds

/-- A voice of rests has been added as voice `n` of a staff. -/
structure RestVoiceAdded (recip : Rat → Str) (endTime : Rat) (p s n : Nat) (start : Rat) (ds : List Rat) (old new : List GSlice) : Prop where
  /-- the new voice has the rests and nothing else -/
  rests : columnOf (.voice p s n) new = restColumn recip start ds
  /-- all other spines have what they had -/
  others : ∀ id, id ≠ .voice p s n → columnOf id new = columnOf id old
  /-- the rests stand in lines of notes -/
  onNotes : ∀ x ∈ new, (x.content (.voice p s n)).isSome = true → x.kind = .notes
  /-- from the first line of notes on, all lines have the new voice -/
  voices : ∀ x ∈ new.dropWhile (fun x => x.kind ≠ .notes), x.kind.hasSpines = true → x.voiceCount p s = some (n + 1)
  /-- and the measure is as it should be, with one voice more -/
  fits : StaffFits endTime p s (n + 1) new

/-- A note starts in the staff, or in some staff of the part. -/
def NoteStarts (p : Nat) (s : Option Nat) (x : GSlice) : Prop :=
  x.kind = .notes ∧ ∃ s' v, (s = none ∨ s = some s') ∧ (x.content (.voice p s' v)).isSome

/-- A place in a measure that can be written without tuplets, or in a measure as long as one note. -/
def Placeable (dur place : Rat) : Prop :=
  Notatable dur ∨ ((∃ m : Int, place * 2048 = m) ∧ ∃ m : Int, (dur - place) * 2048 = m)

/-- Durations found for a tuplet are more than nothing. -/
def TupletPositive (tuplet : Rat → Rat → Except PyErr (List Rat × List Rat)) : Prop :=
  ∀ t c l1 l2, tuplet t c = .ok (l1, l2) → ∀ d ∈ l1 ++ l2, 0 < d

end C21
