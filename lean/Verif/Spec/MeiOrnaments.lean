import Verif.Model.MeiOrnaments
import Verif.Spec.Arpeggios
/-
Spec for C134: the ornament an element describes.
-/
namespace C21

/-- The element uses the values of the standard: form upper, lower or none, a placement that is not empty. -/
structure MOrnEl.Standard (e : MOrnEl) : Prop where
  form : e.form = [] ∨ e.form = "upper".toList ∨ e.form = "lower".toList
  place : e.place ≠ some [] ∧ e.place ≠ some "place_unspecified".toList

/-- The ornament is the one the element describes. -/
structure MOrnAs (acc : Str → Str) (e : MOrnEl) (o : MOrn) : Prop where
  kind : o.kind = e.kind
  place : o.place = e.place
  /-- music21's trills are never inverted. -/
  trill : e.kind = .trill → o.inverted = false
  /-- An upper mordent is music21's inverted one. Without a form, an upper accidental makes it upper. -/
  mordent : e.kind = .mordent → (o.inverted = true ↔ e.form = "upper".toList ∨ (e.form = [] ∧ e.accUpper ≠ []))
  /-- A lower turn is music21's inverted one. Without a form, it is lower if it is slashed. -/
  turn : e.kind = .turn → (o.inverted = true ↔ e.form = "lower".toList ∨ (e.form = [] ∧ e.theType = "slashed".toList))
  /-- Turns have both accidentals. -/
  turnUpper : e.kind = .turn → o.accid = (if e.accUpper = [] then [] else acc e.accUpper)
  turnLower : e.kind = .turn → o.accid2 = (if e.accLower = [] then [] else acc e.accLower)
  /-- Others have one accidental, whichever is given. -/
  upper : e.kind ≠ .turn → e.accUpper ≠ [] → o.accid = acc e.accUpper
  lower : e.kind ≠ .turn → e.accUpper = [] → e.accLower ≠ [] → o.accid = acc e.accLower
  plain : e.kind ≠ .turn → e.accUpper = [] → e.accLower = [] → o.accid = []
  /-- Only turns are delayed. -/
  delayed : o.delayed = true ↔ e.kind = .turn ∧ e.delayed = "true".toList

end C21
