import Verif.Model.Dates
/-
Specification for C44: which dates an EDTF text can express.
-/
namespace C21

/-- A day of the calendar, or a month or a year: no time, no gap, no negative value, no mark without a value. -/
structure CalendarDate (d : Date) : Prop where
  year : ∃ v, d.year.value = some v ∧ 0 ≤ v
  month : ∀ v, d.month.value = some v → 0 ≤ v
  day : ∀ v, d.day.value = some v → 0 ≤ v
  order : d.month.value = none → d.day.value = none
  monthError : d.month.value = none → d.month.error = none
  dayError : d.day.value = none → d.day.error = none
  hour : d.hour = {}
  minute : d.minute = {}
  second : d.second = {}

/-- The mark of the last value given. -/
def Date.lastError (d : Date) : Option DateErr :=
  match d.day.value, d.month.value with
  | some _, _ => d.day.error
  | none, some _ => d.month.error
  | none, none => d.year.error

/-- The dates of a date object. -/
def DatePrim.allDates : DatePrim → List Date
  | .single _ d => [d]
  | .relative _ d => [d]
  | .between a b => [a, b]
  | .selection _ ds => ds

/-- Which date objects EDTF can express: calendar dates; a single date that is not qualified as a whole and whose last value has no mark; a
relative date that excludes the date itself. -/
def EdtfPrim : DatePrim → Prop
  | .single r d => CalendarDate d ∧ r = none ∧ d.lastError = none
  | .relative r d => CalendarDate d ∧ (r = .prior ∨ r = .after)
  | .between a b => CalendarDate a ∧ CalendarDate b
  | .selection _ ds => ∀ d ∈ ds, CalendarDate d

/-- The same, for an end of a nested range: there a single date can be qualified. -/
def EdtfEnd : DatePrim → Prop
  | .single r d => CalendarDate d ∧ (r = none → d.lastError = none)
  | p => EdtfPrim p

end C21
