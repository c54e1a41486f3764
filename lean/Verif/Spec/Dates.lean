import Verif.Model.Dates
/-
Specification for C43: which dates can be written without loss.
-/
namespace C21

/-- A value that can be written: not 0, and no error mark without a value. -/
structure WritableField (f : DateField) : Prop where
  nonzero : f.value ≠ some 0
  error : f.value = none → f.error = none

/-- A date that can be written: some value, all values writable, and seconds that do not begin with "60". -/
structure WritableDate (d : Date) : Prop where
  year : WritableField d.year
  month : WritableField d.month
  day : WritableField d.day
  hour : WritableField d.hour
  minute : WritableField d.minute
  second : WritableField d.second
  leap : ∀ v, d.second.value = some v → ¬ ∃ r, intStr v = '6' :: '0' :: r
  some : ∃ f ∈ [d.year, d.month, d.day, d.hour, d.minute, d.second], f.value ≠ none

/-- Months, days and times are positive (only years count backwards). -/
def PositiveField (f : DateField) : Prop := ∀ v, f.value = some v → 0 < v

/-- A date of the calendar that can be written. -/
structure PlainDate (d : Date) : Prop extends WritableDate d where
  pmonth : PositiveField d.month
  pday : PositiveField d.day
  phour : PositiveField d.hour
  pminute : PositiveField d.minute
  psecond : PositiveField d.second

/-- The dates of a primitive. -/
def DatePrim.dates : DatePrim → List Date
  | .single _ d => [d]
  | .relative _ d => [d]
  | .between a b => [a, b]
  | .selection _ ds => ds

/-- A primitive that the Humdrum text can express: its dates are plain, a selection is an 'or' of at least two dates, and a relative date
excludes the date itself. -/
structure PlainPrim (p : DatePrim) : Prop where
  dates : ∀ d ∈ p.dates, PlainDate d
  selection : ∀ a ds, p = .selection a ds → a = false ∧ 2 ≤ ds.length
  relative : ∀ r d, p = .relative r d → r = .prior ∨ r = .after

end C21
