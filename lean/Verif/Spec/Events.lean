import Verif.Model.Events
import Verif.Spec.DurSplit
/-
Spec for C70, C71, C72.
-/
namespace C21

/-- An event that goes with the notes: it lasts, or a dynamic wedge starts or stops there. -/
def MEvent.Lasts (e : MEvent) : Prop := e.dur ≠ 0 ∨ e.wedge = true

instance (e : MEvent) : Decidable e.Lasts := inferInstanceAs (Decidable (_ ∨ _))

/-- C70: what a user expects of the order in which the events of a measure are handled: in order of time, simultaneous events
of all staves together, each event once. -/
structure HandledInOrder (staves : List (List MEvent)) (calls : List Call) : Prop where
  /-- no two calls have the same time, and times go up -/
  increasing : (calls.map Call.time).Pairwise (· < ·)
  /-- a call has the events of its time without duration, last staff first, in the order of the staff -/
  zero : ∀ c ∈ calls, c.zero = staves.reverse.flatMap (fun st => st.filter (fun e => e.time = c.time ∧ ¬ e.Lasts))
  /-- and the events with a duration -/
  nonZero : ∀ c ∈ calls, c.nonZero = staves.reverse.flatMap (fun st => st.filter (fun e => e.time = c.time ∧ e.Lasts))
  /-- no event is forgotten -/
  complete : ∀ st ∈ staves, ∀ e ∈ st, e.time ∈ calls.map Call.time

/-- C71: the events follow each other without gap or overlap from `a` to `b`. -/
inductive Tiles : Rat → Rat → List VEvent → Prop
  | nil (a) : Tiles a a []
  | cons {a b : Rat} {e : VEvent} {rest} : e.time = a → Tiles (a + e.dur) b rest → Tiles a b (e :: rest)

/-- The elements of a voice do not overlap: whatever lasts begins when all before it is over; `cur` is where the voice is.
The end of the last element is `stop`. -/
def NoOverlap : Rat → Rat → List VElem → Prop
  | cur, stop, [] => cur = stop
  | cur, stop, e :: es => 0 ≤ e.ql ∧ (0 < e.ql → cur ≤ e.offset) ∧ NoOverlap (max cur e.offset + e.ql) stop es

/-- All gaps between elements can be written with one rest. -/
def GapsSimple : Rat → List VElem → Prop
  | _, [] => True
  | cur, e :: es => (cur < e.offset → Notatable (e.offset - cur)) ∧ GapsSimple (max cur e.offset + e.ql) es

end C21
