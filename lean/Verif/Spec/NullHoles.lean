import Verif.Model.NullHoles
/-
Spec for C130: a place in the grid, and how long it stays without the voice.
-/
namespace C21

/-- What stands at a place: `none` if there is no such voice in the slice, `some none` for a hole. -/
def HoleSlice.place (x : HoleSlice) (p s v : Nat) : Option (Option HoleTok) :=
  (x.parts[p]?).bind (fun part => (part[s]?).bind (fun staff => staff[v]?))

/-- The time from a slice on until the first later note slice that has the voice. -/
def timeWithout (p s v : Nat) : List HoleSlice → Rat
  | [] => 0
  | q :: qs => if q.note then (if (q.place p s v).isSome then 0 else q.dur + timeWithout p s v qs) else timeWithout p s v qs

/-- The staff stands before the last staff of its part, and the part before the last part, in every note slice. -/
def NotLast (p s : Nat) (qs : List HoleSlice) : Prop :=
  ∀ q ∈ qs, q.note = true → p + 1 < q.parts.length ∧ s + 1 < (q.parts.getD p []).length

/-- Where the voice is there, the next voice is there too. -/
def NextToo (p s v : Nat) (qs : List HoleSlice) : Prop :=
  ∀ q ∈ qs, q.note = true → (q.place p s v).isSome → (q.place p s (v + 1)).isSome

end C21
