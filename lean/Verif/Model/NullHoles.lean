import Mathlib.Algebra.Order.Ring.Unbundled.Rat
import Verif.Model.PyStr
/-
Model of the invisible rests for places without a token in the grid of the Humdrum writer:
`HumGrid.checkForNullDataHoles` (converter21/humdrum/humgrid.py:725-772), called at humgrid.py:445.

Simplifications: a token of the grid is any text; the rest that is made is kept as its duration (`durationToRecip` is
modelled elsewhere).
-/
namespace C21

/-- A place in the grid: a token that is there, or a rest made here (humgrid.py:769-772). -/
inductive HoleTok
  | given (text : Str)
  | rest (dur : Rat)
  deriving DecidableEq

/-- A `GridSlice`: parts, staves and voices (humgrid.py:726-732). A voice is `none` where there is a hole. -/
structure HoleSlice where
  note : Bool
  dur : Rat
  parts : List (List (List (Option HoleTok)))
  deriving DecidableEq

/-- The search for the duration of a hole (humgrid.py:743-767): `d` is the duration so far. -/
def holeDur (p s v : Nat) : Rat → List HoleSlice → Rat
  | d, [] => d
  | d, q :: qs =>
    if q.note = false then holeDur p s v d qs
    else if q.parts.length - 1 ≤ p then holeDur p s v d qs
    else if (q.parts.getD p []).length - 1 ≤ s then holeDur p s v d qs
    else if ((q.parts.getD p []).getD s []).length - 1 ≤ v then holeDur p s v (d + q.dur) qs
    else d

/-- A voice of a slice (humgrid.py:732-772). -/
def fillVoice (dur : Rat) (later : List HoleSlice) (p s v : Nat) (x : Option HoleTok) : Option HoleTok :=
  match x with
  | some t => some t
  | none => some (.rest (holeDur p s v dur later))

/-- A slice (humgrid.py:727-732). -/
def fillHoleSlice (x : HoleSlice) (later : List HoleSlice) : HoleSlice :=
  if x.note then
    { x with parts := x.parts.mapIdx (fun p part => part.mapIdx (fun s staff => staff.mapIdx (fun v w => fillVoice x.dur later p s v w))) }
  else x

/-- `checkForNullDataHoles` (humgrid.py:725-772). The search looks at later slices only, which are not changed yet. -/
def fillHoles : List HoleSlice → List HoleSlice
  | [] => []
  | x :: xs => fillHoleSlice x xs :: fillHoles xs

end C21
