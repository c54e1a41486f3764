import Verif.Model.Pending
/-
Specification for C38: what is due at a place and a time, in terms of the calls only.
-/
namespace C21

/-- What is due at part `p`, staff `s` and time `t`, after one more call. -/
def dueStep (p s : Int) (t : Rat) (due : List Str) : PendOp → List Str
  | .store stops time p' s' => if p' = p ∧ s' = s ∧ time = t then due ++ stops else due
  | .pop p' s' time => if p' = p ∧ s' = s ∧ time = t then [] else due

/-- What is due after all the calls: everything stored for this place and time since the last pop there. -/
def due (ops : List PendOp) (p s : Int) (t : Rat) : List Str := ops.foldl (dueStep p s t) []

end C21
