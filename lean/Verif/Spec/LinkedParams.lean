import Verif.Model.LinkedParams
/-
Specification for C56 and C67.
-/
namespace C21

/-- The parameter tokens that count: those not marked `:ignore`. -/
def notIgnored (t : LTok) : Bool := !isInfix ":ignore".toList t.text

/-- Each token once, where it comes first. -/
def firstOnes : List LTok → List LTok
  | [] => []
  | t :: ts => t :: (firstOnes ts).filter (fun x => x.id != t.id)

/-- In file order and without repetition. -/
structure InFileOrder (l : List LTok) : Prop where
  sorted : l.Pairwise (fun a b => a.line ≤ b.line)
  nodup : (l.map (·.id)).Nodup

/-- After linking the tokens one by one. -/
def linkSeq (ts : List LTok) : List LTok := ts.foldl (fun l t => (addLinked l t).2) []

end C21
