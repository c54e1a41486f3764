import Verif.Model.Sections
/-
Specification for C39 and C66: a score as a sequence of measures without bracket and of repeat brackets.
-/
namespace C21

/-- `plain k`: k + 1 measures that are in no bracket. `bracket name k`: a repeat bracket over k + 1 measures. -/
inductive Seg
  | plain (k : Nat)
  | bracket (name : Str) (k : Nat)

/-- The measures of a bracket after its first one. -/
def bracketRest (name : Str) : Nat → List RBMeasure
  | 0 => []
  | k + 1 => ⟨true, false, decide (k = 0), name⟩ :: bracketRest name k

/-- The measures of a segment. -/
def Seg.measures : Seg → List RBMeasure
  | .plain k => List.replicate (k + 1) ⟨false, false, false, []⟩
  | .bracket name k => ⟨true, true, decide (k = 0), name⟩ :: bracketRest name k

/-- The number of a bracket: its name if that is a number; otherwise one more than the bracket just before it, or 1. -/
def numberOf (prev : Option Int) (name : Str) : Int :=
  (pyInt name).getD (match prev with | some n => n + 1 | none => 1)

/-- The brackets have numbers from 1, and no bracket has the number of the one just before it. -/
def NumbersOk : Option Int → List Seg → Prop
  | _, [] => True
  | _, .plain _ :: segs => NumbersOk none segs
  | prev, .bracket name _ :: segs => 1 ≤ numberOf prev name ∧ prev ≠ some (numberOf prev name) ∧ NumbersOk (some (numberOf prev name)) segs

/-- For each measure, which bracket it is in (counted from 0) and the number of that bracket. -/
def bracketsOf : Option Int → Nat → List Seg → List (Option (Nat × Nat))
  | _, _, [] => []
  | _, id, .plain k :: segs => List.replicate (k + 1) none ++ bracketsOf none id segs
  | prev, id, .bracket name k :: segs =>
    List.replicate (k + 1) (some (id, (numberOf prev name).toNat)) ++ bracketsOf (some (numberOf prev name)) (id + 1) segs

/-- The name of a section that is started; nothing for an ending. -/
def SecLabel.sectionOnly : SecLabel → Option Str
  | .section n => some n
  | .ending _ _ => none

/-- The names of the sections that are started. -/
def sectionNames (ls : List (List SecLabel)) : List Str := ls.flatten.filterMap SecLabel.sectionOnly

/-- The k-th section name: A ... Z, AA ... ZZ, and so on. -/
def sectionName (k : Nat) : Str := List.replicate (k / 26 + 1) (Char.ofNat (65 + k % 26))

end C21
