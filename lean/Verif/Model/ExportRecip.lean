import Verif.Model.Recip
import Verif.Model.DurSplit
/-
m21convert.py:1509-1640: the rhythm written for a music21 duration.
-/
namespace C21

/-- What the exporter reads of a music21 Duration: `typeQL` is `convertTypeToQuarterLength(type)`, `tuplets` the multipliers. -/
structure M21Dur where
  isGrace : Bool := false
  linked : Bool := true
  quarterLength : Rat
  typeQL : Rat
  dots : Nat
  tuplets : List Rat := []
  components : List Rat := []

/-- m21convert.py:1555-1580: the value without dots (in whole notes) and the dots. -/
def exportDots (dur : Rat) (dots : Option Nat) (inTuplet : Bool) : Rat × Nat :=
  match dots with
  | some n => (dur, n)
  | none =>
    if inTuplet then (dur, 0)
    else if dur.num = 1 then (dur, 0)
    else if (dur * 2 / 3).num = 1 then (dur * 2 / 3, 1)
    else if (dur * 4 / 7).num = 1 then (dur * 4 / 7, 2)
    else if (dur * 8 / 15).num = 1 then (dur * 8 / 15, 3)
    else (dur, 0)

/-- m21convert.py:1582-1622: the text, with '1%2' and the like as zeros. The expression searched for matches the whole text when the
numerator is not negative, so the replacements replace all of it but the dots. -/
def exportText (frac : Rat) (dots : Nat) (inTuplet : Bool) : Str :=
  let plain := natStr frac.den ++ (if frac.num = 1 then [] else '%' :: intStr frac.num) ++ List.replicate dots '.'
  if frac.num ≠ 1 ∧ frac.den = 1 then
    if dots = 0 then
      if frac.num = 2 then "0".toList
      else if frac.num = 4 then "00".toList
      else if frac.num = 8 then "000".toList
      else if frac.num = 16 then "0000".toList
      else if frac.num = 3 ∧ inTuplet = false then "0.".toList
      else if frac.num = 6 ∧ inTuplet = false then "00.".toList
      else if frac.num = 12 ∧ inTuplet = false then "000.".toList
      else if frac.num = 24 ∧ inTuplet = false then "0000.".toList
      else plain
    else
      if frac.num = 2 then "0".toList ++ List.replicate dots '.'
      else if frac.num = 4 then "00".toList ++ List.replicate dots '.'
      else if frac.num = 8 then "000".toList ++ List.replicate dots '.'
      else if frac.num = 16 then "0000".toList ++ List.replicate dots '.'
      else plain
  else plain

/-- m21convert.py:1624-1637: in a tuplet, a rhythm which without its dots is not a power of two. -/
def exportTuplet (out : Str) : Except PyErr Str :=
  match recipToDuration (out.takeWhile (· != '.')) with
  | .error e => .error e
  | .ok durNoDots =>
    if isPow2 durNoDots then .ok (durationToRecip (durNoDots / (3 / 2)) ++ List.replicate (countChar '.' out + 1) '.')
    else .ok out

/-- m21convert.py:1549-1637 from a duration in quarter notes. -/
def exportRecip (ql : Rat) (dots : Option Nat) (inTuplet : Bool) : Except PyErr Str :=
  let p := exportDots (ql / 4) dots inTuplet
  let out := exportText p.1 p.2 inTuplet
  if inTuplet then exportTuplet out else .ok out

/-- m21convert.py:1639-1643: the visual rhythm, written as a linked duration without tuplets. -/
def exportVisual (vdur : Option Rat) : Except PyErr Str :=
  match vdur with
  | none => .ok []
  | some v => if v = 0 then .ok [] else exportRecip v none false

/-- m21convert.py:1509-1643 `kernRecipFromM21Duration`. -/
def kernRecip (d : M21Dur) : Except PyErr (Str × Str) :=
  let r := if d.isGrace then (exportRecip d.typeQL (some 0) false, none)
    else if d.linked = false ∧ d.tuplets.length = 1 then
      (exportRecip d.quarterLength none true, some (if d.dots > 0 then d.typeQL * ((3 / 2) * d.dots) else d.typeQL))
    else if d.linked = false then
      (exportRecip d.quarterLength none false, match d.components with | [c] => some c | _ => none)
    else
      match d.tuplets with
      | [m] => (exportRecip (d.typeQL * m) (some d.dots) true, none)
      | _ => (exportRecip d.quarterLength none false, none)
  match r.1, exportVisual r.2 with
  | .ok a, .ok b => .ok (a, b)
  | .error e, _ => .error e
  | .ok _, .error e => .error e

end C21
