import Verif.Model.PyStr
import Verif.Model.MeiTstamp
/-
Where a spanner (hairpin, octave sign, trill extension …) ends in MEI: the attribute tstamp2, `Nm+B`, as written
(mei/m21objectconvert.py:865-990) and read (mei/meireader.py:7155-7185, 8495-8540, 8660-8690).

Simplifications: offsets are exact rationals. The decimal of the beat is a text with the value given by `makeTstamp`
(`Model/MeiTstamp`); Python's `float()` is a parameter. A measure is its offset in the score and the length of its contents;
the measures of one part are a list.
-/
namespace C21

/-- A measure: `getOffsetInHierarchy(m21Score)` and `duration.quarterLength`. -/
structure SpanMeas where
  start : Rat
  len : Rat
deriving DecidableEq

/-- shared/m21utilities.py:1655-1665 `getActiveTimeSigFromMeterStream`: the denominator of the last time signature at or before
the offset; time signatures in order of their offsets. -/
def denomAt (meters : List (Rat × Nat)) (off : Rat) : Option Nat :=
  ((meters.filter (fun m => decide (m.1 ≤ off))).getLast?).map (·.2)

/-- mei/m21objectconvert.py:958-972: the loop from the start measure on: the number of steps and the offset in the measure. -/
def findEnd (e : Rat) : List SpanMeas → Nat → Nat × Option Rat
  | [], k => (k, none)
  | m :: ms, k =>
    if 0 ≤ e - m.start ∧ e - m.start ≤ m.len then (k, some (e - m.start))
    else findEnd e ms (k + 1)

/-- mei/m21objectconvert.py:933-990 `makeTstamp2FromScoreOffset`: steps and value of the beat. The start measure is given by its
index in the part. -/
def tstamp2FromScore (meters : List (Rat × Nat)) (ms : List SpanMeas) (i : Nat) (e : Rat) : Nat × Rat :=
  let r := findEnd e (ms.drop i) 0
  (r.1, makeTstamp (r.2.getD 0) (denomAt meters e))

/-- mei/m21objectconvert.py:900-914: the loop of `makeTstamp2` from the start measure on; the list says for every measure of the
end part whether the end object is in it, and where. -/
def findEndObj : List (Option Rat) → Nat → Nat × Option Rat
  | [], k => (k, none)
  | none :: ms, k => findEndObj ms (k + 1)
  | some o :: _, k => (k, some o)

/-- mei/m21objectconvert.py:865-931 `makeTstamp2`: `nStart` measures in the start part (`zip` stops at the shorter part), the
end object at `e` in the score; the error stands for MeiInternalError. -/
def tstamp2FromObject (meters : List (Rat × Nat)) (nStart : Nat) (inMeas : List (Option Rat)) (i : Nat) (e : Rat) :
    Except PyErr (Nat × Rat) :=
  match findEndObj ((inMeas.take nStart).drop i) 0 with
  | (_, none) => .error .humdrumInternal
  | (k, some o) => .ok (k, makeTstamp o (denomAt meters e))

/-- mei/m21objectconvert.py:930-931: `f'{measureStepCount}m+{beatStr}'`. -/
def tstamp2Text (k : Nat) (beat : Str) : Str := natStr k ++ "m+".toList ++ beat

/-- mei/meireader.py:7163: the groups 3 and 4 of the pattern, `([0-9]+(\.?[0-9]*)?)`. -/
def beatGroups (t : Str) : Option (Str × Str) :=
  match t.takeWhile isDig with
  | [] => none
  | d :: ds =>
    match t.dropWhile isDig with
    | '.' :: rest => some ((d :: ds) ++ '.' :: rest.takeWhile isDig, '.' :: rest.takeWhile isDig)
    | _ => some (d :: ds, [])

/-- mei/meireader.py:7163: group 1, `(([0-9]+)m\s*\+\s*)?`: the digits and what follows the group. -/
def skipGroup (t : Str) : Option (Str × Str) :=
  match t.takeWhile isDig with
  | [] => none
  | d :: ds =>
    match t.dropWhile isDig with
    | 'm' :: r =>
      match r.dropWhile isPySpace with
      | '+' :: r' => some (d :: ds, r'.dropWhile isPySpace)
      | _ => none
    | _ => none

/-- mei/meireader.py:7163-7164: `re.match`: the measures to skip, group 3 and group 4. When no beat follows group 1, the group is
left out and the digits are the beat. -/
def matchTstamp2 (t : Str) : Option (Nat × Str × Str) :=
  match skipGroup t with
  | some (n, rest) =>
    match beatGroups rest with
    | some (g3, g4) => some (parseNat n, g3, g4)
    | none => (beatGroups t).map (fun g => (0, g.1, g.2))
  | none => (beatGroups t).map (fun g => (0, g.1, g.2))

/-- mei/meireader.py:7169-7185: the offset; `fl` is Python's `float()`, `denom` is of the meter of the measure in which the
element is (`self.activeMeter`). -/
def beatOffset (fl : Str → Rat) (denom : Option Nat) (skip : Nat) (g3 g4 : Str) : Nat × Rat :=
  if g4.isEmpty then (skip, beatToOffset (parseNat g3) denom)
  else match tstampToBeat (fl g3) with
    | .error _ => (0, 0)
    | .ok b => (skip, beatToOffset b denom)

/-- mei/meireader.py:7155-7185 `_tstamp2ToMeasSkipAndOffset`. -/
def readTstamp2 (fl : Str → Rat) (denom : Option Nat) (t : Str) : Nat × Rat :=
  match matchTstamp2 t with
  | none => (0, 0)
  | some (skip, g3, g4) => beatOffset fl denom skip g3 g4

/-- An end that waits for its measure (mei/meireader.py:8495): the spanner, the measures to skip, the offset. -/
structure SpanEnd where
  spanner : Nat
  skip : Nat
  off : Rat
deriving DecidableEq

/-- mei/meireader.py:8519-8522: one measure on; never below 0. -/
def waitLess (p : SpanEnd) : SpanEnd := { p with skip := p.skip - 1 }

/-- What is inserted in the measure: the spanner and the offset. -/
def endHere (p : SpanEnd) : Nat × Rat := (p.spanner, p.off)

/-- mei/meireader.py:8510-8538, 8674-8690: one measure: the ends inserted in it, and those that still wait. -/
def measureEnds (pending new : List SpanEnd) : List (Nat × Rat) × List SpanEnd :=
  let p := pending.map waitLess
  ((p.filter (fun x => x.skip == 0)).map endHere ++ (new.filter (fun x => x.skip == 0)).map endHere,
   p.filter (fun x => x.skip != 0) ++ new.filter (fun x => x.skip != 0))

/-- The measures of the score one after another; `new` are the spanners that begin in each. -/
def allEnds : List SpanEnd → List (List SpanEnd) → List (List (Nat × Rat))
  | _, [] => []
  | pending, new :: rest =>
    let r := measureEnds pending new
    r.1 :: allEnds r.2 rest

end C21
