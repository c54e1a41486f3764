import Verif.Model.PyNum
/-
Note values in shared/m21utilities.py. `opFrac` is modelled by exact rational arithmetic: music21's `opFrac` keeps fractions with
denominators up to 65535 exactly, and products by 2/3, 4/7 and 8/15 that pass through a float come out exact for dotted powers of two.
-/
namespace C21

/-- m21utilities.py:1191-1200 `isPowerOfTwo`. -/
def isPow2 (num : Rat) : Bool :=
  if num.num = 0 then false
  else if num.den = 1 then num.num.natAbs &&& (num.num.natAbs - 1) == 0
  else if num.num.natAbs = 1 then num.den &&& (num.den - 1) == 0
  else false

/-- m21utilities.py:1203-1217 `isPowerOfTwoWithDots`. -/
def isPow2Dots (ql : Rat) : Bool :=
  if isPow2 ql then true
  else if isPow2 (ql * (2 / 3)) then true
  else if isPow2 (ql * (4 / 7)) then true
  else if isPow2 (ql * (8 / 15)) then true
  else false

/-- m21utilities.py:1220-1243 `computeDurationNoDotsAndNumDots`. -/
def computeDots (dd : Rat) : Rat × Option Nat :=
  if isPow2 dd then (dd, some 0)
  else if isPow2 (dd * (2 / 3)) then (dd * (2 / 3), some 1)
  else if isPow2 (dd * (4 / 7)) then (dd * (4 / 7), some 2)
  else if isPow2 (dd * (8 / 15)) then (dd * (8 / 15), some 3)
  else (dd, none)

/-- How the loop of `getPowerOfTwoQuarterLengthsWithDotsAddingTo` ends. -/
inductive SplitRes where
  | found (l : List Rat)
  | gaveUp
  | outOfFuel

/-- m21utilities.py:1259-1269: the loop. `fuel` bounds the number of rounds; `split_enough_fuel` shows it is never used up. -/
def splitLoop : Nat → Rat → Rat → List Rat → SplitRes
  | 0, _, _, _ => .outOfFuel
  | fuel + 1, attempt, ql, output =>
    if attempt ≥ 1 / 2048 then
      if ql ≥ attempt then
        if isPow2Dots (ql - attempt) then .found (output ++ [attempt, ql - attempt])
        else splitLoop fuel attempt (ql - attempt) (output ++ [attempt])
      else
        if isPow2Dots ql then .found (output ++ [ql])
        else splitLoop fuel (attempt / 2) ql output
    else .gaveUp

/-- Rounds enough for `ql`: each round takes at least 1/2048 away or is one of the 14 halvings. -/
def splitFuel (ql : Rat) : Nat := (ql * 2048).floor.toNat + 16

/-- m21utilities.py:1246-1272 `getPowerOfTwoQuarterLengthsWithDotsAddingTo`. -/
def splitQL (quarterLength : Rat) : List Rat :=
  if isPow2Dots quarterLength then [quarterLength]
  else
    match splitLoop (splitFuel quarterLength) 4 quarterLength [] with
    | .found l => l
    | _ => [quarterLength]

/-- m21utilities.py:1275-1285 `getPowerOfTwoDurationsWithDotsAddingTo`. Durations are modelled by their quarter length. -/
def splitDurations (quarterLength : Rat) : List Rat :=
  match splitQL quarterLength with
  | [q] => if isPow2Dots q then [q] else []
  | l => l

/-- m21utilities.py:1298-1305 and 1309-1313: one side of the crossing, `none` if a tuplet is needed. -/
def splitSide (d : Rat) : Option (List Rat) :=
  if d = 0 then some []
  else if isPow2Dots d then some [d]
  else
    match splitDurations d with
    | [] => none
    | l => some l

/-- m21utilities.py:1384-1395: the part that contains the crossing: its place, its offset. -/
def findPart (crossing : Rat) : Nat → Rat → List Rat → Option (Nat × Rat × Rat)
  | _, _, [] => none
  | i, cur, p :: ps =>
    if cur ≤ crossing ∧ crossing < cur + p then some (i, p, crossing - cur) else findPart crossing (i + 1) (cur + p) ps

/-- The recursive call of 1400-1405, for a total that is a dotted power of two. -/
def splitInner (tuplet : Rat → Rat → Except PyErr (List Rat × List Rat)) (total crossing : Rat) : Except PyErr (List Rat × List Rat) :=
  match splitSide crossing, splitSide (total - crossing) with
  | some l1, some l2 => .ok (l1, l2)
  | _, _ => tuplet total crossing

/-- m21utilities.py:1288-1429 `getPowerOfTwoDurationsWithDotsAddingToAndCrossing`. The case of a total that is a dotted power of two
(1325-1370) computes a tuplet with music21 and is given by the function `tuplet`. `Converter21InternalError` is `humdrumInternal`. -/
def splitCrossing (tuplet : Rat → Rat → Except PyErr (List Rat × List Rat)) (total crossing : Rat) :
    Except PyErr (List Rat × List Rat) :=
  match splitSide crossing, splitSide (total - crossing) with
  | some l1, some l2 => .ok (l1, l2)
  | _, _ =>
    if isPow2Dots total then tuplet total crossing
    else
      match splitDurations total with
      | [] => .error .humdrumInternal
      | totalDurs =>
        match findPart crossing 0 0 totalDurs with
        | none => .error .humdrumInternal
        | some (i, newTotal, newCrossing) =>
          match splitInner tuplet newTotal newCrossing with
          | .error e => .error e
          | .ok (before, after) =>
            .ok ((if i = 0 then before else totalDurs.take (i - 1) ++ before),
              (if i = totalDurs.length - 1 then after else after ++ totalDurs.drop (i + 1)))

end C21
