import Verif.Model.DurSplit
import Mathlib.Data.Nat.Log
import Mathlib.Data.Rat.Floor
/-
How the Humdrum reader finds tuplets in a layer of a measure: humdrum/humdrumfile.py:4508-4887 (second half of
`_prepareBeamAndTupletGroups`), 4939-5163 (`_assignTupletScalings`, `_assignScalingToTupletGroup`, `_mergeTupletsCuttingBeam`),
5224-5262, 5493-5570, and how it gives them to the notes: 3407-3434 (`_handleGroupState`), 3471-3515 (`_makeTuplet`).

Simplifications: only the items with a duration (`durItems`) are here; all others have no part in tuplets. Beams are a list of pairs of
places (first and last item). Python's logarithms are exact here. `durationTupleNormal` is left out: `_handleGroupState` gives None
to `_makeTuplet`. Tremolos are left out.
-/
namespace C21

/-- An item with a duration: duration without and with dots, in quarter notes; the layout parameters r and num of TUP; is there a *tupbreak
between this item and the one before? -/
structure TupItem where
  noDots : Rat
  dur : Rat
  forced : Option Rat
  num : Option Int
  brk : Bool
deriving DecidableEq

/-- humdrum/humdrumfile.py:5524-5529 `_nextHigherPowerOfTwo`, for numbers between 0 and 1. -/
def nextHigherPow2 (q : Rat) : Rat := if q = 0 then 1 / 1024 else 1 / 2 ^ Nat.log 2 ⌊1 / q⌋.toNat

/-- humdrum/humdrumfile.py:5562-5592 `_getNumDotsForPowerOfTwo`, is the result not -1? -/
def dottedPow2 (q : Rat) : Bool :=
  isPow2 q || isPow2 (q / (3 / 2)) || isPow2 (q / (7 / 4)) || isPow2 (q / (15 / 8)) || isPow2 (q / (31 / 16))

/-- humdrum/humdrumfile.py:4657-4669: the power of two that the dotless duration (in whole notes) is compared with. From a whole note on, the
quotient of -1 and -1 is used, which is 1. -/
def tupPow2 (q : Rat) : Rat :=
  let p := if q < 1 then nextHigherPow2 q else 1
  if q.num = 3 ∧ isPow2 q.den = true then p / 2 else p

/-- humdrum/humdrumfile.py:4671-4681: notes in the tuplet, notes they stand for, and the quotient. -/
def tupRatio (x : TupItem) : Int × Int × Rat :=
  let q := x.noDots / 4
  let m := q / tupPow2 q
  if q.num = 4 ∧ q.den = 3 then (m.den, 2, 2 / (m.den : Rat)) else (m.den, m.num, m)

/-- humdrum/humdrumfile.py:4510-4514: the duration of a beam. -/
def beamDur (items : List TupItem) (b : Nat × Nat) : Rat := (((items.drop b.1).take (b.2 + 1 - b.1)).map TupItem.dur).sum

/-- humdrum/humdrumfile.py:5224-5262 `_findTupletEndByBeamWithDottedPow2Duration`. -/
def findTupEnd (items : List TupItem) (beams : List (Nat × Nat)) (s : Nat) : Option Nat :=
  match beams.find? (fun b => b.1 = s) with
  | none => none
  | some b =>
    if dottedPow2 (beamDur items b) = false then none
    else if ((items.drop b.1).take (b.2 + 1 - b.1)).any (fun x => isPow2 x.noDots) then none
    else some b.2

/-- humdrum/humdrumfile.py:4587-4613: how many more items belong to the tuplet, and is its end forced? -/
def scanTup (forced : Option Rat) (g : Rat) : List TupItem → Nat × Bool
  | [] => (0, false)
  | x :: xs =>
    if isPow2 x.noDots then (0, false)
    else if x.brk then (0, true)
    else
      match forced with
      | some f =>
        if g + x.dur ≥ f then (1, true) else ((scanTup forced (g + x.dur) xs).1 + 1, (scanTup forced (g + x.dur) xs).2)
      | none =>
        if isPow2 (g + x.dur) then (1, false) else ((scanTup forced (g + x.dur) xs).1 + 1, (scanTup forced (g + x.dur) xs).2)

/-- humdrum/humdrumfile.py:4556-4613: how many items after the first one (at place `s`) belong to the tuplet, and is its end forced? -/
def tupLen (items : List TupItem) (beams : List (Nat × Nat)) (s : Nat) (x : TupItem) (xs : List TupItem) : Nat × Bool :=
  match x.forced, findTupEnd items beams s with
  | none, some e => (e - s, false)
  | f, _ => scanTup f x.dur xs

/-- humdrum/humdrumfile.py:4577-4582, 4597-4598, 4606-4607, 4616-4617: numbers (and forced ends) of the items of a tuplet with `k` items
after the first one. -/
def tupLabels (num k : Nat) (force : Bool) : List (Nat × Bool) :=
  match k with
  | 0 => [(num, force)]
  | k + 1 => (num, force) :: (List.replicate k (num, false) ++ [(num, force)])

/-- humdrum/humdrumfile.py:4546-4620: numbers of the tuplets (0: none), forced ends. -/
def tupGroups (items : List TupItem) (beams : List (Nat × Nat)) (s num : Nat) : List TupItem → List (Nat × Bool)
  | [] => []
  | x :: xs =>
    if isPow2 x.noDots then (0, false) :: tupGroups items beams (s + 1) num xs
    else
      let k := min (tupLen items beams s x xs).1 xs.length
      tupLabels num k (tupLen items beams s x xs).2 ++ tupGroups items beams (s + 1 + k) (num + 1) (xs.drop k)
termination_by l => l.length
decreasing_by all_goals simp <;> omega

/-- An item with all that is found out about it: first or last note of a tuplet (its number, or 0), number of the tuplet, notes in it,
notes they stand for, quotient, forced end, first or last note of a beam, within a beam, scale. -/
structure HTupNote where
  item : TupItem
  start : Nat
  stop : Nat
  group : Nat
  actual : Int
  normal : Int
  mult : Rat
  force : Bool
  beamStart : Bool
  beamEnd : Bool
  inBeam : Bool
  scale : Int
deriving DecidableEq

/-- humdrum/humdrumfile.py:4629-4635: the first item of each tuplet. -/
def tupStarts : List Nat → List Nat → List Nat
  | _, [] => []
  | seen, g :: gs => (if g = 0 ∨ g ∈ seen then 0 else g) :: tupStarts (g :: seen) gs

/-- humdrum/humdrumfile.py:4637-4643: the last item of each tuplet. -/
def tupStops (gs : List Nat) : List Nat := (tupStarts [] gs.reverse).reverse

/-- humdrum/humdrumfile.py:4650-4681: all that is found out about an item before the adjustments. -/
def tupNote (beams : List (Nat × Nat)) (i : Nat) (x : TupItem) (g : Nat × Bool) (st en : Nat) : HTupNote :=
  { item := x, start := st, stop := en, group := g.1
    actual := if g.1 = 0 then -1 else (tupRatio x).1
    normal := if g.1 = 0 then -1 else (tupRatio x).2.1
    mult := if g.1 = 0 then 1 else (tupRatio x).2.2
    force := g.2, beamStart := beams.any (fun b => b.1 = i), beamEnd := beams.any (fun b => b.2 = i), inBeam := false, scale := 1 }

/-- All items, from place `i` on. -/
def tupNotes (beams : List (Nat × Nat)) : Nat → List TupItem → List (Nat × Bool) → List Nat → List Nat → List HTupNote
  | i, x :: xs, g :: gs, st :: sts, en :: ens => tupNote beams i x g st en :: tupNotes beams (i + 1) xs gs sts ens
  | _, _, _, _, _ => []

/-- humdrum/humdrumfile.py:4686-4693: is the ratio 1:1 or -1:-1? -/
def noRatio (t : HTupNote) : Bool := (decide (t.actual = 1) && decide (t.normal = 1)) || (decide (t.actual = -1) && decide (t.normal = -1))

/-- humdrum/humdrumfile.py:4683-4701: tuplets are split where the ratio changes; `c` is the correction, `p` the item before. -/
def splitTups (c : Nat) (p : HTupNote) : List HTupNote → List HTupNote
  | [] => [p]
  | x :: xs =>
    if noRatio x || noRatio p then p :: splitTups c x xs
    else if (x.actual ≠ p.actual ∨ x.normal ≠ p.normal) ∧ x.group = p.group then
      { p with stop := x.group } :: splitTups (c + 1) { x with start := x.group + (c + 1), group := x.group + (c + 1) } xs
    else p :: splitTups c { x with group := x.group + c } xs

/-- humdrum/humdrumfile.py:4861-4872: new numbers; `c` is `tcounter`. -/
def renumber (c : Nat) : List HTupNote → List HTupNote
  | [] => []
  | t :: ts =>
    if t.start ≠ 0 then { t with start := c + 1 } :: renumber (c + 1) ts
    else if t.stop ≠ 0 then { t with stop := c } :: renumber c ts
    else t :: renumber c ts

/-- humdrum/humdrumfile.py:5089-5109: is the item within a beam, that is, not its last one? -/
def markBeams (prev : Bool) : List HTupNote → List HTupNote
  | [] => []
  | t :: ts =>
    let b := if t.force then false else if t.beamStart then true else if t.beamEnd then false else prev
    { t with inBeam := b } :: markBeams b ts

/-- humdrum/humdrumfile.py:5128-5132: back to the first item of the tuplet. -/
def backSet (target : Nat) (a n : Int) : List HTupNote → List HTupNote
  | [] => []
  | t :: ts => { t with actual := a, normal := n } :: (if t.start = target then ts else backSet target a n ts)

/-- humdrum/humdrumfile.py:5135-5144: on to the last item of the tuplet. -/
def foreSet (target : Nat) (a n : Int) : List HTupNote → List HTupNote
  | [] => []
  | t :: ts => { t with actual := a, normal := n } :: (if t.stop ≠ 0 ∧ t.stop = target then ts else foreSet target a n ts)

/-- humdrum/humdrumfile.py:5149-5153: the numbers go down by one, where there are any. -/
def lessOne (t : HTupNote) : HTupNote := { t with start := t.start - 1, stop := t.stop - 1 }

/-- humdrum/humdrumfile.py:5146: no last item any more. -/
def clearStop : List HTupNote → List HTupNote
  | [] => []
  | t :: ts => { t with stop := 0 } :: ts

/-- humdrum/humdrumfile.py:5147-5153: no first item any more, and the items after it. -/
def clearStart : List HTupNote → List HTupNote
  | [] => []
  | t :: ts => { t with start := 0 } :: ts.map lessOne

theorem foreSet_length (target : Nat) (a n : Int) (ts : List HTupNote) : (foreSet target a n ts).length = ts.length := by
  induction ts with
  | nil => rfl
  | cons t ts ih => simp only [foreSet]; split <;> simp [ih]

theorem clearStart_length (ts : List HTupNote) : (clearStart ts).length = ts.length := by
  cases ts <;> simp [clearStart]

/-- humdrum/humdrumfile.py:5111-5153: tuplets that meet within a beam are joined; the items before the current one are in reverse order. -/
def mergeTups (pre : List HTupNote) : List HTupNote → List HTupNote
  | [] => pre.reverse
  | [x] => (x :: pre).reverse
  | x :: y :: post =>
    if x.inBeam = true ∧ x.stop ≠ 0 ∧ y.start ≠ 0 ∧ x.mult = y.mult then
      mergeTups (clearStop (backSet x.stop (x.actual + y.actual) (x.normal + y.normal) (x :: pre)))
        (clearStart (foreSet y.start (x.actual + y.actual) (x.normal + y.normal) (y :: post)))
    else mergeTups (x :: pre) (y :: post)
termination_by l => l.length
decreasing_by
  · rw [clearStart_length, foreSet_length]; simp
  · simp

/-- humdrum/humdrumfile.py:5155-5162: the number of the tuplet of each item. -/
def regroup (cur : Nat) : List HTupNote → List HTupNote
  | [] => []
  | t :: ts =>
    let g := if t.start ≠ 0 then t.start else cur
    { t with group := g } :: regroup (if t.stop ≠ 0 then 0 else g) ts

/-- An integer above the limit? (`scale.denominator == 1 and scale > limit`) -/
def wholeAbove (q : Rat) (limit : Rat) : Bool := decide (q.den = 1) && decide (limit < q)

/-- humdrum/humdrumfile.py:4971-5070 `_assignScalingToTupletGroup`: the new scale, or new numbers of notes, for the items of a tuplet. -/
def scaleTup (ts : List HTupNote) : Int × Option (Int × Int) :=
  match ts with
  | [] => (1, none)
  | f :: _ =>
    let byNum : Option Int := match f.item.num with
      | some v =>
        if 0 < v ∧ (((v : Rat) / (f.actual : Rat)).den = 1 ∧ 1 ≤ (v : Rat) / (f.actual : Rat)) then some ((v : Rat) / (f.actual : Rat)).num
        else none
      | none => none
    match byNum with
    | some s => (s, none)
    | none =>
      let ds := (ts.map (fun t => t.item.noDots)).dedup
      let counts := ds.map (fun d => (ts.map (fun t => t.item.noDots)).count d)
      match counts with
      | [c] => if wholeAbove ((c : Rat) / f.actual) 1 then (((c : Rat) / f.actual).num, none) else (1, none)
      | _ =>
        if counts.length = 2 ∧ counts[0]? = counts[1]? then
          if wholeAbove ((counts.headD 0 : Rat) / f.actual) 1 then (((counts.headD 0 : Rat) / f.actual).num, none) else (1, none)
        else
          let a := (ts.map (fun t => t.item.dur)).sum / ds.foldl max 0
          let n := a * f.mult
          if wholeAbove a 1 && wholeAbove n 1 then (1, some (a.num, n.num)) else (1, none)

/-- humdrum/humdrumfile.py:4939-4963 `_assignTupletScalings`. -/
def scaleTups (ts : List HTupNote) : List HTupNote :=
  ts.map fun t =>
    if t.group = 0 then t
    else
      let r := scaleTup (ts.filter (fun u => u.group = t.group))
      match r.2 with
      | some (a, n) => { t with scale := r.1, actual := a, normal := n }
      | none => { t with scale := r.1 }

/-- What a note gets: first, inner or last note of a tuplet. -/
inductive TupMark where
  | start | inner | stop
deriving DecidableEq

/-- humdrum/humdrumfile.py:3407-3434, 3471-3489: the tuplet of each item. A tuplet that starts and stops at one item goes on. -/
def tupWalk (cur : Option (Int × Int)) : List HTupNote → List (Option ((Int × Int) × TupMark))
  | [] => []
  | t :: ts =>
    if t.start ≠ 0 then
      some ((t.actual * t.scale, t.normal * t.scale), .start) :: tupWalk (some (t.actual * t.scale, t.normal * t.scale)) ts
    else
      match cur with
      | none => none :: tupWalk none ts
      | some r => if t.stop ≠ 0 then some (r, .stop) :: tupWalk none ts else some (r, .inner) :: tupWalk cur ts

/-- humdrum/humdrumfile.py:4683-4701, from the first item on. -/
def splitAll : List HTupNote → List HTupNote
  | [] => []
  | p :: xs => splitTups 0 p xs

/-- The tuplets of the items of a layer. -/
def layerTups (items : List TupItem) (beams : List (Nat × Nat)) : List (Option ((Int × Int) × TupMark)) :=
  let gs := tupGroups items beams 0 1 items
  let notes := tupNotes beams 0 items gs (tupStarts [] (gs.map Prod.fst)) (tupStops (gs.map Prod.fst))
  tupWalk none (scaleTups (regroup 0 (mergeTups [] (markBeams false (renumber 0 (splitAll notes))))))

end C21
