import Verif.Model.PyNum
/-
Model of octave lines (ottavas) of one kind in one staff: the marks written by
/repo/converter21/humdrum/humdrumwriter.py and what /repo/converter21/humdrum/humdrumfile.py reads from them.
The four kinds (8va, 8ba, 15ma, 15ba) have separate state variables and identical code, so one kind is modelled.
-/
namespace C21

/-- A note, chord (`note`) or rest of a staff with its times. -/
structure OtElem where
  id : Nat
  note : Bool
  start : Rat
  stop : Rat
deriving DecidableEq, Repr

/-- A data line: its time and one cell for each voice; `none` is a null token. -/
abbrev OtData := Rat × List (Option OtElem)

/-- The lines of the staff: data, start mark (with the time of the line), stop mark. -/
inductive OtLine
  | data (d : OtData)
  | on (t : Rat)
  | off
deriving DecidableEq, Repr

/-! ### The texts of the marks -/

/-- The kinds of octave lines by music21's `Ottava.type`. -/
def ottavaName : Str → Str
  | ['8', 'v', 'a'] => ['8', 'v', 'a']
  | ['8', 'v', 'b'] => ['8', 'b', 'a']
  | ['1', '5', 'm', 'a'] => ['1', '5', 'm', 'a']
  | ['1', '5', 'm', 'b'] => ['1', '5', 'b', 'a']
  | _ => ['8', 'v', 'a']

/-- m21convert.py:1240-1274 `getKernTokenStringFromM21OttavaOrPedal`. -/
def ottavaMark (type : Str) (isStart : Bool) : Str :=
  '*' :: ((if isStart then [] else ['X']) ++ ottavaName type)

/-- humdrumfile.py:2296-2461 `_handleOttavaMark`: the ottava a mark starts or stops (the variable of the staff
state, by the type given to the ottava put there). -/
def readOttavaMark (text : Str) : Option (Str × Bool) :=
  if text = "*8va".toList then some ("8va".toList, true)
  else if text = "*8ba".toList then some ("8vb".toList, true)
  else if text = "*15ma".toList then some ("15ma".toList, true)
  else if text = "*15ba".toList then some ("15mb".toList, true)
  else if text = "*X8va".toList then some ("8va".toList, false)
  else if text = "*X8ba".toList then some ("8vb".toList, false)
  else if text = "*X15ma".toList then some ("15ma".toList, false)
  else if text = "*X15ba".toList then some ("15mb".toList, false)
  else none

/-! ### Export -/

/-- A line on which something of the staff starts. -/
def hasEvent (d : OtData) : Bool := d.2.any Option.isSome

/-- humdrumwriter.py:2253-2291 `_addEvent`, gridmeasure.py:544-597 `addOttavaOrPedalTokensBefore` and
humdrumwriter.py:2135-2179: the marks before a line.  Stops waiting for exactly this time come first, then the
starts; each mark is put directly before the line or before the marks just put there.  An ottava is given by the
start of its first and the end of its last element; its stop is put among the waiting ones here when it starts
(in the code when its last element starts, which makes no difference to the marks). -/
def exportAt (spans : List (Rat × Rat)) (pend : List Rat) (d : OtData) : List OtLine × List Rat :=
  if hasEvent d then
    ((pend.filter (· = d.1)).reverse.map (fun _ => OtLine.off) ++
        (spans.filter (·.1 = d.1)).reverse.map (fun _ => OtLine.on d.1) ++ [.data d],
      pend.filter (· ≠ d.1) ++ (spans.filter (·.1 = d.1)).map (·.2))
  else ([.data d], pend)

/-- The lines of a measure with their marks. -/
def exportLines (spans : List (Rat × Rat)) : List Rat → List OtData → List OtLine × List Rat
  | pend, [] => ([], pend)
  | pend, d :: ds =>
    ((exportAt spans pend d).1 ++ (exportLines spans (exportAt spans pend d).2 ds).1,
      (exportLines spans (exportAt spans pend d).2 ds).2)

/-- humdrumwriter.py:2181-2197 `_finishLastPendingOttavaOrPedalStops`: stops still waiting are put at the end of
the last measure. -/
def exportOttavas (spans : List (Rat × Rat)) : List Rat → List (List OtData) → List (List OtLine)
  | _, [] => []
  | pend, [M] => [(exportLines spans pend M).1 ++ (exportLines spans pend M).2.map fun _ => OtLine.off]
  | pend, M :: M' :: Ms =>
    (exportLines spans pend M).1 :: exportOttavas spans (exportLines spans pend M).2 (M' :: Ms)

/-! ### Import -/

/-- What the reader meets, in its order: marks with the note found for them, and elements with their measure. -/
inductive OtItem
  | on (m : Nat) (t : Rat) (first : Option OtElem)
  | off (last : Option OtElem)
  | elem (m : Nat) (x : OtElem)
deriving DecidableEq, Repr

/-- humdrumfile.py:2471-2515 `getStartNoteTokenForOttava`: the first element on the next data line (all on it have
the same time, so the first is the earliest). -/
def nextData : List OtLine → Option OtElem
  | [] => none
  | .data d :: _ => d.2.findSome? id
  | _ :: ls => nextData ls

/-- Null resolution: what sounds in each voice after a line. -/
def resolveCells (sound cells : List (Option OtElem)) : List (Option OtElem) :=
  List.zipWith (fun old new => new.or old) sound cells

/-- What sounds after some lines. -/
def soundAfter : List (Option OtElem) → List OtLine → List (Option OtElem)
  | s, [] => s
  | s, .data d :: ls => soundAfter (resolveCells s d.2) ls
  | s, .on _ :: ls => soundAfter s ls
  | s, .off :: ls => soundAfter s ls

/-- humdrumfile.py:2525-2568 `getEndNoteTokenForOttava`: of what sounds on the line before, the first of the
latest to start. -/
def latest : List (Option OtElem) → Option OtElem
  | [] => none
  | none :: l => latest l
  | some x :: l =>
    match latest l with
    | some y => if y.start > x.start then some y else some x
    | none => some x

/-- humdrumfile.py:2100-2115: the element of a cell, if there is one. -/
def cellItem (m : Nat) : Option OtElem → List OtItem
  | some x => [.elem m x]
  | none => []

/-- humdrumfile.py:1989-2115: the tokens of one voice of a measure; the marks stand in the first voice
(gridmeasure.py:594-597).  In other voices the mark is not found, since `getUnhandledOttavaMarkInStaff`
(humdrumfile.py:2570-2597) looks only to the right. -/
def voiceItems (m v : Nat) : List (Option OtElem) → List OtLine → List OtLine → List OtItem
  | _, [], _ => []
  | s, .data d :: ls, after =>
    cellItem m d.2[v]?.join ++ voiceItems m v (resolveCells s d.2) ls after
  | s, .on t :: ls, after =>
    (if v = 0 then [OtItem.on m t (nextData (ls ++ after))] else []) ++ voiceItems m v s ls after
  | s, .off :: ls, after => (if v = 0 then [OtItem.off (latest s)] else []) ++ voiceItems m v s ls after

/-- The measures, each voice by voice. -/
def readItems (n : Nat) : Nat → List (Option OtElem) → List (List OtLine) → List OtItem
  | _, _, [] => []
  | m, s, M :: Ms =>
    voiceItems m 0 s M Ms.flatten ++
    ((List.range (n - 1)).flatMap fun v => voiceItems m (v + 1) s M Ms.flatten) ++
    readItems n (m + 1) (soundAfter s M) Ms

/-- The ottavas finished, and the current one: measure and time of its start, and its elements. -/
structure OtState where
  done : List (List OtElem)
  cur : Option (Nat × Rat × List OtElem)
deriving DecidableEq, Repr

/-- music21's `addSpannedElements`: an element that is there already is not added. -/
def addElem (x : OtElem) (ms : List OtElem) : List OtElem := if x ∈ ms then ms else ms ++ [x]

/-- humdrumfile.py:2299-2317 and 2387-2404 (`_handleOttavaMark`), 7779-7822 (`_addToOttava`, `_processOttava`). -/
def stepItem (st : OtState) : OtItem → OtState
  | .on m t first =>
    match st.cur with
    | none => { st with cur := some (m, t, first.toList) }
    | some _ => st
  | .off last =>
    match st.cur with
    | none => st
    | some (_, _, ms) =>
      { done := st.done ++ [match last with | some x => addElem x ms | none => ms], cur := none }
  | .elem m x =>
    if x.note then
      match st.cur with
      | none => st
      | some (m0, t, ms) =>
        if m = m0 ∧ x.start < t then st else { st with cur := some (m0, t, addElem x ms) }
    else st

/-- shared/m21utilities.py:1117-1124: the first element with the lowest start. -/
def lowestElem : List OtElem → Option OtElem
  | [] => none
  | x :: l =>
    match lowestElem l with
    | some y => if y.start < x.start then some y else some x
    | none => some x

/-- shared/m21utilities.py:1117-1120: the last element with the highest end. -/
def highestElem : List OtElem → Option OtElem
  | [] => none
  | x :: l =>
    match highestElem l with
    | some y => if y.stop ≥ x.stop then some y else some x
    | none => some x

/-- shared/m21utilities.py:1090-1153 `adjustSpannerOrder`. -/
def adjustOrder (ms : List OtElem) : List OtElem :=
  if ms.head? = ms.getLast? then ms
  else
    match lowestElem ms, highestElem ms with
    | some lo, some hi =>
      let a := if ms.head? = some lo then ms else lo :: ms.filter (· ≠ lo)
      a.filter (· ≠ hi) ++ [hi]
    | _, _ => ms

/-- humdrumfile.py:710-727: the time an ottava covers: music21's `fill` takes it from the start of the first to the
end of the last element. -/
def otExtent (ms : List OtElem) : Option (Rat × Rat) :=
  match (adjustOrder ms).head?, (adjustOrder ms).getLast? with
  | some a, some z => some (a.start, z.stop)
  | _, _ => none

/-- All ottavas read, in order; the last may have no stop. -/
def readOttavas (n : Nat) (measures : List (List OtLine)) : List (Option (Rat × Rat)) :=
  let st := (readItems n 0 (List.replicate n none) measures).foldl stepItem ⟨[], none⟩
  (st.done ++ (match st.cur with | some (_, _, ms) => [ms] | none => [])).map otExtent

end C21
