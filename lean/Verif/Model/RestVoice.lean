import Verif.Model.Measure
import Verif.Model.DurSplit
/-
Voices of invisible rests, which the exporter adds for objects that start where no note of their staff does
(humdrum/humdrumwriter.py:2396-2690).
-/
namespace C21

/-- Changing the voices of a staff that must exist. -/
def GSlice.withVoices (x : GSlice) (p s : Nat) (f : List GCell → List GCell) : Except PyErr GSlice :=
  match x.parts[p]? with
  | none => .error .indexError
  | some part =>
    match part.staves[s]? with
    | none => .error .indexError
    | some st => .ok { x with parts := x.parts.set p { part with staves := part.staves.set s { st with voices := f st.voices } } }

/-- The voices of a staff. -/
def GSlice.voicesAt (x : GSlice) (p s : Nat) : Option (List GCell) :=
  ((x.parts[p]?).bind (fun part => part.staves[s]?)).map GStaff.voices

/-- Empty voices up to a number (humdrumwriter.py:2518-2520, 2533-2535, 2572-2574). -/
def padTo (n : Nat) (vs : List GCell) : List GCell := vs ++ List.replicate (n - vs.length) .empty

/-- The rest in a new voice (humdrumwriter.py:2517-2525, 2532-2540). -/
def addRest (n : Nat) (rest : Str) (vs : List GCell) : List GCell := padTo n vs ++ [.tok rest]

/-- The line of notes at a time, if there is one (humdrumwriter.py:2504-2512). -/
def findNotes (t : Rat) : Nat → List GSlice → Option Nat
  | _, [] => none
  | i, x :: rest =>
    if x.kind ≠ .notes then findNotes t (i + 1) rest
    else if t < x.time then none
    else if x.time = t then some i
    else findNotes t (i + 1) rest

/-- `_appendInvisibleRestVoice` (humdrumwriter.py:2490-2545), given the text of the rest. -/
def appendRestVoice (slices : List GSlice) (t : Rat) (rest : Str) (pattern : GSlice) (p s n : Nat) : Except PyErr (List GSlice) :=
  match findNotes t 0 slices with
  | some i => changeAt slices i (fun x => x.withVoices p s (addRest n rest))
  | none =>
    match (sliceLike t .notes pattern).withVoices p s (addRest n rest) with
    | .error e => .error e
    | .ok y => insertByTime slices y

/-- The text of an invisible rest (humdrumwriter.py:2524, 2539); `recip` stands for `kernRecipFromM21Duration`. -/
def restText (recip : Rat → Str) (d : Rat) : Str := recip d ++ "ryy".toList

/-- The loops over the durations (humdrumwriter.py:2651-2684). -/
def appendRests (recip : Rat → Str) (pattern : GSlice) (p s n : Nat) :
    List GSlice → Rat → List Rat → Except PyErr (List GSlice)
  | slices, _, [] => .ok slices
  | slices, t, d :: ds =>
    match appendRestVoice slices t (restText recip d) pattern p s n with
    | .error e => .error e
    | .ok slices' => appendRests recip pattern p s n slices' (t + d) ds

/-- Does a cell hold an invisible rest? (humdrumwriter.py:2581-2585) -/
def endsInRest : Option GCell → Bool
  | some (.tok t) => "ryy".toList.isSuffixOf t
  | _ => false

/-- The voices of a line after `_finishAddingInvisibleRestVoice` (humdrumwriter.py:2571-2588). -/
def finishVoices (n : Nat) (vs : List GCell) : List GCell :=
  if (padTo n vs).length = n then padTo n vs ++ [.empty]
  else if endsInRest (padTo n vs).getLast? then padTo n vs
  else padTo n vs ++ [.empty]

/-- `_finishAddingInvisibleRestVoice` (humdrumwriter.py:2547-2590). -/
def finishRests (p s n : Nat) : Bool → List GSlice → Except PyErr (List GSlice)
  | _, [] => .ok []
  | found, x :: rest =>
    if found = false ∧ x.kind ≠ .notes then (finishRests p s n false rest).map (fun l => x :: l)
    else if x.kind.hasSpines = false then (finishRests p s n true rest).map (fun l => x :: l)
    else
      match x.withVoices p s (finishVoices n) with
      | .error e => .error e
      | .ok y => (finishRests p s n true rest).map (fun l => y :: l)

/-- Does a cell start a note? (humdrumwriter.py:2414-2421, 2427-2434; null tokens are not modelled: the voices of a line of notes
get them later) -/
def GCell.starts : GCell → Bool
  | .tok _ => true
  | _ => false

/-- The first voice of a staff with a note. -/
def startsIn (x : GSlice) (p s : Nat) : Option Nat :=
  (x.voicesAt p s).bind (fun vs => if vs.any GCell.starts then some (vs.findIdx GCell.starts) else none)

/-- `sliceStartsNote` (humdrumwriter.py:2396-2436). -/
def sliceStartsNote (x : GSlice) (p : Nat) : Option Nat → Option Int
  | some s => if x.kind = .notes then (startsIn x p s).map (fun v : Nat => (v : Int)) else none
  | none =>
    if x.kind = .notes then
      if ((x.parts[p]?).map (fun part => part.staves.any (fun st => st.voices.any GCell.starts))).getD false then some (-1) else none
    else none

/-- The search of `_produceOutputSliceForUnassociatedM21Object` (humdrumwriter.py:2614-2623): the first line that starts a note,
and the last one not after `offset` with its index and voice. -/
def searchNotes (p : Nat) (s : Option Nat) (offset : Rat) : Nat → Option GSlice → Option (Nat × GSlice × Int) → List GSlice →
    Option GSlice × Option (Nat × GSlice × Int)
  | _, first, last, [] => (first, last)
  | i, first, last, x :: rest =>
    match sliceStartsNote x p s with
    | none => searchNotes p s offset (i + 1) first last rest
    | some v =>
      if offset < x.time then (some (first.getD x), last)
      else searchNotes p s offset (i + 1) (some (first.getD x)) (some (i, x, v)) rest

/-- `_produceOutputSliceForUnassociatedM21Object` (humdrumwriter.py:2592-2690): the lines after it, and the index of the line to
use with its voice, or `none` for the end of the measure. The line is found by its time. -/
def produceLine (recip : Rat → Str) (tuplet : Rat → Rat → Except PyErr (List Rat × List Rat)) (slices : List GSlice)
    (start dur : Rat) (p : Nat) (s : Option Nat) (offset : Rat) : Except PyErr (List GSlice × Option (Nat × Int)) :=
  match searchNotes p s offset 0 none none slices with
  | (some first, some (i, x, v)) =>
    if x.time = offset then .ok (slices, some (i, v))
    else
      match splitCrossing tuplet dur (offset - start) with
      | .error e => .error e
      | .ok (_, []) => .ok (slices, none)
      | .ok (ds1, d :: ds2) =>
        match appendRests recip (sliceLike first.time first.kind first) p (s.getD 0)
            (((first.voicesAt p (s.getD 0)).getD []).length) slices start (ds1 ++ d :: ds2) with
        | .error e => .error e
        | .ok l =>
          match finishRests p (s.getD 0) (((first.voicesAt p (s.getD 0)).getD []).length) false l with
          | .error e => .error e
          | .ok l' =>
            .ok (l', (findNotes (start + ds1.sum) 0 l').map
              (fun i => (i, (((first.voicesAt p (s.getD 0)).getD []).length : Int))))
  | _ => .error .humdrumInternal

end C21
