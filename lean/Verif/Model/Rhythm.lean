import Verif.Model.Spine
import Verif.Model.Recip
/-
Rhythm analysis of a file: humdrumfilestructure.py analyzeRhythmStructure and the passes it calls, in strict
mode (acceptSyntaxErrors False). Times are exact rationals; -1 is the code's "not known" (humdrumline.py:114-138).
-/
namespace C21

/-! ### Durations of tokens -/

/-- humdrumtoken.py:990-998 `hasRhythm`, by data type. -/
def hasRhythm (type : Str) : Bool :=
  type == "**kern".toList || type == "**recip".toList || type == "**mens".toList

/-- humdrumtoken.py:727-763 `analyzeDuration`: the duration of a token of text `t` in a spine of the given
type (the visual duration of grace notes is not modelled). -/
def tokDuration (type t : Str) : Except PyErr Rat :=
  if t = ".".toList then .ok (-1)
  else if tokIsComment t then .ok (-1)
  else if tokIsInterpretation t then .ok (-1)
  else if tokIsBarline t then .ok (-1)
  else if hasRhythm type then
    if tokIsData t && !tokIsNull t then
      if type = "**kern".toList then recipToDuration t
      else if type = "**recip".toList then recipToDuration t
      else .ok (mensToDuration t)
    else .ok (-1)
  else .ok (-1)

/-! ### Start times from the links between tokens -/

/-- What the walk along the spines asks of a token: its duration, whether it is `*-`, its next tokens. -/
structure RFile where
  dur : TokId → Rat
  stop : TokId → Bool
  next : TokId → List TokId

/-- The state of the walk: the tokens visited (`rhythmAnalysisState`) and the start time of each line. -/
structure RState where
  visited : List TokId
  start : Nat → Rat

/-- humdrumfilestructure.py:505-533 `setLineDurationFromStart`. -/
def setLineStart (F : RFile) (t : TokId) (sum : Rat) (S : RState) : Except PyErr RState :=
  if F.stop t = false ∧ F.dur t < 0 then .ok S
  else if S.start t.1 = -1 then .ok { S with start := fun l => if l = t.1 then sum else S.start l }
  else if S.start t.1 ≠ sum then
    if F.stop t then .ok { S with start := fun l => if l = t.1 then max (S.start t.1) sum else S.start l }
    else .error .humdrumSyntax
  else .ok S

/-- The time after a token. -/
def endTime (F : RFile) (t : TokId) (sum : Rat) : Rat := if F.dur t > 0 then sum + F.dur t else sum

/-- The order in which the next tokens are followed: the first one at once, the others from the last to the
first (the `reservoir`). -/
def visitOrder : List TokId → List TokId
  | [] => []
  | b :: bs => b :: bs.reverse

/-- humdrumfilestructure.py:440-497 `prepareDurations`. The loop along the first next tokens and the
recursion on the reservoir are written as one recursion, which visits the tokens in the same order; the
repeated call for a final `*-` changes nothing and is left out. `fuel` bounds the length of a path; links
lead to later lines, so the number of lines is enough (`visit_fuel`). -/
def visit (F : RFile) : Nat → TokId → Rat → RState → Except PyErr RState
  | 0, _, _, _ => .error .humdrumInternal
  | fuel + 1, t, sum, S =>
    if t ∈ S.visited then .ok S
    else match setLineStart F t sum { S with visited := t :: S.visited } with
      | .error e => .error e
      | .ok S1 => (visitOrder (F.next t)).foldlM (fun S b => visit F fuel b (endTime F t sum) S) S1

/-- humdrumfilestructure.py:247-259: the tracks starting on the first line. -/
def visitTracks (F : RFile) (fuel : Nat) (starts : List TokId) (S : RState) : Except PyErr RState :=
  starts.foldlM (fun S t => visit F fuel t 0 S) S

/-- humdrumfilestructure.py:553-563: the search along a floating spine for a line with a known time:
(time found, durations passed); `none` when the spine ends first. -/
def findKnown (F : RFile) (start : Nat → Rat) : Nat → TokId → Rat → Option (Rat × Rat)
  | 0, _, _ => none
  | fuel + 1, t, sum =>
    if start t.1 ≥ 0 then some (start t.1, sum)
    else
      match F.next t with
      | [] => none
      | b :: _ => findKnown F start fuel b (endTime F t sum)

/-- humdrumfilestructure.py:545-570 `analyzeRhythmOfFloatingSpine`. -/
def visitFloating (F : RFile) (fuel : Nat) (t : TokId) (S : RState) : Except PyErr RState :=
  match findKnown F S.start fuel t 0 with
  | none => .error .humdrumSyntax
  | some (found, sum) =>
    if found = 0 then .error .humdrumSyntax else visit F fuel t (found - sum) S

/-! ### Passes over the lines -/

/-- What the passes over the lines ask of a line. -/
structure LineFacts where
  hasSpines : Bool
  isBarline : Bool
  isData : Bool
  allNull : Bool
deriving DecidableEq, Repr

/-- humdrumfilestructure.py:627-632: the times of the null lines of a gap; `j` counts from 1. -/
def spread (startDur nullDur : Rat) : Nat → List Nat → (Nat → Rat) → (Nat → Rat)
  | _, [], st => st
  | j, n :: ns, st => spread startDur nullDur (j + 1) ns (fun l => if l = n then startDur + nullDur * (j : Rat) else st l)

/-- humdrumfilestructure.py:582-639 `analyzeNullLineRhythms`: `prev` is the number of the previous line with
a time (`previousLine`), `nulls` the null data lines since. -/
def nullLoop : Nat → List LineFacts → Option Nat → List Nat → (Nat → Rat) → Except PyErr (Nat → Rat)
  | _, [], _, _, st => .ok st
  | i, l :: ls, prev, nulls, st =>
    if l.hasSpines = false then nullLoop (i + 1) ls prev nulls st
    else
      let prev := if l.isBarline then none else prev
      let nulls := if l.isBarline then [] else nulls
      if l.allNull then
        nullLoop (i + 1) ls prev (if l.isData then nulls ++ [i] else nulls) st
      else if st i < 0 then
        if l.isData then .error .humdrumSyntax else nullLoop (i + 1) ls prev nulls st
      else match prev with
        | none => nullLoop (i + 1) ls (some i) [] st
        | some p =>
          let nullDur := (st i - st p) / ((nulls.length : Rat) + 1)
          nullLoop (i + 1) ls (some i) [] (spread (st p) nullDur 1 nulls st)

/-- humdrumfilestructure.py:653-657: backwards, an unknown time is copied from the next known one; the
first component is `lastDur`. -/
def fillBack : List Rat → Rat × List Rat
  | [] => (-1, [])
  | s :: ss =>
    let (last, ss') := fillBack ss
    let s' := if s < 0 ∧ last ≥ 0 then last else s
    (if s' ≥ 0 then s' else last, s' :: ss')

/-- humdrumfilestructure.py:660-664: forwards. -/
def fillForward : Rat → List Rat → List Rat
  | _, [] => []
  | last, s :: ss => if s ≥ 0 then s :: fillForward s ss else last :: fillForward last ss

/-- humdrumfilestructure.py:650-664 `fillInMissingStartTimes`. -/
def fillInMissingStartTimes (starts : List Rat) : List Rat :=
  fillForward (fillBack starts).1 (fillBack starts).2

/-- The `duration` setter, humdrumline.py:632-637. -/
def clampDuration (d : Rat) : Rat := if d ≥ 0 then d else 0

/-- humdrumfilestructure.py:672-679 `assignLineDurations`. -/
def assignLineDurations : List Rat → List Rat
  | [] => []
  | [_] => [clampDuration 0]
  | s :: s' :: ss => clampDuration (s' - s) :: assignLineDurations (s' :: ss)

/-- humdrumfilestructure.py:300-318: `durationFromBarline` of each line; lines are (duration, is it a
barline). -/
def fromBarline : Rat → List (Rat × Bool) → List Rat
  | _, [] => []
  | sum, (d, bar) :: ls => sum :: fromBarline (if bar then 0 else sum + d) ls

/-- humdrumfilestructure.py:320-325: `durationToBarline` of each line, and the running sum. -/
def toBarlineLoop : List (Rat × Bool) → Rat × List Rat
  | [] => (0, [])
  | (d, bar) :: ls =>
    let (sum, out) := toBarlineLoop ls
    (if bar then 0 else sum + d, (sum + d) :: out)

def toBarline (ls : List (Rat × Bool)) : List Rat := (toBarlineLoop ls).2

/-- humdrumfilestructure.py:301, 309-317: the `_barlines` table, as line numbers. -/
def barlineTable : Nat → Bool → List LineFacts → List Nat
  | _, _, [] => []
  | i, found, l :: ls =>
    if l.isBarline then i :: barlineTable (i + 1) true ls
    else if l.isData && !found then 0 :: barlineTable (i + 1) true ls
    else barlineTable (i + 1) found ls

/-- humdrumfilestructure.py:136-143 `scoreDuration`. -/
def scoreDuration (starts durs : List Rat) : Rat :=
  match starts.getLast?, durs.getLast? with
  | some s, some d => s + d
  | _, _ => 0

/-- humdrumline.py:649-660 `barlineDuration`. -/
def barlineDuration (bar : Bool) (fromBar toBar : Rat) : Rat := if bar then toBar else fromBar + toBar

/-- humdrumfilestructure.py:198-204: the second part of `assignRhythmFromRecip`: start times as running
sums of the line durations. -/
def runningStarts : Rat → List Rat → List Rat × List Rat
  | _, [] => ([], [])
  | total, d :: ds =>
    let d' := if d < 0 then clampDuration 0 else d
    let (s, e) := runningStarts (total + d') ds
    (total :: s, d' :: e)

/-! ### A whole file -/

def lineFacts (types : Nat → Nat → Str) (i : Nat) (l : Line) : LineFacts where
  hasSpines := l.hasSpines
  isBarline := l.isBarline.toOption.getD false
  isData := l.isData.toOption.getD false
  allNull := l.hasSpines && (l.tokens.zipIdx.all (fun p => !hasRhythm (types i p.2) || tokIsNull p.1))

/-- Result of the rhythm analysis, line by line. -/
structure Rhythm where
  start : List Rat
  dur : List Rat
  fromBar : List Rat
  toBar : List Rat
deriving DecidableEq, Repr

/-- humdrumaddress `dataType`: the exclusive interpretation of the track of each token. -/
def typeTable (lines : List Line) (ds : List (List Str)) (starts : List (Option TokId)) (i j : Nat) : Str :=
  match (ds[i]?).bind (·[j]?) with
  | none => []
  | some info =>
    match starts[trackOf info]? with
    | some (some (a, b)) => ((lines[a]?).bind (·.tokens[b]?)).getD []
    | _ => []

/-- The durations of all tokens, line by line; an exception anywhere fails. -/
def allDurations (lines : List Line) (types : Nat → Nat → Str) : Except PyErr (List (List Rat)) :=
  lines.zipIdx.mapM (fun p => p.1.tokens.zipIdx.mapM (fun q => tokDuration (types p.2 q.2) q.1))

/-- The tokens of a file, as the walk sees them. -/
def rfile (lines : List Line) (durs : List (List Rat)) (L : Links) : RFile where
  dur := fun t => ((durs[t.1]?).bind (·[t.2]?)).getD (-1)
  stop := fun t => ((lines[t.1]?).bind (·.tokens[t.2]?)) == some "*-".toList
  next := L.next

/-- humdrumfilestructure.py:245-259: the starts of the rhythmic tracks. -/
def rhythmicStarts (types : Nat → Nat → Str) (tracks : List (Option TokId)) : List TokId :=
  (tracks.filterMap id).filter (fun t => hasRhythm (types t.1 t.2))

/-- humdrumfilestructure.py:272-288: the passes over the lines, once the start times `st` of the lines with
notes are known. -/
def finishRhythm (facts : List LineFacts) (st : Nat → Rat) : Except PyErr Rhythm :=
  match nullLoop 0 facts none [] st with
  | .error e => .error e
  | .ok st' =>
    let starts := fillInMissingStartTimes ((List.range facts.length).map st')
    let ld := assignLineDurations starts
    let bars := List.zipWith (fun d f => (d, f.isBarline)) ld facts
    .ok ⟨starts, ld, fromBarline 0 bars, toBarline bars⟩

/-- humdrumfilestructure.py:234-288 `analyzeRhythm` (for a file whose first spine is not **recip), from the
text lines on. The analysis of null tokens (analyzeNonNullDataTokens) does not affect times. -/
def analyzeRhythm (lines : List Line) : Except PyErr Rhythm :=
  match analyzeSpines lines with
  | .error e => .error e
  | .ok (ds, sp) =>
  match analyzeLinks lines with
  | .error e => .error e
  | .ok L =>
  let types := typeTable lines ds sp.starts
  match allDurations lines types with
  | .error e => .error e
  | .ok durs =>
  let F := rfile lines durs L
  match sp.starts.drop 1 with
  | [] => .ok ⟨[], [], [], []⟩
  | none :: _ => .error .humdrumSyntax
  | some (startLine, j) :: tracks =>
    let rhythmic := rhythmicStarts types (some (startLine, j) :: tracks)
    match visitTracks F (lines.length + 1) (rhythmic.filter (fun t => t.1 = startLine)) ⟨[], fun _ => -1⟩ with
    | .error e => .error e
    | .ok S =>
    match (rhythmic.filter (fun t => t.1 > startLine)).foldlM
        (fun S t => visitFloating F (lines.length + 1) t S) S with
    | .error e => .error e
    | .ok S => finishRhythm (lines.zipIdx.map (fun p => lineFacts types p.2 p.1)) S.start

end C21
