import Verif.Model.PyNum
/-
The repair of durations before every Humdrum export (humdrum/humdrumwriter.py:379-381; shared/m21utilities.py:4207-4460). Times are exact numbers.
-/
namespace C21

/-- A note, chord or rest of a voice, with its offset in the measure. -/
structure FixEvent where
  id : Nat
  off : Rat
  dur : Rat
  rest : Bool := false
  hidden : Bool := false
deriving DecidableEq

/-- The end of an event. -/
def FixEvent.fin (e : FixEvent) : Rat := e.off + e.dur

/-- A measure of a part: its offset in the part, the length its meter asks for, the notes directly in it, its voices, and `quarterLength`.
Chord symbols do not count and are left out. The meter that is looked up (m21utilities.py:4329, 4355-4363) is given. -/
structure FixMeasure where
  start : Rat
  bar : Rat
  top : List FixEvent
  voices : List (List FixEvent)
  len : Rat
deriving DecidableEq

/-- `highestTime` of a voice. -/
def highTime (v : List FixEvent) : Rat := (v.map FixEvent.fin).foldr max 0

/-- `highestTime` of a measure. -/
def FixMeasure.high (m : FixMeasure) : Rat := highTime (m.top ++ m.voices.flatten)

/-- m21utilities.py:4341-4371: a rest of four quarters alone in its voice and longer than the measure should be. -/
def shortenRest (bar : Rat) (v : List FixEvent) : List FixEvent :=
  match v with
  | [e] => if e.rest ∧ e.dur = 4 ∧ e.dur > bar then [{ e with dur := bar }] else v
  | _ => v

/-- A measure with other contents; when they change, its length is computed anew. -/
def FixMeasure.withContents (m : FixMeasure) (top : List FixEvent) (voices : List (List FixEvent)) : FixMeasure :=
  if top = m.top ∧ voices = m.voices then m
  else { m with top := top, voices := voices, len := { m with top := top, voices := voices }.high }

/-- Step 3 (m21utilities.py:4327-4375). -/
def shortenRests (m : FixMeasure) : FixMeasure := m.withContents (shortenRest m.bar m.top) (m.voices.map (shortenRest m.bar))

/-- m21utilities.py:4393-4407: the events after `p`. -/
def spreadFrom : FixEvent → List FixEvent → List FixEvent
  | _, [] => []
  | p, e :: es =>
    let e' := if e.off - p.off < p.dur then { e with off := p.off + p.dur } else e
    e' :: spreadFrom e' es

/-- Step 4 for a voice. -/
def spreadVoice : List FixEvent → List FixEvent
  | [] => []
  | e :: es => e :: spreadFrom e es

/-- Step 4 (m21utilities.py:4377-4407). Simplified: a measure with a moved note has its length computed anew. -/
def spreadMeasure (m : FixMeasure) : FixMeasure := m.withContents (spreadVoice m.top) (m.voices.map spreadVoice)

/-- The hidden rest of step 5, appended to a voice. -/
def appendSpace (ql : Rat) (v : List FixEvent) : List FixEvent := v ++ [{ id := 0, off := highTime v, dur := ql, rest := true, hidden := true }]

/-- Step 5 for one measure (m21utilities.py:4414-4431). -/
def padMeasure (mx : Rat) (m : FixMeasure) : FixMeasure :=
  if m.len < mx then
    { m with
      top := if m.voices = [] then appendSpace (mx - m.len) m.top else m.top
      voices := m.voices.map (appendSpace (mx - m.len))
      len := mx }
  else m

/-- m21utilities.py:4411-4413: the longest of the measures at the same place. -/
def stackMax (parts : List (List FixMeasure)) (i : Nat) : Rat := (parts.map (fun p => ((p[i]?).map (·.len)).getD 0)).foldr max 0

/-- Step 6 (m21utilities.py:4433-4453): the measures after `p`. -/
def layFrom : Bool → FixMeasure → List FixMeasure → List FixMeasure
  | _, _, [] => []
  | again, p, m :: ms =>
    let e := p.start + p.len
    let again := again || e ≠ m.start
    let m' := if again then { m with start := e } else m
    m' :: layFrom again m' ms

/-- Step 6 for a part. -/
def layMeasures : List FixMeasure → List FixMeasure
  | [] => []
  | m :: ms => m :: layFrom false m ms

/-- The rests a rest is split into (m21utilities.py:1448-1461), given their durations. -/
def splitEvent (e : FixEvent) : Rat → List Rat → List FixEvent
  | _, [] => []
  | o, d :: ds => { e with off := o, dur := d } :: splitEvent e (o + d) ds

/-- Step 7 for a voice (m21utilities.py:1432-1469, 4461-4481); `split` gives the simple durations that music21 finds for a rest. -/
def splitHidden (split : FixEvent → List Rat) (v : List FixEvent) : List FixEvent :=
  v.flatMap (fun e => if e.rest ∧ e.hidden then splitEvent e e.off (split e) else [e])

/-- Step 7 for a measure. -/
def splitMeasure (split : FixEvent → List Rat) (m : FixMeasure) : FixMeasure :=
  { m with top := splitHidden split m.top, voices := m.voices.map (splitHidden split) }

/-- m21utilities.py:4252-4257. -/
def maxMeasures (parts : List (List FixMeasure)) : Nat := (parts.map List.length).foldr max 0

/-- Step 1 (m21utilities.py:4259-4285): the measures at one place. For a part that is too short a new measure is stored at an index that its list does
not have, which raises. -/
def stackAt (i : Nat) : List (List FixMeasure) → Except PyErr (List FixMeasure)
  | [] => .ok []
  | p :: ps =>
    match p[i]? with
    | none => .error .indexError
    | some m => (stackAt i ps).map (fun r => m :: r)

/-- Step 1 for the places from `i` on. -/
def stacksFrom (parts : List (List FixMeasure)) : Nat → Nat → Except PyErr (List (List FixMeasure))
  | _, 0 => .ok []
  | i, n + 1 =>
    match stackAt i parts with
    | .error e => .error e
    | .ok s => (stacksFrom parts (i + 1) n).map (fun r => s :: r)

/-- `fixupBadDurations` (m21utilities.py:4207-4458). The measures of the stacks are those of the parts. -/
def fixDurations (split : FixEvent → List Rat) (parts : List (List FixMeasure)) : Except PyErr (List (List FixMeasure)) :=
  match stacksFrom parts 0 (maxMeasures parts) with
  | .error e => .error e
  | .ok _ =>
    let parts := parts.map (fun p => p.map (fun m => spreadMeasure (shortenRests m)))
    let parts' := parts.map (fun p => p.mapIdx (fun i m => padMeasure (stackMax parts i) m))
    .ok (parts'.map (fun p => (layMeasures p).map (splitMeasure split)))

end C21
