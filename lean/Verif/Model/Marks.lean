import Verif.Model.PyStr
/-
The interpretations for the display of tuplets and for pedal marks: what the exporter writes and what the importer makes of
them (humdrum/humdrumwriter.py, humdrum/m21convert.py, humdrum/humdrumfile.py).
-/
namespace C21

/-! ### Display of tuplets -/

/-- The start of a tuplet in a staff: the voice, and whether number and bracket are hidden (eventdata.py:188-204). Tuplets
without start have no effect on the display. -/
structure TupletStart where
  voice : Nat
  hideNum : Bool
  hideBracket : Bool
  deriving DecidableEq, Repr

/-- What the exporter believes to be in force in a staff (humdrumwriter.py:177-243), and what the importer keeps per staff
(humdrumfile.py:454-457). Both start with `False`. -/
structure TupletState where
  hideNum : Bool
  hideBracket : Bool
  deriving DecidableEq, Repr

/-- The token for the brackets (humdrumwriter.py:2314-2330 and 2348-2364). -/
def bracketTokens (s : TupletState) (e : TupletStart) : List Str :=
  if s.hideBracket ≠ e.hideBracket then
    [if e.hideBracket then "*Xbrackettup".toList else "*brackettup".toList]
  else []

/-- The tokens written before the first note of a tuplet (humdrumwriter.py:2300-2364), in the order of the lines:
`addTupletDisplayTokenBefore` puts a token in the line before the note, or below the lines there already (see
`Model/Measure.lean`). -/
def displayTokens (s : TupletState) (e : TupletStart) : List Str :=
  if s.hideNum then
    if e.hideNum then [] else "*tuplet".toList :: bracketTokens s e
  else
    if e.hideNum then ["*Xtuplet".toList] else bracketTokens s e

/-- The state after that (same lines). -/
def displayState (s : TupletState) (e : TupletStart) : TupletState :=
  if s.hideNum then
    if e.hideNum then s else ⟨false, e.hideBracket⟩
  else
    if e.hideNum then ⟨true, s.hideBracket⟩ else ⟨false, e.hideBracket⟩

/-- What stands in a voice: a token or the first note of a tuplet. Other notes and tokens are left out. -/
inductive VoiceItem where
  | token (t : Str)
  | start
  deriving DecidableEq, Repr

/-- A measure of a staff as written, for the events in the order in which they are handled (by time): each item with its
voice. -/
def writeTuplets : TupletState → List TupletStart → List (Nat × VoiceItem)
  | _, [] => []
  | s, e :: es =>
    (displayTokens s e).map (fun t => (e.voice, VoiceItem.token t)) ++
      (e.voice, VoiceItem.start) :: writeTuplets (displayState s e) es

/-- The state after a measure. -/
def writeTupletsState (s : TupletState) (es : List TupletStart) : TupletState := es.foldl displayState s

/-- All measures of a staff; the state goes on from measure to measure. -/
def writeStaffTuplets : TupletState → List (List TupletStart) → List (List (Nat × VoiceItem))
  | _, [] => []
  | s, m :: ms => writeTuplets s m :: writeStaffTuplets (writeTupletsState s m) ms

/-- `_handleStaffStateVariables`, the tests for tuplets (humdrumfile.py:2957-2969). -/
def readDisplay (s : TupletState) (t : Str) : TupletState :=
  if t = "*Xbeamtup".toList ∨ t = "*Xtuplet".toList then ⟨true, s.hideBracket⟩
  else if t = "*beamtup".toList ∨ startsWith t "*tuplet".toList then ⟨false, s.hideBracket⟩
  else if t = "*Xbrackettup".toList then ⟨s.hideNum, true⟩
  else if t = "*brackettup".toList then ⟨s.hideNum, false⟩
  else s

/-- What the start of a tuplet is given (humdrumfile.py:3852-3873): first whether the number, then whether the bracket is
hidden. Layout parameters of the note (`xbr`, `br`), which the exporter never writes, are left out. -/
def readTupletStart (s : TupletState) : Bool × Bool := (s.hideNum, s.hideBracket || s.hideNum)

/-- The tokens of one layer in one measure (humdrumfile.py:1981-2116). -/
def readLayer : TupletState → List VoiceItem → List (Bool × Bool) × TupletState
  | s, [] => ([], s)
  | s, .token t :: rest => readLayer (readDisplay s t) rest
  | s, .start :: rest => (readTupletStart s :: (readLayer s rest).1, (readLayer s rest).2)

/-- The items of a layer, in order of lines (humdrumfile.py:1454-1580). -/
def layerItems (v : Nat) (m : List (Nat × VoiceItem)) : List VoiceItem :=
  (m.filter (fun x => x.1 = v)).map Prod.snd

/-- `_convertMeasureStaff` (humdrumfile.py:1797-1811): one layer after the other, with one state for the staff. -/
def readLayers (m : List (Nat × VoiceItem)) : TupletState → List Nat → List (List (Bool × Bool)) × TupletState
  | s, [] => ([], s)
  | s, v :: vs =>
    ((readLayer s (layerItems v m)).1 :: (readLayers m (readLayer s (layerItems v m)).2 vs).1,
      (readLayers m (readLayer s (layerItems v m)).2 vs).2)

/-- All measures of a staff with `n` layers. -/
def readStaffTuplets (n : Nat) : TupletState → List (List (Nat × VoiceItem)) → List (List (List (Bool × Bool)))
  | _, [] => []
  | s, m :: ms =>
    (readLayers m s (List.range n)).1 :: readStaffTuplets n (readLayers m s (List.range n)).2 ms

/-- The state of a staff at the beginning. -/
def TupletState.init : TupletState := ⟨false, false⟩

/-! ### Pedal marks -/

/-- A pedal mark of music21: where it starts, its bounces (`true` if the pedal up is printed) and where it ends (`none` if it
has no end). Gaps, which the exporter does not write (m21convert.py:1296-1301), are left out. -/
structure PedalMark where
  start : Rat
  bounces : List (Rat × Bool)
  stop : Option Rat
  deriving DecidableEq, Repr

/-- `getKernTokenStringsFromM21PedalTransition` (m21convert.py:1277-1295) for a bounce. -/
def bounceTokens (up : Bool) : List Str :=
  if up then ["*ped".toList, "*Xped".toList] else ["*ped".toList]

/-- `getKernTokenStringFromM21OttavaOrPedal` for a pedal mark (m21convert.py:1249-1258). -/
def pedalToken (isStart : Bool) : Str := if isStart then "*ped".toList else "*Xped".toList

/-- Lines put before a line by `addOttavaOrPedalTokensBefore` (gridmeasure.py:575-594): each just above the line, at an index
that does not change, so above the one before. -/
def putBefore (time : Rat) (toks : List Str) : List (Rat × Str) :=
  toks.foldl (fun above t => (time, t) :: above) []

/-- The pedal tokens of a mark in the order of the lines, with the times of the lines. A mark without end gets no stop. -/
def writePedal (m : PedalMark) : List (Rat × Str) :=
  putBefore m.start [pedalToken true] ++ m.bounces.flatMap (fun b => putBefore b.1 (bounceTokens b.2)) ++
    (m.stop.map (fun t => putBefore t [pedalToken false])).getD []

/-- `_hasBounceAfter` (humdrumfile.py:2703-2714): tokens of the first layer that follow, as long as they have the time. -/
def bounceAfter (time : Rat) (after : List (Rat × Str)) : Bool :=
  (after.takeWhile (fun x => x.1 = time)).any (fun x => x.2 = "*ped".toList)

/-- `_hasBounceBefore` (humdrumfile.py:2722-2733), with the tokens before in reverse. -/
def bounceBefore (time : Rat) (before : List (Rat × Str)) : Bool :=
  (before.takeWhile (fun x => x.1 = time)).any (fun x => x.2 = "*Xped".toList)

/-- A bounce, added to the mark. -/
def PedalMark.bounce (m : PedalMark) (time : Rat) (up : Bool) : PedalMark := { m with bounces := m.bounces ++ [(time, up)] }

/-- The end of the mark. -/
def PedalMark.close (m : PedalMark) (time : Rat) : PedalMark := { m with stop := some time }

/-- `_handlePedalMark` at one token (humdrumfile.py:2642-2695): the mark that is open, and the marks that are done. -/
def pedalStep (before : List (Rat × Str)) (x : Rat × Str) (after : List (Rat × Str)) :
    Option PedalMark × List PedalMark → Option PedalMark × List PedalMark
  | (cur, done) =>
    if x.2 = "*ped".toList then
      match cur with
      | some m => (some (m.bounce x.1 (bounceBefore x.1 before)), done)
      | none => (some ⟨x.1, [], none⟩, done)
    else if x.2 = "*Xped".toList then
      if bounceAfter x.1 after then (cur, done)
      else match cur with
        | none => (none, done)
        | some m => (none, done ++ [m.close x.1])
    else (cur, done)

/-- The tokens of the first layer of a staff, one after the other. -/
def readPedalsFrom (before : List (Rat × Str)) :
    Option PedalMark × List PedalMark → List (Rat × Str) → Option PedalMark × List PedalMark
  | st, [] => st
  | st, x :: after => readPedalsFrom (x :: before) (pedalStep before x after st) after
termination_by _ l => l.length

/-- The pedal marks of a staff: a mark left open is in the score, too. -/
def readPedals (toks : List (Rat × Str)) : List PedalMark :=
  (readPedalsFrom [] (none, []) toks).2 ++ (readPedalsFrom [] (none, []) toks).1.toList

end C21
