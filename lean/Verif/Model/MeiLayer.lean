import Verif.Model.DurSplit
import Verif.Model.MeiAttrs
/-
The contents of the layers of an MEI staff: objects, spaces and changes of clef, key and meter (mei/meilayer.py:96-292,
mei/meistaff.py:129-142), and the numbers of the layers (mei/meilayer.py:118-148).

Simplifications: lengths are exact fractions; objects are given by offset and length in the measure and by whether they can be written
at all; beams, tuplets and tremolos are in Model/MeiNesting.
-/
namespace C21

/-- An object of a voice: offset in the measure, length and whether it is written (the result of `convertM21ObjectToMei`). -/
structure LayObj where
  off : Rat
  dur : Rat
  did : Bool
deriving DecidableEq, Repr

/-- A change of clef, key or meter in the measure: its offset and which it is. -/
structure StaffChange where
  off : Rat
  id : Nat
deriving DecidableEq, Repr

/-- What is written in a layer: a space, an object, a change in full or a stub with `sameas`. -/
inductive LayItem where
  | space (d : Rat)
  | obj (o : LayObj)
  | change (c : StaffChange)
  | sameAs (c : StaffChange)
deriving DecidableEq, Repr

/-- mei/meilayer.py:201-212: spaces up to an offset. -/
def fillGap (last off : Rat) : List LayItem :=
  if off > last then (splitQL (off - last)).map .space else []

/-- mei/meilayer.py:226-240 and 277-288: a change in full, or a stub if it was written in an earlier layer. -/
def writeChange (emitted : List Nat) (c : StaffChange) : LayItem × List Nat :=
  if c.id ∈ emitted then (.sameAs c, emitted) else (.change c, c.id :: emitted)

/-- mei/meilayer.py:216-246: the changes up to the offset of an object. -/
def changesBefore (off : Rat) : List StaffChange → List Nat → List LayItem × List StaffChange × List Nat
  | [], em => ([], [], em)
  | c :: cs, em =>
    if c.off > off then ([], c :: cs, em)
    else if c.off = off then
      let w := writeChange em c
      let r := changesBefore off cs w.2
      (w.1 :: r.1, r.2)
    else changesBefore off cs em

/-- mei/meilayer.py:272-292: the changes at the end of the layer. -/
def changesAtEnd (last : Rat) : List StaffChange → List Nat → List LayItem × List Nat
  | [], em => ([], em)
  | c :: cs, em =>
    if c.off = last then
      let w := writeChange em c
      let r := changesAtEnd last cs w.2
      (w.1 :: r.1, r.2)
    else changesAtEnd last cs em

/-- mei/meilayer.py:193-292: the loop over the objects, and the end of the layer. -/
def layerLoop : Rat → List LayObj → List StaffChange → List Nat → List LayItem × List Nat
  | last, [], cs, em => changesAtEnd last cs em
  | last, o :: os, cs, em =>
    let ch := changesBefore o.off cs em
    let last' := if o.off > last then o.off else last
    let last'' := if o.did then o.off + o.dur else last'
    let r := layerLoop last'' os ch.2.1 ch.2.2
    (fillGap last o.off ++ ch.1 ++ (if o.did then [.obj o] else []) ++ r.1, r.2)

/-- mei/meilayer.py:182-292: the layer of a voice that begins at `voiceOffset`. -/
def writeLayer (voiceOffset : Rat) (objs : List LayObj) (cs : List StaffChange) (em : List Nat) : List LayItem × List Nat :=
  let r := layerLoop voiceOffset objs cs em
  ((if voiceOffset ≠ 0 then (splitQL voiceOffset).map .space else []) ++ r.1, r.2)

/-- mei/meistaff.py:139-142: the layers of a staff, one after the other. -/
def writeLayers (cs : List StaffChange) : List (Rat × List LayObj) → List Nat → List (List LayItem)
  | [], _ => []
  | v :: vs, em => let r := writeLayer v.1 v.2 cs em; r.1 :: writeLayers cs vs r.2

/-- How long an item takes. -/
def LayItem.len : LayItem → Rat
  | .space d => d
  | .obj o => o.dur
  | .change _ => 0
  | .sameAs _ => 0

/-- mei/meireader.py:6420-6435: the reader appends one item after the other: each with its position. -/
def readPositions : Rat → List LayItem → List (LayItem × Rat)
  | _, [] => []
  | p, it :: r => (it, p) :: readPositions (p + it.len) r

/-- mei/m21objectconvert.py:197-216 `convertM21ObjectToMeiSameAs` read by mei/meireader.py:5687-5722: a clef with no attributes but
`sameas`: the shape is G by default. -/
def readSameAsClef : MClef := readClef ⟨"G", none, none, none⟩

/-! ## Numbers of layers -/

/-- The id of a voice: a small number, a memory address (the default), or a string. -/
inductive VoiceId where
  | low (n : Nat)
  | address
  | str (s : Str)
deriving DecidableEq, Repr

/-- mei/meilayer.py:118-148: the numbers (`layer@n`) of the voices of a staff, from `nextFreeVoiceNumber` on. -/
def layerNumbers : Nat → List VoiceId → List Nat
  | _, [] => []
  | _, .low n :: r => n :: layerNumbers (n + 1) r
  | next, .address :: r => next :: layerNumbers (next + 1) r
  | next, .str _ :: r => next :: layerNumbers (next + 1) r

end C21
