import Verif.Model.Text
import Verif.Model.HumTempo
import Verif.Model.ParamSet
/-
Text directions as they are read: humdrum/humdrumfile.py:9481-9506 and 9585-9873. They are written by `textLayoutParameter` (Model/Text;
humdrum/m21convert.py:1724-1808, humdrum/humdrumwriter.py:3032-3069). The second half of `_processDirections` (9499-9577) reads parameters of the
token itself, which nothing sets, and is left out.
-/
namespace C21

/-- The variables of `_processLinkedDirection` (humdrumfile.py:9627-9675). -/
structure TxVars where
  a : Bool := false
  b : Bool := false
  c : Bool := false
  y : Bool := false
  z : Bool := false
  italic : Bool := false
  bold : Bool := false
  just : Nat := 0
  color : Str := []
  problem : Bool := false
  verbose : Bool := false
  verboseType : Str := []
  tempo : Bool := false
  text : Str := []
  ovalue : Str := []
  svalue : Str := []
deriving DecidableEq

/-- humdrumfile.py:9677-9723: one parameter; `none` when the text is empty and the method returns. `type` and `vgrp` have no effect. -/
def txParam (v : TxVars) (p : Str × Str) : Option TxVars :=
  if p.1 = "a".toList then some { v with a := true }
  else if p.1 = "b".toList then some { v with b := true }
  else if p.1 = "c".toList then some { v with c := true }
  else if p.1 = "t".toList then (if p.2 = [] then none else some { v with text := p.2 })
  else if p.1 = "Y".toList then some { v with y := true }
  else if p.1 = "Z".toList then some { v with z := true }
  else if p.1 = "i".toList then some { v with italic := true }
  else if p.1 = "B".toList then some { v with bold := true }
  else if p.1 ∈ ["Bi".toList, "bi".toList, "iB".toList, "ib".toList] then some { v with italic := true, bold := true }
  else if p.1 = "rj".toList then some { v with just := 1 }
  else if p.1 = "cj".toList then some { v with just := 2 }
  else if p.1 = "color".toList then some { v with color := p.2 }
  else if p.1 = "v".toList then some { v with verbose := true, verboseType := p.2 }
  else if p.1 = "o".toList then some { v with ovalue := p.2 }
  else if p.1 = "s".toList then some { v with svalue := p.2 }
  else if p.1 = "problem".toList then some { v with problem := true }
  else if p.1 = "tempo".toList then some { v with tempo := true }
  else some v

/-- The loop. -/
def txLoop : TxVars → List (Str × Str) → Option TxVars
  | v, [] => some v
  | v, p :: ps =>
    match txParam v p with
    | none => none
    | some v' => txLoop v' ps

/-- The places of the code. -/
inductive TxPlace
  | above | below | between
deriving DecidableEq

/-- humdrumfile.py:9728-9749; `Z` and `Y` are the numbers `token.getValueInt` finds. -/
def txPlace (v : TxVars) (Z Y : Int) : TxPlace :=
  if v.a then .above
  else if v.b then .below
  else if v.c then .between
  else if v.z then (if Z ≥ 0 then .above else .below)
  else if v.y then (if Y ≥ 0 then .below else .above)
  else .above

/-- humdrumfile.py:9751-9760: the text of an editorial sign. -/
def sicText (v : TxVars) : Str :=
  if v.verboseType = "text".toList then
    (if v.ovalue ≠ [] then v.ovalue else if v.svalue ≠ [] then v.svalue else "S".toList)
  else "S".toList

/-- What is read: text, placement, `alignVertical` set to middle, color, font style, justification. -/
structure TxOut where
  text : Str
  placement : Str
  middle : Bool := false
  color : Option Str := none
  fontStyle : Option Str := none
  justify : Option Str := none
deriving DecidableEq

/-- A text direction, or a metronome mark made of the text (C104). -/
inductive TxObj
  | direction (d : TxOut)
  | tempo (d : TxOut)
deriving DecidableEq

/-- humdrumfile.py:9810-9838: the look. -/
def txLook (v : TxVars) (sic isTempo : Bool) (pl : TxPlace) (text : Str) : TxOut :=
  { text := text,
    placement := if pl = .above then "above".toList else "below".toList,
    middle := pl = .between,
    color := if v.color ≠ [] then some v.color else if v.problem then some "red".toList else if sic then some "limegreen".toList else none,
    fontStyle := if v.bold && v.italic then some "bolditalic".toList else if v.italic then some "italic".toList
      else if v.bold then some "bold".toList else if isTempo then some "bold".toList else none,
    justify := if v.just = 1 then some "right".toList else if v.just = 2 then some "center".toList else none }

/-- What the method looks at besides the parameters: whether the comment is global, `_isFirstTokenOnStaff`, the index of the staff and of the last
staff, the numbers `Z` and `Y` of the token, whether the token is a time signature, and the tempo of a `*MM` nearby (0 if there is none). -/
structure TxAt where
  isGlobal : Bool := false
  first : Bool := true
  staff : Nat := 0
  last : Nat := 0
  Z : Int := 0
  Y : Int := 0
  timeSig : Bool := false
  mm : Nat := 0

/-- humdrumfile.py:9764-9775: is a global text for another staff? -/
def TxAt.elsewhere (w : TxAt) (pl : TxPlace) : Bool :=
  w.isGlobal && ((pl = .below && w.staff ≠ w.last) || (pl = .above && w.staff ≠ 0))

/-- `_isTempoish` (humdrumfile.py:3270-3277; convert.py:514-520). -/
def isTempoish (text : Str) : Bool := text ≠ [] && (markInfo text).isSome

/-- `_processLinkedDirection` (humdrumfile.py:9585-9845): what is put into the voice, if anything. Simplified: every tempo-like text makes a mark,
and a text at a time signature does if it is not empty or there is a tempo nearby. -/
def readDirection (w : TxAt) (h : HumParamSet) : Option TxObj :=
  if w.isGlobal && !w.first then none
  else if h.ns1 ≠ "LO".toList then none
  else if h.ns2 ≠ "TX".toList ∧ h.ns2 ≠ "SIC".toList then none
  else
    let sic : Bool := h.ns2 = "SIC".toList
    match txLoop { color := if sic then "limegreen".toList else [] } h.params with
    | none => none
    | some v =>
      if sic && !v.verbose then none
      else
        let pl := txPlace v w.Z w.Y
        let text := strip (importText (if sic then sicText v else v.text))
        if w.elsewhere pl then none
        else if isTempoish text || (w.timeSig && (text ≠ [] || w.mm ≠ 0)) then some (.tempo (txLook v sic true pl text))
        else if v.tempo then (if w.mm = 0 then none else some (.tempo (txLook v sic true pl [])))
        else some (.direction (txLook v sic false pl text))

/-- humdrumfile.py:9493-9497: the comments of a token, in order, each with whether it is global. -/
def tokenDirections (w : TxAt) (sets : List (Bool × HumParamSet)) : List TxObj :=
  sets.filterMap (fun x => readDirection { w with isGlobal := x.1 } x.2)

/-- `_isFirstTokenOnStaff` (humdrumfile.py:9850-9862): the tokens left of the token, nearest first, each with its track and whether it is null. -/
def firstOnStaff (track : Nat) : List (Nat × Bool) → Bool
  | [] => true
  | t :: ts => if t.1 ≠ track then true else if !t.2 then false else firstOnStaff track ts

end C21
