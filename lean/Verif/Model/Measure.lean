import Verif.Model.Grid
/-
Adding to a measure of the export grid (humdrum/gridmeasure.py; humdrum/humdrumwriter.py:2090-2133).
A slice object that a method is given is modelled by its index in the measure. Voice durations are not modelled.
-/
namespace C21

/-- `list.insert(i, x)` for an index in the list or at its end. -/
def insertAt {α : Type} (l : List α) (i : Nat) (x : α) : List α := l.take i ++ x :: l.drop i

/-- A new slice with one token, as most methods make it (gridmeasure.py:242-245, 294-297, 693-696). -/
def tokenSlice (t : Rat) (k : SliceKind) (counts : List Nat) (tok : Str) (p s v : Int) : Except PyErr GSlice :=
  (newSlice t k counts).addToken tok p s v

/-! ### insertSliceByTimestamp (humdrumwriter.py:2090-2110) -/

/-- The backward walk (humdrumwriter.py:2102-2107); the list is reversed already. -/
def walkBack : List GSlice → Nat → Rat → Option Nat
  | [], _, _ => none
  | x :: rest, i, t => if x.time ≤ t then some i else walkBack rest (i - 1) t

/-- `insertSliceByTimestamp` (humdrumwriter.py:2090-2110). -/
def insertByTime (slices : List GSlice) (x : GSlice) : Except PyErr (List GSlice) :=
  match slices with
  | [] => .ok [x]
  | first :: _ =>
    if x.time < first.time then .ok (insertAt slices 0 x)
    else
      match walkBack slices.reverse slices.length x.time with
      | some i => .ok (insertAt slices i x)
      | none => .error .humdrumInternal

/-! ### Where a token goes -/

/-- What the search of an adding method finds: a slice to use, a place for a new slice, or nothing. -/
inductive Place
  | use (i : Nat)
  | before (i : Nat)
  | atEnd
  deriving DecidableEq, Repr

/-- The timestamp test all adding methods begin with (gridmeasure.py:239, 290, 613, 690, 734). -/
def laterThanLast (slices : List GSlice) (t : Rat) : Bool :=
  match slices.getLast? with
  | none => true
  | some x => x.time < t

/-- `startIdxOfLayoutGroupBefore` (gridmeasure.py:1099-1106). -/
def layoutStart (slices : List GSlice) : Nat → Nat
  | 0 => 0
  | i + 1 =>
    match slices[i]? with
    | none => 0
    | some x => if x.kind = .layouts then layoutStart slices i else i + 1

/-- The search of `addTokenOfSliceType` (gridmeasure.py:301-324). -/
def typedSearch (all : List GSlice) (k : SliceKind) (t : Rat) (before : Bool) : Nat → List GSlice → Place
  | _, [] => .atEnd
  | i, x :: rest =>
    if x.time = t ∧ x.kind = k then .use i
    else if x.time = t ∧ x.kind.isData then .before (if before then layoutStart all i else i)
    else if t < x.time then .before i
    else typedSearch all k t before (i + 1) rest

/-- The search of `addDataToken` (gridmeasure.py:248-266). -/
def dataSearch (t : Rat) : Nat → List GSlice → Place
  | _, [] => .atEnd
  | i, x :: rest =>
    if t = x.time ∧ x.kind = .graceNotes then dataSearch t (i + 1) rest
    else if x.kind.isData = false then dataSearch t (i + 1) rest
    else if x.time = t then .use i
    else if t < x.time then .before i
    else dataSearch t (i + 1) rest

/-- The text of the first voice of the first staff (gridmeasure.py:706-712). -/
def GSlice.firstText (x : GSlice) : Option Str :=
  match x.parts with
  | [] => none
  | p :: _ =>
    match p.staves with
    | [] => none
    | s :: _ =>
      match s.voices with
      | [] => none
      | c :: _ => c.text?

/-- The search of `addGlobalComment` and `addGlobalReference` (gridmeasure.py:699-727, 743-769). `use` stands for the
duplicate that makes the method do nothing. -/
def globalSearch (k : SliceKind) (tok : Str) (t : Rat) : Nat → List GSlice → Place
  | _, [] => .atEnd
  | i, x :: rest =>
    if x.time = t then if x.kind = k ∧ x.firstText = some tok then .use i else .before i
    else if t < x.time then .before i
    else globalSearch k tok t (i + 1) rest

/-- The search of `addLabelToken` and `addLabelAbbrToken` (gridmeasure.py:622-626, 660-664): `atEnd` if there is none. -/
def labelSearch (k : SliceKind) (t : Rat) : Nat → List GSlice → Place
  | _, [] => .atEnd
  | i, x :: rest => if x.time = t ∧ x.kind = k then .use i else labelSearch k t (i + 1) rest

/-- Adding a token to a slice of the measure. -/
def changeAt (slices : List GSlice) (i : Nat) (f : GSlice → Except PyErr GSlice) : Except PyErr (List GSlice) :=
  match slices[i]? with
  | none => .error .indexError
  | some x => (f x).map (fun y => slices.set i y)

/-- Using or making a slice for a token, with the slice made at index `fallback` if the search found nothing. -/
def placeToken (slices : List GSlice) (pl : Place) (fallback : Nat) (k : SliceKind) (t : Rat) (counts : List Nat) (tok : Str)
    (p s v : Int) : Except PyErr (List GSlice) :=
  match pl with
  | .use i => changeAt slices i (fun x => x.addToken tok p s v)
  | .before i => (tokenSlice t k counts tok p s v).map (fun x => insertAt slices i x)
  | .atEnd => (tokenSlice t k counts tok p s v).map (fun x => insertAt slices fallback x)

/-- `addTokenOfSliceType` (gridmeasure.py:276-329). -/
def addTyped (slices : List GSlice) (k : SliceKind) (t : Rat) (before : Bool) (counts : List Nat) (tok : Str) (p s v : Int) :
    Except PyErr (List GSlice) :=
  if laterThanLast slices t then placeToken slices .atEnd slices.length k t counts tok p s v
  else placeToken slices (typedSearch slices k t before 0 slices) slices.length k t counts tok p s v

/-- `addDataToken` (gridmeasure.py:226-272). -/
def addData (slices : List GSlice) (t : Rat) (counts : List Nat) (tok : Str) (p s v : Int) : Except PyErr (List GSlice) :=
  if laterThanLast slices t then placeToken slices .atEnd slices.length .notes t counts tok p s v
  else placeToken slices (dataSearch t 0 slices) slices.length .notes t counts tok p s v

/-- `addLabelToken` and `addLabelAbbrToken` (gridmeasure.py:606-671): the slice goes to the start of the measure. -/
def addLabel (slices : List GSlice) (k : SliceKind) (t : Rat) (counts : List Nat) (tok : Str) (p s v : Int) :
    Except PyErr (List GSlice) :=
  if laterThanLast slices t then placeToken slices .atEnd slices.length k t counts tok p s v
  else placeToken slices (labelSearch k t 0 slices) 0 k t counts tok p s v

/-- `addGlobalComment`, `addGlobalReference` (gridmeasure.py:687-770): nothing is added next to an equal line, or if the
search finds no place. -/
def addGlobal (slices : List GSlice) (k : SliceKind) (t : Rat) (tok : Str) : Except PyErr (List GSlice) :=
  if laterThanLast slices t then (tokenSlice t k [1] tok 0 0 0).map (fun x => slices ++ [x])
  else
    match globalSearch k tok t 0 slices with
    | .use _ => .ok slices
    | .before i => (tokenSlice t k [1] tok 0 0 0).map (fun x => insertAt slices i x)
    | .atEnd => .ok slices

/-- `addGlobalLayoutAtMeasureStart` (gridmeasure.py:772-777). -/
def addStartLayout (slices : List GSlice) (start : Rat) (tok : Str) : Except PyErr (List GSlice) :=
  (tokenSlice start .globalLayouts [1] tok 0 0 0).map (fun x => insertAt slices 0 x)

/-! ### Lines before a given line -/

/-- `slices[idx - 1]` (gridmeasure.py:517, 962, 1045): before the first comes the last. -/
def prevIndex (slices : List GSlice) (idx : Nat) : Nat := if idx = 0 then slices.length - 1 else idx - 1

/-- Setting a voice of a part and staff that must exist (gridmeasure.py:1047-1052, 1084-1087). -/
def GSlice.setCell (x : GSlice) (p s v : Nat) (tok : Str) : Except PyErr GSlice :=
  match x.parts[p]? with
  | none => .error .indexError
  | some part => if s < part.staves.length then x.addToken tok p s v else .error .indexError

/-- A new slice like another one, before it, or at the end of the measure (gridmeasure.py:1073-1082). -/
def lineBefore (slices : List GSlice) (endTime : Rat) (k : SliceKind) (idx : Option Nat) (f : GSlice → Except PyErr GSlice) :
    Except PyErr (List GSlice) :=
  match idx with
  | some i =>
    match slices[i]? with
    | none => .error .indexError
    | some x => (f (sliceLike x.time k x)).map (fun y => insertAt slices i y)
  | none =>
    match slices.getLast? with
    | none => .error .indexError
    | some x => (f (sliceLike endTime k x)).map (fun y => slices ++ [y])

/-- The token at a voice, with the voice counted as empty if it is not there (gridmeasure.py:520-526, 1048-1050). -/
def GSlice.tokenOrNone (x : GSlice) (p s v : Nat) : Option Str :=
  ((((x.parts[p]?).bind (fun part => part.staves[s]?)).bind (fun st => st.voices[v]?)).bind GCell.text?)

/-- Is the text one of a text direction? (gridmeasure.py:1131) -/
def isTextLayout (s : Str) : Bool := s.take 6 == "!LO:TX".toList

/-- `startIdxOfNonTextLayoutGroupBefore` (gridmeasure.py:1108-1136). -/
def nonTextStart (slices : List GSlice) (p s v : Nat) : Nat → Nat
  | 0 => 0
  | i + 1 =>
    match slices[i]? with
    | none => 0
    | some x =>
      if x.kind = .layouts then
        match x.tokenOrNone p s v with
        | some tx => if isTextLayout tx then i + 1 else nonTextStart slices p s v i
        | none => nonTextStart slices p s v i
      else i + 1

/-- May the previous layout line take the comment? (gridmeasure.py:1046-1050) -/
def layoutFree (x : GSlice) (p s v : Nat) : Bool :=
  x.tokenOrNone p s v = none || x.tokenOrNone p s v = some "!".toList

/-- The new layout line before a given index (gridmeasure.py:1066-1087). -/
def layoutLineAt (slices : List GSlice) (endTime : Rat) (idx : Nat) (p s v : Nat) (text : Str) : Except PyErr (List GSlice) :=
  lineBefore slices endTime .layouts (if idx < slices.length then some idx else none) (fun x => x.setCell p s v text)

/-- `addLayoutParameter` (gridmeasure.py:1018-1087); `idx = none` is a comment for the end of the measure. A voice that is
`None` counts as one without a token; Python fails there. -/
def addLayout (slices : List GSlice) (endTime : Rat) (idx : Option Nat) (p s v : Nat) (text : Str) (beforeNonText : Bool) :
    Except PyErr (List GSlice) :=
  match slices with
  | [] => .ok []
  | _ :: _ =>
    if beforeNonText then layoutLineAt slices endTime (nonTextStart slices p s v (idx.getD slices.length)) p s v text
    else
      match slices[prevIndex slices (idx.getD slices.length)]? with
      | none => .error .indexError
      | some prev =>
        if prev.kind = .layouts ∧ layoutFree prev p s v = true then
          changeAt slices (prevIndex slices (idx.getD slices.length)) (fun x => x.setCell p s v text)
        else layoutLineAt slices endTime (idx.getD slices.length) p s v text

/-- May the previous line of tuplet displays take the token? (gridmeasure.py:519-530) -/
def tupletFree (x : GSlice) (p s v : Nat) : Bool :=
  x.tokenOrNone p s v = none || x.tokenOrNone p s v = some "*".toList

/-- `addTupletDisplayTokenBefore` (gridmeasure.py:483-542). -/
def addTuplet (slices : List GSlice) (endTime : Rat) (idx : Nat) (p s v : Nat) (tok : Str) : Except PyErr (List GSlice) :=
  match slices[prevIndex slices idx]? with
  | none => .error .indexError
  | some prev =>
    if prev.kind = .tupletDisplay ∧ tupletFree prev p s v = true then
      changeAt slices (prevIndex slices idx) (fun x => x.setCell p s v tok)
    else lineBefore slices endTime .tupletDisplay (some idx) (fun x => x.addToken tok p s v)

/-- Is it a pedal token? (gridmeasure.py:551-552) -/
def isPedal (tok : Str) : Bool := tok = "*ped".toList || tok = "*Xped".toList

/-- The line for an ottava or pedal token (gridmeasure.py:577-590, 593-597). -/
def ottavaLine (t : Rat) (like : GSlice) (p s : Nat) (tok : Str) : Except PyErr GSlice :=
  (sliceLike t (if isPedal tok then .pedals else .ottavas) like).setCell p s 0 tok

/-- The tokens before a slice (gridmeasure.py:576-584): all go to the same index. -/
def ottavasAt (slices : List GSlice) (i : Nat) (like : GSlice) (p s : Nat) : List Str → Except PyErr (List GSlice)
  | [] => .ok slices
  | tok :: rest =>
    match ottavaLine like.time like p s tok with
    | .error e => .error e
    | .ok y => ottavasAt (insertAt slices i y) i like p s rest

/-- The tokens at the end of the measure (gridmeasure.py:585-591). -/
def ottavasEnd (slices : List GSlice) (endTime : Rat) (p s : Nat) : List Str → Except PyErr (List GSlice)
  | [] => .ok slices
  | tok :: rest =>
    match slices.getLast? with
    | none => .error .indexError
    | some like =>
      match ottavaLine endTime like p s tok with
      | .error e => .error e
      | .ok y => ottavasEnd (slices ++ [y]) endTime p s rest

/-- `addOttavaOrPedalTokensBefore` (gridmeasure.py:544-600). -/
def addOttavas (slices : List GSlice) (endTime : Rat) (idx : Option Nat) (p s : Nat) (toks : List Str) : Except PyErr (List GSlice) :=
  match idx with
  | none => ottavasEnd slices endTime p s toks
  | some i =>
    match slices[i]? with
    | none => .error .indexError
    | some x => ottavasAt slices i x p s toks

/-- `outSlice.parts[p].staves[s].setTokenLayer(layer, token)` (humdrumwriter.py:2247-2250). -/
def GSlice.setLayer (x : GSlice) (p s layer : Nat) (tok : Str) : Except PyErr GSlice :=
  match x.parts[p]? with
  | none => .error .indexError
  | some part =>
    match part.staves[s]? with
    | none => .error .indexError
    | some st => (st.setTokenLayer layer tok).map
        (fun st' => { x with parts := x.parts.set p { part with staves := part.staves.set s st' } })

/-- What the exporter does to a measure. -/
inductive MOp
  /-- `insertSliceByTimestamp` (humdrumwriter.py:2128, 2542) -/
  | insert (x : GSlice)
  /-- `outgm.slices.append` (humdrumwriter.py:1712-1968) -/
  | append (x : GSlice)
  /-- `addTempoToken` and the other users of `addTokenOfSliceType` -/
  | typed (k : SliceKind) (t : Rat) (before : Bool) (counts : List Nat) (tok : Str) (p s v : Nat)
  /-- `addLabelToken`, `addLabelAbbrToken` -/
  | label (k : SliceKind) (t : Rat) (counts : List Nat) (tok : Str) (p s v : Nat)
  /-- `addGlobalComment`, `addGlobalReference` -/
  | «global» (k : SliceKind) (t : Rat) (tok : Str)
  /-- `addGlobalLayoutAtMeasureStart` -/
  | startLayout (tok : Str)
  /-- `addLayoutParameter` -/
  | layout (idx : Option Nat) (p s v : Nat) (text : Str) (beforeNonText : Bool)
  /-- `addTupletDisplayTokenBefore` -/
  | tuplet (idx p s v : Nat) (tok : Str)
  /-- `addOttavaOrPedalTokensBefore` -/
  | ottavas (idx : Option Nat) (p s : Nat) (toks : List Str)
  /-- `setTokenLayer` of a slice of the measure (humdrumwriter.py:2247-2250) -/
  | set (i p s layer : Nat) (tok : Str)

/-- One operation on the slices of a measure that goes from `start` to `endTime`. -/
def MOp.run (start endTime : Rat) (slices : List GSlice) : MOp → Except PyErr (List GSlice)
  | .insert x => insertByTime slices x
  | .append x => .ok (slices ++ [x])
  | .typed k t before counts tok p s v => addTyped slices k t before counts tok p s v
  | .label k t counts tok p s v => addLabel slices k t counts tok p s v
  | .global k t tok => addGlobal slices k t tok
  | .startLayout tok => addStartLayout slices start tok
  | .layout idx p s v text b => addLayout slices endTime idx p s v text b
  | .tuplet idx p s v tok => addTuplet slices endTime idx p s v tok
  | .ottavas idx p s toks => addOttavas slices endTime idx p s toks
  | .set i p s layer tok => changeAt slices i (fun x => x.setLayer p s layer tok)

end C21
