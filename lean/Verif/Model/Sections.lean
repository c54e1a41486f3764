import Verif.Model.Dates
/-
Repeat endings: written as section names (humdrum/humdrumwriter.py:1030-1190), read from section names (humdrum/humdrumfile.py:1086-1150 and
12304-12356).
-/
namespace C21

/-- The fields of a grid measure about repeat brackets (humdrum/gridmeasure.py:64-67). -/
structure RBMeasure where
  inB : Bool
  starts : Bool
  stops : Bool
  name : Str
  deriving DecidableEq

/-- humdrumwriter.py:56-60 `RepeatBracketState`. -/
inductive RBState
  | noEndings | inBracket | finished
  deriving DecidableEq

/-- humdrumwriter.py:1034-1051 `incrementName`. -/
def incrementName : Str → Except PyErr Str
  | [] => .error .humdrumInternal
  | c :: r =>
    if ¬ (65 ≤ c.toNat ∧ c.toNat ≤ 90) then .error .humdrumInternal
    else if r.any (fun x => x != c) then .error .humdrumInternal
    else if c = 'Z' then .ok (List.replicate (r.length + 2) 'A')
    else .ok (List.replicate (r.length + 1) (Char.ofNat (c.toNat + 1)))

/-- A section name that is written. -/
inductive SecLabel
  | section (name : Str)
  | ending (name : Str) (n : Int)
  deriving DecidableEq

/-- humdrumwriter.py:1067 and 1074: the token. -/
def SecLabel.text : SecLabel → Str
  | .section name => '*' :: '>' :: name
  | .ending name n => '*' :: '>' :: (name ++ intStr n)

/-- humdrumwriter.py:1061-1065: the number of a bracket. -/
def bracketNumber (name : Str) (fallback : Int) : Int := (pyInt name).getD fallback

/-- The variables of the loop. -/
structure RBVars where
  state : RBState
  name : Str
  fallback : Int

/-- humdrumwriter.py:1053-1068 `startBracket`, and the state after it. -/
def startBracket (v : RBVars) (m : RBMeasure) (fallback : Int) (next : RBState) : List SecLabel × RBVars :=
  ([.ending v.name (bracketNumber m.name fallback)], ⟨next, v.name, bracketNumber m.name fallback + 1⟩)

/-- humdrumwriter.py:1152-1153 and 1188-1190: the next section. -/
def nextSection (v : RBVars) : Except PyErr (List SecLabel × RBVars) :=
  match incrementName v.name with
  | .error e => .error e
  | .ok n => .ok ([.section n], ⟨.noEndings, n, v.fallback⟩)

/-- humdrumwriter.py:1093-1190: one measure of the loop. -/
def rbStep (v : RBVars) (m : RBMeasure) : Except PyErr (List SecLabel × RBVars) :=
  match v.state with
  | .noEndings =>
    if !m.inB then .ok ([], v)
    else if m.starts && m.stops then .ok (startBracket v m 1 .finished)
    else if m.starts then .ok (startBracket v m 1 .inBracket)
    else if m.stops then .ok (startBracket v m 1 .finished)
    else .ok (startBracket v m 1 .inBracket)
  | .inBracket =>
    if m.starts && m.stops then .ok ([], { v with state := .finished })
    else if m.starts then .ok (startBracket v m v.fallback .inBracket)
    else if m.stops then .ok ([], { v with state := .finished })
    else if m.inB then .ok ([], v)
    else nextSection v
  | .finished =>
    if m.starts && m.stops then .ok (startBracket v m v.fallback .finished)
    else if m.starts then .ok (startBracket v m v.fallback .inBracket)
    else if m.stops then .ok (startBracket v m v.fallback .finished)
    else if m.inB then .ok (startBracket v m v.fallback .inBracket)
    else nextSection v

/-- The loop: the labels of each measure. -/
def rbLoop (v : RBVars) : List RBMeasure → Except PyErr (List (List SecLabel))
  | [] => .ok []
  | m :: ms =>
    match rbStep v m with
    | .error e => .error e
    | .ok (ls, v') =>
      match rbLoop v' ms with
      | .error e => .error e
      | .ok rest => .ok (ls :: rest)

/-- humdrumwriter.py:1086-1091: the first measure starts section A. -/
def addFirst (l : SecLabel) : List (List SecLabel) → List (List SecLabel)
  | [] => []
  | ls :: rest => (l :: ls) :: rest

/-- humdrumwriter.py:1030-1190 `_insertRepeatBracketSlices`: the labels of each measure, in the order in which they come before its first data. -/
def exportSections (ms : List RBMeasure) : Except PyErr (List (List SecLabel)) :=
  if !ms.any (·.inB) then .ok (ms.map (fun _ => []))
  else
    match rbLoop ⟨.noEndings, ['A'], 1⟩ ms with
    | .error e => .error e
    | .ok ls => .ok (addFirst (.section ['A']) ls)

/-! ### Reading -/

/-- The variables of the reader: the last section name, the last one without number, the number of the current ending, the current bracket (which one
it is and its number), and the number of brackets made. -/
structure SecVars where
  label : Str := []
  plain : Str := []
  endNum : Nat := 0
  cur : Option (Nat × Nat) := none
  made : Nat := 0

/-- The text ends in a digit. -/
def endsInDigit (s : Str) : Bool :=
  match s.getLast? with
  | some c => isDig c
  | none => false

/-- humdrumfile.py:12315-12348: a section name. Simplified: every measure has data, and the names of a measure come before its data, so that a name
holds for the whole measure; the first name of the file has no number (12350-12356 does nothing then). -/
def labelStep (v : SecVars) (text : Str) : SecVars :=
  if text.contains '[' then v
  else if endsInDigit text then { v with label := text }
  else { v with label := text, plain := text }

/-- `re.search(r'(\d+)$', s)`. -/
def trailingDigits (s : Str) : Str := (s.reverse.takeWhile isDig).reverse

/-- humdrumfile.py:1094-1123: the number of the ending the measure is in. -/
def endingNumber (v : SecVars) : Option Nat :=
  if v.label ≠ [] ∧ endsInDigit (v.label.drop 2) ∧ v.plain ≠ [] ∧ startsWith v.label v.plain then some (parseNat (trailingDigits (v.label.drop 2)))
  else none

/-- humdrumfile.py:1131-1170: the measure, and the bracket it is put in. -/
def measureStep (v : SecVars) : Except PyErr (Option (Nat × Nat) × SecVars) :=
  match endingNumber v with
  | some n =>
    if v.endNum ≠ n then .ok (some (v.made, n), { v with endNum := n, cur := some (v.made, n), made := v.made + 1 })
    else
      match v.cur with
      | none => .error .indexError
      | some b => .ok (some b, v)
  | none => .ok (none, { v with endNum := 0, cur := none })

/-- All the measures, each with its section names. -/
def importSections (v : SecVars) : List (List Str) → Except PyErr (List (Option (Nat × Nat)))
  | [] => .ok []
  | ls :: rest =>
    match measureStep (ls.foldl labelStep v) with
    | .error e => .error e
    | .ok (b, v') =>
      match importSections v' rest with
      | .error e => .error e
      | .ok bs => .ok (b :: bs)

end C21
