import Verif.Model.Barlines
import Verif.Model.PyNum
/-
Model of measures: how /repo/converter21/humdrum/humgrid.py puts barlines between the measures of a score, and how
/repo/converter21/humdrum/humdrumfile.py finds the measures and their numbers in the lines of a file.
-/
namespace C21

/-- The lines of a file: barlines (the text of the first token), data lines with their duration, and others. -/
inductive MLine
  | bar (text : Str)
  | data (dur : Rat)
  | other
deriving DecidableEq, Repr

def MLine.isBar : MLine → Bool
  | .bar _ => true
  | _ => false

def MLine.isData : MLine → Bool
  | .data _ => true
  | _ => false

/-! ### Export -/

/-- A measure of the first staff: number and suffix, the style of the barline that starts it, its length, and the
lines of its slices. -/
structure MeasIn where
  num : Int
  suffix : Str
  style : MStyle
  ferm : Ferm
  dur : Rat
  lines : List MLine
deriving DecidableEq, Repr

/-- measuredata.py:163-165, with music21's `measureNumberWithSuffix`. -/
def measureNumText (num : Int) (suffix : Str) : Str :=
  if intStr num ++ suffix = ['0'] then [] else intStr num ++ suffix

/-- humgrid.py:939-1014 `addMeasureLines`: the barline comes first (rehearsal marks, which come before it, are left
out here); a measure of length 0, or without lines, has none. -/
def exportMeasure (m : MeasIn) : Option (List MLine) :=
  if m.lines = [] ∨ m.dur = 0 then some m.lines
  else (createBarToken (measureNumText m.num m.suffix) m.style m.ferm).map fun t => .bar t :: m.lines

/-- All measures. -/
def exportMeasures : List MeasIn → Option (List MLine)
  | [] => some []
  | m :: ms =>
    match exportMeasure m, exportMeasures ms with
    | some a, some b => some (a ++ b)
    | _, _ => none

/-- The file: header lines, the measures, the last barline (humgrid.py:1021-1054) and the line of terminators. -/
def exportFile (header : Nat) (ms : List MeasIn) (last : Str) : Option (List MLine) :=
  (exportMeasures ms).map fun ls => List.replicate (header + 1) .other ++ ls ++ [.bar last, .other]

/-! ### Import -/

/-- `[a-z]`. -/
def smallLetter (c : Char) : Bool := 97 ≤ c.toNat && c.toNat ≤ 122

/-- humdrumtoken.py:2001-2009 `barlineNumber`: the first digits of the text (`\d` as ASCII digits). -/
def firstDigits : Str → Str → Option Str
  | acc, [] => if acc = [] then none else some acc
  | acc, c :: s => if isDig c then firstDigits (acc ++ [c]) s else if acc = [] then firstDigits [] s else some acc

/-- humdrumtoken.py:2018-2027 `barlineName`: the first digits followed by a small letter. -/
def digitsLetter : Str → Str → Option (Str × Char)
  | _, [] => none
  | acc, c :: s =>
    if isDig c then digitsLetter (acc ++ [c]) s
    else if acc ≠ [] && smallLetter c then some (acc, c) else digitsLetter [] s

/-- humdrumfile.py:1304-1311 and 1086-1088, and music21's `Measure(number=...)`, which takes a text apart into number
and suffix. -/
def readNumber (text : Str) : Nat × Str :=
  match digitsLetter [] text with
  | some (ds, c) => (parseNat ds, [c])
  | none =>
    match firstDigits [] text with
    | some ds => (parseNat ds, [])
    | none => (0, [])

/-- humdrumfile.py:1313-1345: the first barline before the first data line. -/
def firstBarNumber : List MLine → Nat × Str
  | [] => (0, [])
  | .bar t :: _ => readNumber t
  | .data _ :: _ => (0, [])
  | .other :: ls => firstBarNumber ls

/-- humdrumfile.py:1300-1345 `_getMeasureNumber`. -/
def measureNumber (all : List MLine) : MLine → Nat × Str
  | .bar t => readNumber t
  | _ => firstBarNumber all

/-- A measure as read: number, suffix, where it starts, and its data lines. -/
structure MeasOut where
  num : Nat
  suffix : Str
  start : Rat
  lines : List Rat
deriving DecidableEq, Repr

/-- The durations of the data lines. -/
def dataOf (ls : List MLine) : List Rat := ls.filterMap fun l => match l with | .data d => some d | _ => none

/-- humdrumfile.py:761-792 `_prepareSystemMeasures`, 12357-12364 `_measureKey`, 10730-10753 `_measureEndLineIndex`
and 1046-1062 `_repositionStartIndex`: from the line `cur`, after the lines `before`.  The measure goes on to the next
barline; without data lines it is passed over; the first with data starts at line 0.  Line 0 is not empty (else the
start goes to the next line with spines).  `!!ignore` is not modelled. -/
def readFrom (all before : List MLine) (cur : MLine) (rest : List MLine) : List MeasOut :=
  let a := rest.takeWhile (fun l => !l.isBar)
  let start := if (before ++ [cur]).any MLine.isData then cur else all.headD .other
  let here := if a.any MLine.isData then
      [⟨(measureNumber all start).1, (measureNumber all start).2, (dataOf before).sum, dataOf a⟩] else []
  match h : rest.dropWhile (fun l => !l.isBar) with
  | [] => here
  | b :: rest' => here ++ readFrom all (before ++ cur :: a) b rest'
termination_by rest.length
decreasing_by
  have h1 := List.takeWhile_append_dropWhile (p := fun l : MLine => !l.isBar) (l := rest)
  have h2 := congrArg List.length h1
  rw [h] at h2
  simp at h2
  omega

/-- The measures of a file whose `**kern` line comes after `header` lines. -/
def readMeasures (header : Nat) (lines : List MLine) : List MeasOut :=
  match lines.drop header with
  | [] => []
  | cur :: rest => readFrom lines (lines.take header) cur rest

end C21
