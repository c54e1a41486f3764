import Mathlib.Data.List.Sort
import Verif.Model.PyNum
import Verif.Model.Text
import Verif.Model.Line
import Mathlib.Data.Rat.Floor
/-
Model of tempo marks in Humdrum: the `*MM` interpretation, the names of the beat notes in tempo texts and the
`!!!OMD:` records (/repo/converter21/humdrum/m21convert.py, convert.py, humdrumtoken.py, humdrumwriter.py,
humdrumfile.py).
-/
namespace C21

/-! ### `*MM` -/

/-- `int(x + 0.5)` for `x ≥ 0`; floats are modelled by rationals. -/
def roundHalfUp (x : Rat) : Nat := ⌊x + 1 / 2⌋.toNat

/-- m21convert.py:2067-2076: the interpretation of a mark of `q ≥ 0` quarter notes per minute. -/
def mmToken (q : Rat) : Str := "*MM".toList ++ natStr (roundHalfUp q)

/-- humdrumtoken.py:1511-1519 `isTempo`; digits are ASCII digits here. -/
def isTempo (t : Str) : Bool :=
  if t.length < 4 then false
  else if !startsWith t "*MM".toList then false
  else match t[3]? with
    | some c => isDig c || c == '['
    | none => false

/-- The number matched by the regular expression `\d+\.?\d*` at the start of a text. -/
def leadNumber (s : Str) : Option Rat :=
  match s.takeWhile isDig with
  | [] => none
  | d :: ds =>
    match s.dropWhile isDig with
    | '.' :: rest =>
      some (parseNat (d :: ds) + parseNat (rest.takeWhile isDig) / 10 ^ (rest.takeWhile isDig).length)
    | _ => some (parseNat (d :: ds))

/-- humdrumtoken.py:1521-1529 `tempoBPM`. -/
def tempoBPM (t : Str) : Nat :=
  if !isTempo t then 0
  else match leadNumber (t.drop 3) with
    | some x => roundHalfUp x
    | none => 0

/-- humdrumtoken.py:1531-1538 `tempoName`: the expression `^\*MM[(.+)]` asks for one of the four characters
`(`, `.`, `+`, `)` after `*MM`, and has no group 1: a match raises IndexError. -/
def tempoName (t : Str) : Except PyErr Str :=
  if !isTempo t then .ok []
  else match t[3]? with
    | some c => if c = '(' ∨ c = '.' ∨ c = '+' ∨ c = ')' then .error .indexError else .ok []
    | none => .ok []

/-- What an imported tempo mark holds: number, text, and beat note (its type and its dots). -/
structure TempoMark where
  number : Option Nat
  text : Option Str
  referent : Option (Str × Nat)
deriving DecidableEq, Repr

/-! ### Names of beat notes -/

/-- m21convert.py:2151-2174 and convert.py:592-615: names, type of the duration, glyph. -/
def beatNotes : List (List Str × Str × Char) :=
  [(["quarter".toList, "4".toList], "quarter".toList, Char.ofNat 0xECA5),
   (["half".toList, "2".toList], "half".toList, Char.ofNat 0xECA3),
   (["whole".toList, "1".toList], "whole".toList, Char.ofNat 0xECA2),
   (["breve".toList, "double-whole".toList, "0".toList], "breve".toList, Char.ofNat 0xECA0),
   (["eighth".toList, "8".toList, "8th".toList], "eighth".toList, Char.ofNat 0xECA7),
   (["sixteenth".toList, "16".toList, "16th".toList], "16th".toList, Char.ofNat 0xECA9),
   (["32".toList, "32nd".toList], "32nd".toList, Char.ofNat 0xECAB),
   (["64".toList, "64th".toList], "64th".toList, Char.ofNat 0xECAD),
   (["128".toList, "128th".toList], "128th".toList, Char.ofNat 0xECAF),
   (["256".toList, "256th".toList], "256th".toList, Char.ofNat 0xECB1),
   (["512".toList, "512th".toList], "512th".toList, Char.ofNat 0xECB3),
   (["1024".toList, "1024th".toList], "1024th".toList, Char.ofNat 0xECB5)]

/-- The entry of the tables for a bare name. -/
def beatNote (name : Str) : Option (Str × Char) :=
  (beatNotes.find? fun e => e.1.contains name).map (·.2)

/-- m21convert.py:2130-2150 and convert.py:573-590: dots and bare name.  `.` and `$` of the expressions treat
line ends specially; names with line ends are not modelled. -/
def beatParts (s : Str) : Nat × Str :=
  let s := s.takeWhile fun c => !(c == '|' || c == '@')
  let d := if "-dot".toList.isSuffixOf s then
      if "-dot-dot".toList.isSuffixOf s then
        if "-dot-dot-dot".toList.isSuffixOf s then 3 else 2
      else 1
    else 0
  let s := replaceAll "-dot".toList [] s
  let k := (s.reverse.takeWhile (· == '.')).length
  (d + k, s.take (s.length - k))

/-- m21convert.py:2117-2176 `durationFromHumdrumTempoNoteName`: type and dots.  `noteName[-1]` raises
IndexError when nothing is left after the opening bracket. -/
def beatDuration (s : Str) : Except PyErr (Option (Str × Nat)) :=
  match s with
  | [] => .ok none
  | c :: cs =>
    let s := if c = '[' then cs else s
    match s.getLast? with
    | none => .error .indexError
    | some z =>
      let s := if z = ']' then s.dropLast else s
      .ok ((beatNote (beatParts s).2).map fun e => (e.1, (beatParts s).1))

/-- convert.py:566-625 `humdrumTempoNoteNameToSmuflText`. -/
def beatGlyphs (s : Str) : Str :=
  match s with
  | [] => []
  | c :: _ =>
    let s := if c = '[' && s.getLast? == some ']' then s.tail.dropLast else s
    (match beatNote (beatParts s).2 with
     | some e => [e.2]
     | none => []) ++ List.replicate (beatParts s).1 smuflDot

/-! ### Tempo texts -/

/-- `\[([^=\]]*)\]\s*=\s*` at the start of a text: the name and what follows. -/
def beatEquals (s : Str) : Option (Str × Str) :=
  match s with
  | '[' :: r =>
    match r.dropWhile fun c => !(c == '=' || c == ']') with
    | ']' :: r2 =>
      match r2.dropWhile isPySpace with
      | '=' :: r3 => some (r.takeWhile (fun c => !(c == '=' || c == ']')), r3.dropWhile isPySpace)
      | _ => none
    | _ => none
  | _ => none

/-- convert.py:527: `\[([^=\]]*)\]\s*=\s*(\d+.*)` at the start of a text; `.` stops at the end of the line. -/
def tempoCore (s : Str) : Option (Str × Str) :=
  match beatEquals s with
  | some (name, n :: r) => if isDig n then some (name, (n :: r).takeWhile (· != '\n')) else none
  | _ => none

/-- convert.py:527: `(.*)` and the rest, from a fixed start; the longest first group that works. -/
def tempoGreedy : Str → Option (Str × Str × Str)
  | [] => none
  | c :: cs =>
    if c = '\n' then none
    else match tempoGreedy cs with
      | some (a, b, d) => some (c :: a, b, d)
      | none => (tempoCore (c :: cs)).map fun p => ([], p.1, p.2)

/-- convert.py:528 `re.search`: the first start that works. -/
def tempoSearch : Str → Option (Str × Str × Str)
  | [] => none
  | c :: cs =>
    match tempoGreedy (c :: cs) with
    | some r => some r
    | none => tempoSearch cs

/-- convert.py:546-559: the symbols, with a thin space before dots and a no-break space before notes. -/
def spaceGlyphs : Str → Str
  | [] => []
  | c :: cs => c :: cs.flatMap fun x => [if x = smuflDot then Char.ofNat 0x2009 else nbsp, x]

/-- convert.py:523-563 `getTempoText`. -/
def getTempoText (s : Str) : Str :=
  match tempoSearch s with
  | none => []
  | some (a, name, third) =>
    let a := if a.getLast? = some '(' then a ++ [Char.ofNat 0x200A] else a
    a ++ spaceGlyphs (beatGlyphs name) ++ [nbsp, '=', nbsp] ++ third

/-- The optional `M.M.` of convert.py:491-493: what follows it. -/
def afterMM (s : Str) : Option Str :=
  (["M.M.".toList, "M. M.".toList, "M:M:".toList, "M M".toList].find? (startsWith s)).map fun p => s.drop p.length

/-- The opening parenthesis, if it is wanted. -/
def markParen (paren : Bool) (s : Str) : Option Str :=
  if paren then
    match s with
    | [] => none
    | c :: r => if c = '(' then some r else none
  else some s

/-- convert.py:490-493: from the bracket on: beat note and number. -/
def markCore (paren : Bool) (s : Str) : Option (Str × Rat) :=
  match markParen paren s with
  | none => none
  | some r =>
    match beatEquals r with
    | none => none
    | some p => (leadNumber p.2).map fun x => (p.1, x)

/-- convert.py:490-493: the part of the patterns after the first group, from a fixed start.  `paren` is whether
a `(` is wanted. -/
def markTail (paren : Bool) (s : Str) : Option (Str × Rat) :=
  match afterMM (s.dropWhile isPySpace) with
  | some r =>
    match markCore paren (r.dropWhile isPySpace) with
    | some x => some x
    | none => markCore paren (s.dropWhile isPySpace)
  | none => markCore paren (s.dropWhile isPySpace)

/-- A lazy `(.*?)` from a fixed start, before what `f` matches. -/
def lazyBefore {β : Type} (f : Str → Option β) : Str → Option β
  | [] => none
  | c :: cs =>
    match f (c :: cs) with
    | some r => some r
    | none => if c = '\n' then none else lazyBefore f cs

/-- `re.search`: the first start at which `f` matches (a match is not empty here). -/
def searchFirst {β : Type} (f : Str → Option β) : Str → Option β
  | [] => none
  | c :: cs =>
    match f (c :: cs) with
    | some r => some r
    | none => searchFirst f cs

/-- convert.py:490-493: one of the patterns, searched. -/
def markSearch (paren : Bool) (s : Str) : Option (Str × Rat) := searchFirst (lazyBefore (markTail paren)) s

/-- convert.py:496-512 `getMetronomeMarkInfo`: beat note and number (the name of the tempo and `M.M.` are not
used when there is a number, and every match has one). -/
def markInfo (s : Str) : Option (Str × Rat) :=
  match markSearch true s with
  | some r => some r
  | none => markSearch false s

/-- humdrumfile.py:10113-10210 `_createMetronomeMark`, on a text without HTML entities and `\n` escapes;
`nearby` is the number found in a `*MM` (0: none).  The code makes no mark from a number that rounds to 0 with
an unknown note and nothing before it. -/
def createMark (s : Str) (nearby : Nat) : Except PyErr (Option TempoMark) :=
  match markInfo s with
  | none =>
    let text := if strip s = [] then Option.none else some (strip s)
    let number := if nearby = 0 then Option.none else some nearby
    .ok (if number = Option.none ∧ text = Option.none then Option.none else some ⟨number, text, Option.none⟩)
  | some (name, x) =>
    match beatDuration name with
    | .error e => .error e
    | .ok ref =>
      let number := if roundHalfUp x = 0 then Option.none else some (roundHalfUp x)
      .ok (some ⟨number, some (getTempoText s), ref⟩)

/-- m21convert.py:2044-2065: the text written for a text; `none` is an IndexError. -/
def tempoTextOut (s : Str) : Option Str := (translateSMUFL s).map cleanSpacesAndColons

/-! ### OMD records -/

/-- A line of the file as `_checkForOmd` sees it. -/
inductive OmdLine
  | data
  | bar (num : Int)
  | reference (text : Str)
  | other
deriving DecidableEq, Repr

/-- gridmeasure.py:731-771 `addGlobalReference` on the slices (time and line) of a measure; the last result,
`None`, cannot occur. -/
def addReference (tok : Str) (ts : Rat) : List (Rat × OmdLine) → List (Rat × OmdLine)
  | [] => [(ts, .reference tok)]
  | s :: rest =>
    if s.1 = ts then
      if s.2 = .reference tok then s :: rest else (ts, .reference tok) :: s :: rest
    else if s.1 > ts then (ts, .reference tok) :: s :: rest
    else s :: addReference tok ts rest

/-- humdrumwriter.py:3210-3218: the records written for the tempos (part and text) at one time. -/
def addTempos (ts : Rat) (tempos : List (Nat × Str)) (slices : List (Rat × OmdLine)) : List (Rat × OmdLine) :=
  tempos.foldl (fun sl t =>
    if t.2 ≠ [] ∧ t.1 ≠ 0 then sl else addReference ("!!!OMD: ".toList ++ t.2) ts sl) slices

/-- humdrumwriter.py:3152-3178: the tempos of one time are written with the highest part number first. -/
def exportTempos (ts : Rat) (tempos : List (Nat × Str)) (slices : List (Rat × OmdLine)) : List (Rat × OmdLine) :=
  addTempos ts (tempos.insertionSort fun a b => b.1 ≤ a.1) slices

/-- humdrumfile.py:10297-10323: the value kept by the search for the last OMD before the data; `none` when a
bar line with a later number follows. -/
def omdScan : Str → List OmdLine → Option Str
  | v, [] => some v
  | v, .data :: _ => some v
  | v, .bar n :: rest => if v ≠ [] ∧ n > 1 then none else omdScan v rest
  | v, .reference t :: rest =>
    if referenceKey t = "OMD".toList then omdScan (referenceValue t) rest else omdScan v rest
  | v, .other :: rest => omdScan v rest

/-- humdrumfile.py:10325-10328: the text of the tempo mark made at the start of a measure, if any. -/
def omdText (lines : List OmdLine) : Option Str :=
  match omdScan [] lines with
  | some v => if v = [] then none else some v
  | none => none

/-- humdrumfile.py:3028-3097 `_handleTempoChange`: the mark made for a `*MM` inside a measure, near the OMD
record `omd`, when no tempo text follows it and it is in the last staff with one. -/
def midMark (t : Str) (omd : Option Str) : Except PyErr (Option TempoMark) :=
  if !isTempo t then .ok none
  else match tempoName t with
    | .error e => .error e
    | .ok name =>
      if name = [] ∧ tempoBPM t = 0 then .ok none
      else
        let name := if name ≠ [] then name else
          match omd with
          | some line => if (markInfo line).isSome then referenceValue line else []
          | none => []
        let name := strip name
        let text := if name = [] then Option.none
          else if (markInfo name).isSome then some (getTempoText name) else some name
        let number := if tempoBPM t = 0 then Option.none else some (tempoBPM t)
        .ok (some ⟨number, text, Option.none⟩)

end C21
