import Verif.Model.PyNum
import Verif.Model.PyStr
import Verif.Model.Dates
/-
Notes in MEI: the attributes of durations (mei/m21objectconvert.py:658-764, mei/meireader.py:576-594 and 4573-4674), of
pitches (mei/m21objectconvert.py:311-392, 766-810, mei/meireader.py:557-571 and 4770-4862) and of tremolos
(mei/meilayer.py:310-371, 394-430, mei/meireader.py:5992-6107).

music21's `Duration(q)` is a parameter `mk : Rat → String × Nat`, giving the type and the dots that music21 finds for a length.
The attribute `dur.ppq` is not modelled: the writer never writes it.
-/
namespace C21

/-- What the writer looks at in a grace note's duration: which attributes are not None. -/
inductive GraceKind where
  | appoggiatura
  | grace (stealPrevious stealFollowing : Bool) (slash : Option Bool)
deriving DecidableEq, Repr

/-- A music21 duration: the written type and dots, the multipliers of its tuplets, whether the performed length is linked to the
written one, and the performed length. -/
structure MDur where
  type : String
  dots : Nat
  grace : Option GraceKind
  linked : Bool
  tuplets : List Rat
  ql : Rat
deriving DecidableEq, Repr

/-- Attributes of an MEI note; `none` is an absent attribute. -/
structure DurAttr where
  dur : Option String
  dots : Option Str
  durGes : Option String
  dotsGes : Option Str
  grace : Option String
deriving DecidableEq, Repr

/-- mei/m21objectconvert.py:659-675. -/
def meiDurTable : List (String × String) :=
  [("maxima", "maxima"), ("longa", "long"), ("breve", "breve"), ("whole", "1"), ("half", "2"), ("quarter", "4"),
   ("eighth", "8"), ("16th", "16"), ("32nd", "32"), ("64th", "64"), ("128th", "128"), ("256th", "256"), ("512th", "512"),
   ("1024th", "1024"), ("2048th", "2048")]

/-- mei/m21objectconvert.py:691-711: the grace attribute. -/
def graceAttr : GraceKind → String
  | .appoggiatura => "acc"
  | .grace true _ _ => "unacc"
  | .grace false true _ => "acc"
  | .grace false false (some true) => "unacc"
  | .grace false false (some false) => "acc"
  | .grace false false none => "unacc"

/-- mei/m21objectconvert.py:717-730: the length without the tuplets, doubled in a two-note tremolo. -/
def gesLength (inFTrem : Bool) (d : MDur) : Rat :=
  let q := if d.tuplets.isEmpty then d.ql else d.ql / d.tuplets.foldl (· * ·) 1
  if inFTrem then q * 2 else q

/-- mei/m21objectconvert.py:731-754: `dur.ges` and `dots.ges`. `dur` and `durGes` are absent when the table has no such type. -/
def gesAttrs (dur : Option String) (dots : Nat) (durGes : Option String) (dotsGes : Nat) : Option String × Option Str :=
  let durGes := if durGes = dur then none else durGes
  let dotsGes :=
    if durGes = none then (if dotsGes = dots then none else some (natStr dotsGes))
    else if dotsGes = 0 ∧ dots = 0 then none
    else some (natStr dotsGes)
  (durGes, dotsGes)

/-- mei/m21objectconvert.py:677-764 `m21DurationToMeiDurDotsGrace`. -/
def writeDur (mk : Rat → String × Nat) (inFTrem : Bool) (d : MDur) : DurAttr :=
  let dur := meiDurTable.lookup d.type
  let dots := if d.dots = 0 then none else some (natStr d.dots)
  match d.grace with
  | some g => ⟨dur, dots, none, none, some (graceAttr g)⟩
  | none =>
    if d.linked then ⟨dur, dots, none, none, none⟩
    else
      let g := mk (gesLength inFTrem d)
      let ges := gesAttrs dur d.dots (meiDurTable.lookup g.1) g.2
      ⟨dur, dots, ges.1, ges.2, none⟩

/-- mei/meireader.py:576-594 `_DUR_ATTR_DICT`. -/
def readDurTable : List (String × Rat) :=
  [("maxima", 32), ("long", 16), ("longa", 16), ("breve", 8), ("brevis", 8), ("1", 4), ("semibrevis", 4), ("2", 2), ("minima", 2),
   ("4", 1), ("semiminima", 1), ("8", 1/2), ("fusa", 1/2), ("16", 1/4), ("semifusa", 1/4), ("32", 1/8), ("64", 1/16),
   ("128", 1/32), ("256", 1/64), ("512", 1/128), ("1024", 1/256), ("2048", 1/512)]

/-- mei/meireader.py:735-765 `_qlDurationFromAttr` for an attribute that is present; `none` for an unknown value. Several
durations separated by spaces, which the writer never writes, are not modelled. -/
def qlOfAttr (s : String) : Option Rat := readDurTable.lookup s

/-- A duration read from a file: type, dots, linked or not, length. -/
structure RDur where
  type : String
  dots : Nat
  linked : Bool
  ql : Rat
deriving DecidableEq, Repr

/-- How much dots lengthen a duration (music21's dotMultiplier). -/
def dotLengthen (dots : Nat) : Rat := 2 - 1 / 2 ^ dots

/-- shared/m21utilities.py:1157-1188 `makeDuration`: type, dots and length. -/
def makeDuration (mk : Rat → String × Nat) (base : Rat) (dots : Nat) : RDur :=
  if (mk base).2 = 0 then ⟨(mk base).1, dots, true, base * dotLengthen dots⟩
  else ⟨(mk base).1, (mk base).2, true, base⟩

/-- The value of an attribute `dur` or `dur.ges`: 0 when it is absent; an unknown value raises (mei/meireader.py:4591-4602). -/
def readLength : Option String → Except PyErr Rat
  | none => .ok 0
  | some s => match qlOfAttr s with
    | none => .error .valueError
    | some q => .ok q

/-- `int(elem.get('dots', 0))` -/
def readDots : Option Str → Except PyErr Nat
  | none => .ok 0
  | some s => match pyInt s with
    | none => .error .valueError
    | some n => .ok n.toNat

/-- `numDotsGes`. -/
def readDotsGes : Option Str → Except PyErr (Option Nat)
  | none => .ok none
  | some s => match pyInt s with
    | none => .error .valueError
    | some n => .ok (some n.toNat)

/-- mei/meireader.py:4640-4674: the duration, from the lengths and dots; `dflt` is the default duration's length. -/
def assembleDur (mk : Rat → String × Nat) (dflt dur ges : Rat) (dots : Nat) (dotsGes : Option Nat) : RDur :=
  let dur' := if dur = 0 then ges else dur
  let ges' := if dur = 0 then 0 else ges
  let base := if dur' = 0 then dflt else dur'
  let d := makeDuration mk base dots
  let g : Option RDur := match dotsGes with
    | some k => if ges' ≠ 0 then some (makeDuration mk ges' k) else some (makeDuration mk base k)
    | none => if ges' ≠ 0 then some (makeDuration mk ges' 0) else none
  match g with
  | none => d
  | some g => if g.ql ≠ d.ql then { d with linked := false, ql := g.ql } else d

/-- mei/meireader.py:4573-4674 `durationFromAttributes` (no `<dot>` elements). -/
def readDur (mk : Rat → String × Nat) (dflt : Rat) (a : DurAttr) : Except PyErr RDur := do
  let dur ← readLength a.dur
  let ges ← readLength a.durGes
  let dots ← readDots a.dots
  let dotsGes ← readDotsGes a.dotsGes
  return assembleDur mk dflt dur ges dots dotsGes

/-- mei/meireader.py:3016-3101, one `scaleToTuplet`: the multiplier of the tuplet applied to the length, written or not. -/
def scaleDur (m : Rat) (d : RDur) : RDur := { d with ql := d.ql * m }

/-- All tuplets around a note, innermost first. -/
def scaleAll (ms : List Rat) (d : RDur) : RDur := ms.foldl (fun d m => scaleDur m d) d

/-- mei/meireader.py:6095-6099: in a two-note tremolo both notes last half the length of the first. -/
def halveDur (first d : RDur) : RDur := { d with linked := false, ql := first.ql / 2 }

/-- mei/meireader.py:4832-4842: is the grace note an accented one? `none` for an ordinary note. -/
def readGrace : Option String → Option Bool
  | none => none
  | some s => some (s == "acc")

/-- mei/meireader.py:4834-4842: the grace note that music21 is given. -/
def readGraceKind : Option String → Option GraceKind
  | none => none
  | some s => if s = "acc" then some .appoggiatura else some (.grace false false (some true))

/-! ## Pitches -/

/-- A music21 pitch: step, octave, and accidental with its name and whether it is displayed (`displayStatus` is true). -/
structure MPitch where
  step : Char
  octave : Int
  accidental : Option (String × Bool)
deriving DecidableEq, Repr

/-- Attributes of an MEI note. -/
structure PitchAttr where
  pname : Char
  oct : Str
  octGes : Option Str
  accid : Option String
  accidGes : Option String
deriving DecidableEq, Repr

/-- mei/m21objectconvert.py:766-778. -/
def accidTable : List (String × String) :=
  [("natural", "n"), ("sharp", "s"), ("double-sharp", "ss"), ("triple-sharp", "ts"), ("flat", "f"), ("double-flat", "ff"),
   ("triple-flat", "tf"), ("half-sharp", "sd"), ("one-and-a-half-sharp", "su"), ("half-flat", "fu"),
   ("one-and-a-half-flat", "fd")]

/-- mei/m21objectconvert.py:780-790. -/
def accidGesTable : List (String × String) :=
  [("natural", "n"), ("sharp", "s"), ("double-sharp", "ss"), ("flat", "f"), ("double-flat", "ff"), ("half-sharp", "sd"),
   ("one-and-a-half-sharp", "su"), ("half-flat", "fu"), ("one-and-a-half-flat", "fd")]

/-- mei/m21objectconvert.py:381-392: `accid` or `accid.ges`. -/
def accidAttrs : Option (String × Bool) → Option String × Option String
  | none => (none, none)
  | some (name, true) => (some ((accidTable.lookup name).getD ""), none)
  | some (name, false) =>
    match accidGesTable.lookup name with
    | none => (none, none)
    | some g => if g = "n" then (none, none) else (none, some g)

/-- mei/m21objectconvert.py:311-318: octaves by which an ottava shifts. -/
def ottavaTable : List (String × Int) :=
  [("8va", 1), ("8vb", -1), ("15ma", 2), ("15mb", -2), ("22da", 3), ("22db", -3)]

/-- An ottava over a note: its type and whether it is transposing (the notes' octaves are those written on the page). -/
structure Ottava where
  type : String
  transposing : Bool
deriving DecidableEq, Repr

/-- mei/m21objectconvert.py:321-333 `_getOttavaShiftAndTransposing`: a type that is not in the table raises KeyError. -/
def ottavaShift : Option Ottava → Except PyErr (Int × Bool)
  | none => .ok (0, true)
  | some o => match ottavaTable.lookup o.type with
    | none => .error .keyError
    | some s => .ok (s, o.transposing)

/-- mei/m21objectconvert.py:359-392: pitch attributes of a note. -/
def writePitch (o : Option Ottava) (p : MPitch) : Except PyErr PitchAttr :=
  match ottavaShift o with
  | .error e => .error e
  | .ok (s, tr) =>
    let a := accidAttrs p.accidental
    if s = 0 then .ok ⟨p.step.toLower, intStr p.octave, none, a.1, a.2⟩
    else if tr then .ok ⟨p.step.toLower, intStr p.octave, some (intStr (p.octave + s)), a.1, a.2⟩
    else .ok ⟨p.step.toLower, intStr (p.octave - s), some (intStr p.octave), a.1, a.2⟩

/-- mei/meireader.py:557-563 `_ACCID_ATTR_DICT`. -/
def readAccidTable : List (String × String) :=
  [("s", "#"), ("f", "-"), ("ss", "##"), ("x", "##"), ("ff", "--"), ("xs", "###"), ("ts", "###"), ("tf", "---"), ("n", "n"),
   ("nf", "-"), ("ns", "#"), ("su", "#~"), ("sd", "~"), ("fu", "`"), ("fd", "-`"), ("nu", "~"), ("nd", "`"), ("1qf", "`"),
   ("3qf", "-`"), ("1qs", "~"), ("3qs", "#~")]

/-- mei/meireader.py:567-571 `_ACCID_GES_ATTR_DICT`. -/
def readAccidGesTable : List (String × String) :=
  [("s", "#"), ("f", "-"), ("ss", "##"), ("ff", "--"), ("n", "n"), ("su", "#~"), ("sd", "~"), ("fu", "`"), ("fd", "-`")]

/-- The accidentals of music21 by modifier (music21/pitch.py accidentalNameToModifier). -/
def m21Modifiers : List (String × String) :=
  [("n", "natural"), ("#", "sharp"), ("##", "double-sharp"), ("###", "triple-sharp"), ("####", "quadruple-sharp"),
   ("-", "flat"), ("--", "double-flat"), ("---", "triple-flat"), ("----", "quadruple-flat"), ("~", "half-sharp"),
   ("#~", "one-and-a-half-sharp"), ("`", "half-flat"), ("-`", "one-and-a-half-flat")]

/-- mei/meireader.py:4846-4862: the accidental; `accid.ges` wins over `accid`. An unknown value of either is as good as none. -/
def readAccid (accid accidGes : Option String) : Option (String × Bool) :=
  match accidGes.bind (fun a => readAccidGesTable.lookup a) with
  | some m => (m21Modifiers.lookup m).map (·, false)
  | none => match accid.bind (fun a => readAccidTable.lookup a) with
    | some m => (m21Modifiers.lookup m).map (·, true)
    | none => none

/-- mei/meireader.py:4774-4780 and 4846-4864: the pitch. -/
def readPitch (a : PitchAttr) : Option MPitch :=
  let oct := if a.oct.isEmpty then (a.octGes.getD []) else a.oct
  let oct := if oct.isEmpty then "4".toList else oct
  match pyInt oct with
  | none => none
  | some o => some ⟨a.pname.toUpper, o, readAccid a.accid a.accidGes⟩

/-- mei/m21objectconvert.py:1058-1065. -/
def disTable : List (String × (String × String)) :=
  [("8va", ("8", "above")), ("8vb", ("8", "below")), ("15ma", ("15", "above")), ("15mb", ("15", "below")),
   ("22da", ("22", "above")), ("22db", ("22", "below"))]

/-- mei/meireader.py:1486-1493. -/
def readDisTable : List ((String × String) × String) :=
  [(("8", "above"), "8va"), (("8", "below"), "8vb"), (("15", "above"), "15ma"), (("15", "below"), "15mb"),
   (("22", "above"), "22da"), (("22", "below"), "22db")]

/-- mei/m21objectconvert.py:1150-1156 and mei/meireader.py:1520-1538: an ottava written and read; it is always transposing then. -/
def readOttava (o : Ottava) : Option Ottava :=
  match disTable.lookup o.type with
  | none => none
  | some d => (readDisTable.lookup d).map (⟨·, true⟩)

/-! ## Tremolos -/

/-- mei/meilayer.py:334-345 `_QL_NO_DOTS_TO_NUM_FLAGS` and mei/meireader.py:609-620 `_QL_TO_NUMFLAGS`. -/
def flagsOfLength : List (Rat × Nat) :=
  [(1/2, 1), (1/4, 2), (1/8, 3), (1/16, 4), (1/32, 5), (1/64, 6), (1/128, 7), (1/256, 8), (1/512, 9)]

/-- mei/meilayer.py:310-320 `_NUM_MARKS_TO_UNIT_DUR`. -/
def unitDurTable : List (Nat × String) :=
  [(1, "8"), (2, "16"), (3, "32"), (4, "64"), (5, "128"), (6, "256"), (7, "512"), (8, "1024"), (9, "2048")]

/-- mei/meireader.py:596-607 `_DUR_TO_NUMBEAMS` (and, backwards, mei/meilayer.py:322-332 `_UNIT_DUR_TO_BEAMS`). -/
def numBeamsTable : List (String × Nat) :=
  [("8", 1), ("16", 2), ("32", 3), ("64", 4), ("128", 5), ("256", 6), ("512", 7), ("1024", 8), ("2048", 9)]

/-- mei/meilayer.py:355-371 and 394-430: `unitdur` of a tremolo over a note whose type lasts `undotted`; `none` when the tremolo
is skipped. The attribute `beams` of an `fTrem` is the number of beams of `unitdur`. -/
def writeTrem (marks : Nat) (undotted : Rat) : Option String :=
  unitDurTable.lookup (marks + (flagsOfLength.lookup undotted).getD 0)

/-- music21 has no tremolo with nine marks. -/
def atMost8 (n : Nat) : Nat := if n = 9 then 8 else n

/-- mei/meireader.py:6012-6028: the marks of a `bTrem`. -/
def readBTrem (unitdur : String) : Nat := atMost8 ((numBeamsTable.lookup unitdur).getD 0)

/-- mei/meireader.py:6058-6104: the marks of an `fTrem` whose first note lasts `ql`. -/
def readFTrem (unitdur : String) (ql : Rat) : Nat :=
  atMost8 ((numBeamsTable.lookup unitdur).getD 0 - (flagsOfLength.lookup ql).getD 0)

end C21
