import Verif.Model.PyNum
import Verif.Model.PyStr
/-
Bar lines in MEI: how the writer puts them in the attributes of measures (mei/m21objectconvert.py:2025-2184,
mei/meimeasure.py:210-246) and how the reader takes them out (mei/meireader.py:662-669, 2179-2208, 6884-6913, 9001-9027).

Simplifications: one staff (the writer looks at the first staff only, and the reader copies to all staves); sections and
endings are flattened (the reader passes the pending left bar line in and out of them); warnings are not modelled.
-/
namespace C21

/-- A music21 bar line: a `Barline` with its type, or a `Repeat` with its direction. -/
inductive MBar where
  | plain (type : String)
  | rpt (direction : String)
deriving DecidableEq, Repr

/-- mei/m21objectconvert.py:2025-2036. -/
def meiBarTable : List (String × String) :=
  [("regular", ""), ("heavy-light", ""), ("heavy", "heavy"), ("dotted", "dotted"), ("dashed", "dashed"), ("double", "dbl"),
   ("final", "end"), ("none", "invis"), ("start", "rptstart"), ("end", "rptend")]

/-- A lookup that raises KeyError. -/
def tableGet (t : List (String × String)) (k : String) : Except PyErr String :=
  match t.lookup k with
  | some v => .ok v
  | none => .error .keyError

/-- mei/m21objectconvert.py:2039-2072 `m21BarlineToMeiMeasureBarlineAttr`. -/
def barToAttr : Option MBar → Except PyErr String
  | none => .ok ""
  | some (.rpt d) => tableGet meiBarTable d
  | some (.plain t) => tableGet meiBarTable t

/-- mei/m21objectconvert.py:2130-2184 `meiMeasureBarlineAttrCombine`. `startswith('rpt')` is written out for the
three values that can occur. -/
def barCombine (a b : String) : String :=
  if a = b then a
  else if a = "" then b
  else if b = "" then a
  else if a = "invis" ∨ b = "invis" then "invis"
  else if a = "rptstart" ∧ b = "rptend" then "rptboth"
  else if a = "rptend" ∧ b = "rptstart" then "rptboth"
  else if a = "rptboth" then a
  else if b = "rptboth" then b
  else if a = "rptstart" ∨ a = "rptend" then a
  else if b = "rptstart" ∨ b = "rptend" then b
  else if a = "end" then a
  else if b = "end" then b
  else if a = "dbl" then a
  else if b = "dbl" then b
  else if a = "dashed" then a
  else if b = "dashed" then b
  else if a = "dotted" then a
  else if b = "dotted" then b
  else ""

/-- mei/m21objectconvert.py:2075-2090 `m21BarlinesToMeiMeasureBarlineAttr`. -/
def barsToAttr (a b : Option MBar) : Except PyErr String :=
  match barToAttr a with
  | .error e => .error e
  | .ok x => match barToAttr b with
    | .error e => .error e
    | .ok y => .ok (barCombine x y)

/-- A music21 measure: its left and right bar lines. -/
structure MMeasure where
  left : Option MBar
  right : Option MBar
deriving DecidableEq, Repr

/-- The attributes of an MEI measure; the empty string stands for an absent attribute. -/
structure MeiBars where
  left : String
  right : String
deriving DecidableEq, Repr

/-- mei/meimeasure.py:219-246: the right attribute of each measure, from its right bar line and the next one's left. -/
def writeRights : List MMeasure → Except PyErr (List String)
  | [] => .ok []
  | [m] => match barsToAttr m.right none with
    | .error e => .error e
    | .ok r => .ok [r]
  | m :: n :: rest => match barsToAttr m.right n.left with
    | .error e => .error e
    | .ok r => match writeRights (n :: rest) with
      | .error e => .error e
      | .ok rs => .ok (r :: rs)

/-- The left attribute is written for the first measure only. -/
def withFirstLeft (l : String) : List String → List MeiBars
  | [] => []
  | r :: rs => ⟨l, r⟩ :: rs.map (fun r => ⟨"", r⟩)

/-- mei/meimeasure.py:210-246 `_fillInMeasureAttributes` for all measures of a score. -/
def writeBars (ms : List MMeasure) : Except PyErr (List MeiBars) :=
  match barToAttr (ms.head?.bind (·.left)) with
  | .error e => .error e
  | .ok l => match writeRights ms with
    | .error e => .error e
    | .ok rs => .ok (withFirstLeft l rs)

/-- mei/meireader.py:662-669 `_BAR_ATTR_DICT`. -/
def readBarTable : List (String × String) :=
  [("dashed", "dashed"), ("dotted", "dotted"), ("dbl", "double"), ("end", "final"), ("invis", "none"), ("single", "regular")]

/-- What `_barlineFromAttr` returns. -/
inductive ReadBar where
  | one (b : MBar)
  | both
deriving DecidableEq, Repr

/-- mei/meireader.py:2179-2208 `_barlineFromAttr`; an unknown value is warned about and becomes `Barline(None)`, a regular
bar line. -/
def readBar (attr : String) : ReadBar :=
  if startsWith attr.toList "rpt".toList then
    if attr = "rptboth" then .both
    else if attr = "rptend" then .one (.rpt "end")
    else .one (.rpt "start")
  else .one (.plain ((readBarTable.lookup attr).getD "regular"))

/-- mei/meireader.py:6884-6893: the left bar line of a measure. -/
def readLeft (attr : String) : Option MBar :=
  if attr = "" ∨ attr = "single" then none
  else match readBar attr with
    | .both => some (.rpt "start")
    | .one b => some b

/-- mei/meireader.py:6895-6913: the right bar line, and the left bar line for the next measure. -/
def readRight (attr : String) : MBar × Option MBar :=
  match readBar (if attr = "" then "single" else attr) with
  | .both => (.rpt "end", some (.rpt "start"))
  | .one b => if b = .rpt "start" then (.plain "regular", some b) else (b, none)

/-- mei/meireader.py:9001-9027: all measures in turn, with the left bar line pending from the measure before. -/
def readBars : Option MBar → List MeiBars → List MMeasure
  | _, [] => []
  | pending, m :: ms =>
    ⟨pending.or (readLeft m.left), some (readRight m.right).1⟩ :: readBars (readRight m.right).2 ms

end C21
