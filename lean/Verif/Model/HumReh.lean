import Verif.Model.Text
import Verif.Model.ParamSet
import Verif.Model.PyNum
/-
Rehearsal marks: humdrum/m21convert.py:1811-1926 and humdrum/humdrumwriter.py:2761-2787, 3072-3090 (written as `!!LO:REH` lines),
humdrum/gridmeasure.py:773-778 and 805-861 and humdrum/humgrid.py:961-974 (where the lines go),
humdrum/humdrumfile.py:10495-10720 and 12829-12873 (reading).
-/
namespace C21

/-- The attributes of `m21.style.TextStylePlacement` used.  The size is the text of the number; an enclosure is the text of the enumeration
member (`Enclosure` compares equal to its text). -/
structure RehStyle where
  placement : Option Str := none
  absoluteY : Option Rat := none
  fontStyle : Option Str := none
  fontWeight : Option Str := none
  fontSize : Option Str := none
  justify : Option Str := none
  color : Option Str := none
  enclosure : Option Str := none
deriving DecidableEq

/-- m21convert.py:1835-1846: placement; `absoluteY` overrides. -/
def rehPlacement (st : RehStyle) : Str :=
  match st.absoluteY with
  | some y => if y > 0 then ":a".toList else ":b".toList
  | none =>
    if st.placement = some "above".toList then ":a".toList
    else if st.placement = some "below".toList then ":b".toList else []

/-- m21convert.py:1851-1859. -/
def rehItalic (st : RehStyle) : Bool :=
  st.fontStyle = some "italic".toList || st.fontStyle = some "bolditalic".toList

/-- m21convert.py:1851-1862. -/
def rehBold (st : RehStyle) : Bool :=
  st.fontStyle = some "bold".toList || st.fontStyle = some "bolditalic".toList || st.fontWeight = some "bold".toList

/-- m21convert.py:1867-1872. -/
def rehFont (st : RehStyle) : Str :=
  if rehItalic st && rehBold st then ":Bi".toList
  else if rehItalic st then ":i".toList
  else if rehBold st then ":B".toList else []

/-- m21convert.py:1864-1865. -/
def rehSize (st : RehStyle) : Str :=
  match st.fontSize with
  | some s => ":fs=".toList ++ s
  | none => []

/-- m21convert.py:1874-1877. -/
def rehJustify (st : RehStyle) : Str :=
  if st.justify = some "right".toList then ":rj".toList
  else if st.justify = some "center".toList then ":cj".toList else []

/-- m21convert.py:1879-1880 (an empty text is false). -/
def rehColor (st : RehStyle) : Str :=
  match st.color with
  | some (c :: cs) => ":color=".toList ++ (c :: cs)
  | _ => []

/-- m21convert.py:1882-1892. -/
def rehEnclosure (st : RehStyle) : Str :=
  if st.enclosure = some "square".toList then ":enc=box".toList
  else if st.enclosure = some "circle".toList || st.enclosure = some "oval".toList then ":enc=circle".toList
  else if st.enclosure = some "triangle".toList then ":enc=tbox".toList
  else if st.enclosure = some "diamond".toList then ":enc=dbox".toList
  else if st.enclosure = some "none".toList then ":enc=none".toList else []

/-- m21convert.py:1834-1892: the parameters that come from the style; nothing without one. -/
def rehStyles : Option RehStyle → Str
  | none => []
  | some st => rehPlacement st ++ rehFont st ++ rehJustify st ++ rehColor st ++ rehEnclosure st ++ rehSize st

/-- m21convert.py:1897-1900: the text of the offset; `ft` is Python's text of a float that is not whole. -/
def qoText (ft : Rat → Str) (o : Rat) : Str := if o.den = 1 then intStr o.num else ft o

/-- m21convert.py:1896-1900. -/
def rehOffset (ft : Rat → Str) (o : Rat) : Str := if o = 0 then [] else ":qo=".toList ++ qoText ft o

/-- m21convert.py:1811-1902 `rehearsalMarkLayoutParameterFromM21Pieces`; `none` is the IndexError of the translation of glyphs. -/
def rehText (ft : Rat → Str) (content : Str) (staff : Nat) (o : Rat) (style : Option RehStyle) : Option Str :=
  (translateSMUFL content).map fun c =>
    "!!LO:REH".toList ++ (":place=s".toList ++ natStr staff) ++ rehStyles style ++ ":t=".toList ++ cleanSpacesAndColons c ++ rehOffset ft o

/-- One mark of the score: text, number of its staff, offset in its measure, style. -/
structure RehIn where
  content : Str
  staff : Nat
  offset : Rat
  style : Option RehStyle := none

/-- humdrumwriter.py:2761-2787 and 3072-3090, gridmeasure.py:773-778: the lines put at the start of a measure, each mark in front of those
already there. -/
def rehLines (ft : Rat → Str) : List RehIn → List Str → Option (List Str)
  | [], acc => some acc
  | m :: ms, acc =>
    match rehText ft m.content m.staff m.offset m.style with
    | none => none
    | some t => rehLines ft ms (t :: acc)

/-! ### Where the lines go -/

/-- The kinds of slices that matter here. `reh` is a slice of a global layout line that starts with `!!LO:REH`. -/
inductive SliceK where
  | data | localLayout | manip | verseLabel | bar | reh | globalLayout | other | invalid
deriving DecidableEq

/-- gridmeasure.py:823-830: the slices before which the first barline must be written. -/
def SliceK.forcesBar : SliceK → Bool
  | .data | .localLayout | .manip | .verseLabel => true
  | _ => false

/-- humgrid.py:961-974: the barline is put after the leading rehearsal marks. With rehearsal marks only the index found is 0. -/
def insertBar {α : Type} (kind : α → SliceK) (b : α) (l : List α) : List α :=
  match l.dropWhile (fun x => kind x == .reh) with
  | [] => b :: l
  | rest => l.takeWhile (fun x => kind x == .reh) ++ b :: rest

/-- What is held back in the first bar: the barline and the rehearsal marks. -/
structure FirstBar (α : Type) where
  bar : Option α := none
  marks : List α := []
  didBar : Bool := false

/-- gridmeasure.py:817-859: one slice; what is written and what is held back. -/
def transferStep {α : Type} (kind : α → SliceK) (f : FirstBar α) (x : α) : List α × FirstBar α :=
  if kind x = .invalid then ([], f)
  else if (kind x).forcesBar && !f.didBar then
    ((match f.bar with
      | some b => f.marks ++ [b, x]
      | none => [x]), { f with didBar := true })
  else if !f.didBar && kind x = .bar && f.bar.isNone then ([], { f with bar := some x })
  else if !f.didBar && kind x = .reh then ([], { f with marks := f.marks ++ [x] })
  else ([x], f)

/-- gridmeasure.py:817-859 in the first bar. -/
def transferFirst {α : Type} (kind : α → SliceK) (f : FirstBar α) : List α → List α
  | [] => []
  | x :: xs => (transferStep kind f x).1 ++ transferFirst kind (transferStep kind f x).2 xs

/-- gridmeasure.py:785-861: the slices of a measure, in the order written. -/
def transferSlices {α : Type} (kind : α → SliceK) (firstBar : Bool) (duration : Rat) (l : List α) : List α :=
  if firstBar && duration != 0 then transferFirst kind {} l
  else l.filter (fun x => kind x != .invalid)

/-- What `_getNextBarlineIndex` sees in the first token of a line. -/
inductive LineStart where
  | barline | data | ends | other | noToken
deriving DecidableEq

/-- humdrumfile.py:10712-10724: the lines after the start; `start` is the value when nothing is found. -/
def nextBarGo (start : Nat) : Nat → List LineStart → Nat
  | _, [] => start
  | i, .barline :: _ => i
  | _, .data :: _ => start
  | i, .ends :: _ => i
  | i, _ :: ls => nextBarGo start (i + 1) ls

/-- humdrumfile.py:10702-10726 `_getNextBarlineIndex`, the lines given from the start line to the end line. -/
def nextBarline (start : Nat) : List LineStart → Nat
  | [] => start
  | .barline :: _ => start
  | .ends :: _ => start
  | _ :: ls => nextBarGo start (start + 1) ls

/-! ### Reading -/

/-- m21utilities.py:1603-1611 `getQLFromString`: digits are a whole number, an empty text is 0, anything else is left to `fl`
(Python's `float` and `Fraction`, 0 if they fail). -/
def getQL (fl : Str → Rat) (s : Str) : Rat :=
  if s = [] then 0
  else if s.all isDig then (parseNat s : Rat)
  else fl s

/-- humdrumfile.py:12829-12861: one piece of a `!!!LO-style:` line. Simplified: `html.unescape` of the value is a parameter; a piece that
starts with '=' is skipped, as is an empty one. -/
def stylePiece (unesc : Str → Str) (piece : Str) : Option (Str × Str) :=
  match piece with
  | [] => none
  | '=' :: _ => none
  | p =>
    match splitFirst '=' p with
    | some (k, v) => some (k, unesc v)
    | none => some (p, ['1'])

/-- humdrumfile.py:12829-12861 `analyzeDefaultLayoutStyles`, the categories and their parameters, later ones first: the lines in order,
without those that have spines. A line replaces all that an earlier line said of its category. -/
def defaultStyles (unesc : Str → Str) (lines : List Str) : List (Str × List (Str × Str)) :=
  lines.foldl (fun acc line =>
    if startsWith line "!!!LO-style:".toList then
      match splitOn ':' (line.drop 12) with
      | [] => acc
      | cat :: pieces => (cat, (pieces.filterMap (stylePiece unesc)).reverse) :: acc
    else acc) []

/-- humdrumfile.py:12867-12873 `_getDefaultLayoutParameter`. -/
def defaultParam (styles : List (Str × List (Str × Str))) (cat param : Str) : Str :=
  match styles.lookup cat with
  | none => []
  | some ps => (ps.lookup param).getD []

/-- humdrumfile.py:10537-10553: the variables of the loop over the parameters. -/
structure RehVars where
  tvalue : Str
  encl : Str
  aparam : Bool := false
  bparam : Bool := false
  absys : Bool
  qo : Rat
  fontSize : Str
  just : Nat := 0
  italic : Bool := false
  bold : Bool := false
  color : Str
  enclColor : Str
  staffNums : List Str := []

/-- humdrumfile.py:10512-10518 and 10537-10553: their values before the loop; `d` are the defaults of the category REH. -/
def rehInit (fl : Str → Rat) (d : Str → Str) : RehVars where
  tvalue := d "t".toList
  encl := d "enc".toList
  absys := !([[], ['0'], "false".toList].contains (d "absys".toList))
  qo := getQL fl (d "qo".toList)
  fontSize := d "fs".toList
  color := d "color".toList
  enclColor := d "encc".toList

/-- humdrumfile.py:10602-10616: the places. Simplified: `isdigit` knows other digits than the ASCII ones. -/
def placeNums (acc : List Str) : List Str → List Str
  | [] => acc
  | p :: ps =>
    if !startsWith p ['s'] then []
    else if (p.drop 1).isEmpty || !(p.drop 1).all isDig then []
    else placeNums (acc ++ [p.drop 1]) ps

/-- humdrumfile.py:10554-10616: one parameter. -/
def rehParam (fl : Str → Rat) (v : RehVars) (p : Str × Str) : RehVars :=
  if p.1 = "t".toList then { v with tvalue := p.2 }
  else if p.1 = "enc".toList then { v with encl := p.2 }
  else if p.1 = "a".toList then { v with aparam := true }
  else if p.1 = "b".toList then { v with bparam := true }
  else if p.1 = "absys".toList then { v with absys := !([['0'], "false".toList].contains p.2) }
  else if p.1 = "qo".toList then { v with qo := getQL fl p.2 }
  else if p.1 = "fs".toList then { v with fontSize := p.2 }
  else if p.1 = "rj".toList then { v with just := 1 }
  else if p.1 = "cj".toList then { v with just := 2 }
  else if p.1 = "i".toList then { v with italic := true }
  else if p.1 = "B".toList then { v with bold := true }
  else if p.1 = "ib".toList || p.1 = "iB".toList || p.1 = "bi".toList || p.1 = "Bi".toList then { v with bold := true, italic := true }
  else if p.1 = "color".toList then { v with color := p.2 }
  else if p.1 = "encc".toList then { v with enclColor := p.2 }
  else if p.1 = "place".toList then { v with staffNums := placeNums v.staffNums (splitOn ',' p.2) }
  else v

/-- A rehearsal mark as read. -/
structure RehOut where
  text : Str
  placement : Option Str := none
  fontSize : Option Str := none
  fontStyle : Option Str := none
  justify : Option Str := none
  color : Option Str := none
  enclosure : Option Str := none
deriving DecidableEq

/-- An empty text is false. -/
def ifText (s : Str) : Option Str := if s = [] then none else some s

/-- humdrumfile.py:10649-10656: placement of the mark of the staff with this index. -/
def rehPlaced (v : RehVars) (absys : Bool) (staffCount : Nat) (idx : Int) : Option Str :=
  if absys && idx = 0 then some "above".toList
  else if absys && idx = (staffCount : Int) - 1 then some "below".toList
  else if v.aparam then some "above".toList
  else if v.bparam then some "below".toList
  else none

/-- humdrumfile.py:10681-10691. `hasNone`: this music21 has `NO_ENCLOSURE`. -/
def rehEncl (hasNone : Bool) (encl : Str) : Option Str :=
  if encl = "box".toList then some "square".toList
  else if encl = "circle".toList then some "circle".toList
  else if encl = "dbox".toList then some "diamond".toList
  else if encl = "tbox".toList then some "triangle".toList
  else if encl = "none".toList && hasNone then some "none".toList
  else none

/-- humdrumfile.py:10645-10691: the mark of one staff. -/
def rehMark (hasNone : Bool) (v : RehVars) (absys : Bool) (staffCount : Nat) (idx : Int) : RehOut where
  text := v.tvalue
  placement := rehPlaced v absys staffCount idx
  fontSize := ifText v.fontSize
  fontStyle :=
    if v.bold && v.italic then some "bolditalic".toList
    else if v.italic then some "italic".toList
    else if v.bold then some "bold".toList else none
  justify := if v.just = 1 then some "right".toList else if v.just = 2 then some "center".toList else none
  color := if v.color ≠ [] then some v.color else ifText v.enclColor
  enclosure := rehEncl hasNone v.encl

/-- humdrumfile.py:10621-10635: the staves of the mark. -/
def rehStaves (v : RehVars) (absys : Bool) (staffCount : Nat) : List Int :=
  let base : List Int := if v.staffNums = [] then [0] else v.staffNums.map (fun s => (parseNat s : Int) - 1)
  if absys then
    let l := if base.contains 0 then base else 0 :: base
    if l.contains ((staffCount : Int) - 1) then l else l ++ [(staffCount : Int) - 1]
  else base

/-- Python indexing of a list of this length. -/
def seqIndex (n : Nat) (i : Int) : Except PyErr Nat :=
  if 0 ≤ i && i < n then .ok i.toNat
  else if -(n : Int) ≤ i && i < 0 then .ok (i + n).toNat
  else .error .indexError

/-- humdrumfile.py:10696-10697: insertion in the measures of the staves. -/
def rehInsert (hasNone : Bool) (v : RehVars) (absys : Bool) (staffCount : Nat) : List Int → Except PyErr (List (Nat × Rat × RehOut))
  | [] => .ok []
  | i :: is =>
    match seqIndex staffCount i with
    | .error e => .error e
    | .ok k =>
      match rehInsert hasNone v absys staffCount is with
      | .error e => .error e
      | .ok rest => .ok ((k, v.qo, rehMark hasNone v absys staffCount i) :: rest)

/-- humdrumfile.py:10520-10700: one parameter set linked to the barline: what is inserted where. Simplified: the reader also asks that the
comment is global, which a text starting with `!!` is. -/
def readReh (fl : Str → Rat) (hasNone : Bool) (d : Str → Str) (staffCount : Nat) (hps : HumParamSet) : Except PyErr (List (Nat × Rat × RehOut)) :=
  if hps.ns1 ≠ "LO".toList || hps.ns2 ≠ "REH".toList then .ok []
  else
    let v := hps.params.foldl (rehParam fl) (rehInit fl d)
    let absys := v.absys && decide (2 ≤ staffCount)
    rehInsert hasNone v absys staffCount (rehStaves v absys staffCount)

/-- humdrumfile.py:10520-10700 over the comments linked to the barline, in order. -/
def readRehs (fl : Str → Rat) (hasNone : Bool) (d : Str → Str) (staffCount : Nat) : List Str → Except PyErr (List (Nat × Rat × RehOut))
  | [] => .ok []
  | t :: ts =>
    match readReh fl hasNone d staffCount (({} : HumParamSet).readString t) with
    | .error e => .error e
    | .ok a =>
      match readRehs fl hasNone d staffCount ts with
      | .error e => .error e
      | .ok b => .ok (a ++ b)

end C21
