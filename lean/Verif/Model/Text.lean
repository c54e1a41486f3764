import Verif.Model.PyStr
/-
Model of the text export helpers of /repo/converter21/humdrum/m21convert.py and of the decoding done when a
text direction is imported (/repo/converter21/humdrum/humdrumfile.py).
-/
namespace C21

/-- The non-breaking space U+00A0. -/
def nbsp : Char := Char.ofNat 0xa0

/-- m21convert.py:1941-1960: the replacement of one character. -/
def cleanChar (ch : Char) : Str :=
  if ch = nbsp then "&nbsp;".toList
  else if ch = ':' then "&colon;".toList
  else if ch = '\n' then ['\\', 'n']
  else if ch = '\t' || ch = '\r' || ch = Char.ofNat 11 || ch = Char.ofNat 12 then [' ']
  else [ch]

/-- m21convert.py:1937-1965 `_cleanSpacesAndColons`. -/
def cleanSpacesAndColons (s : Str) : Str := strip (s.flatMap cleanChar)

/-- sharedconstants.py:543-576: SMuFL metronome-mark note glyphs and their Humdrum names. -/
def smuflNoteNames : List (Char × Str) :=
  [(Char.ofNat 0xECA0, "double-whole".toList), (Char.ofNat 0xECA1, "breve".toList),
   (Char.ofNat 0xECA2, "whole".toList), (Char.ofNat 0xECA3, "half".toList),
   (Char.ofNat 0xECA5, "quarter".toList), (Char.ofNat 0xECA7, "8th".toList),
   (Char.ofNat 0xECA9, "16th".toList), (Char.ofNat 0xECAB, "32nd".toList),
   (Char.ofNat 0xECAD, "64th".toList), (Char.ofNat 0xECAF, "128th".toList),
   (Char.ofNat 0xECB1, "256th".toList), (Char.ofNat 0xECB3, "512th".toList),
   (Char.ofNat 0xECB5, "1024th".toList)]

/-- Membership in, and value of, the table above. -/
def smuflName (c : Char) : Option Str := smuflNoteNames.lookup c

/-- sharedconstants.py:557 `metAugmentationDot`. -/
def smuflDot : Char := Char.ofNat 0xECB7

/-- The thin and hair spaces of m21convert.py:1999-2000. -/
def isThin (c : Char) : Bool := c == Char.ofNat 0x2009 || c == Char.ofNat 0x200A

/-- m21convert.py:1996-2006: the inner `while text[j] in (...)` loop.  Returns how many characters were
consumed and the '-dot's produced; `none` is the IndexError of reading `text[len(text)]`. -/
def scanDots : Str → Option (Nat × Str)
  | [] => none
  | c :: rest =>
    if isThin c then (scanDots rest).map fun r => (r.1 + 1, r.2)
    else if c = smuflDot then (scanDots rest).map fun r => (r.1 + 1, "-dot".toList ++ r.2)
    else some (0, [])

/-- m21convert.py:1986-2020: the main loop; the `Nat` is `numCharsToSkip`. -/
def translateGo : Nat → Str → Option Str
  | _, [] => some []
  | skip + 1, _ :: rest => translateGo skip rest
  | 0, c :: rest =>
    match smuflName c with
    | some name =>
      match scanDots rest with
      | none => none
      | some (n, dots) => (translateGo n rest).map fun o => '[' :: name ++ dots ++ ']' :: o
    | none =>
      if isThin c then translateGo 0 rest
      else if c = nbsp then (translateGo 0 rest).map fun o => ' ' :: o
      else (translateGo 0 rest).map fun o => c :: o

/-- m21convert.py:1968-2022 `translateSMUFLNotesToNoteNames`; `none` is an IndexError. -/
def translateSMUFL (text : Str) : Option Str :=
  if text.any (fun c => (smuflName c).isSome) then translateGo 0 text else some text

/-- The attributes of `m21.style.TextStyle` read by `textLayoutParameterFromM21Pieces`. -/
structure TextStyle where
  alignVertical : Option Str := none
  absoluteY : Option Rat := none
  fontStyle : Option Str := none
  fontWeight : Option Str := none
  justify : Option Str := none
  color : Option Str := none
deriving DecidableEq

/-- m21convert.py:1741-1756: placement. -/
def textPlacement (placement : Option Str) (style : Option TextStyle) : Str :=
  let base :=
    if placement = some "above".toList then ":a".toList
    else if placement = some "below".toList then
      match style with
      | some st => if st.alignVertical = some "middle".toList then ":c".toList else ":b".toList
      | none => ":b".toList
    else []
  match style with
  | some st =>
    match st.absoluteY with
    | some y => if y > 0 then ":a".toList else ":b".toList
    | none => base
  | none => base

/-- m21convert.py:1758-1778: font style. -/
def textFont (st : TextStyle) : Str :=
  let italic := st.fontStyle = some "italic".toList || st.fontStyle = some "bolditalic".toList
  let bold := st.fontStyle = some "bold".toList || st.fontStyle = some "bolditalic".toList
    || st.fontWeight = some "bold".toList
  if italic && bold then ":Bi".toList else if italic then ":i".toList else if bold then ":B".toList else []

/-- m21convert.py:1780-1783: justification. -/
def textJustify (st : TextStyle) : Str :=
  if st.justify = some "right".toList then ":rj".toList
  else if st.justify = some "center".toList then ":cj".toList else []

/-- m21convert.py:1785-1786: color (an empty string is falsy). -/
def textColor (st : TextStyle) : Str :=
  match st.color with
  | some (c :: cs) => ":color=".toList ++ (c :: cs)
  | _ => []

/-- m21convert.py:1758-1786: the parameters that depend on the style. -/
def textStyles : Option TextStyle → Str
  | some st => textFont st ++ textJustify st ++ textColor st
  | none => []

/-- m21convert.py:1724-1792 `textLayoutParameterFromM21Pieces`; `none` is the IndexError of
`translateSMUFLNotesToNoteNames`. -/
def textLayoutParameter (content : Str) (placement : Option Str) (style : Option TextStyle) : Option Str :=
  (translateSMUFL content).map fun c =>
    "!LO:TX".toList ++ textPlacement placement style ++ textStyles style ++ ":t=".toList ++ cleanSpacesAndColons c

/-- humdrumfile.py:9502 `html.unescape`, restricted to the two entities the exporter writes.  Exact on
texts in which every '&' begins one of them; other HTML entities are not modelled. -/
def unescapeGo : Nat → Str → Str
  | _, [] => []
  | skip + 1, _ :: rest => unescapeGo skip rest
  | 0, c :: rest =>
    if "&colon;".toList.isPrefixOf (c :: rest) then ':' :: unescapeGo 6 rest
    else if "&nbsp;".toList.isPrefixOf (c :: rest) then nbsp :: unescapeGo 5 rest
    else c :: unescapeGo 0 rest

/-- humdrumfile.py:9502-9503: decoding of the text of a direction. -/
def importText (s : Str) : Str := replaceAll ['\\', 'n'] ['\n'] (unescapeGo 0 s)

end C21
