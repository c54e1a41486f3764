import Verif.Model.PyStr
/-
Model of the text of chord symbols: `M21Utilities.convertChordSymbolFigureToPrintableText`
(converter21/shared/m21utilities.py:2979-3023), used by the MEI writer and by the Humdrum reader, and
`convertPrintableTextToChordSymbolFigure` (3026-3070), used by the MEI reader (mei/meireader.py:8191).
-/
namespace C21

/-- `accidentalFlat` and `accidentalSharp` (shared/sharedconstants.py:134, 136). -/
def smuflFlat : Char := Char.ofNat 0xE260
def smuflSharp : Char := Char.ofNat 0xE262

/-- One pass of the loop over the characters (m21utilities.py:2994-3002). -/
def figChar (ch : Char) : Str :=
  if ch = 'b' then [smuflFlat] else if ch = '#' then [smuflSharp] else if ch = ' ' then [] else [ch]

/-- The two substitutions and the loop (m21utilities.py:2987-3002). -/
def figureChars (fig : Str) : Str :=
  (replaceAll ['-'] ['b'] (replaceAll "subtract".toList "omit".toList fig)).flatMap figChar

/-- The root and the bass are removed (m21utilities.py:3004-3013). -/
def dropNames (out : Str) : Str :=
  ((out.drop 1).dropWhile (fun c => decide (c = smuflFlat) || decide (c = smuflSharp))).takeWhile (fun c => decide (c ≠ '/'))

/-- The tweaks at the end (m21utilities.py:3015-3021). -/
def figTweaks (out : Str) : Str :=
  let o1 := replaceAll "dim".toList ['°'] out
  if 'o' ∈ o1 then
    replaceAll "o11".toList ['°', '1', '1'] (replaceAll ['o', smuflFlat, '9'] ['°', smuflFlat, '9']
      (replaceAll "o9".toList ['°', '9'] (replaceAll "o7".toList ['°', '7'] o1)))
  else o1

/-- `convertChordSymbolFigureToPrintableText` (m21utilities.py:2979-3023). -/
def figureToText (fig : Str) (removeNoteNames : Bool) : Str :=
  figTweaks (if removeNoteNames then dropNames (figureChars fig) else figureChars fig)

/-- `ACCIDENTAL_CHAR_TO_ASCII` (m21utilities.py:2920-2934). -/
def accAscii (c : Char) : Option Str :=
  if c = '♭' then some ['b'] else if c = '♯' then some ['#']
  else if c = Char.ofNat 0xE260 then some ['b'] else if c = Char.ofNat 0xE262 then some ['#']
  else if c = Char.ofNat 0xE263 then some ['#', '#'] else if c = Char.ofNat 0xE264 then some ['b', 'b']
  else if c = Char.ofNat 0xE265 then some ['#', '#', '#'] else if c = Char.ofNat 0xE266 then some ['b', 'b', 'b']
  else if c = Char.ofNat 0xE267 then some ['b'] else if c = Char.ofNat 0xE268 then some ['#']
  else if c = Char.ofNat 0xE269 then some ['#', '#'] else none

/-- Spaces around words (m21utilities.py:3029-3035). -/
def respaced (text : Str) : Str :=
  replaceAll "alter".toList " alter ".toList (replaceAll "subtract".toList " omit ".toList
    (replaceAll "omit".toList " omit ".toList (replaceAll "add".toList " add ".toList text)))

/-- The loop over the accidentals of the root (m21utilities.py:3048-3050): `ch` stays the same. `none`: more than `fuel`
passes. -/
def spinRoot (ch : Char) : Nat → Str → Option Str
  | 0, _ => none
  | fuel + 1, out =>
    match accAscii ch with
    | some a => spinRoot ch fuel (out ++ a)
    | none => some out

/-- The other characters (m21utilities.py:3057-3068). -/
def restLoop : Bool → Str → Str
  | _, [] => []
  | hy, ch :: r =>
    (match accAscii ch with
      | some a => if (if ch = '/' then false else hy) && decide (a ∈ [['b'], ['b', 'b'], ['b', 'b', 'b']]) then List.replicate a.length '-' else a
      | none => [ch]) ++ restLoop (if ch = '/' then false else hy) r

/-- `convertPrintableTextToChordSymbolFigure` (m21utilities.py:3026-3070). -/
def textToFigure (fuel : Nat) (text : Str) : Option Str :=
  match respaced text with
  | [] => some []
  | c :: rest =>
    match spinRoot c fuel [c] with
    | none => none
    | some out => some (out ++ restLoop true rest)

end C21
