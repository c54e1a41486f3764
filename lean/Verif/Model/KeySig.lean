import Verif.Model.PyStr
import Verif.Model.PyNum
/-
Key signatures and key designations (humdrum/m21convert.py:110-178, 676-740, 2513-2538; humdrum/humdrumtoken.py:52, 1388-1447).
-/
namespace C21

/-- `numSharpsToHumdrumStandardKeyStrings` (m21convert.py:128-158). -/
def sharpsToText : List (Int × String) :=
  [(0, ""), (1, "f#"), (2, "f#c#"), (3, "f#c#g#"), (4, "f#c#g#d#"), (5, "f#c#g#d#a#"), (6, "f#c#g#d#a#e#"),
   (7, "f#c#g#d#a#e#b#"), (8, "f##c#g#d#a#e#b#"), (9, "f##c##g#d#a#e#b#"), (10, "f##c##g##d#a#e#b#"),
   (11, "f##c##g##d##a#e#b#"), (12, "f##c##g##d##a##e#b#"), (13, "f##c##g##d##a##e##b#"), (14, "f##c##g##d##a##e##b##"),
   (-1, "b-"), (-2, "b-e-"), (-3, "b-e-a-"), (-4, "b-e-a-d-"), (-5, "b-e-a-d-g-"), (-6, "b-e-a-d-g-c-"),
   (-7, "b-e-a-d-g-c-f-"), (-8, "b--e-a-d-g-c-f-"), (-9, "b--e--a-d-g-c-f-"), (-10, "b--e--a--d-g-c-f-"),
   (-11, "b--e--a--d--g-c-f-"), (-12, "b--e--a--d--g--c-f-"), (-13, "b--e--a--d--g--c--f-"), (-14, "b--e--a--d--g--c--f--")]

/-- `humdrumStandardKeyStringsToNumSharps` (m21convert.py:110-126). -/
def textToSharps : List (String × Int) :=
  [("", 0), ("f#", 1), ("f#c#", 2), ("f#c#g#", 3), ("f#c#g#d#", 4), ("f#c#g#d#a#", 5), ("f#c#g#d#a#e#", 6),
   ("f#c#g#d#a#e#b#", 7), ("b-", -1), ("b-e-", -2), ("b-e-a-", -3), ("b-e-a-d-", -4), ("b-e-a-d-g-", -5),
   ("b-e-a-d-g-c-", -6), ("b-e-a-d-g-c-f-", -7)]

/-- `keySigTokenFromM21KeySignature` (m21convert.py:2513-2521). -/
def keySigToken (sharps : Int) : Except PyErr Str :=
  match sharpsToText.find? (fun e => e.1 = sharps) with
  | none => .error .keyError
  | some e => .ok ("*k[".toList ++ e.2.toList ++ "]".toList)

/-- `HumdrumToken.isKeySignature` (humdrumtoken.py:1388-1389). -/
def isKeySignature (t : Str) : Bool := startsWith t "*k[".toList && "]".toList.isSuffixOf t

/-- `HumdrumToken.keySignature` (humdrumtoken.py:1392-1395). -/
def keySignature (t : Str) : Str := if isKeySignature t then (t.drop 3).dropLast else []

/-- The modes that music21 has signatures for, `None` left out. -/
inductive KeyMode
  | major | minor | dorian | phrygian | lydian | mixolydian | aeolian | ionian | locrian
  deriving DecidableEq, Repr

/-- A music21 `Key`: the tonic (`CDEFGAB`, with sharps or flats) and the mode. -/
structure M21Key where
  step : Char
  alter : Int
  mode : KeyMode
  deriving DecidableEq, Repr

/-- Sharps of a tonic in major (music21: key.py `pitchToSharps`): not code of /repo. -/
def stepSharps (c : Char) : Int :=
  if c = 'F' then -1 else if c = 'C' then 0 else if c = 'G' then 1 else if c = 'D' then 2 else if c = 'A' then 3
  else if c = 'E' then 4 else 5

/-- Sharps added by a mode (music21: key.py `modeSharpsAlter`): not code of /repo. -/
def modeSharps : KeyMode → Int
  | .major => 0
  | .ionian => 0
  | .minor => -3
  | .aeolian => -3
  | .dorian => -2
  | .phrygian => -4
  | .lydian => 1
  | .mixolydian => -1
  | .locrian => -5

/-- `Key.sharps` of music21: not code of /repo. -/
def M21Key.sharps (k : M21Key) : Int := stepSharps k.step + 7 * k.alter + modeSharps k.mode

/-- The name of a music21 pitch without octave: not code of /repo. -/
def tonicName (k : M21Key) : Str :=
  k.step :: (if 0 ≤ k.alter then List.replicate k.alter.toNat '#' else List.replicate (-k.alter).toNat '-')

/-- `Key.tonicPitchNameWithCase` of music21: lower case for minor. Not code of /repo. -/
def tonicWithCase (k : M21Key) : Str := if k.mode = .minor then (tonicName k).map Char.toLower else tonicName k

/-- `m21ModeToHumdrumMode`, with '' for what is not in it, and nothing for major and minor (m21convert.py:170-178, 2533-2537). -/
def modeText : KeyMode → Str
  | .major => []
  | .minor => []
  | .dorian => "dor".toList
  | .phrygian => "phr".toList
  | .lydian => "lyd".toList
  | .mixolydian => "mix".toList
  | .aeolian => "aeo".toList
  | .ionian => "ion".toList
  | .locrian => "loc".toList

/-- `keyDesignationTokenFromM21KeySignature` for a `Key` (m21convert.py:2524-2538). -/
def keyDesignationToken (k : M21Key) : Str := '*' :: tonicWithCase k ++ ':' :: modeText k.mode

/-- `humdrumModeToM21Mode` (m21convert.py:160-168). -/
def readMode (t : Str) : Option KeyMode :=
  if t = "dor".toList then some .dorian
  else if t = "phr".toList then some .phrygian
  else if t = "lyd".toList then some .lydian
  else if t = "mix".toList then some .mixolydian
  else if t = "aeo".toList then some .aeolian
  else if t = "ion".toList then some .ionian
  else if t = "loc".toList then some .locrian
  else none

def isAccMark (c : Char) : Bool := c = '#' || c = '-'

def isLowerAZ (c : Char) : Bool := 'a'.toNat ≤ c.toNat && c.toNat ≤ 'z'.toNat

/-- The optional group `([a-z]{3})?` (humdrumtoken.py:52). -/
def modeGroup (t : Str) : Option Str := if (t.take 3).length = 3 ∧ (t.take 3).all isLowerAZ then some (t.take 3) else none

/-- `HumdrumToken.keyDesignation` (humdrumtoken.py:52, 1442-1447): the groups of `^\*([a-gA-G][#-]*):([a-z]{3})?`. -/
def keyDesignation : Str → Option (Str × Option Str)
  | '*' :: c :: rest =>
    if c ∈ "abcdefgABCDEFG".toList then
      match rest.dropWhile isAccMark with
      | ':' :: m => some (c :: rest.takeWhile isAccMark, modeGroup m)
      | _ => none
    else none
  | _ => none

/-- The number of sharps of a run of marks: music21 knows sharps only or flats only. Not code of /repo; how many are allowed is not
modelled. -/
def readMarks (m : Str) : Except PyErr Int :=
  if m.all (fun c => c = '#') then .ok m.length
  else if m.all (fun c => c = '-') then .ok (-(m.length : Int))
  else .error .valueError

/-- `music21.key.Key(name, mode)`: without a mode, lower case is minor. Not code of /repo. -/
def makeKey (name : Str) (mode : Option KeyMode) : Except PyErr M21Key :=
  match name with
  | [] => .error .valueError
  | c :: marks => (readMarks marks).map (fun a => ⟨c.toUpper, a, mode.getD (if c.isLower then .minor else .major)⟩)

/-- Text in pieces of two characters (m21convert.py:709-711). -/
def twoByTwo : Str → List Str
  | [] => []
  | [a] => [[a]]
  | a :: b :: rest => [a, b] :: twoByTwo rest

/-- What is made of a key signature. -/
inductive ReadKey
  | none
  | sharps (n : Int)
  | altered (pitches : List Str)
  | key (k : M21Key)
  deriving DecidableEq, Repr

/-- The naturals taken out (m21convert.py:688-695). -/
def withoutNaturals (t : Str) : Str :=
  if t.contains 'n' then
    "abcdefg".toList.foldl (fun s c => replaceAll [c, 'n'] [] s) t
  else t

/-- The key of the designation, if there is one to be trusted (m21convert.py:722-735). -/
def trustedKey (sig : Option Int) (keyTok : Option Str) : Except PyErr (Option M21Key) :=
  match keyTok.bind keyDesignation with
  | none => .ok none
  | some (name, mode) =>
    match makeKey name (mode.bind readMode) with
    | .error e => .error e
    | .ok k => .ok (if sig.isSome ∧ sig ≠ some k.sharps then none else some k)

/-- The end of `m21KeySignature` (m21convert.py:722-740). -/
def chooseKey (sig : Option Int) (keyTok : Option Str) : Except PyErr ReadKey :=
  match trustedKey sig keyTok with
  | .error e => .error e
  | .ok (some k) => .ok (.key k)
  | .ok none => .ok (match sig with | some n => .sharps n | none => .none)

/-- `m21KeySignature` (m21convert.py:676-740). `upper` is that of ASCII. -/
def readKeySig (sigTok : Str) (keyTok : Option Str) : Except PyErr ReadKey :=
  match textToSharps.find? (fun e => e.1.toList = withoutNaturals (keySignature sigTok)) with
  | some e => chooseKey (some e.2) keyTok
  | none =>
    if (twoByTwo (withoutNaturals (keySignature sigTok))).any
        (fun q => ¬ (q.map Char.toUpper).headD ' ' ∈ "abcdefg".toList) then chooseKey none keyTok
    else .ok (.altered ((twoByTwo (withoutNaturals (keySignature sigTok))).map (fun q => q.map Char.toUpper)))

end C21
