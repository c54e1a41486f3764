import Verif.Model.PyNum
import Mathlib.Data.List.Sort
import Mathlib.Data.List.Dedup
/-
Model of chord symbols as Harte texts: /repo/converter21/shared/m21utilities.py:3103-3680.
-/
namespace C21

/-- A pitch without octave: its letter (0 for C … 6 for B) and its accidentals (sharps positive). -/
structure HPitch where
  step : Nat
  alter : Int
deriving DecidableEq, Repr

inductive ModType where | add | subtract | alter
deriving DecidableEq, Repr

/-- A `ChordStepModification`: added, left out or altered degree, with the semitones of its interval (none is 0). -/
structure CsMod where
  type : ModType
  degree : Nat
  semis : Int
deriving DecidableEq, Repr

/-- A music21 chord symbol.  Without a bass of its own, the bass is the root.  Symbols without pitches are not
modelled. -/
structure ChordSym where
  root : HPitch
  bass : HPitch
  kind : Str
  mods : List CsMod
deriving DecidableEq, Repr

/-- m21utilities.py:3103-3172 `M21_CHORD_KIND_TO_HARTE_SHORTHAND_AND_DEGREES`. -/
def harteShort : List (String × String × String) :=
  [("major", "maj", ""), ("minor", "min", ""), ("augmented", "aug", ""),
   ("diminished", "dim", ""), ("dominant-seventh", "7", ""), ("major-seventh", "maj7", ""),
   ("minor-major-seventh", "minmaj7", ""), ("minor-seventh", "min7", ""), ("augmented-major-seventh", "aug", "7"),
   ("augmented-seventh", "aug", "b7"), ("half-diminished-seventh", "hdim7", ""), ("diminished-seventh", "dim7", ""),
   ("seventh-flat-five", "", "3,b5,b7"), ("major-sixth", "maj6", ""), ("minor-sixth", "min6", ""),
   ("major-ninth", "maj9", ""), ("dominant-ninth", "9", ""), ("minor-major-ninth", "minmaj7", "9"),
   ("minor-ninth", "min9", ""), ("augmented-major-ninth", "aug", "7,9"), ("augmented-dominant-ninth", "aug", "b7,9"),
   ("half-diminished-ninth", "hdim7", "9"), ("half-diminished-minor-ninth", "hdim7", "b9"), ("diminished-ninth", "dim7", "9"),
   ("diminished-minor-ninth", "dim7", "b9"), ("dominant-11th", "9", "11"), ("major-11th", "maj9", "11"),
   ("minor-major-11th", "minmaj7", "9,11"), ("minor-11th", "min9", "11"), ("augmented-major-11th", "aug", "7,9,11"),
   ("augmented-11th", "aug", "b7,9,11"), ("half-diminished-11th", "hdim7", "9,11"), ("diminished-11th", "dim7", "9,11"),
   ("major-13th", "maj9", "11,13"), ("dominant-13th", "9", "11,13"), ("minor-major-13th", "minmaj7", "9,11,13"),
   ("minor-13th", "min9", "11,13"), ("augmented-major-13th", "aug", "7,9,11,13"), ("augmented-dominant-13th", "aug", "b7,9,11,13"),
   ("half-diminished-13th", "hdim7", "9,11,13"), ("suspended-second", "", "1,2,5"), ("suspended-fourth", "sus4", ""),
   ("suspended-fourth-seventh", "sus4", "b7"), ("Neapolitan", "", "1,b2,3,b5"), ("neapolitan", "", "1,b2,3,b5"),
   ("Italian", "", "1,#4,b6"), ("italian", "", "1,#4,b6"), ("French", "", "1,2,#4,b6"),
   ("french", "", "1,2,#4,b6"), ("German", "", "1,b3,#4,b6"), ("german", "", "1,b3,#4,b6"),
   ("pedal", "", "1"), ("power", "", "1,5"), ("Tristan", "", "1,#4,#6,#9"),
   ("tristan", "", "1,#4,#6,#9")]

/-- m21utilities.py:3174-3243 `M21_CHORD_KIND_TO_HARTE_DEGREES`. -/
def harteLong : List (String × String) :=
  [("major", "3,5"), ("minor", "b3,5"), ("augmented", "3,#5"),
   ("diminished", "b3,b5"), ("dominant-seventh", "3,5,b7"), ("major-seventh", "3,5,7"),
   ("minor-major-seventh", "b3,5,7"), ("minor-seventh", "b3,5,b7"), ("augmented-major-seventh", "3,#5,7"),
   ("augmented-seventh", "3,#5,b7"), ("half-diminished-seventh", "b3,b5,b7"), ("diminished-seventh", "b3,b5,bb7"),
   ("seventh-flat-five", "3,b5,b7"), ("major-sixth", "3,5,6"), ("minor-sixth", "b3,5,6"),
   ("major-ninth", "3,5,7,9"), ("dominant-ninth", "3,5,b7,9"), ("minor-major-ninth", "b3,5,7,9"),
   ("minor-ninth", "b3,5,b7,9"), ("augmented-major-ninth", "3,#5,7,9"), ("augmented-dominant-ninth", "3,#5,b7,9"),
   ("half-diminished-ninth", "b3,b5,b7,9"), ("half-diminished-minor-ninth", "b3,b5,b7,b9"), ("diminished-ninth", "b3,b5,bb7,9"),
   ("diminished-minor-ninth", "b3,b5,bb7,b9"), ("dominant-11th", "3,5,b7,9,11"), ("major-11th", "3,5,7,9,11"),
   ("minor-major-11th", "b3,5,7,9,11"), ("minor-11th", "b3,5,b7,9,11"), ("augmented-major-11th", "3,#5,7,9,11"),
   ("augmented-11th", "3,#5,b7,9,11"), ("half-diminished-11th", "b3,b5,b7,9,11"), ("diminished-11th", "b3,b5,bb7,9,11"),
   ("major-13th", "3,5,7,9,11,13"), ("dominant-13th", "3,5,b7,9,11,13"), ("minor-major-13th", "b3,5,7,9,11,13"),
   ("minor-13th", "b3,5,b7,9,11,13"), ("augmented-major-13th", "3,#5,7,9,11,13"), ("augmented-dominant-13th", "3,#5,b7,9,11,13"),
   ("half-diminished-13th", "b3,b5,b7,9,11,13"), ("suspended-second", "1,2,5"), ("suspended-fourth", "1,4,5"),
   ("suspended-fourth-seventh", "1,4,5,b7"), ("Neapolitan", "1,b2,3,b5"), ("neapolitan", "1,b2,3,b5"),
   ("Italian", "1,#4,b6"), ("italian", "1,#4,b6"), ("French", "1,2,#4,b6"),
   ("french", "1,2,#4,b6"), ("German", "1,b3,#4,b6"), ("german", "1,b3,#4,b6"),
   ("pedal", "1"), ("power", "1,5"), ("Tristan", "1,#4,#6,#9"),
   ("tristan", "1,#4,#6,#9")]

/-- m21utilities.py:3245-3262 `HARTE_SHORTHAND_TO_DEGREE_TUPLE` (tuples joined with commas). -/
def harteImplied : List (String × String) :=
  [("maj", "3,5"), ("min", "b3,5"), ("dim", "b3,b5"),
   ("aug", "3,#5"), ("maj7", "3,5,7"), ("min7", "b3,5,b7"),
   ("7", "3,5,b7"), ("dim7", "b3,b5,bb7"), ("hdim7", "b3,b5,b7"),
   ("minmaj7", "b3,5,7"), ("maj6", "3,5,6"), ("min6", "b3,5,6"),
   ("9", "3,5,b7,9"), ("maj9", "3,5,7,9"), ("min9", "b3,5,b7,9"),
   ("sus4", "4,5")]

/-- music21's name of a pitch: its letter, then '#' or '-' for each accidental. -/
def hpName (p : HPitch) : Str :=
  ("CDEFGAB".toList.getD p.step 'C') ::
    (if p.alter ≥ 0 then List.replicate p.alter.toNat '#' else List.replicate (-p.alter).toNat '-')

/-- Semitones of a letter above C, then of whole octaves. -/
def letterSemis (s : Nat) : Int := [0, 2, 4, 5, 7, 9, 11].getD (s % 7) 0 + 12 * (s / 7 : Nat)

/-- Height of a pitch within its octave. -/
def hpSpace (p : HPitch) : Int := letterSemis p.step + p.alter

/-- Whether an interval of that number is perfect rather than major. -/
def perfectNo (n : Nat) : Bool := n = 1 || n = 4 || n = 5 || n = 8

/-- music21's name of an interval from its number and its semitones above the perfect or major one. -/
def intervalText (n : Nat) (a : Int) : Str :=
  (if perfectNo n then
    if a = 0 then ['P'] else if a > 0 then List.replicate a.toNat 'A' else List.replicate (-a).toNat 'd'
  else
    if a = 0 then ['M'] else if a > 0 then List.replicate a.toNat 'A'
    else if a = -1 then ['m'] else List.replicate (-a - 1).toNat 'd') ++ natStr n

/-- m21utilities.py:3285-3292: the bass is put into the octave of the root, or one higher if it sounds lower; the
number and the alteration of the interval above the root.  Basses that then sound higher but stand lower (as C above
D--) are not modelled: nothing. -/
def bassInterval (root bass : HPitch) : Option (Nat × Int) :=
  let up := if hpSpace bass < hpSpace root then 1 else 0
  if bass.step + 7 * up < root.step then none
  else
    let d := bass.step + 7 * up - root.step
    some (d + 1, hpSpace bass + 12 * (up : Nat) - hpSpace root - letterSemis d)

/-- m21utilities.py:3294-3317: the degree written for an interval name. -/
def degreeOfName (name : Str) : Str :=
  let num := name.getLast?.toList
  if num = ['1'] ∨ num = ['4'] ∨ num = ['5'] then
    if startsWith name ['P'] then num
    else if startsWith name ['A'] then List.replicate (countChar 'A' name) '#' ++ num
    else if startsWith name ['d'] then List.replicate (countChar 'd' name) 'b' ++ num
    else num
  else if startsWith name ['M'] then num
  else if startsWith name ['A'] then List.replicate (countChar 'A' name) '#' ++ num
  else if startsWith name ['m'] then 'b' :: num
  else if startsWith name ['d'] then List.replicate (countChar 'd' name + 1) 'b' ++ num
  else num

/-- m21utilities.py:3276-3317 `hartifyBass`. -/
def hartifyBass (root bass : HPitch) : Except PyErr Str :=
  if hpName bass = hpName root then .ok []
  else match bassInterval root bass with
    | some (n, a) => .ok (degreeOfName (intervalText n a))
    | none => .error .valueError

/-- m21utilities.py:3263-3269 `_degreeInt`: the pattern `[b#-*]*(\d+)`, whose `#-*` is a range of characters. -/
def degreePrefix (c : Char) : Bool := c == 'b' || ('#'.toNat ≤ c.toNat && c.toNat ≤ '*'.toNat)

def degreeInt (s : Str) : Option Nat :=
  let ds := (s.dropWhile degreePrefix).takeWhile isDig
  if ds = [] then none else some (parseNat ds)

/-- `sorted(degrees, key=_degreeInt)` -/
def sortDegrees (l : List Str) : Except PyErr (List Str) :=
  if l.all fun d => (degreeInt d).isSome then .ok (l.insertionSort fun a b => (degreeInt a).getD 0 ≤ (degreeInt b).getD 0)
  else .error .humdrumInternal

/-- m21utilities.py:3333-3345: one degree to leave out, of the degrees of the table. -/
def omitOne (degs new : List Str) (o : Str) : Except PyErr (List Str) :=
  if o ∈ degs then
    if degs.count o ≤ new.count o then .ok (degs.foldl (fun n d => if o = d then n.erase d else n) new)
    else .error .valueError
  else .ok (new ++ ['*' :: natStr ((degreeInt o).getD 0)])

/-- m21utilities.py:3349-3353: one degree to alter; places are counted in the degrees of the table but changed in the
new list. -/
def alterOne (a : Str) : List Str → List Str → Except PyErr (List Str)
  | [], new => .ok new
  | d :: ds, [] => if degreeInt a = degreeInt d then .error .indexError else alterOne a ds []
  | d :: ds, x :: xs =>
    match alterOne a ds xs with
    | .ok rest => .ok ((if degreeInt a = degreeInt d then a else x) :: rest)
    | .error e => .error e

/-- A loop whose body may raise. -/
def loopM {α β : Type} (f : β → α → Except PyErr β) : List α → β → Except PyErr β
  | [], b => .ok b
  | a :: as, b => match f b a with
    | .ok b' => loopM f as b'
    | .error e => .error e

/-- The comma list of a table. -/
def degreeList (s : Str) : List Str := if s = [] then [] else splitOn ',' s

/-- m21utilities.py:3319-3361 `modifyDegrees`. -/
def modifyDegrees (degrees : Str) (adds omits alters : List Str) : Except PyErr Str :=
  let degs := degreeList degrees
  match loopM (omitOne degs) omits degs with
  | .error e => .error e
  | .ok n1 => match loopM (fun n a => alterOne a degs n) alters n1 with
    | .error e => .error e
    | .ok n2 => match sortDegrees (n2 ++ adds) with
      | .error e => .error e
      | .ok n3 => .ok (joinWith ',' n3)

/-- m21utilities.py:3404-3416: the text of the degree of a modification. -/
def modText (m : CsMod) : Str :=
  List.replicate m.semis.natAbs (if m.semis > 0 then '#' else 'b') ++ natStr m.degree

/-- m21utilities.py:3636-3676: the kinds that take in their one modification. -/
def simplifyRules : List (String × ModType × Nat × Int × String) :=
  [("major", .add, 7, 0, "major-seventh"), ("major", .add, 7, -1, "dominant-seventh"),
   ("minor", .add, 7, 0, "minor-major-seventh"), ("minor", .add, 7, -1, "minor-seventh"),
   ("augmented", .add, 7, 0, "augmented-major-seventh"), ("augmented", .add, 7, -1, "augmented-seventh"),
   ("diminished", .add, 7, -1, "half-diminished-seventh"), ("diminished", .add, 7, -2, "diminished-seventh"),
   ("augmented-seventh", .add, 9, 0, "augmented-dominant-ninth"),
   ("augmented-major-seventh", .add, 9, 0, "augmented-major-ninth"),
   ("minor-seventh", .alter, 5, -1, "half-diminished-seventh")]

/-- m21utilities.py:3627-3680 `simplifyChordSymbol`. -/
def simplifyChord (cs : ChordSym) : ChordSym :=
  match cs.mods with
  | [m] =>
    match simplifyRules.find? fun r => r.1.toList = cs.kind ∧ r.2.1 = m.type ∧ r.2.2.1 = m.degree ∧ r.2.2.2.1 = m.semis with
    | some r => { cs with kind := r.2.2.2.2.toList, mods := [] }
    | none => cs
  | _ => cs

/-- The texts of the modifications of one type. -/
def modTexts (t : ModType) (mods : List CsMod) : List Str := (mods.filter fun m => m.type = t).map modText

/-- m21utilities.py:3385-3424: shorthand and degrees; nothing for a kind that is not in the tables. -/
def harteDegrees (kind : Str) (mods : List CsMod) : Option (Except PyErr (Str × Str)) :=
  let table : Option (Str × Str) :=
    if mods.any fun m => m.type = .alter then
      (harteLong.find? fun r => r.1.toList = kind).map fun r => ([], r.2.toList)
    else (harteShort.find? fun r => r.1.toList = kind).map fun r => (r.2.1.toList, r.2.2.toList)
  table.map fun t =>
    if mods = [] then .ok t
    else match modifyDegrees t.2 (modTexts .add mods) (modTexts .subtract mods) (modTexts .alter mods) with
      | .ok d => .ok (t.1, d)
      | .error e => .error e

/-- m21utilities.py:3426-3434: the text put together. -/
def harteText (root short degrees bass : Str) : Str :=
  root ++ (if short ≠ [] ∨ degrees ≠ [] then ':' :: short ++ (if degrees ≠ [] then '(' :: degrees ++ [')'] else []) else []) ++
    (if bass ≠ [] then '/' :: bass else [])

/-- '-' to 'b' or back. -/
def swapChar (a b c : Char) : Char := if c = a then b else c

/-- m21utilities.py:3272-3434 `makeHarteFromChordSymbol`; none is a symbol without chord. -/
def writeHarte (noResult : Str) : Option ChordSym → Except PyErr Str
  | none => .ok ['N']
  | some cs =>
    let cs := simplifyChord cs
    match hartifyBass cs.root cs.bass with
    | .error e => .error e
    | .ok bass => match harteDegrees cs.kind cs.mods with
      | none => .ok noResult
      | some (.error e) => .error e
      | some (.ok (short, degrees)) => .ok (harteText ((hpName cs.root).map (swapChar '-' 'b')) short degrees bass)

/-- The characters of the parts of m21utilities.py:3449-3452. -/
def rootChar (c : Char) : Bool := ('A'.toNat ≤ c.toNat && c.toNat ≤ 'G'.toNat) || c == '#' || c == 'b'
def shortChar (c : Char) : Bool := ('a'.toNat ≤ c.toNat && c.toNat ≤ 'z'.toNat) || isDig c
def degreeChar (c : Char) : Bool := c == '*' || c == '#' || c == 'b' || c == ',' || isDig c

/-- The end of the pattern: `(?:\/([#b]*\d+))?$`. -/
def parseBassPart : Str → Option Str
  | [] => some []
  | c :: s =>
    if c = '/' then
      let r := s.dropWhile fun c => c == '#' || c == 'b'
      if r ≠ [] ∧ r.all isDig then some s else none
    else none

/-- The middle of the pattern, after the colon. -/
def parseShortPart (s : Str) : Option (Str × Str × Str) :=
  let short := s.takeWhile shortChar
  match s.dropWhile shortChar with
  | '(' :: r =>
    let degrees := r.takeWhile degreeChar
    match r.dropWhile degreeChar with
    | ')' :: r' => if degrees = [] then none else (parseBassPart r').map fun b => (short, degrees, b)
    | _ => none
  | r => (parseBassPart r).map fun b => (short, [], b)

/-- The pattern after the root. -/
def parseAfterRoot : Str → Option (Str × Str × Str)
  | ':' :: r => parseShortPart r
  | r => (parseBassPart r).map fun b => ([], [], b)

/-- m21utilities.py:3437-3463 `parseHarte`: root, shorthand, degrees and bass; all empty if the text does not match.
Digits are those of ASCII. -/
def parseHarte (s : Str) : Str × Str × Str × Str :=
  if s = ['N'] then (['N'], [], [], [])
  else
    let root := s.takeWhile rootChar
    match parseAfterRoot (s.dropWhile rootChar) with
    | some p => if root = [] then ([], [], [], []) else (root, p)
    | none => ([], [], [], [])

/-- m21utilities.py:3470-3477: accidentals before the first of the digits 1 to 7. -/
def scanBass : Str → Str × Str
  | [] => ([], [])
  | c :: s =>
    if c = '#' ∨ c = 'b' then (c :: (scanBass s).1, (scanBass s).2)
    else if c ∈ "1234567".toList then ([], [c]) else scanBass s

/-- m21utilities.py:3479-3501: the name of the interval of a bass.  A negative number of 'd' is none. -/
def bassIntervalName (bass : Str) : Str :=
  let num := (scanBass bass).2
  let a : Int := (countChar '#' (scanBass bass).1 : Int) - countChar 'b' (scanBass bass).1
  if num = ['1'] ∨ num = ['4'] ∨ num = ['5'] then
    if a < 0 then List.replicate (-a).toNat 'd' ++ num
    else if a > 0 then List.replicate a.toNat 'A' ++ num
    else 'P' :: num
  else if a = -1 then 'm' :: num
  else if a < -1 then List.replicate (a - 1).toNat 'd' ++ num
  else if a > 0 then List.replicate a.toNat 'A' ++ num
  else 'M' :: num

/-- music21's `Interval(name)`: number and alteration; nothing for a name without quality. -/
def intervalOf (name : Str) : Option (Nat × Int) :=
  let q := name.takeWhile fun c => !isDig c
  let n := parseNat (name.dropWhile fun c => !isDig c)
  if (name.dropWhile fun c => !isDig c) = [] then none
  else if q = ['P'] ∨ q = ['M'] then some (n, 0)
  else if q = ['m'] then some (n, -1)
  else if q ≠ [] ∧ q.all (· == 'A') then some (n, q.length)
  else if q ≠ [] ∧ q.all (· == 'd') then some (n, if perfectNo n then -q.length else -q.length - 1)
  else none

/-- music21's transposition of a pitch by an interval; octaves are dropped (the code puts the bass below the root). -/
def transposeHp (p : HPitch) (n : Nat) (a : Int) : HPitch :=
  let s := p.step + n - 1
  ⟨s % 7, hpSpace p + letterSemis (n - 1) + a - letterSemis s⟩

/-- music21's `Pitch(name)` for a letter and accidentals of one kind. -/
def hpOfName : Str → Option HPitch
  | [] => none
  | c :: s =>
    if c ∈ "CDEFGAB".toList then
      if s.all (· == '#') then some ⟨"CDEFGAB".toList.idxOf c, s.length⟩
      else if s.all (· == '-') then some ⟨"CDEFGAB".toList.idxOf c, -s.length⟩
      else none
    else none

/-- m21utilities.py:3530-3533: the degrees of a shorthand. -/
def impliedDegrees (short : Str) : List Str :=
  ((harteImplied.find? fun r => r.1.toList = short).map fun r => splitOn ',' r.2.toList).getD []

/-- m21utilities.py:3528-3550: the degrees of the text and of the shorthand. -/
def readDegrees (short degrees : Str) : List Str :=
  let degs := degreeList degrees
  if short = [] then degs
  else
    let implied := impliedDegrees short
    if implied = [] then degs
    else
      let rems := (degs.filter fun d => startsWith d ['*']).map (·.drop 1)
      rems.foldl (fun l r => l.erase ('*' :: r)) degs ++ rems.foldl (fun l r => l.erase r) implied

/-- m21utilities.py:3564-3566: the degrees of a kind in music21's notation. -/
def kindDegrees (notation_ : Str) : List Str := splitOn ',' (notation_.map (swapChar '-' 'b'))

/-- m21utilities.py:3563-3589: one kind of the search: best kind, its number of notes, and the degrees left over. -/
def kindStep (ds : List Str) (st : Str × Nat × List Str) (k : Str × Str) : Str × Nat × List Str :=
  let kd := (kindDegrees k.2).dedup
  if kd.any fun d => decide (d ∉ ds) then st
  else
    let inter := kd.filter fun d => decide (d ∈ ds)
    let left := ds.filter fun d => decide (d ∉ kd)
    if inter.length > st.2.1 then (k.1, inter.length, left)
    else if inter.length = st.2.1 ∧ left.length < st.2.2.length then (k.1, inter.length, left)
    else st

/-- m21utilities.py:3598-3611: the modification for a degree left over. -/
def leftoverMod (d : Str) : Option CsMod :=
  if degreeInt d = some 1 then none
  else some ⟨.add, (degreeInt d).getD 0, (countChar '#' d : Int) - countChar 'b' d⟩

/-- m21utilities.py:3436-3625 `makeChordSymbolFromHarte`, with music21's table of kinds and their notations.
An empty result is a text that is ignored; within the result, none is a symbol without chord.  Degrees of the same
number that are left over, whose order in a set is not fixed, stay in the order of the text. -/
def readHarte (kinds : List (Str × Str)) (s : Str) : Except PyErr (Option (Option ChordSym)) :=
  let p := parseHarte s
  if p.1 = ['N'] then .ok (some none)
  else if p.1 = [] then .ok none
  else match hpOfName (p.1.map (swapChar 'b' '-')) with
    | none => .error .valueError
    | some root =>
      let bass : Option HPitch :=
        if p.2.2.2 = [] ∨ p.2.2.2 = ['1'] then some root
        else (intervalOf (bassIntervalName p.2.2.2)).map fun i => transposeHp root i.1 i.2
      match bass with
      | none => .error .valueError
      | some bass =>
        let degs := readDegrees p.2.1 p.2.2.1
        let degs := if ['1'] ∈ degs then degs else ['1'] :: degs
        match sortDegrees degs with
        | .error e => .error e
        | .ok sorted =>
          let st := kinds.foldl (kindStep sorted.dedup) ([], 0, [])
          if st.1 = [] then .error .humdrumInternal
          else match sortDegrees st.2.2 with
            | .error e => .error e
            | .ok left => .ok (some (some (simplifyChord ⟨root, bass, st.1, left.filterMap leftoverMod⟩)))

end C21
