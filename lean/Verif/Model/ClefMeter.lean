import Verif.Model.PyNum
/-
Clef, time signature and mensuration tokens: written on export, read on import.

Models converter21/humdrum/m21convert.py 37-49 (mensuration symbols), 657-673 (m21TimeSignature), 743-767
(m21Clef), 2445-2494 (clefTokenFromM21Clef, timeSigTokenFromM21TimeSignature,
meterSigTokenFromM21TimeSignature) and converter21/humdrum/humdrumtoken.py 1326-1333 (clef), 1455-1500
(isTimeSignature, timeSignature), 1544-1567 (mensurationSymbol).
-/
namespace C21

/-- music21's `clef.sign`. -/
inductive HClefSign
  | G | F | C | percussion | none | other (name : Str)
deriving DecidableEq, Repr

/-- The parts of a music21 clef the exporter looks at; `octaveChange` and `line` may be None. -/
structure HClef where
  sign : HClefSign
  octaveChange : Option Int
  line : Option Nat
deriving DecidableEq, Repr

/-- `str(clef.line)` or nothing. m21convert.py 2460-2461, 2465-2466. -/
def clefLineText (line : Option Nat) : Str :=
  match line with
  | some n => natStr n
  | none => []

/-- The octave marks. m21convert.py 2453-2458. -/
def clefOctaveText (oc : Option Int) : Str :=
  match oc with
  | some z => if z < 0 then List.replicate (-z).toNat 'v'
              else if z > 0 then List.replicate z.toNat '^' else []
  | none => []

/-- `clefTokenFromM21Clef`. m21convert.py 2445-2472. -/
def clefToken (c : HClef) : Option Str :=
  match c.sign with
  | .G => some ("*clef".toList ++ 'G' :: (clefOctaveText c.octaveChange ++ clefLineText c.line))
  | .F => some ("*clef".toList ++ 'F' :: (clefOctaveText c.octaveChange ++ clefLineText c.line))
  | .C => some ("*clef".toList ++ 'C' :: (clefOctaveText c.octaveChange ++ clefLineText c.line))
  | .percussion => some ("*clef".toList ++ 'X' :: clefLineText c.line)
  | .none => none
  | .other _ => none

/-- What `m21Clef` builds: `NoClef()`, a percussion clef with perhaps a line, or
`clefFromString(string, octaveShift)`. -/
inductive ReadClef
  | noClef
  | percussion (line : Option Nat)
  | fromString (s : Str) (shift : Int)
deriving DecidableEq, Repr

/-- The octave shift of `m21Clef`. m21convert.py 764-766. -/
def kernClefShift (s : Str) : Int :=
  if countChar '^' s = 0 then - (countChar 'v' s : Int) else countChar '^' s

/-- `m21Clef` on a token text that begins with `*clef`. m21convert.py 743-767. -/
def readClefToken (tok : Str) : Except PyErr ReadClef :=
  let s := tok.drop 5
  match s with
  | '-' :: _ => .ok .noClef
  | 'X' :: r =>
    match r with
    | [] => .ok (.percussion none)
    | d :: _ => if isDig d then .ok (.percussion (some (parseNat [d]))) else .error .valueError
  | _ =>
    let s := s.filter fun c => c != '-'
    .ok (.fromString (s.filter fun c => c != '^' && c != 'v') (kernClefShift s))

/-- `timeSig.ratioString`: one or several fractions joined with `+`. -/
def ratioString : List (Nat × Nat) → Str
  | [] => []
  | [(n, d)] => natStr n ++ '/' :: natStr d
  | (n, d) :: r => natStr n ++ '/' :: natStr d ++ '+' :: ratioString r

/-- `timeSigTokenFromM21TimeSignature`. m21convert.py 2475-2480. -/
def timeSigToken (r : List (Nat × Nat)) : Str := "*M".toList ++ ratioString r

/-- `isTimeSignature`. humdrumtoken.py 1455-1464. -/
def isTimeSigText (s : Str) : Bool :=
  !(s.length < 3) && startsWith s "*M".toList && (s.drop 2).head?.any isDig && s.contains '/'

/-- `timeSignature`. humdrumtoken.py 1467-1492; the match of `^\*M([\d]+)/([\d]+)` as two runs of digits
with a slash between them. -/
def timeSigOf (s : Str) : Option (Nat × Nat) :=
  if !isTimeSigText s then none
  else
    let top := (s.drop 2).takeWhile isDig
    match (s.drop 2).dropWhile isDig with
    | '/' :: r =>
      let bot := r.takeWhile isDig
      if top = [] ∨ bot = [] then none
      else if bot = "0".toList then some (parseNat top * 2, 1)
      else if bot = "00".toList then some (parseNat top * 4, 1)
      else if bot = "000".toList then some (parseNat top * 8, 1)
      else if bot = "0000".toList then some (parseNat top * 16, 1)
      else some (parseNat top, parseNat bot)
    | _ => none

/-- music21's time signature symbols. -/
inductive MeterSym
  | plain | common | cut
deriving DecidableEq, Repr

/-- `meterSigTokenFromM21TimeSignature`. m21convert.py 46-49, 2482-2494. -/
def meterSigToken : MeterSym → Option Str
  | .plain => none
  | .common => some "*met(c)".toList
  | .cut => some "*met(c|)".toList

/-- `mensurationSymbol` of a `*met(...)` token. humdrumtoken.py 1544-1567: the regular expression takes
everything up to the last closing parenthesis, which `isMensurationSymbol` has put at the end. -/
def mensurationSymbol (s : Str) : Str :=
  if startsWith s "*met(".toList && s.getLast? == some ')' then (s.drop 5).dropLast else []

/-- The symbol set on a new time signature. m21convert.py 37-44, 664-671. -/
def readMeterSym (tok : Option Str) : MeterSym :=
  match tok with
  | none => .plain
  | some s =>
    if mensurationSymbol s = "c".toList then .common
    else if mensurationSymbol s = "c|".toList then .cut
    else .plain

end C21
