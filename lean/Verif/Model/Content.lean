import Verif.Model.Accidental
import Verif.Model.Recip
/-
humdrumfilecontent.py: rest positions, text repetition, rhythmic scaling, spine colors.
-/
namespace C21

/-! ### Rest positions -/

/-- The letters of `[A-Ga-g]`. -/
def isPitchLetter (c : Char) : Bool := "ABCDEFGabcdefg".toList.contains c

/-- `re.search(r'([A-Ga-g]+)', text)`. -/
def firstPitch (text : Str) : Option Str :=
  match (text.dropWhile (fun c => !isPitchLetter c)).takeWhile isPitchLetter with
  | [] => none
  | p => some p

/-- humdrumfilecontent.py:1028-1059 `_checkRestForVerticalPositioning`: the `stepShift` set, if one is. -/
def restShift (text : Str) (baseline : Int) (duration : Rat) : Option Int :=
  match firstPitch text with
  | none => none
  | some pitch =>
    let b7 := kernToBase7 pitch
    if b7 < 0 then none
    else
      let diff := b7 - baseline + 100
      let b7 := if diff % 2 ≠ 0 then (if duration > 1 then b7 - 1 else b7 + 1) else b7
      some (b7 - (baseline + 4))

/-- A line of the file, the kern tokens only: track and text, with the duration for data. -/
inductive RestLine where
  | interp (toks : List (Nat × Str))
  | data (toks : List (Nat × Str × Rat))
  | other

/-- humdrumfilecontent.py:997-1006: clefs of a line. Clefs put on tokens by the importer (`auto` `clef`) are not modelled. -/
def restClefs (toks : List (Nat × Str)) (b : Nat → Int) : Nat → Int :=
  toks.foldl (fun b t => if startsWith t.2 "*clef".toList then (fun i => if i = t.1 then kernClefToBaseline t.2 else b i) else b) b

/-- humdrumfilecontent.py:1008-1015: rests of a line. -/
def restTok (b : Nat → Int) (t : Nat × Str × Rat) : Option Int :=
  if isRestText t.2.1 then restShift t.2.1 (b t.1) t.2.2 else none

/-- humdrumfilecontent.py:990-1015 `checkForExplicitVerticalRestPositions`: the shift set on each data token. -/
def restLines : List RestLine → (Nat → Int) → List (List (Option Int))
  | [], _ => []
  | .interp toks :: ls, b => [] :: restLines ls (restClefs toks b)
  | .data toks :: ls, b => toks.map (restTok b) :: restLines ls b
  | .other :: ls, b => [] :: restLines ls b

/-- humdrumfilecontent.py:992-993. -/
def restPositions (ls : List RestLine) : List (List (Option Int)) := restLines ls (fun _ => kernClefToBaseline "*clefG2".toList)

/-- m21convert.py:993-1012: the pitch written after an exported rest; `lowestLine` of music21 is one more than base 7. -/
def restPostfix (stepShift : Int) (lowestLine : Int) : Except PyErr Str :=
  if stepShift = 0 then .ok [] else base7ToKern (lowestLine + 4 + stepShift - 1)

/-! ### Text repetition -/

/-- What the analysis marks: `ij`, `ij-begin`, `ij-end`. -/
structure IjMark where
  ij : Bool
  begins : Bool
  ends : Bool
deriving DecidableEq, Repr

/-- Kinds of tokens for the analysis, by text. -/
def isIjStart (t : Str) : Bool := t == "*ij".toList || t == "*edit".toList || t == "*italic".toList
def isIjEnd (t : Str) : Bool := t == "*Xij".toList || t == "*Xedit".toList || t == "*Xitalic".toList

/-- State of humdrumfilecontent.py:1667-1669; `last` is the place of `lastIJToken`. -/
structure IjSt where
  ijstate : Bool
  startij : Bool
  last : Option Nat

/-- humdrumfilecontent.py:1678-1705: the token at place `i` of a spine (the chain of first links); `marks` are those of the tokens before. -/
def ijTok (S : IjSt) (marks : List IjMark) (i : Nat) (text : Str) : IjSt × List IjMark :=
  if tokIsNull text then (S, marks ++ [⟨false, false, false⟩])
  else if tokIsInterpretation text then
    if isIjStart text then ({ S with startij := true, ijstate := true }, marks ++ [⟨false, false, false⟩])
    else if isIjEnd text then
      match S.last with
      | some j => (⟨false, false, none⟩, (marks.modify j (fun m => { m with ends := true })) ++ [⟨false, false, false⟩])
      | none => (⟨false, false, none⟩, marks ++ [⟨false, false, false⟩])
    else (S, marks ++ [⟨false, false, false⟩])
  else if tokIsData text then
    if S.ijstate then (⟨true, false, some i⟩, marks ++ [⟨true, S.startij, false⟩])
    else (S, marks ++ [⟨false, false, false⟩])
  else (S, marks ++ [⟨false, false, false⟩])

/-- humdrumfilecontent.py:1663-1705 `analyzeTextRepetition` for one `**text` or `**silbe` spine. -/
def ijToks : List Str → IjSt → List IjMark → List IjMark
  | [], _, marks => marks
  | t :: ts, S, marks => let r := ijTok S marks marks.length t; ijToks ts r.1 r.2

def ijSpine (toks : List Str) : List IjMark := ijToks toks ⟨false, false, none⟩ []

/-! ### Rhythmic scaling -/

/-- Characters up to the first that is not a digit, as a number, and the rest. -/
def digitsHead (s : Str) : Option (Nat × Str) :=
  match s.takeWhile isDig with
  | [] => none
  | ds => some (parseNat ds, s.dropWhile isDig)

/-- humdrumfilecontent.py:1725-1737: the value of a text that starts with `*rscale:`. The search of the code can only match at the
start, unless `*rscale:` occurs twice, which is not modelled. -/
def rscaleValue (text : Str) : Except PyErr Rat :=
  match digitsHead (text.drop 8) with
  | none => .ok 1
  | some (top, rest) =>
    match rest with
    | '/' :: r =>
      match digitsHead r with
      | some (bot, _) => if bot = 0 then .error .zeroDivision else .ok ((top : Rat) / bot)
      | none => .ok top
    | _ => .ok top

/-- `numActiveTracks` and `rscales`. -/
structure RscaleSt where
  active : Int
  scale : Nat → Rat

/-- humdrumfilecontent.py:1739-1747. -/
def RscaleSt.set (S : RscaleSt) (track : Nat) (value : Rat) : RscaleSt :=
  if value = 1 then
    if S.scale track ≠ 1 then ⟨S.active - 1, fun i => if i = track then 1 else S.scale i⟩ else S
  else ⟨if S.scale track = 1 then S.active + 1 else S.active, fun i => if i = track then value else S.scale i⟩

/-- A line: interpretations (track and text, kern only), data (track, text, duration; `kern` says if it is a kern token), or another. -/
inductive RscaleLine where
  | interp (toks : List (Nat × Str))
  | data (toks : List (Nat × Str × Rat × Bool))
  | other

/-- humdrumfilecontent.py:1719-1747. -/
def rscaleInterp : List (Nat × Str) → RscaleSt → Except PyErr RscaleSt
  | [], S => .ok S
  | t :: ts, S =>
    if startsWith t.2 "*rscale:".toList then
      match rscaleValue t.2 with
      | .error e => .error e
      | .ok v => rscaleInterp ts (S.set t.1 v)
    else rscaleInterp ts S

/-- humdrumfilecontent.py:1756-1769: the `LO` `N` `vis` set on a token. -/
def rscaleTok (S : RscaleSt) (t : Nat × Str × Rat × Bool) : Option Str :=
  if S.scale t.1 = 1 then none
  else if !t.2.2.2 then none
  else if tokIsNull t.2.1 then none
  else if t.2.2.1 < 0 then none
  else some (durationToRecip (tokenDurationNoDots t.2.1 t.2.2.1 * S.scale t.1) ++ List.replicate (tokenDotCount t.2.1) '.')

/-- humdrumfilecontent.py:1712-1771 `analyzeRScale`. -/
def rscaleLines : List RscaleLine → RscaleSt → Except PyErr (List (List (Option Str)))
  | [], _ => .ok []
  | .interp toks :: ls, S =>
    match rscaleInterp toks S with
    | .error e => .error e
    | .ok S =>
      match rscaleLines ls S with
      | .error e => .error e
      | .ok r => .ok ([] :: r)
  | .data toks :: ls, S =>
    match rscaleLines ls S with
    | .error e => .error e
    | .ok r => .ok ((if S.active = 0 then toks.map (fun _ => none) else toks.map (rscaleTok S)) :: r)
  | .other :: ls, S =>
    match rscaleLines ls S with
    | .error e => .error e
    | .ok r => .ok ([] :: r)

def rscale (ls : List RscaleLine) : Except PyErr (List (List (Option Str))) := rscaleLines ls ⟨0, fun _ => 1⟩

/-! ### Spine colors -/

/-- `_spineColor`: the list of rows is made by `[row] * n`, so every track holds a reference to the one row. `row t` is the reference
held for track `t`, `heap r` the row it refers to. -/
structure ColorSt where
  row : Nat → Nat
  heap : Nat → Nat → Str

/-- humdrumfilecontent.py:1783. -/
def ColorSt.init : ColorSt := ⟨fun _ => 0, fun _ _ => []⟩

/-- Assignment `self._spineColor[track][sub] = v`. -/
def ColorSt.put (S : ColorSt) (track sub : Nat) (v : Str) : ColorSt :=
  { S with heap := fun r i => if r = S.row track ∧ i = sub then v else S.heap r i }

/-- `self._spineColor[track][sub]` (humdrumfile.py:7882). -/
def ColorSt.get (S : ColorSt) (track sub : Nat) : Str := S.heap (S.row track) sub

/-- humdrumfilecontent.py:1801-1816 `setSpineColorFromColorInterpToken`: a token's track, subtrack and text. -/
def colorTok (S : ColorSt) (t : Nat × Nat × Str) : ColorSt :=
  if startsWith t.2.2 "*color:".toList then
    let color := (t.2.2.drop 7).takeWhile (· != '\n')
    if t.2.1 < 30 then
      let S := S.put t.1 t.2.1 color
      if t.2.1 = 1 then S.put t.1 0 color
      else if t.2.1 = 0 then ((List.range 30).drop 1).foldl (fun S z => S.put t.1 z color) S
      else S
    else S
  else S

/-- humdrumfilecontent.py:1782-1795 `initializeSpineColor`: the interpretations before the first data line. Nothing changes the colors
later (humdrumfile.py:2759-2764 does nothing). -/
def initColors (toks : List (Nat × Nat × Str)) : ColorSt := toks.foldl colorTok ColorSt.init

end C21
