import Verif.Model.ParamSet
import Verif.Model.PyNum
import Verif.Model.KernPitch
import Verif.Model.KernLook
/-
Chords in Humdrum: humdrum/m21convert.py:1357-1498 (export), humdrum/humdrumfile.py:6249-6350 (import) and
humdrum/humdrumtoken.py:2828-2889 and 2933 (layout parameters of single notes of a chord).
-/
namespace C21

/-! ### Export -/

/-- What m21convert.py:1362 and 1450-1462 give for one note of a chord. -/
structure ChordNote where
  pre : Str := []
  pitch : Str
  post : Str := []
  layouts : List Str := []
deriving DecidableEq

/-- What m21convert.py:1363-1366 and 1419-1447 give for the chord as a whole; `layouts` are those of expressions and dynamics. -/
structure ChordSigns where
  recip : Str := []
  vdur : Str := []
  grace : Str := []
  slurStarts : Str := []
  slurStops : Str := []
  sf : Str := []
  expr : Str := []
  artic : Str := []
  stem : Str := []
  beam : Str := []
  layouts : List Str := []
deriving DecidableEq

/-- m21convert.py:1464-1468: the prefix of note `i`. -/
def chordPre (c : ChordSigns) (i : Nat) (n : ChordNote) : Str := if i = 0 then c.slurStarts ++ n.pre else n.pre

/-- m21convert.py:1464-1478: the postfix of note `i` of `len`. -/
def chordPost (c : ChordSigns) (len i : Nat) (n : ChordNote) : Str :=
  if i = 0 then n.post ++ c.sf ++ c.expr ++ c.artic ++ c.stem
  else if i + 1 = len then n.post ++ c.sf ++ c.expr ++ c.artic ++ c.stem ++ c.beam ++ c.slurStops
  else n.post ++ c.sf ++ c.expr ++ c.artic ++ c.stem

/-- m21convert.py:1384: the text of note `i`. -/
def chordNoteText (c : ChordSigns) (len i : Nat) (n : ChordNote) : Str :=
  chordPre c i n ++ c.recip ++ c.grace ++ n.pitch ++ chordPost c len i n

/-- The texts from note `i` on. -/
def chordTexts (c : ChordSigns) (len : Nat) : Nat → List ChordNote → List Str
  | _, [] => []
  | i, n :: ns => chordNoteText c len i n :: chordTexts c len (i + 1) ns

/-- m21convert.py:1379-1384: the token. -/
def chordToken (c : ChordSigns) (ns : List ChordNote) : Str := joinWith ' ' (chordTexts c ns.length 0 ns)

/-- m21convert.py:1490-1498 `_addNoteNumberToLayout`. -/
def addNoteNumber (layout : Str) (n : Nat) : Str :=
  let ps := splitOn ':' layout
  joinWith ':' (ps.take 2 ++ ("n=".toList ++ natStr n) :: ps.drop 2)

/-- m21convert.py:1483-1486: the numbered layouts of the notes from number `i + 1` on. -/
def noteLayouts : Nat → List ChordNote → List Str
  | _, [] => []
  | i, n :: ns => n.layouts.map (addNoteNumber · (i + 1)) ++ noteLayouts (i + 1) ns

/-- `str.count('@@')`, for texts in which only pairs of the sign occur. -/
def countPairs : Str → Nat
  | '@' :: '@' :: s => countPairs s + 1
  | _ :: s => countPairs s
  | [] => 0

/-- m21convert.py:1385-1393: what one note does to the visual duration; `half` is the text for half of a duration. -/
def vdurStep (half : Str → Str) (recip : Str) (v post : Str) : Str :=
  if v ≠ [] ∧ countPairs post = 2 then (if half v = recip then [] else half v) else v

/-- m21convert.py:1380-1393: the visual duration after all notes from `i` on. -/
def chordVdur (half : Str → Str) (c : ChordSigns) (len : Nat) : Nat → Str → List ChordNote → Str
  | _, v, [] => v
  | i, v, n :: ns => chordVdur half c len (i + 1) (vdurStep half c.recip v (chordPost c len i n)) ns

/-- m21convert.py:1357-1398: the layouts of the chord. -/
def chordLayouts (half : Str → Str) (c : ChordSigns) (ns : List ChordNote) : List Str :=
  c.layouts ++ noteLayouts 0 ns ++
  (let v := chordVdur half c ns.length 0 c.vdur ns
   if v ≠ [] then ["!LO:N:vis=".toList ++ v] else [])

/-! ### Import -/

/-- humdrumfile.py:6277-6297: the subtoken is no note of the chord: a rest, or a duration without a pitch. -/
def notInChord (t : Str) : Bool :=
  t.isEmpty || t.contains 'r' || (t.any isDig && !t.any (fun ch => "abcdefgABCDEFG".toList.contains ch))

/-- humdrumfile.py:6270-6312: the notes of the chord, with the number of their subtoken; notes without pitch are given up. -/
def chordNotesFrom : Nat → List Str → List (Nat × (Str × Int))
  | _, [] => []
  | i, t :: ts =>
    if notInChord t then chordNotesFrom (i + 1) ts
    else match readKernPitch t with
      | none => chordNotesFrom (i + 1) ts
      | some p => (i, p) :: chordNotesFrom (i + 1) ts

/-- humdrumfile.py:6262 and 6270-6312. Simplified: music21 sorts the notes of a chord by pitch; here they stay in the order of the token. -/
def readChordNotes (tok : Str) : List (Nat × (Str × Int)) := chordNotesFrom 0 (splitOn ' ' tok)

/-- humdrumfile.py:6264-6268 and 6314-6315: the chord is hidden. -/
def chordHidden (tok : Str) : Bool := (splitOn ' ' tok).all (isInfix "yy".toList ·)

/-- humdrumfile.py:6332-6338: the stem direction written in the token, `none` if there is none. -/
def chordStem (tok : Str) : Option Bool :=
  if tok.contains '/' then some true else if tok.contains '\\' then some false else none

/-- humdrumtoken.py:2855-2862: the parameters of one set. `inl` is the value returned at once, `inr` the value found and the number after the
set. -/
def lpScan (key : Str) (sub : Int) : Str → Str → List (Str × Str) → Str ⊕ (Str × Str)
  | out, n, [] => .inr (out, n)
  | out, n, p :: ps =>
    if p.1 = key ∧ sub < 0 then .inl p.2
    else lpScan key sub (if p.1 = key then p.2 else out) (if p.1 = "n".toList then p.2 else n) ps

/-- `int(nparam)`. Simplified: digits only; anything else is an error. -/
def noteNumber (s : Str) : Except PyErr Int := if s ≠ [] ∧ s.all isDig = true then .ok (parseNat s) else .error .valueError

/-- humdrumtoken.py:2840-2889 `layoutParameter`, for tokens whose own value is not set; the number is kept from set to set. -/
def layoutParameter (cat key : Str) (sub : Int) : Str → List HumParamSet → Except PyErr Str
  | _, [] => .ok []
  | n, hps :: rest =>
    if hps.ns1 ≠ "LO".toList ∨ hps.ns2 ≠ cat then layoutParameter cat key sub n rest
    else match lpScan key sub [] n hps.params with
      | .inl v => .ok v
      | .inr (out, n') =>
        if n' = [] ∨ sub < 0 then (if out ≠ [] then .ok out else layoutParameter cat key sub n' rest)
        else match noteNumber n' with
          | .error e => .error e
          | .ok np => if np = sub + 1 then .ok out else layoutParameter cat key sub n' rest

/-- The parameter of note `sub` (from 0; -1 for the whole token) given the layout comments. -/
def tokenParameter (layouts : List Str) (cat key : Str) (sub : Int) : Except PyErr Str :=
  layoutParameter cat key sub [] (layouts.map (({} : HumParamSet).readString ·))

end C21
