import Verif.Model.Tie
import Verif.Model.Token
/-
humdrumfilecontent.py:1071-1585: accidentals.
-/
namespace C21

/-- The state of one spine (`keysigs`, `dstates`, `gdstates`): 7, 70 and 70 numbers. -/
structure AccSt where
  key : Nat → Int
  d : Nat → Int
  gd : Nat → Int

/-- humdrumfilecontent.py:1092-1115: all zero. -/
def AccSt.init : AccSt := ⟨fun _ => 0, fun _ => 0, fun _ => 0⟩

/-- The assignments of humdrumfilecontent.py:1555-1582: the text searched, the place and the value, in order. -/
def keyTable : List (String × Nat × Int) :=
  [("f#", 3, 1), ("c#", 0, 1), ("g#", 4, 1), ("d#", 1, 1), ("a#", 5, 1), ("e#", 2, 1), ("b#", 6, 1),
   ("b-", 6, -1), ("e-", 2, -1), ("a-", 5, -1), ("d-", 1, -1), ("g-", 4, -1), ("c-", 0, -1), ("f-", 3, -1)]

/-- humdrumfilecontent.py:1550-1581 `fillKeySignature`. -/
def fillKeySignature (text : Str) : Nat → Int :=
  keyTable.foldl (fun f r => if isInfix r.1.toList text then (fun i => if i = r.2.1 then r.2.2 else f i) else f) (fun _ => 0)

/-- humdrumfilecontent.py:1583-1586 `resetDiatonicStatesWithKeySignature` for both lists. -/
def AccSt.reset (S : AccSt) : AccSt := { S with d := fun i => S.key (i % 7), gd := fun i => S.key (i % 7) }

def upd (f : Nat → Int) (i : Nat) (v : Int) : Nat → Int := fun j => if j = i then v else f j

/-- Accidentals of the other notes of an ornament: name, shown (`.vis`) or not (`.ges`), value. -/
abbrev OrnOut := List (Str × Bool × Int)

/-- humdrumfilecontent.py:1238-1325: trills and mordents; the name and the base-40 interval. -/
def ornStep (t : Str) : Option (Str × Int) :=
  if t.contains 't' then some ("trill".toList, 5)
  else if t.contains 'T' then some ("trill".toList, 6)
  else if t.contains 'M' then some ("mordent".toList, 6)
  else if t.contains 'm' then some ("mordent".toList, 5)
  else if t.contains 'W' then some ("mordent".toList, -6)
  else if t.contains 'w' then some ("mordent".toList, -5)
  else none

/-- humdrumfilecontent.py:1336-1346, 1390-1400: the interval written after a turn sign. -/
def turnInt (c : Option Char) (sgn : Int) : Int :=
  if c = some 's' then sgn * 5 else if c = some 'S' then sgn * 6 else 0

/-- humdrumfilecontent.py:1348-1384, 1402-1438. -/
def turn (b40 lower0 upper0 : Int) (d : Nat → Int) : Except PyErr (OrnOut × (Nat → Int)) :=
  let e := base40ToDiatonic b40
  match pyIndex 70 (e - 1) with
  | none => .error .indexError
  | some lo =>
    match pyIndex 70 (e + 1) with
    | none => .error .indexError
    | some up =>
      let lowerAccid := d lo
      let upperAccid := d up
      let lowerInt := if lower0 = 0 then base7ToBase40 (e - 1) + lowerAccid - b40 else lower0
      let upperInt := if upper0 = 0 then base7ToBase40 (e + 1) + upperAccid - b40 else upper0
      let uacc := base40ToAccidental (b40 + upperInt)
      let bacc := base40ToAccidental (b40 + lowerInt)
      let d := if uacc ≠ upperAccid then upd d up uacc else d
      let d := if bacc ≠ lowerAccid then upd d lo bacc else d
      .ok ([("turnUpper".toList, decide (uacc ≠ upperAccid), uacc), ("turnLower".toList, decide (bacc ≠ lowerAccid), bacc)], d)

/-- humdrumfilecontent.py:1238-1438: the accidentals of ornaments. The names of the trill pitches are not modelled. -/
def ornament (t : Str) (b40 : Int) (d : Nat → Int) : Except PyErr (OrnOut × (Nat → Int)) :=
  match ornStep t with
  | some (name, i) =>
    match pyIndex 70 (base40ToDiatonic (b40 + i)) with
    | none => .error .indexError
    | some x =>
      let a := base40ToAccidental (b40 + i)
      if d x ≠ a then .ok ([(name, true, a)], upd d x (-1000 + a)) else .ok ([(name, false, a)], d)
  | none =>
    if t.contains '$' then
      let r := (t.dropWhile (· != '$')).drop 1
      turn b40 (turnInt r[0]? (-1)) (turnInt r[1]? 1) d
    else if t.contains 'S' then
      let r := (t.dropWhile (· != 'S')).drop 1
      turn b40 (turnInt r[1]? (-1)) (turnInt r[0]? 1) d
    else .ok ([], d)

/-- What is recorded for a note. -/
structure AccOut where
  visual : Bool
  caution : Bool
  orn : OrnOut
deriving DecidableEq

/-- A subtoken of a kern data token: its track, its text (with 'r' made 'R' in chords, humdrumfilecontent.py:1196-1203), whether
the token is a grace note, whether the accidental is editorial (humdrumfilecontent.py:1502-1526), and the layout parameter
`A:vis` or `N:acc` if there is one, read as a boolean. -/
structure AccNote where
  track : Nat
  text : Str
  grace : Bool
  editorial : Bool
  layout : Option Bool
deriving DecidableEq

/-- humdrumfilecontent.py:1440-1500: the decision for a note, after its ornaments. -/
def accDecide (S : AccSt) (conc : Nat → Int) (n : AccNote) (t : Str) (p : Nat) (accid : Int) : Bool × Bool × (Nat → Int) × AccSt :=
  if n.grace && decide (accid ≠ S.gd p) then
    (true, decide (S.gd p < -900), conc, { S with gd := upd S.gd p accid, d := upd S.d p (-1000 + accid) })
  else if !n.grace && (decide (conc p ≠ 0) && decide (conc p = accid) || decide (accid ≠ S.d p)) then
    (true, decide (S.d p < -900), upd conc p accid, { S with d := upd S.d p accid, gd := upd S.gd p accid })
  else if decide (accid = 0) && t.contains 'n' then (true, true, conc, S)
  else if !isInfix "XX".toList t && (isInfix "#X".toList t || isInfix "-X".toList t || isInfix "nX".toList t) then (true, true, conc, S)
  else (false, false, conc, S)

/-- humdrumfilecontent.py:1500-1543: editorial and layout. -/
def accFinish (n : AccNote) (visual caution : Bool) (orn : OrnOut) : AccOut :=
  let visual := visual || n.editorial
  match n.layout with
  | some b => ⟨b, b, orn⟩
  | none => ⟨visual, caution, orn⟩

/-- humdrumfilecontent.py:1205-1543: one subtoken. `first` is `firstInBar` (the list is always all true or all false); `none`
means that nothing is recorded. -/
def accNote (first : Bool) (conc : Nat → Int) (S : AccSt) (n : AccNote) : Except PyErr (Option AccOut × (Nat → Int) × AccSt) :=
  let b40 := kernToBase40 n.text
  let diatonic := kernToBase7 n.text
  if diatonic < 0 then .ok (none, conc, S)
  else
    let accid := kernToAccidentalCount n.text
    let t := if isInfix "yy".toList n.text then n.text else replaceAll "ny".toList [] n.text
    let tied := t.contains '_' || t.contains ']'
    let force := tied && decide (accid ≠ S.key (diatonic % 7).toNat) && first
    if force && (pyIndex 70 diatonic).isNone then .error .indexError
    else
      let S := if force then { S with d := upd S.d diatonic.toNat (-1000 + accid), gd := upd S.gd diatonic.toNat (-1000 + accid) } else S
      if tied && !isInfix "#X".toList t && !isInfix "-X".toList t && !t.contains 'n' then .ok (none, conc, S)
      else
        match ornament t b40 S.d with
        | .error e => .error e
        | .ok (orn, d) =>
          let S := { S with d := d }
          match pyIndex 70 diatonic with
          | none => .error .indexError
          | some p =>
            let r := accDecide S conc n t p accid
            .ok (some (accFinish n r.1 r.2.1 orn), r.2.2.1, r.2.2.2)

/-- humdrumfilecontent.py:1186-1190: a token of the line; its subtokens, with the conditions of 1177-1184. -/
structure AccTok where
  track : Nat
  text : Str
  editorial : Nat → Bool
  layout : Nat → Option Bool

/-- humdrumfilecontent.py:1177-1203: the subtokens looked at. -/
def AccTok.notes (t : AccTok) : List AccNote :=
  if tokIsNull t.text || isRestText t.text then []
  else
    let subs := splitOn ' ' t.text
    subs.zipIdx.map (fun s =>
      ⟨t.track, if subs.length > 1 then replaceAll ['r'] ['R'] s.1 else s.1, t.text.contains 'q', t.editorial s.2, t.layout s.2⟩)

/-- A line: interpretations, barlines and data by track, of the kern tokens only. -/
inductive AccLine where
  | interp (toks : List (Nat × Str))
  | bar (toks : List (Nat × Str))
  | data (toks : List AccTok)
  | other

/-- The state: that of each track, and `firstInBar`. -/
structure AccFile where
  st : Nat → AccSt
  first : Bool

def AccFile.init : AccFile := ⟨fun _ => AccSt.init, false⟩

def AccFile.set (F : AccFile) (t : Nat) (S : AccSt) : AccFile := { F with st := fun i => if i = t then S else F.st i }

/-- A note looked at, and what was recorded for it. -/
abbrev AccRes := AccNote × Option AccOut

/-- humdrumfilecontent.py:1194-1543: the subtokens of a token. -/
def accNotes (first : Bool) : List AccNote → (Nat → Int) → AccSt → Except PyErr (List AccRes × (Nat → Int) × AccSt)
  | [], conc, S => .ok ([], conc, S)
  | n :: ns, conc, S =>
    match accNote first conc S n with
    | .error e => .error e
    | .ok (o, conc, S) =>
      match accNotes first ns conc S with
      | .error e => .error e
      | .ok (rs, conc, S) => .ok ((n, o) :: rs, conc, S)

/-- humdrumfilecontent.py:1171-1543: the tokens of a data line; `last` is `lastTrack`. -/
def accToks : List AccTok → Option Nat → (Nat → Int) → AccFile → Except PyErr (List AccRes × AccFile)
  | [], _, _, F => .ok ([], F)
  | t :: ts, last, conc, F =>
    if tokIsNull t.text || isRestText t.text then accToks ts last conc F
    else
      let conc := if last ≠ some t.track then fun _ => 0 else conc
      match accNotes F.first t.notes conc (F.st t.track) with
      | .error e => .error e
      | .ok (rs, conc, S) =>
        match accToks ts (some t.track) conc (F.set t.track S) with
        | .error e => .error e
        | .ok (rs2, F) => .ok (rs ++ rs2, F)

/-- humdrumfilecontent.py:1125-1147. -/
def accInterp (toks : List (Nat × Str)) (F : AccFile) : AccFile :=
  toks.foldl (fun F t =>
    if startsWith t.2 "*k[".toList then F.set t.1 ({ F.st t.1 with key := fillKeySignature t.2 }).reset else F) F

/-- humdrumfilecontent.py:1149-1168; a barline with '-' is invisible (humdrumtoken.py:1280). -/
def accBar (toks : List (Nat × Str)) (F : AccFile) : AccFile :=
  toks.foldl (fun F t => if t.2.contains '-' then F else { F.set t.1 (F.st t.1).reset with first := true }) F

/-- humdrumfilecontent.py:1121-1545: one line. -/
def accLine (l : AccLine) (F : AccFile) : Except PyErr (List AccRes × AccFile) :=
  match l with
  | .interp toks => .ok ([], accInterp toks F)
  | .bar toks => .ok ([], accBar toks F)
  | .data toks =>
    match accToks toks none (fun _ => 0) F with
    | .error e => .error e
    | .ok (rs, F) => .ok (rs, { F with first := false })
  | .other => .ok ([], F)

/-- humdrumfilecontent.py:1071-1548 `analyzeKernAccidentals`: what is recorded, line by line. -/
def accLines : List AccLine → AccFile → Except PyErr (List (List AccRes) × AccFile)
  | [], F => .ok ([], F)
  | l :: ls, F =>
    match accLine l F with
    | .error e => .error e
    | .ok (rs, F) =>
      match accLines ls F with
      | .error e => .error e
      | .ok (rss, F) => .ok (rs :: rss, F)

end C21
