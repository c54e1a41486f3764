import Verif.Model.MeiNote
/-
Key signatures, time signatures and clefs in MEI (mei/m21objectconvert.py:504-656, mei/meireader.py:819-870, 2018-2136,
5646-5726), and the alterations implied by keys and earlier notes (mei/meireader.py:4090-4124,
shared/m21utilities.py:1581-1600).
-/
namespace C21

/-! ## Keys -/

/-- mei/m21objectconvert.py:562-588 `_M21_SHARPS_TO_MEI_SIG`, with its `.get(…, '0')` (line 622). -/
def sigAttr (sharps : Int) : Str :=
  if 1 ≤ sharps ∧ sharps ≤ 12 then natStr sharps.toNat ++ ['s']
  else if -12 ≤ sharps ∧ sharps ≤ -1 then natStr (-sharps).toNat ++ ['f']
  else ['0']

/-- A digit, as `int(c)` reads it. -/
def digitOf (c : Char) : Option Nat := if isDig c then some (c.toNat - 48) else none

/-- mei/meireader.py:842-870 `_sharpsFromAttr`; `none` for ValueError. -/
def readSig : Option Str → Option Int
  | none => some 0
  | some [] => some 0
  | some (c :: s) =>
    if c = '0' then some 0
    else if (c :: s).getLast? = some 's' then (digitOf c).map (fun n => (n : Int))
    else (digitOf c).map (fun n => -(n : Int))

/-- A music21 key: its sharps and, for a `Key`, the tonic (step and accidental) and the mode. -/
structure MKey where
  sharps : Int
  tonic : Option (Char × Option String × String)
deriving DecidableEq, Repr

/-- Attributes of a `keySig`. -/
structure KeyAttr where
  pname : Option Char
  accid : Option String
  mode : Option String
  sig : Option Str
deriving DecidableEq, Repr

/-- mei/m21objectconvert.py:605-621: `pname`, `accid` and `mode`. -/
def writeTonic : Option (Char × Option String × String) → Option Char × Option String × Option String
  | none => (none, none, none)
  | some (step, acc, mode) =>
    if mode = "" then (none, none, none)
    else (some step.toLower, acc.bind (fun n => accidTable.lookup n), some mode)

/-- mei/m21objectconvert.py:590-626 `m21KeySigToMei`. An accidental that MEI has not is left out. -/
def writeKey (k : MKey) : KeyAttr :=
  ⟨(writeTonic k.tonic).1, (writeTonic k.tonic).2.1, (writeTonic k.tonic).2.2, some (sigAttr k.sharps)⟩

/-- mei/meireader.py:2089-2100: the key from `pname`, `accid` and `mode`; `keySharps` is music21's calculation of the sharps of a key. -/
def readTonic (keySharps : Char × Option String × String → Int) (a : KeyAttr) : Option MKey :=
  match a.pname, a.mode with
  | some p, some m =>
    let t := (p.toUpper, (a.accid.bind (fun x => readAccidTable.lookup x)).bind (fun x => m21Modifiers.lookup x), m)
    some ⟨keySharps t, some t⟩
  | _, _ => none

/-- mei/meireader.py:2102-2121: the key signature; `asKey` is music21's tonic for sharps and a mode. `none` in the outer option is an
exception. -/
def readMeiKey (keySharps : Char × Option String × String → Int) (asKey : Int → String → Char × Option String × String)
    (a : KeyAttr) : Option (Option MKey) :=
  match a.sig with
  | none => some (readTonic keySharps a)
  | some s => match readSig (some s) with
    | none => none
    | some n =>
      let sigKey : MKey := match a.mode with
        | some m => if m = "" then ⟨n, none⟩ else ⟨n, some (asKey n m)⟩
        | none => ⟨n, none⟩
      match readTonic keySharps a with
      | none => some (some sigKey)
      | some k => if k.sharps ≠ n then some (some sigKey) else some (some k)

/-! ## Meters -/

/-- A time signature: numerator, denominator and symbol. -/
structure MMeter where
  num : Nat
  den : Nat
  sym : Option String
deriving DecidableEq, Repr

/-- Attributes of a `meterSig`. -/
structure MeterAttr where
  count : Option Str
  unit : Option Str
  sym : Option String
deriving DecidableEq, Repr

/-- mei/m21objectconvert.py:628-656 `m21TimeSigToMei`. -/
def writeMeter (m : MMeter) : MeterAttr :=
  ⟨some (natStr m.num), some (natStr m.den), m.sym.bind (fun s => if s = "" then none else some s)⟩

/-- Is an attribute absent or the given text? -/
def absentOr (s : Str) (a : Option Str) : Bool := match a with
  | none => true
  | some x => x == s

/-- mei/meireader.py:2023-2060 `_timeSigFromAttrs`. `none` for no time signature; music21's parsing of `count/unit` is modelled for
numbers. -/
def readMeter (a : MeterAttr) : Option MMeter :=
  if a.sym = some "cut" ∧ absentOr "2".toList a.count ∧ absentOr "2".toList a.unit then some ⟨2, 2, some "cut"⟩
  else if a.sym = some "common" ∧ absentOr "4".toList a.count ∧ absentOr "4".toList a.unit then some ⟨4, 4, some "common"⟩
  else match a.count, a.unit with
    | some c, some u => if c.isEmpty || u.isEmpty then none else some ⟨parseNat c, parseNat u, none⟩
    | _, _ => none

/-! ## Clefs -/

/-- A clef: sign, line and octave change. -/
structure MClef where
  sign : String
  line : Option Nat
  octaveChange : Int
deriving DecidableEq, Repr

/-- Attributes of a `clef`. -/
structure ClefAttr where
  shape : String
  line : Option Str
  dis : Option String
  disPlace : Option String
deriving DecidableEq, Repr

/-- mei/m21objectconvert.py:504-511. -/
def octaveChangeTable : List (Int × (String × String)) :=
  [(1, ("8", "above")), (-1, ("8", "below")), (2, ("15", "above")), (-2, ("15", "below")), (3, ("22", "above")), (-3, ("22", "below"))]

/-- mei/m21objectconvert.py:517-560 `m21ClefToMei`; `none` when nothing is written. -/
def writeClef (c : MClef) : Option ClefAttr :=
  if c.sign = "none" then none
  else
    let d := if c.octaveChange = 0 then none else octaveChangeTable.lookup c.octaveChange
    some ⟨if c.sign = "percussion" then "perc" else c.sign, c.line.map natStr, d.map (·.1), d.map (·.2)⟩

/-- mei/meireader.py:819-839 `_getOctaveShift`. -/
def readOctaveShift (dis place : Option String) : Int :=
  let n : Int := match dis with
    | some "8" => 1
    | some "15" => 2
    | some "22" => 3
    | _ => 0
  if place = some "below" then -n else n

/-- mei/meireader.py:5687-5714 `_clefFromElement`. music21's `clefFromString(sign + line, shift)` is taken to give the sign, the line
and the shift. -/
def readClef (a : ClefAttr) : MClef :=
  if a.shape = "perc" then ⟨"percussion", none, 0⟩
  else if a.shape = "TAB" then ⟨"TAB", none, 0⟩
  else if a.shape = "GG" then ⟨"G", a.line.map parseNat, -1⟩
  else ⟨a.shape, a.line.map parseNat, readOctaveShift a.dis a.disPlace⟩

/-! ## Implied alterations -/

/-- Python's `l[i] = x` with a possibly negative index. -/
def pySet {α : Type} (l : List α) (i : Int) (x : α) : Except PyErr (List α) :=
  let j := if i < 0 then i + l.length else i
  if j < 0 then .error .indexError
  else if l.length ≤ j.toNat then .error .indexError
  else .ok (l.set j.toNat x)

/-- Python's `l[i]`. -/
def pyGet {α : Type} (l : List α) (i : Int) : Except PyErr α :=
  let j := if i < 0 then i + l.length else i
  if j < 0 then .error .indexError
  else match l[j.toNat]? with
    | none => .error .indexError
    | some x => .ok x

/-- shared/m21utilities.py:1581-1600 `getAltersForKey`; the key is the alteration of each of the seven steps from C. -/
def altersForKey (key : Option (Nat → Int)) : List Int :=
  match key with
  | none => List.replicate 70 0
  | some k => (List.range 70).map fun i => k (i % 7)

/-- What happens on a staff. -/
inductive AlterEv where
  | key (k : Option (Nat → Int))
  | barline
  | note (base7 : Int) (alter : Int)

/-- The state for a staff: the current key and the implied alterations. -/
structure AlterState where
  key : Option (Nat → Int)
  alters : List Int

/-- mei/meireader.py:4090-4124: a new key, a note, the start of a measure. -/
def alterStep (s : AlterState) : AlterEv → Except PyErr AlterState
  | .key k => .ok ⟨k, altersForKey k⟩
  | .barline => .ok ⟨s.key, altersForKey s.key⟩
  | .note i a => match pySet s.alters i a with
    | .error e => .error e
    | .ok l => .ok ⟨s.key, l⟩

/-- All events in turn, from the state without key. -/
def alterRun (s : AlterState) : List AlterEv → Except PyErr AlterState
  | [] => .ok s
  | e :: es => match alterStep s e with
    | .error x => .error x
    | .ok s' => alterRun s' es

/-- The state of a staff that has seen nothing. -/
def alterStart : AlterState := ⟨none, altersForKey none⟩

end C21
