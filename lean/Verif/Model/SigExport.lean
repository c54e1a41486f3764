import Verif.Model.Grid
import Verif.Model.ClefMeter
import Verif.Model.KeySig
import Verif.Model.SigChanges
/-
The lines of clefs, key signatures and time signatures the exporter writes at one moment of a measure:
humdrum/humdrumwriter.py:1489-1645 (`_appendZeroDurationEvents`) and 1726-2057 (`_addClefLine` to `_fillEmpties`), and the lines as the importer
sees them (humdrum/humdrumfile.py:1378-1411; humdrum/humdrumtoken.py:1388, 1437, 1455, 1545).
-/
namespace C21

/-- The objects without duration the method makes lines of. `key` has the number of sharps and, if it is a `Key`, the key; `transp` is a
transposing instrument with its `dNcM` text, `stria` a layout with a number of staff lines. Texts, tempos, dynamics, marks and the like, which
are only put aside, are `other`. -/
inductive ZObj
  | clef (c : HClef)
  | key (sharps : Int) (name : Option M21Key)
  | meter (ratio : List (Nat × Nat)) (sym : MeterSym)
  | transp (dc : Option Str)
  | stria (n : Nat)
  | grace (id : Nat)
  | other
deriving DecidableEq

/-- An event without duration and where it is. -/
structure ZEvent where
  part : Nat
  staff : Nat
  voice : Nat
  obj : ZObj
deriving DecidableEq

/-- The texts for a line, with part and staff; a text may fail, or be missing. The code has one list per part; here all are in one list. -/
abbrev ZEntries := List (Nat × Nat × Except PyErr (Option Str))

/-- humdrumwriter.py:1499-1521: what is collected. `named` and `symbol` are `hasKeyDesignation` and `hasMeterSig`; the other flags say that the
lists are not empty. The grace notes are kept here in one list, in the code by part, staff and voice. -/
structure ZAcc where
  clefs : ZEntries := []
  keys : ZEntries := []
  names : ZEntries := []
  meters : ZEntries := []
  symbols : ZEntries := []
  transps : ZEntries := []
  strias : ZEntries := []
  named : Bool := false
  symbol : Bool := false
  found : Bool := false
  before : List ZEvent := []
  after : List ZEvent := []

/-- humdrumwriter.py:1533-1598: the body of the loop. The tokens are those of `_insertPart…` (1818, 1837, 1921, 1942, 1985, 2007, 2027), made
here at once; `_insertPartKeyDesignations` makes none for what is no `Key`. -/
def zStep (a : ZAcc) (e : ZEvent) : ZAcc :=
  match e.obj with
  | .clef c => { a with clefs := a.clefs ++ [(e.part, e.staff, .ok (clefToken c))], found := true }
  | .key n k =>
    { a with keys := a.keys ++ [(e.part, e.staff, (keySigToken n).map some)],
             names := a.names ++ [(e.part, e.staff, .ok (k.map keyDesignationToken))], named := k.isSome, found := true }
  | .transp dc => { a with transps := a.transps ++ [(e.part, e.staff, .ok (dc.map ("*ITr".toList ++ ·)))], found := true }
  | .stria n => { a with strias := a.strias ++ [(e.part, e.staff, .ok (some ("*stria".toList ++ natStr n)))], found := true }
  | .meter r m =>
    { a with meters := a.meters ++ [(e.part, e.staff, .ok (some (timeSigToken r)))],
             symbols := a.symbols ++ [(e.part, e.staff, .ok (meterSigToken m))], symbol := (meterSigToken m).isSome, found := true }
  | .grace _ => if a.found then { a with after := a.after ++ [e] } else { a with before := a.before ++ [e] }
  | .other => a

/-- `setTokenLayer(voice0, token)` on a staff of the part, if there is a token (humdrumwriter.py:1819-1821 and the like). -/
def putSig (part : GPart) (s : Nat) (tok : Except PyErr (Option Str)) : Except PyErr GPart :=
  match tok with
  | .error e => .error e
  | .ok none => .ok part
  | .ok (some t) =>
    match part.staves[s]? with
    | none => .error .indexError
    | some st =>
      match st.setTokenLayer 0 t with
      | .error e => .error e
      | .ok st' => .ok { part with staves := part.staves.set s st' }

/-- The loop over the entries of a part. -/
def putSigs (part : GPart) : ZEntries → Except PyErr GPart
  | [] => .ok part
  | e :: es =>
    match putSig part e.2.1 e.2.2 with
    | .error x => .error x
    | .ok p => putSigs p es

/-- A place of `_fillEmpties` (humdrumwriter.py:2051-2057). -/
def fillCell : GCell → GCell
  | .tok t => .tok t
  | _ => .tok ['*']

/-- One staff of `_fillEmpties` (humdrumwriter.py:2041-2057). -/
def fillStaff (st : GStaff) : GStaff :=
  { st with voices := if st.voices = [] then [.tok ['*']] else st.voices.map fillCell }

/-- `_fillEmpties(part, '*')`. -/
def fillEmpties (part : GPart) : GPart := { part with staves := part.staves.map fillStaff }

/-- One part of a line: only parts with entries are touched, unless `always` (staff lines, humdrumwriter.py:1767-1769). -/
def sigPart (always : Bool) (es : ZEntries) (p : Nat) (part : GPart) : Except PyErr GPart :=
  let mine := es.filter (fun e => e.1 = p)
  if mine.isEmpty && !always then .ok part
  else (putSigs part mine).map fillEmpties

/-- The parts of a line from number `p` on. -/
def sigParts (always : Bool) (es : ZEntries) : Nat → List GPart → Except PyErr (List GPart)
  | _, [] => .ok []
  | p, part :: ps =>
    match sigPart always es p part with
    | .error e => .error e
    | .ok q => (sigParts always es (p + 1) ps).map (q :: ·)

/-- A line of tokens: `_addClefLine` and the like (humdrumwriter.py:1726-1942). -/
def sigSlice (counts : List Nat) (time : Rat) (kind : SliceKind) (always : Bool) (es : ZEntries) : Except PyErr GSlice :=
  (sigParts always es 0 (newSlice time kind counts).parts).map (fun ps => ⟨time, kind, ps⟩)

/-- `_addTempoTokenLine` (humdrumwriter.py:1845-1874): the token on every staff. -/
def tempoSlice (counts : List Nat) (time : Rat) (mm : Str) : GSlice :=
  ⟨time, .tempos, counts.map (fun n => { staves := List.replicate n { voices := [.tok mm] } })⟩

/-- What the method appends to the measure: grace note lines, a line of tokens, a global comment. -/
inductive ZLine
  | graces (es : List ZEvent)
  | tokens (sl : GSlice)
  | comment (t : Str)
deriving DecidableEq

/-- A line that is only written on a condition. -/
def lineIf (b : Bool) (sl : Except PyErr GSlice) : Except PyErr (List ZLine) :=
  if b then sl.map (fun s => [.tokens s]) else .ok []

/-- The lines of the steps, one after the other, up to the first error. -/
def seqLines : List (Except PyErr (List ZLine)) → Except PyErr (List ZLine)
  | [] => .ok []
  | x :: xs =>
    match x with
    | .error e => .error e
    | .ok l => (seqLines xs).map (l ++ ·)

/-- The steps after the loop, in order (humdrumwriter.py:1612-1645); the transposition line has the kind of key signatures (1955). -/
def zeroSteps (counts : List Nat) (time : Rat) (tempoLayout mm : Str) (a : ZAcc) : List (Except PyErr (List ZLine)) :=
  [.ok (if a.before = [] then [] else [.graces a.before]),
   lineIf (!a.strias.isEmpty) (sigSlice counts time .stria true a.strias),
   lineIf (!a.clefs.isEmpty) (sigSlice counts time .clefs false a.clefs),
   lineIf (!a.transps.isEmpty) (sigSlice counts time .keySigs false a.transps),
   lineIf (!a.keys.isEmpty) (sigSlice counts time .keySigs false a.keys),
   lineIf (!a.keys.isEmpty && a.named) (sigSlice counts time .keyDesignations false a.names),
   .ok (if !a.meters.isEmpty && (tempoLayout ≠ [] && time = 0) then [.comment tempoLayout] else []),
   lineIf (!a.meters.isEmpty) (sigSlice counts time .timeSigs false a.meters),
   lineIf (!a.meters.isEmpty && a.symbol) (sigSlice counts time .meterSigs false a.symbols),
   lineIf (!a.meters.isEmpty && (mm ≠ [] && time = 0)) (.ok (tempoSlice counts time mm)),
   .ok (if a.after = [] then [] else [.graces a.after])]

/-- `_appendZeroDurationEvents` (humdrumwriter.py:1489-1645): the lines appended to the measure for the events of one moment. `tempoLayout` and `mm`
are the tempo texts kept for the first time signature. -/
def zeroLines (counts : List Nat) (time : Rat) (tempoLayout mm : Str) (events : List ZEvent) : Except PyErr (List ZLine) :=
  seqLines (zeroSteps counts time tempoLayout mm (events.foldl zStep {}))

/-! ### The lines as they are read -/

/-- The text of a place in the written line; a place without a token is written `*`. -/
def cellOrStar : Option GCell → Str
  | some (.tok t) => t
  | _ => ['*']

/-- The text of the first voice of a staff in the written line. -/
def sigCell (sl : GSlice) (p s : Nat) : Str :=
  cellOrStar ((sl.parts[p]?.bind (fun q => q.staves[s]?)).bind (fun st => st.voices.head?))

/-- `isMensurationSymbol` (humdrumtoken.py:1545-1546). -/
def isMetText (t : Str) : Bool := startsWith t "*met(".toList && ")".toList.isSuffixOf t

/-- humdrumfile.py:1390-1411: what the importer takes a token for. -/
def sigKindOf (t : Str) : SigKind :=
  if isTimeSigText t then .time t
  else if isKeySignature t then .key t
  else if (keyDesignation t).isSome then .desig t
  else if isMetText t then .met t
  else .other

/-- The written line as the importer sees it: `num p s` is the staff number of staff `s` of part `p` in the file, `off` the offset. Spines that are
no staves are left out. -/
def sigLineOf (num : Nat → Nat → Nat) (counts : List Nat) (off : Rat) : ZLine → SigLine
  | .tokens sl => ⟨true, (List.range counts.length).flatMap (fun p => (List.range (counts.getD p 0)).map (fun s => ⟨num p s, off, sigKindOf (sigCell sl p s)⟩))⟩
  | _ => ⟨false, []⟩

/-- The time signature object (m21convert.py:657-673). -/
def readTimeObj (t : Str) (met : Option Str) : Option (Nat × Nat) × MeterSym := (timeSigOf t, readMeterSym met)

/-- The key signature object, if there is one (m21convert.py:676-740). -/
def readKeyObj (t : Str) (name : Option Str) : Option ReadKey :=
  match readKeySig t name with
  | .ok .none => none
  | .ok k => some k
  | .error _ => none

end C21
