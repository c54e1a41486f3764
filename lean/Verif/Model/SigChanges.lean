import Verif.Model.PyStr
/-
Key and time signature changes in the measures of a Humdrum file: which signatures are put into which
staff's measure, and which staff remembers its new key (ornaments are resolved with that key later).

Models converter21/humdrum/humdrumfile.py 1355-1450 (_addKeyTimeChangesToSystemMeasures). The token
tests (isTimeSignature, isKeySignature, isKeyDesignation, isMensurationSymbol) exclude each other and are
given as the kind of a token. The objects made by M21Convert.m21TimeSignature and m21KeySignature are
arbitrary functions of the texts (`mkTime`, `mkKey`); m21KeySignature may return None.
-/
namespace C21

/-- What a token of an interpretation line is. humdrumfile.py 1390-1411. -/
inductive SigKind
  | time (ratio : Str)
  | key (sig : Str)
  | desig (name : Str)
  | met (symbol : Str)
  | other
deriving DecidableEq, Repr

/-- A token: `_staffStartsIndexByTrack[token.track]` (-1: not a staff), `durationFromBarline`, its kind. -/
structure SigTok where
  staff : Int
  off : Rat
  kind : SigKind

/-- A line of the measure: `isInterpretation` and its tokens. -/
structure SigLine where
  isInterp : Bool
  toks : List SigTok

/-- The four token lists (one entry per staff) and the loop variable `staffIndex`, which keeps its last
value. The lists are functions of the staff index. humdrumfile.py 1364-1371. -/
structure SigAcc where
  time : Nat → Option (Str × Rat)
  key : Nat → Option (Str × Rat)
  desig : Nat → Option Str
  met : Nat → Option Str
  staffIndex : Int

/-- `xs[i] = v` for a staff index. -/
def setStaffAt {α : Type} (f : Nat → Option α) (i : Nat) (v : α) : Nat → Option α :=
  fun j => if j = i then some v else f j

/-- The body of the token loop. humdrumfile.py 1383-1416. -/
def sigTokStep (acc : SigAcc) (t : SigTok) : SigAcc :=
  let acc := { acc with staffIndex := t.staff }
  if t.staff < 0 then acc
  else
    let i := t.staff.toNat
    match t.kind with
    | .time r => { acc with time := setStaffAt acc.time i (r, t.off) }
    | .key k => { acc with key := setStaffAt acc.key i (k, t.off) }
    | .desig d => { acc with desig := setStaffAt acc.desig i d }
    | .met m => if (acc.time i).isSome then { acc with met := setStaffAt acc.met i m } else acc
    | .other => acc

/-- The loop over the lines. humdrumfile.py 1378-1416. `staffIndex` has no value before the first token;
it is only used after a key signature token was seen. -/
def sigScan (lines : List SigLine) : SigAcc :=
  ((lines.filter fun l => l.isInterp).flatMap fun l => l.toks).foldl sigTokStep
    ⟨fun _ => none, fun _ => none, fun _ => none, fun _ => none, -1⟩

/-- A signature put into a measure at an offset. -/
inductive SigObj (τ κ : Type)
  | timeSig (t : τ)
  | keySig (k : κ)
deriving DecidableEq, Repr

/-- The time signature part of the loop over the staves. humdrumfile.py 1430-1436. -/
def sigTimeObjs {τ κ : Type} (mkTime : Str → Option Str → τ) (acc : SigAcc) (s : Nat) :
    List (Rat × SigObj τ κ) :=
  match acc.time s with
  | some (r, o) => [(o, .timeSig (mkTime r (acc.met s)))]
  | none => []

/-- The key signature made for staff `s`, with its offset. humdrumfile.py 1438-1440. -/
def sigKeyOf {κ : Type} (mkKey : Str → Option Str → Option κ) (acc : SigAcc) (s : Nat) :
    Option (Rat × κ) :=
  match acc.key s with
  | some (k, o) => (mkKey k (acc.desig s)).map fun v => (o, v)
  | none => none

/-- What is inserted into the measure of staff `s`. humdrumfile.py 1425-1448. -/
def sigInserted {τ κ : Type} (mkTime : Str → Option Str → τ) (mkKey : Str → Option Str → Option κ)
    (lines : List SigLine) (s : Nat) : List (Rat × SigObj τ κ) :=
  let acc := sigScan lines
  sigTimeObjs mkTime acc s ++
    match sigKeyOf mkKey acc s with
    | some (o, v) => [(o, .keySig v)]
    | none => []

/-- Python's `xs[i] = v` on a list: a negative index counts from the end. -/
def pySetIdx {α : Type} (xs : List α) (i : Int) (v : α) : List α :=
  if i < 0 then xs.set (xs.length - i.natAbs) v else xs.set i.toNat v

/-- One staff's turn in the assignment of `currentM21KeySig`: the index is the variable left over from
the scanning loop. humdrumfile.py 1444. -/
def sigKeyAssign {κ : Type} (mkKey : Str → Option Str → Option κ) (acc : SigAcc)
    (cur : List (Option κ)) (s : Nat) : List (Option κ) :=
  match sigKeyOf mkKey acc s with
  | some (_, v) => pySetIdx cur acc.staffIndex (some v)
  | none => cur

/-- `currentM21KeySig` of all staves after the measure. humdrumfile.py 1425-1445. -/
def sigCurrentKeys {κ : Type} (mkKey : Str → Option Str → Option κ) (lines : List SigLine)
    (cur : List (Option κ)) : List (Option κ) :=
  (List.range cur.length).foldl (sigKeyAssign mkKey (sigScan lines)) cur

end C21
