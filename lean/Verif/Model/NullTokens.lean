import Mathlib.Algebra.Order.Ring.Unbundled.Rat
/-
Model of the null tokens below a note in an exported Humdrum file: `HumGrid.addNullTokensForNoteDurations` and
`extendDurationToken` (converter21/humdrum/humgrid.py:452-577, 653-680) with `setNullTokenLayer`
(converter21/humdrum/gridstaff.py:80-115).

Simplifications: one voice of one staff is followed; the code goes through all of them, and they do not touch each
other's tokens. A line is its kind, its time and the token of the voice. The durations the code stores in lines are left
out: the one of a line is used only if no line with spines follows, and then no token depends on it. Lines of the
type `Invalid` do not occur. The result `none` stands for a HumdrumInternalError.
-/
namespace C21

/-- The kinds of lines (converter21/humdrum/gridcommon.py:56-91): notes, grace notes, other lines with spines and lines
without. -/
inductive NTKind | notes | grace | spined | global
  deriving DecidableEq, Repr

/-- The token of the voice: a null token, a note or rest with its duration, or something else. -/
inductive NTCell
  | null
  | note (dur : Rat)
  | other
  deriving DecidableEq

/-- A line: `none` if the voice has no token in it. -/
structure NTSlice where
  kind : NTKind
  ts : Rat
  cell : Option NTCell
  deriving DecidableEq

/-- `hasSpines` (humdrum/gridslice.py:333-336). -/
def NTSlice.hasSpines (x : NTSlice) : Bool := decide (x.kind ≠ .global)

/-- The time of the next line with spines (humgrid.py:516-532). If there is none the value does not matter. -/
def nextTime (curr : Rat) (rest : List NTSlice) : Rat :=
  match rest.find? (·.hasSpines) with
  | some y => y.ts
  | none => curr

/-- The loop of `extendDurationToken` (humgrid.py:505-574). -/
def extendLoop : Rat → Rat → List NTSlice → Option (List NTSlice)
  | _, _, [] => some []
  | left, next, x :: rest =>
    if left ≤ 0 then some (x :: rest)
    else
      match x.kind with
      | .global => (extendLoop left next rest).map (x :: ·)
      | .grace => (extendLoop left (nextTime next rest) rest).map (x :: ·)
      | .notes =>
        match x.cell with
        | none => (extendLoop (left - (nextTime next rest - next)) (nextTime next rest) rest).map ({ x with cell := some .null } :: ·)
        | some .null => (extendLoop (left - (nextTime next rest - next)) (nextTime next rest) rest).map (x :: ·)
        | some _ => none
      | .spined =>
        match x.cell with
        | none => (extendLoop left (nextTime next rest) rest).map ({ x with cell := some .null } :: ·)
        | some _ => (extendLoop left (nextTime next rest) rest).map (x :: ·)

/-- `extendDurationToken` for a note of duration `dur` at time `ts` (humgrid.py:452-504); `rest` are the lines after
it. -/
def extendNote (ts dur : Rat) (rest : List NTSlice) : Option (List NTSlice) :=
  match rest with
  | [] => some []
  | y :: ys =>
    if dur = 0 then some (y :: ys)
    else if dur - (y.ts - ts) = 0 then some (y :: ys)
    else if dur - (y.ts - ts) < 0 then some (y :: ys)
    else extendLoop (dur - (y.ts - ts)) y.ts (y :: ys)

/-- `addNullTokensForNoteDurations` (humgrid.py:653-680) for one voice; the number bounds the lines. -/
def fillVoiceFrom : Nat → List NTSlice → Option (List NTSlice)
  | 0, xs => some xs
  | _ + 1, [] => some []
  | n + 1, x :: rest =>
    match x.kind, x.cell with
    | .notes, some (.note d) => (extendNote x.ts d rest).bind (fun rest' => (fillVoiceFrom n rest').map (x :: ·))
    | _, _ => (fillVoiceFrom n rest).map (x :: ·)

/-- All lines. -/
def fillNulls (xs : List NTSlice) : Option (List NTSlice) := fillVoiceFrom xs.length xs

end C21
