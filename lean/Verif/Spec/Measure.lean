import Verif.Model.Measure
import Verif.Spec.Grid
import Mathlib.Data.List.Chain
import Mathlib.Data.List.Forall2
/-
Spec for C34: order of the lines of a measure, and what happens to its tokens.
-/
namespace C21

/-- Times never go back, and a layout line has the time of the line after it. -/
def LineOrder (a b : GSlice) : Prop := a.time ≤ b.time ∧ (a.kind = .layouts → a.time = b.time)

/-- The lines of a measure are in order of time, layout lines belong to the line after them (or to the end of the
measure), and no two note lines have the same time. -/
structure Ordered (endTime : Rat) (l : List GSlice) : Prop where
  chain : l.IsChain LineOrder
  upto : ∀ x ∈ l, x.time ≤ endTime
  last : ∀ x, l.getLast? = some x → x.kind = .layouts → x.time = endTime
  notes : ((l.filter (fun x => x.kind = .notes)).map (fun x => x.time)).Nodup

/-- How the exporter uses the operations: note lines for new times, other lines appended only when nothing is later, labels
and rehearsal marks at the start, nothing after the end of the measure. -/
def Admissible (start endTime : Rat) (l : List GSlice) : MOp → Prop
  | .insert x => x.kind = .notes ∧ x.time ≤ endTime ∧ ∀ y ∈ l, y.kind = .notes → y.time ≠ x.time
  | .append x => x.kind ≠ .notes ∧ x.kind ≠ .layouts ∧ x.time ≤ endTime ∧ ∀ y ∈ l, y.time ≤ x.time
  | .typed k t .. => k ≠ .notes ∧ k ≠ .layouts ∧ t ≤ endTime
  | .label k t .. => k ≠ .notes ∧ k ≠ .layouts ∧ t ≤ endTime ∧ ∀ y ∈ l, t ≤ y.time
  | .global k t _ => k ≠ .notes ∧ k ≠ .layouts ∧ t ≤ endTime
  | .startLayout _ => start ≤ endTime ∧ ∀ y ∈ l, start ≤ y.time
  | .layout .. => True
  | .tuplet .. => True
  | .ottavas .. => True
  | .set .. => True

/-- The operation is meant for this cell of this line. -/
def Meant (l : List GSlice) (x : GSlice) (p s v : Nat) : MOp → Prop
  | .typed k t _ _ _ p' s' v' => x.kind = k ∧ x.time = t ∧ (p, s, v) = (p', s', v')
  | .label k t _ _ p' s' v' => x.kind = k ∧ x.time = t ∧ (p, s, v) = (p', s', v')
  | .set i p' s' v' _ => l[i]? = some x ∧ (p, s, v) = (p', s', v')
  | _ => False

/-- A token that means something. -/
def notNull (t : Str) : Prop := t ≠ "!".toList ∧ t ≠ "*".toList

/-- `b` is the line `a` with its time, kind and tokens, but for the cell the operation is meant for. -/
def KeptLine (l : List GSlice) (op : MOp) (a b : GSlice) : Prop :=
  b.time = a.time ∧ b.kind = a.kind ∧
  (∀ p s v text, a.cell p s v = some text → notNull text → ¬ Meant l a p s v op → b.cell p s v = some text) ∧
  (∀ p, b.partSide p = a.partSide p) ∧ (∀ p s, b.staffSide p s = a.staffSide p s)

/-- All lines are still there, in the same order. -/
def KeptLines (op : MOp) (old new : List GSlice) : Prop :=
  ∃ l, l.Sublist new ∧ List.Forall₂ (KeptLine old op) old l

/-- All operations of a history can be done, one after the other, each under the condition `P` where it is done. -/
inductive History (start endTime : Rat) (P : List GSlice → MOp → Prop) : List GSlice → List MOp → List GSlice → Prop
  | nil (l) : History start endTime P l [] l
  | cons {l l' l''} {op : MOp} {ops} : P l op → op.run start endTime l = .ok l' →
      History start endTime P l' ops l'' → History start endTime P l (op :: ops) l''

/-- The operation is not meant for this cell of a line of this time and kind. -/
def Spares (t : Rat) (k : SliceKind) (p s v : Nat) (l : List GSlice) (op : MOp) : Prop :=
  ∀ x ∈ l, x.time = t → x.kind = k → ¬ Meant l x p s v op

/-- There is a line of this time and kind with this token. -/
def HoldsToken (l : List GSlice) (t : Rat) (k : SliceKind) (p s v : Nat) (tok : Str) : Prop :=
  ∃ x ∈ l, x.time = t ∧ x.kind = k ∧ x.cell p s v = some tok

end C21
