import Verif.Model.MeiSlurs
/-
Spec for C126: which notes a slur of an MEI document joins.
-/
namespace C21

/-- A reference `#id` (or, as some files have it, `id`) means the element with this id. -/
def RefersTo (ref xid : Str) : Prop := xid ≠ [] ∧ (ref = '#' :: xid ∨ (ref = xid ∧ ref.head? ≠ some '#'))

instance (ref xid : Str) : Decidable (RefersTo ref xid) := by unfold RefersTo; infer_instance

/-- A slur element that says where it starts or ends. -/
def MSlurEl.anchored (e : MSlurEl) : Bool :=
  decide (¬ (e.startid = [] ∨ e.startid = ['#']) ∨ ¬ (e.endid = [] ∨ e.endid = ['#']))

/-- The side a slur is to be on, if the element says so. -/
def MSlurEl.side (e : MSlurEl) : Option Str :=
  if e.curvedir ∈ ["above".toList, "below".toList] then some e.curvedir else none

/-- The note or chord is where the slur starts or where it ends. -/
def MSlurEl.joins (e : MSlurEl) (o : MSlurObj) : Bool := decide (RefersTo e.startid o.xid ∨ RefersTo e.endid o.xid)

/-- The numbers of the notes and chords with a property. -/
def placesOf (P : MSlurObj → Bool) (objs : List MSlurObj) : List Nat := ((objs.zipIdx).filter (fun q => P q.1)).map (·.2)

/-- A start or an end of a slur in an attribute. -/
inductive MSlurMark
  | start (num : Str) (obj : Nat)
  | stop (num : Str) (obj : Nat)
  deriving DecidableEq

/-- What a word of the attribute says. -/
def markOf (obj : Nat) : Str → Option MSlurMark
  | 'i' :: num => some (.start num obj)
  | 't' :: num => some (.stop num obj)
  | _ => none

/-- All words of the attributes of a document, in the order of reading. -/
def slurMarksFrom : Nat → List MSlurObj → List MSlurMark
  | _, [] => []
  | i, o :: os => (match o.slur with | none => [] | some s => (splitOn ' ' s).filterMap (markOf i)) ++ slurMarksFrom (i + 1) os

def slurStarts : List MSlurMark → List (Str × Nat)
  | [] => []
  | .start n o :: ms => (n, o) :: slurStarts ms
  | .stop _ _ :: ms => slurStarts ms

/-- The notes and chords where a slur of this number ends. -/
def slurStops (num : Str) : List MSlurMark → List Nat
  | [] => []
  | .start _ _ :: ms => slurStops num ms
  | .stop n o :: ms => if n = num then o :: slurStops num ms else slurStops num ms

/-- No slur ends that has not been started. -/
def NoStrayStop (ms : List MSlurMark) : Prop :=
  ∀ pre num o, pre ++ [MSlurMark.stop num o] <+: ms → (slurStops num pre).length < (slurStarts pre).countP (fun q => decide (q.1 = num))

/-- Ids of slur elements are different, have no comma, and are not numbers used in the attributes. -/
structure FreshSlurIds (uid : Nat → Str) (objs : List MSlurObj) : Prop where
  inj : ∀ m n, uid m = uid n → m = n
  comma : ∀ n, ',' ∉ uid n
  nonempty : ∀ n, uid n ≠ []
  apart : ∀ o ∈ objs, ∀ s, o.slur = some s → ∀ w ∈ splitOn ' ' s, ∀ n, w.drop 1 ≠ uid n

end C21
