import Verif.Model.SpineDurs
/-
Spec for C127: what follows a token in its spine.
-/
namespace C21

/-- The first token of a spine read backwards: its time and whether it is data. -/
def DStrand.firstTok : DStrand → List (Rat × Bool)
  | .top => []
  | .tok _ t d _ _ => [(t, d)]
  | .join _ rest => rest.firstTok

/-- A token and all tokens that follow it, in order, up to the end of the track. -/
structure DPlace where
  time : Rat
  data : Bool
  dur : Rat
  next : List (Rat × Bool)

/-- All tokens of a spine that `next` follows. What follows a spine that merges into another is the token after the
merge and what follows that. -/
def DStrand.places (next : List (Rat × Bool)) : DStrand → List DPlace
  | .top => []
  | .tok _ t d u prev => ⟨t, d, u, next⟩ :: prev.places ((t, d) :: next)
  | .join sub rest => sub.places (rest.firstTok ++ next) ++ rest.places next

/-- The time of the first data token in a list, or the end of the track. -/
def nextDataTime (endT : Rat) : List (Rat × Bool) → Rat
  | [] => endT
  | (t, d) :: rest => if d then t else nextDataTime endT rest

/-- The line after a merge is not a line of data. -/
def DStrand.NoDataAfterMerge : DStrand → Prop
  | .top => True
  | .tok _ _ _ _ prev => prev.NoDataAfterMerge
  | .join sub rest => (∀ p ∈ rest.firstTok, p.2 = false) ∧ sub.NoDataAfterMerge ∧ rest.NoDataAfterMerge

/-- No spine but the leftmost is split again: the names along a spine are the same, or have no `b`. -/
def DStrand.NamedAs (info : Str) : DStrand → Prop
  | .top => True
  | .tok i _ _ _ prev => (i = info ∨ ('b' ∉ i ∧ 'b' ∉ info)) ∧ prev.NamedAs info
  | .join sub rest => sub.NamedAs sub.headInfo ∧ rest.NamedAs info

/-- Spines that merge somewhere merge before a token. -/
def DStrand.JoinsTok : DStrand → Prop
  | .top => True
  | .tok _ _ _ _ prev => prev.JoinsTok
  | .join sub rest => rest.firstTok ≠ [] ∧ sub.JoinsTok ∧ rest.JoinsTok

/-- Times do not get smaller from the start to the end. -/
def DStrand.InTime (latest : Rat) : DStrand → Prop
  | .top => True
  | .tok _ t _ _ prev => t ≤ latest ∧ prev.InTime t
  | .join sub rest => sub.InTime latest ∧ rest.InTime latest

/-- The same spine with all durations forgotten for data tokens. -/
def DStrand.bare : DStrand → DStrand
  | .top => .top
  | .tok i t d u prev => .tok i t d (if d then 0 else u) prev.bare
  | .join sub rest => .join sub.bare rest.bare

/-- Durations of the data tokens of the spine itself, without those that merge into it, and the times of these tokens. -/
def DStrand.mainDurs : DStrand → List Rat
  | .top => []
  | .tok _ _ d u prev => (if d then [u] else []) ++ prev.mainDurs
  | .join _ rest => rest.mainDurs

def DStrand.mainTimes : DStrand → List Rat
  | .top => []
  | .tok _ t d _ prev => (if d then [t] else []) ++ prev.mainTimes
  | .join _ rest => rest.mainTimes

end C21
