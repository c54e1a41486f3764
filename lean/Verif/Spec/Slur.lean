import Mathlib.Data.List.Perm.Basic
import Verif.Model.PyStr
/-
What matching slur marks means, without stacks.
An event is (true, x): mark x opens; (false, y): mark y closes.
-/
namespace C21

/-- Every open mark is closed inside the sequence, and conversely. -/
inductive BalancedMarks {α : Type} : List (Bool × α) → Prop where
  | nil : BalancedMarks []
  | wrap {x y a b} : BalancedMarks a → BalancedMarks b → BalancedMarks ((true, x) :: a ++ (false, y) :: b)

/-- `x` opens, `y` closes later, and everything in between is balanced. -/
def MatchedMarks {α : Type} (evs : List (Bool × α)) (x y : α) : Prop :=
  ∃ pre mid post, evs = pre ++ (true, x) :: mid ++ (false, y) :: post ∧ BalancedMarks mid

/-- The opening and the closing marks. -/
def openMarks {α : Type} (evs : List (Bool × α)) : List α := (evs.filter (·.1)).map (·.2)
def closeMarks {α : Type} (evs : List (Bool × α)) : List α := (evs.filter (fun e => !e.1)).map (·.2)

/-- No prefix has more closing than opening marks: no closing mark lacks an opening one. -/
def NeverShort {α : Type} (evs : List (Bool × α)) : Prop :=
  ∀ n, (closeMarks (evs.take n)).length ≤ (openMarks (evs.take n)).length

/-- For every `c` in the text, the number of `&` directly before it. -/
def markLevels (c : Char) : Nat → Str → List Nat
  | _, [] => []
  | amps, ch :: t =>
    if ch = c then amps :: markLevels c 0 t
    else if ch = '&' then markLevels c (amps + 1) t
    else markLevels c 0 t

end C21
