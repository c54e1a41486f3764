import Verif.Model.MeiPedals
/-
Spec for C128: the elements of a staff that make up one pedal mark.
-/
namespace C21

/-- The elements of a staff with a known direction, with their positions in the file. -/
def staffPedals (s : Str) (es : List PedalEl) : List (PedalEl × Nat) :=
  es.zipIdx.filter (fun p => p.1.staff = s ∧ p.1.dir ≠ .other)

/-- One use of the pedal: down, any number of bounces, up. Files also have the up before the down. -/
def OnePedal (g : List PedalEl) : Prop :=
  ∃ (a b : PedalEl) (mid : List PedalEl), g = a :: mid ++ [b] ∧ (∀ x ∈ mid, x.dir = .bounce) ∧
    (((a.dir = .down ∨ a.dir = .half) ∧ b.dir = .up) ∨ (a.dir = .up ∧ (b.dir = .down ∨ b.dir = .half)))

/-- Down, up or bounce. -/
def sameKind : PedalDir → PedalDir → Prop
  | .down, .down => True
  | .down, .half => True
  | .half, .down => True
  | .half, .half => True
  | .up, .up => True
  | .bounce, .bounce => True
  | _, _ => False

/-- No two pedals of the same kind are attached to the same note. -/
def OnePerNote (es : List PedalEl) : Prop :=
  es.Pairwise (fun a b => a.startId = b.startId → a.startId ≠ [] → ¬ sameKind a.dir b.dir)

/-- What a note is told of a direction: a half pedal is a pedal down. -/
def asTold : PedalDir → PedalDir
  | .half => .down
  | d => d

end C21
