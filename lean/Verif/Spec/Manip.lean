import Verif.Model.Manip
/-
Spec for C37: what a reader makes of lines of spine manipulators.

A spine is known by the number of its staff. `*` leaves a spine as it is, `*^` makes it two, and neighbouring `*v`
make one spine of two or more, all of the same staff. A line must have one token for each spine.
-/
namespace C21

/-- The end of a run of `*v`: nothing was open, or one spine of staff `l` results. A run of one is an error. -/
def endRun : Option (Nat × Bool) → Option (List Nat)
  | none => some []
  | some (l, true) => some [l]
  | some (_, false) => none

/-- One line of manipulators applied to the spines. The first argument is the run of `*v` being read: its staff and
whether it has more than one token. -/
def readManip : Option (Nat × Bool) → List Nat → List Str → Option (List Nat)
  | run, [], [] => endRun run
  | run, l :: ls, t :: ts =>
    if t = "*v".toList then
      match run with
      | none => readManip (some (l, false)) ls ts
      | some (l', _) => if l = l' then readManip (some (l, true)) ls ts else none
    else
      (endRun run).bind (fun a =>
        (if t = "*".toList then some [l] else if t = "*^".toList then some [l, l] else none).bind (fun c =>
          (readManip none ls ts).map (fun r => a ++ c ++ r)))
  | _, [], _ :: _ => none
  | _, _ :: _, [] => none

/-- Several lines, one after the other. -/
def readManips : List Nat → List (List Str) → Option (List Nat)
  | spines, [] => some spines
  | spines, l :: ls => (readManip none spines l).bind (fun s => readManips s ls)

/-- The spines of staves with these numbers of voices; the first staff has number `k`. -/
def spinesFrom (k : Nat) : List Nat → List Nat
  | [] => []
  | c :: cs => List.replicate c k ++ spinesFrom (k + 1) cs

/-- The staff has fewer voices on the second line. -/
def StaffStep.loses (s : StaffStep) : Prop := s.to < s.from
/-- The staff has more voices on the second line. -/
def StaffStep.grows (s : StaffStep) : Prop := s.from < s.to

/-- Below the part of two neighbouring staves that lose voices, no two neighbouring staves lose voices. -/
def MergesClear (staves : List StaffStep) : Prop :=
  ∀ pre a b rest, staves = pre ++ a :: b :: rest → a.loses → b.loses →
    ∀ u c d v, rest = u ++ c :: d :: v → c.part ≠ b.part → d.part ≠ b.part → ¬ (c.loses ∧ d.loses)

/-- Below the part of two neighbouring staves that lose voices, no staff gains voices. -/
def NoSplitBelow (staves : List StaffStep) : Prop :=
  ∀ pre a b rest, staves = pre ++ a :: b :: rest → a.loses → b.loses →
    ∀ c ∈ rest, c.part ≠ b.part → ¬ c.grows

/-- Some staff gains two or more voices, and not by doubling. -/
def ManySplit (staves : List StaffStep) : Prop := ∃ s ∈ staves, s.from + 2 ≤ s.to ∧ s.to ≠ 2 * s.from

end C21
