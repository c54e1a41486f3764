import Verif.Model.PyNum
/-
The measures of an MEI section, with page and system breaks and endings (mei/meiscore.py:128-153, mei/meimeasure.py:126-209), and how
they are read (mei/meireader.py:8957-9287, 6783-6810).

Simplifications: a repeat bracket is given by its first and last measure (counted from 0), over all parts; the number of a page and the
number of an ending are left out (`n` attributes); contents of measures are not looked at.
-/
namespace C21

/-- A page or a system break. -/
inductive SecBreak where
  | page
  | system
deriving DecidableEq, Repr

/-- What is written in the section. -/
inductive SecEv where
  | brk (b : SecBreak)
  | start
  | measure (i : Nat)
  | stop
deriving DecidableEq, Repr

/-- mei/meimeasure.py:126-152 `makeRootElement` of a measure: the break (a page break if there are both), the start of an ending if some
bracket starts here (154-188), the measure, and the end of an ending if some bracket ends here (190-209). -/
def measureEvents (page system : Nat → Bool) (bs : List (Nat × Nat)) (i : Nat) : List SecEv :=
  (if page i then [.brk .page] else if system i then [.brk .system] else []) ++
  (if bs.any (fun b => b.1 == i) then [.start] else []) ++ [.measure i] ++
  (if bs.any (fun b => b.2 == i) then [.stop] else [])

/-- mei/meiscore.py:177-180: the section, from measure `i` on. -/
def sectionEvents (page system : Nat → Bool) (bs : List (Nat × Nat)) : Nat → Nat → List SecEv
  | _, 0 => []
  | i, n + 1 => measureEvents page system bs i ++ sectionEvents page system bs (i + 1) n

/-- An element being read: has a measure been seen in it (`haveSeenMeasure`), and its measures so far. -/
structure SecFrame where
  seen : Bool
  meas : List Nat
deriving DecidableEq, Repr

/-- The state of the reader: the endings that are open, innermost first; the section; the break for the next measure
(`self.nextBreak`); the measures with their breaks; the repeat brackets. -/
structure SecState where
  endings : List SecFrame
  section_ : SecFrame
  next : Option SecBreak
  out : List (Nat × Option SecBreak)
  brackets : List (List Nat)
deriving DecidableEq, Repr

/-- mei/meireader.py:8988-9287: one event. `none` is the error of the tree builder (shared/debugutilities.py:36-40) when an ending is closed
that is not open. -/
def secStep (st : SecState) : SecEv → Option SecState
  | .start => some { st with endings := ⟨false, []⟩ :: st.endings }
  | .measure i =>
    let st := { st with out := st.out ++ [(i, st.next)], next := none }
    match st.endings with
    | [] => some { st with section_ := ⟨true, st.section_.meas ++ [i]⟩ }
    | e :: es => some { st with endings := ⟨true, e.meas ++ [i]⟩ :: es }
  | .brk b =>
    let seen := match st.endings with
      | [] => st.section_.seen
      | e :: _ => e.seen
    if seen then
      if b = .system ∧ st.next = some .page then some st else some { st with next := some b }
    else some st
  | .stop =>
    match st.endings with
    | [] => none
    | [e] => some { st with endings := [], section_ := { st.section_ with meas := st.section_.meas ++ e.meas }, brackets := st.brackets ++ [e.meas] }
    | e :: f :: es => some { st with endings := { f with meas := f.meas ++ e.meas } :: es, brackets := st.brackets ++ [e.meas] }

/-- All events. -/
def secRun : SecState → List SecEv → Option SecState
  | st, [] => some st
  | st, e :: es => match secStep st e with
    | none => none
    | some st' => secRun st' es

/-- A section written and read: its measures with their breaks, and the brackets. `none` if the tree builder fails: an ending is closed that is
not open, or left open at the end of the section. -/
def rereadSection (page system : Nat → Bool) (bs : List (Nat × Nat)) (n : Nat) : Option (List (Nat × Option SecBreak) × List (List Nat)) :=
  match secRun ⟨[], ⟨false, []⟩, none, [], []⟩ (sectionEvents page system bs 0 n) with
  | none => none
  | some st => if st.endings.isEmpty then some (st.out, st.brackets) else none

/-- mei/meiscore.py:128-137 `_getMeiMeasures`: `zip(*partMeasures)`: the measures, one for each part. -/
def measureStacks {α : Type} (parts : List (List α)) : List (List α) :=
  match parts with
  | [] => []
  | p :: ps => (List.range ((ps.map List.length).foldl min p.length)).map fun i => (p :: ps).filterMap (·[i]?)

end C21
