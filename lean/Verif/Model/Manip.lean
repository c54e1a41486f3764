import Verif.Model.PyNum
/-
Spine manipulators inserted by the exporter between two lines: humdrum/humgrid.py:1390-1608, 1640-1995.

Staves are held in the order in which they are written on a line (humdrum/gridslice.py:391-410 walks parts and
staves from last to first), so the reversed loops of the Python code are forward recursions here.
-/
namespace C21

/-- The tokens put in a manipulator line: `*`, `*^`, `*^n` (an unfinished split into `n`), `*v`
(humgrid.py:1455-1519). -/
inductive MTok
  | null
  | split
  | splitN (n : Nat)
  | merge
  deriving DecidableEq, Repr

/-- The text of such a token (humgrid.py:1457, 1468, 1479, 1516). -/
def MTok.text : MTok → Str
  | .null => "*".toList
  | .split => "*^".toList
  | .splitN n => "*^".toList ++ natStr n
  | .merge => "*v".toList

/-- One staff of two adjacent lines: the index of its part, and the number of voices it has in each. -/
structure StaffStep where
  part : Nat
  voices1 : Nat
  voices2 : Nat
  deriving DecidableEq, Repr

/-- `max(len(staff1.voices), 1)` (humgrid.py:1432, 1463). -/
def StaffStep.from (s : StaffStep) : Nat := max s.voices1 1
/-- `max(len(staff2.voices), 1)` (humgrid.py:1435, 1462). -/
def StaffStep.to (s : StaffStep) : Nat := max s.voices2 1

/-- One staff of a manipulator line. -/
structure MStaff where
  part : Nat
  voices : List MTok
  deriving DecidableEq, Repr

/-- The tokens for a staff going from `v1` to `v2` voices (humgrid.py:1465-1519). -/
def manipStaff (v1 v2 : Nat) : List MTok :=
  if v1 = v2 then [.null]
  else if v1 < v2 then
    if v2 = 2 * v1 then List.replicate v1 .split
    else if v1 > 0 ∧ v2 - v1 > 2 * v1 then
      List.replicate (v1 - 1) .split ++
        [if v2 - (v1 - 1) * 2 > 2 then .splitN (v2 - (v1 - 1) * 2) else .split]
    else
      List.replicate (v1 - (v2 - v1)) .null ++
        [if v2 - v1 > 1 then .splitN (v2 - v1 + 1) else .split]
  else
    List.replicate (v1 - (v1 - v2 + 1)) .null ++ List.replicate (v1 - v2 + 1) .merge

/-- `manipulatorCheckTwoSlices` (humgrid.py:1390-1521) for two lines with the same parts and staves: no line if
all voice counts agree. -/
def manipCheck (staves : List StaffStep) : Option (List MStaff) :=
  if staves.all (fun s => s.from == s.to) then none
  else some (staves.map (fun s => ⟨s.part, manipStaff s.from s.to⟩))

/-- `matchVoices` (humgrid.py:1575-1608) for one staff: pad with null tokens up to the line before. -/
def padVoices (v1 : Nat) (ts : List MTok) : List MTok := ts ++ List.replicate (v1 - ts.length) .null

/-- `matchVoices` (humgrid.py:1575-1608) of a manipulator line against the line before it. -/
def matchManip (staves : List StaffStep) (m : List MStaff) : List MStaff :=
  List.zipWith (fun s x => ⟨x.part, padVoices s.voices1 x.voices⟩) staves m

/-! ### Expansion -/

/-- Is there an unfinished split (humgrid.py:1693-1709)? -/
def hasSplitN (m : List MStaff) : Bool :=
  m.any (fun x => x.voices.any (fun t => match t with | .splitN _ => true | _ => false))

/-- What is left of `*^n` after one split (humgrid.py:1766-1769). -/
def lessSplit (n : Nat) : MTok := if n ≤ 3 then .split else .splitN (n - 1)

/-- `adjustExpansionsInStaff` (humgrid.py:1730-1783): the loop makes `k` steps; `todo` is the current line from the
cursor `cv` on. The result is the new line and the current line from the cursor on. After a split the cursor moves by
one only, so the next step looks at the second of the two new tokens. -/
def expandStaff : Nat → List MTok → List MTok × List MTok
  | 0, todo => ([], todo)
  | _ + 1, [] => ([], [])
  | k + 1, .splitN n :: rest =>
    (.split :: (expandStaff k (lessSplit n :: rest)).1, .null :: (expandStaff k (lessSplit n :: rest)).2)
  | k + 1, .split :: rest =>
    (.split :: (expandStaff k (.null :: rest)).1, .null :: (expandStaff k (.null :: rest)).2)
  | k + 1, t :: rest => (.null :: (expandStaff k rest).1, t :: (expandStaff k rest).2)

/-- The new line (placed before the current one) of `checkManipulatorExpand` (humgrid.py:1691-1725). -/
def expandNew (m : List MStaff) : List MStaff :=
  m.map (fun x => ⟨x.part, (expandStaff x.voices.length x.voices).1⟩)
/-- The current line after `checkManipulatorExpand` (humgrid.py:1691-1725). -/
def expandCur (m : List MStaff) : List MStaff :=
  m.map (fun x => ⟨x.part, (expandStaff x.voices.length x.voices).2⟩)

/-- The first loop of `cleanManipulator` (humgrid.py:1635-1643). `none` means out of fuel. -/
def expandLoop : Nat → List MStaff → Option (List (List MStaff) × List MStaff)
  | 0, _ => none
  | f + 1, m =>
    if hasSplitN m then (expandLoop f (expandCur m)).map (fun r => (expandNew m :: r.1, r.2))
    else some ([], m)

/-! ### Contraction -/

/-- Does the last voice of the staff end in `*v` (humgrid.py:1813-1825)? -/
def MStaff.endsMerge (x : MStaff) : Bool := x.voices.getLast? == some .merge

/-- As many null tokens as there are tokens (humgrid.py:1886-1891, 1971-1977, 1995-2003). -/
def nulls (ts : List MTok) : List MTok := List.replicate ts.length .null

/-- The left staff on the new line: the merges stay, the rest is null (humgrid.py:1901-1913). -/
def mergeNew (ts : List MTok) : List MTok := ts.map (fun t => if t = .merge then .merge else .null)

/-- The left staff on the current line before it is chopped: the first merge becomes null, the others are removed
(humgrid.py:1901-1913). -/
def mergeMark : Bool → List MTok → List (Option MTok)
  | _, [] => []
  | added, .merge :: ts => (if added then none else some .null) :: mergeMark true ts
  | added, t :: ts => some t :: mergeMark added ts

/-- The chopping: one token is removed from the end for every `None` in the list (humgrid.py:1920-1922). A `None` left
in the middle (impossible, as merges are at the end) is dropped. -/
def mergeOld (ts : List MTok) : List MTok :=
  ((mergeMark false ts).take ((mergeMark false ts).length - ((mergeMark false ts).filter (·.isNone)).length)).filterMap id

/-- `transferOtherParts` (humgrid.py:1946-1968) for one staff: the tokens are moved to the new line; the current
line gets as many null tokens as there are, less the merged ones. -/
def otherOld (ts : List MTok) : List MTok :=
  List.replicate (ts.length - ((ts.filter (· = .merge)).length - 1)) .null

/-- The staves after the pair at which the line is split: those of the same part wait for the next line, those of other
parts (all of lower index) are moved to the new line (humgrid.py:1856-1861, 1941-1977, 1984-2003). -/
def restNew (p : Nat) (x : MStaff) : MStaff := ⟨x.part, if x.part = p then nulls x.voices else x.voices⟩
/-- The same staves on the current line (humgrid.py:1856-1861, 1941-1977). -/
def restOld (p : Nat) (x : MStaff) : MStaff := ⟨x.part, if x.part = p then x.voices else otherOld x.voices⟩

/-- `checkManipulatorContract` (humgrid.py:1796-1868): the first two neighbouring staves that both end in `*v`
split the line. The result is the new line and the current line. -/
def contract : List MStaff → Option (List MStaff × List MStaff)
  | [] => none
  | [_] => none
  | a :: b :: rest =>
    if a.endsMerge && b.endsMerge then
      some (⟨a.part, mergeNew a.voices⟩ :: ⟨b.part, nulls b.voices⟩ :: rest.map (restNew b.part),
            ⟨a.part, mergeOld a.voices⟩ :: b :: rest.map (restOld b.part))
    else
      (contract (b :: rest)).map (fun r => (⟨a.part, nulls a.voices⟩ :: r.1, a :: r.2))

/-- `performSimpleExpansion` (humgrid.py:1661-1680) for one staff: a null token after every token that stands
below a `*^`. -/
def splitFix : List MTok → List MTok → List MTok
  | [], cur => cur
  | .split :: ps, c :: cs => c :: .null :: splitFix ps cs
  | .split :: ps, [] => .null :: splitFix ps []
  | _ :: ps, c :: cs => c :: splitFix ps cs
  | _ :: ps, [] => splitFix ps []

/-- `performSimpleExpansion` (humgrid.py:1661-1680). -/
def simpleExpansion (prev cur : List MStaff) : List MStaff :=
  List.zipWith (fun p c => ⟨c.part, splitFix p.voices c.voices⟩) prev cur

/-- The second loop of `cleanManipulator` (humgrid.py:1645-1659), after the first time. -/
def contractLoop : Nat → List MStaff → Option (List (List MStaff) × List MStaff)
  | 0, _ => none
  | f + 1, m =>
    match contract m with
    | none => some ([], m)
    | some (n, c) => (contractLoop f c).map (fun r => (n :: r.1, r.2))

/-- The second loop of `cleanManipulator` (humgrid.py:1645-1659): the splits are repaired the first time only, and only
if there was an unfinished split. -/
def contractFirst (f : Nat) (had : Bool) (m : List MStaff) : Option (List (List MStaff) × List MStaff) :=
  match contract m with
  | none => some ([], m)
  | some (n, c) =>
    (contractLoop f (if had then simpleExpansion n c else c)).map (fun r => (n :: r.1, r.2))

/-- `cleanManipulator` (humgrid.py:1631-1659): the lines placed before the current one, and the current one. -/
def cleanManip (f : Nat) (m : List MStaff) : Option (List (List MStaff) × List MStaff) :=
  (expandLoop f m).bind (fun e =>
    (contractFirst f (hasSplitN m) e.2).map (fun c => (e.1 ++ c.1, c.2)))

/-- `cleanupManipulators` (humgrid.py:1540-1568) on consecutive manipulator lines: the new lines are inserted before the
current one and the index moves on by one, so all but the first of them are looked at again. -/
def cleanupLoop : Nat → List (List MStaff) → Option (List (List MStaff))
  | 0, _ => none
  | _ + 1, [] => some []
  | f + 1, m :: rest =>
    match cleanManip f m with
    | none => none
    | some ([], c) => (cleanupLoop f rest).map (c :: ·)
    | some (n :: ns, c) => (cleanupLoop f (ns ++ c :: rest)).map (n :: ·)

/-- The manipulator lines between two lines (humgrid.py:1540-1568). -/
def manipLines (f : Nat) (staves : List StaffStep) : Option (List (List MStaff)) :=
  match manipCheck staves with
  | none => some []
  | some m => cleanupLoop f [matchManip staves m]

/-- The texts on a line (humdrum/gridslice.py:391-410), without side spines. -/
def manipTexts (m : List MStaff) : List Str := m.flatMap (fun x => x.voices.map MTok.text)

end C21
