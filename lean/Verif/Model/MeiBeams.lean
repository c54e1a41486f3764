import Verif.Model.PyStr
/-
Beams in MEI: mei/meireader.py:2757-2913 (the beams of the notes of a `beam` element), mei/meiscore.py:629-732 (the beam spanners and the
secondary breaks that are written), mei/meireader.py:1049-1075 (`beamSpan` elements).
-/
namespace C21

/-- Type (and direction) of one beam of a note. -/
inductive BeamT
  | start | cont | stop | partR | partL
  deriving DecidableEq, Repr

/-- A thing in a `beam` element: has it the attribute `beams` (notes and chords have, rests have not); is it a grace note; how many
beams its type has (0 for a quarter note or longer: `convertTypeToNumber(type) <= 4`); the attribute breaksec; its beams, from the first.
breaksec is a natural number here; anything else is as if it was absent, except that negative numbers are left out. -/
structure BeamThing where
  has : Bool
  grace : Bool
  flags : Nat
  brk : Option Nat
  beams : List BeamT
  deriving DecidableEq

/-- mei/meireader.py:2757-2768 `beamGroupIsAllGraceNotes`. -/
def graceBeam (ts : List BeamThing) : Bool := ts.all fun t => !t.has || t.grace

/-- mei/meireader.py:2787-2790, 2800, 2811-2816 and 2820-2822: the things that are beamed. -/
def BeamThing.beamable (g : Bool) (t : BeamThing) : Bool := t.has && t.grace == g && decide (0 < t.flags)

/-- mei/meireader.py:2798-2801: beams of a nested `beam` element are kept. -/
def BeamThing.toFill (g : Bool) (t : BeamThing) : Bool := t.beamable g && t.beams.isEmpty

/-- mei/meireader.py:2786-2806: all beams start at the first thing, stop at the last, and continue between them. `seen`: there has been one. -/
def fillBeams (g : Bool) : Bool → List BeamThing → List BeamThing
  | _, [] => []
  | seen, t :: r =>
    if t.toFill g then
      { t with beams := List.replicate t.flags (if r.any (BeamThing.toFill g) then (if seen then .cont else .start) else .stop) } ::
        fillBeams g true r
    else t :: fillBeams g seen r

/-- Change the beams with a number greater than `n`. -/
def changeAbove (n : Nat) (f : BeamT → BeamT) (bs : List BeamT) : List BeamT := bs.take n ++ (bs.drop n).map f

/-- mei/meireader.py:2831-2835. -/
def noNext : BeamT → BeamT
  | .cont => .stop
  | .start => .partR
  | b => b

/-- mei/meireader.py:2860-2862. -/
def noPrev : BeamT → BeamT
  | .stop => .partL
  | b => b

/-- mei/meireader.py:2808-2835: fewer beams in the next thing. -/
def trimNext (g : Bool) : List BeamThing → List BeamThing
  | [] => []
  | t :: r =>
    (if t.beamable g then
      match r.find? (BeamThing.beamable g) with
      | none => t
      | some u => { t with beams := changeAbove u.beams.length noNext t.beams }
    else t) :: trimNext g r

/-- mei/meireader.py:2837-2862: fewer beams in the previous thing; `prev` is the number of its beams. -/
def trimPrev (g : Bool) : Option Nat → List BeamThing → List BeamThing
  | _, [] => []
  | prev, t :: r =>
    if t.beamable g then
      (match prev with
       | none => t
       | some n => { t with beams := changeAbove n noPrev t.beams }) :: trimPrev g (some t.beams.length) r
    else t :: trimPrev g prev r

/-- mei/meireader.py:2770-2862 `beamTogether`. -/
def beamTogether (ts : List BeamThing) : List BeamThing :=
  trimPrev (graceBeam ts) none (trimNext (graceBeam ts) (fillBeams (graceBeam ts) false ts))

/-- mei/meireader.py:2895-2896. -/
def stopsHere : BeamT → BeamT
  | .cont => .stop
  | b => b

/-- mei/meireader.py:2912-2913. -/
def startsHere : BeamT → BeamT
  | .cont => .start
  | b => b

/-- A change above an optional number. -/
def changeOpt (n : Option Nat) (f : BeamT → BeamT) (bs : List BeamT) : List BeamT :=
  match n with
  | none => bs
  | some n => changeAbove n f bs

/-- mei/meireader.py:2864-2913 `applyBreaksecs`; `prev` is the breaksec of the thing before. -/
def applyBreaksecs (g : Bool) : Option Nat → List BeamThing → List BeamThing
  | _, [] => []
  | prev, t :: r =>
    if t.beamable g then
      { t with beams := changeOpt t.brk stopsHere (changeOpt prev startsHere t.beams) } :: applyBreaksecs g t.brk r
    else t :: applyBreaksecs g prev r

/-- mei/meireader.py:5987-5988: the things of a `beam` element. -/
def beamElement (ts : List BeamThing) : List BeamThing := applyBreaksecs (graceBeam ts) none (beamTogether ts)

/-! ## Writing -/

/-- mei/meiscore.py:642-647. -/
def stopsBeam (b : BeamT) : Bool := b == .stop || b == .partL

/-- mei/meiscore.py:649-654. -/
def startsBeam (b : BeamT) : Bool := b == .start || b == .partR

/-- A note or chord of a voice: who it is, and its beams (none for notes that are not beamed). -/
structure BeamNote where
  id : Nat
  beams : List BeamT
  deriving DecidableEq

/-- mei/meiscore.py:672-689 `computeBreakSec`; 0 for no break. -/
def computeBreakSec (prev cur : List BeamT) : Nat :=
  if prev.length ≠ cur.length then 0
  else
    let k := ((prev.zip cur).filter fun x => stopsBeam x.1 && startsBeam x.2).length
    if k = 0 then 0 else cur.length - k

/-- The state of `annotateBeams` for one voice: open spanners (the current one first), finished spanners, the previous beamed note, and
the secondary breaks found (the note before the break and its number). -/
structure BeamState where
  opened : List (List Nat)
  done : List (List Nat)
  prev : Option BeamNote
  brks : List (Nat × Nat)

/-- mei/meiscore.py:691-732: one note. A spanner is the list of its notes. -/
def annotateBeam (st : BeamState) (n : BeamNote) : BeamState :=
  if n.beams.isEmpty then { st with prev := none }
  else
    let opened := if n.beams.all startsBeam || st.opened.isEmpty then [] :: st.opened else st.opened
    let cur := opened.headD [] ++ [n.id]
    if n.beams.all stopsBeam then ⟨opened.tail, st.done ++ [cur], none, st.brks⟩
    else
      let brk := match st.prev with
        | none => 0
        | some p => computeBreakSec p.beams n.beams
      ⟨cur :: opened.tail, st.done, some n,
        st.brks ++ (match st.prev with
          | none => []
          | some p => if brk = 0 then [] else [(p.id, brk)])⟩

/-- All notes of a voice. -/
def annotateBeams (ns : List BeamNote) : BeamState := ns.foldl annotateBeam ⟨[], [], none, []⟩

/-! ## `beamSpan` -/

/-- An element `beamSpan`: startid, endid and plist (as ids; empty when they are absent). -/
structure BeamSpanEl where
  startid : Str
  endid : Str
  plist : List Str

/-- `m21Attr[id]['m21Beam']`. -/
abbrev BeamAttrs := Str → Option BeamT

/-- mei/meireader.py:1069-1075: the things in plist that have no attribute yet. -/
def plistBeams (m : BeamAttrs) : List Str → BeamAttrs
  | [] => m
  | i :: r => plistBeams (if (m i).isNone then fun j => if j = i then some .cont else m j else m) r

/-- mei/meireader.py:1052-1075 `_ppBeams`, one element: note the condition in 1054. -/
def ppBeamSpan (m : BeamAttrs) (e : BeamSpanEl) : BeamAttrs :=
  if e.startid ≠ [] ∨ e.endid ≠ [] then m
  else
    plistBeams (fun j => if j = e.endid then some .stop else if j = e.startid then some .start else m j) e.plist

end C21
