import Verif.Model.PyStr
import Verif.Model.MeiBeams
/-
Beams in Humdrum: how the writer marks them (humdrum/m21convert.py:2874-2901, 1420-1476), and how the reader finds the groups of
a layer in a measure (humdrum/humdrumfile.py:4193-4368, 4367-4500) and gives beams to the notes (3366-3463, 3587-3718).

Simplifications: the number of beams of a note (from its duration, 3521-3585) is a field of the token. Tremolos (tokens that are
suppressed or have the value tremoloBeam), the beams of grace notes (after the analysis) and the direction of beams are left out.
-/
namespace C21

/-! ### Writing -/

/-- humdrum/m21convert.py:2874-2901 `_getHumdrumBeamStringFromM21Beams`. -/
def humBeamText (bs : List BeamT) : Str :=
  List.replicate (bs.count .stop) 'J' ++ List.replicate (bs.count .partL) 'k' ++
  List.replicate (bs.count .partR) 'K' ++ List.replicate (bs.count .start) 'L'

/-- humdrum/m21convert.py:1446-1476: the part of the signifiers of each note of a chord of `n` notes that comes from the chord's beams
and the slurs that stop. -/
def chordEnds (n : Nat) (beamStr slurStops : Str) : List Str :=
  (List.range n).map fun i =>
    if i = 0 then [] else if i = n - 1 then beamStr ++ slurStops else []

/-! ### Reading: tokens -/

/-- What a layer token is, as far as it matters here: a rest put in by the reader, something that is not data (interpretation, comment,
barline), null data, or data. -/
inductive HBKind where
  | fake | nonData | null | data
deriving DecidableEq

/-- A token of a layer: `hasDur` is `recipToDuration(text) != 0`; `noteObj` says that the object made from it is a note or a chord;
`beams` is `_getNumBeamsForNoteOrChord`. -/
structure HBTok where
  kind : HBKind
  grace : Bool
  rest : Bool
  hasDur : Bool
  noteObj : Bool
  beams : Nat
  text : Str
deriving DecidableEq

/-- humdrum/humdrumfile.py:4292-4299: the beams that the token opens, less those it closes, for notes (`g = false`) or grace notes. -/
def beamChange (g : Bool) (t : HBTok) : Int :=
  if t.grace = g then (countChar 'L' t.text : Int) - countChar 'J' t.text else 0

/-- humdrum/humdrumfile.py:4266-4310: `beamState`; `prev` is the state of the token before (if there is one), `last` is `lastBeamState`. -/
def beamStatesFrom (g : Bool) : Option Int → Int → List HBTok → List Int
  | _, _, [] => []
  | prev, last, t :: ts =>
    if t.kind = .data then
      match prev with
      | some p => (beamChange g t + p) :: beamStatesFrom g (some (beamChange g t + p)) (beamChange g t + p) ts
      | none => beamChange g t :: beamStatesFrom g (some (beamChange g t)) (if t.grace = g then beamChange g t else last) ts
    else last :: beamStatesFrom g (some last) last ts

/-- humdrum/humdrumfile.py:4320-4330: numbers of the beams; `prev` is the state of the token before (0 for the first). -/
def beamNumsFrom : Int → Nat → List Int → List Nat
  | _, _, [] => []
  | prev, n, s :: ss =>
    if s ≠ 0 then n :: beamNumsFrom s n ss
    else if prev ≠ 0 then n :: beamNumsFrom s (n + 1) ss
    else 0 :: beamNumsFrom s n ss

/-- humdrum/humdrumfile.py:4344-4359: is something wrong with the beams of the layer? -/
def beamsWrong (ss : List Int) : Bool := ss.any (fun s => decide (s < 0)) || decide (ss.getLast? ≠ some 0)

/-- humdrum/humdrumfile.py:4253-4366 `_analyzeLayerBeams`: states and numbers; all 0 when something is wrong. -/
def analyzeLayerBeams (g : Bool) (ts : List HBTok) : List Int × List Nat :=
  let ss := beamStatesFrom g none 0 ts
  if beamsWrong ss then (ts.map (fun _ => 0), ts.map (fun _ => 0)) else (ss, beamNumsFrom 0 1 ss)

/-- A token with its place in the layer, the state and the number of its beam. -/
structure HBPlace where
  idx : Nat
  tok : HBTok
  state : Int
  num : Nat

/-- All tokens with their places. -/
def hbPlaces : Nat → List HBTok → List Int → List Nat → List HBPlace
  | i, t :: ts, s :: ss, n :: ns => ⟨i, t, s, n⟩ :: hbPlaces (i + 1) ts ss ns
  | _, _, _, _ => []

/-- humdrum/humdrumfile.py:4207-4226: is it taken for a note of a beam? Rests are. -/
def inBeamList (g : Bool) (p : HBPlace) : Bool := decide (p.num ≠ 0) && decide (p.tok.kind = .data) && (p.tok.grace == g)

/-- humdrum/humdrumfile.py:4228-4248: the secondary breaks: where, and how many beams go on. The lists of notes of one beam are the
stretches with the same number. -/
def breaksFrom : List HBPlace → List (Nat × Int)
  | a :: b :: c :: r =>
    if a.num = b.num ∧ b.num = c.num ∧ b.state < a.state ∧ b.state < c.state
    then (b.idx, b.state) :: breaksFrom (b :: c :: r) else breaksFrom (b :: c :: r)
  | _ => []

/-- humdrum/humdrumfile.py:4409-4432: is it one of the `durItems`? -/
def durItem (p : HBPlace) : Bool := decide (p.tok.kind = .data) && !p.tok.grace && p.tok.hasDur

/-- humdrum/humdrumfile.py:4465-4468: the number of beams. -/
def beamCountOf (ps : List HBPlace) : Nat := ps.foldl (fun m p => max m p.num) 0

/-- humdrum/humdrumfile.py:4473-4479, 4485-4487: where the beam starts; a beam none of whose tokens has a duration has -1, which is the last
item. -/
def beamStartIdx (ps : List HBPlace) (k : Nat) : Option Nat :=
  match ps.find? (fun p => p.num = k) with
  | some p => some p.idx
  | none => ps.getLast?.map (·.idx)

/-- humdrum/humdrumfile.py:4474-4479: where the beam ends; 0, the first item, if it has no token with a duration. -/
def beamEndIdx (ps : List HBPlace) (k : Nat) : Option Nat :=
  match ps.reverse.find? (fun p => p.num = k) with
  | some p => some p.idx
  | none => ps.head?.map (·.idx)

/-- humdrum/humdrumfile.py:4483-4487: `beamStartBoolean` at a place in the layer; the last beam that is written there. -/
def startAt (ps : List HBPlace) (i : Nat) : Nat :=
  (List.range (beamCountOf ps)).foldl (fun a k => if beamStartIdx ps (k + 1) = some i then k + 1 else a) 0

/-- humdrum/humdrumfile.py:4483-4487: `beamEndBoolean`. -/
def endAt (ps : List HBPlace) (i : Nat) : Nat :=
  (List.range (beamCountOf ps)).foldl (fun a k => if beamEndIdx ps (k + 1) = some i then k + 1 else a) 0

/-- A token with what the analysis found: does a beam start, does one end, and the value breakBeamCount (0 if there is none). -/
structure HBItem where
  tok : HBTok
  starts : Bool
  ends : Bool
  brk : Int

/-- humdrum/humdrumfile.py:4367-4500: what the walk over the layer uses of the analysis. -/
def hbLayerItems (ts : List HBTok) : List HBItem :=
  let an := analyzeLayerBeams false ts
  let ps := hbPlaces 0 ts an.1 an.2
  let ds := ps.filter durItem
  let brs := breaksFrom (ps.filter (inBeamList false))
  ps.map fun p =>
    ⟨p.tok, durItem p && startAt ds p.idx != 0, durItem p && endAt ds p.idx != 0, (brs.lookup p.idx).getD 0⟩

/-! ### Reading: beams of the notes -/

/-- humdrum/humdrumfile.py:3665-3672: a beam of the previous note that this one does not have. -/
def noMore (b : BeamT) : BeamT := if b = .start then .partR else .stop

/-- humdrum/humdrumfile.py:3661-3695: the beams of the previous note (it has `pn`) and of this one (it has `n`); `last` is
`beamType == 'stop'`. -/
def joinBeams (last : Bool) (pn n : Nat) (pb own : List BeamT) : List BeamT × List BeamT :=
  if 0 < n ∧ n < pn then
    (pb.mapIdx (fun i b => if n ≤ i ∧ i < pn then noMore b else b), own ++ List.replicate n (if last then .stop else .cont))
  else if 0 < pn ∧ pn < n then
    (pb, own ++ (List.range n).map (fun i =>
      if last then (if pn ≤ i then .partL else .stop) else (if pn ≤ i then .start else .cont)))
  else (pb, own ++ List.replicate n (if last then .stop else .cont))

/-- humdrum/humdrumfile.py:3697-3706: a secondary break, asked for at the previous note. -/
def breakBeams (brk : Int) (pn n : Nat) (r : List BeamT × List BeamT) : List BeamT × List BeamT :=
  if 0 < brk ∧ pn = n ∧ brk < n then
    (r.1.mapIdx (fun (i : Nat) b => if brk ≤ i ∧ i < n then .stop else b), r.2.mapIdx (fun (i : Nat) b => if brk ≤ i ∧ i < n then .start else b))
  else r

/-- State of the walk: in a beam? the previous token in it (place, token, breakBeamCount); the beams of all tokens. -/
structure HBState where
  inBeam : Bool
  prev : Option (Nat × HBTok × Int)
  beams : Nat → List BeamT

/-- Change the beams of one token. -/
def setBeams (f : Nat → List BeamT) (i : Nat) (bs : List BeamT) : Nat → List BeamT := fun j => if j = i then bs else f j

/-- humdrum/humdrumfile.py:3587-3611 `_startBeam`. -/
def startBeam (f : Nat → List BeamT) (i : Nat) (t : HBTok) : Nat → List BeamT :=
  if t.noteObj then setBeams f i (f i ++ List.replicate t.beams .start) else f

/-- humdrum/humdrumfile.py:3623-3706 `_continueBeam` (and `_endBeam`), no tremolo. -/
def continueBeam (last : Bool) (f : Nat → List BeamT) (i : Nat) (t : HBTok) (prev : Option (Nat × HBTok × Int)) : Nat → List BeamT :=
  match prev with
  | none => f
  | some (ip, p, brk) =>
    if t.noteObj && p.noteObj then
      let r := breakBeams brk p.beams t.beams (joinBeams last p.beams t.beams (f ip) (f i))
      setBeams (setBeams f ip r.1) i r.2
    else f

/-- humdrum/humdrumfile.py:3429-3447, 1997-2116: one token of the layer. -/
def beamStep (i : Nat) (st : HBState) (x : HBItem) : HBState :=
  if x.tok.kind ≠ .data then st
  else if x.starts then ⟨true, some (i, x.tok, x.brk), startBeam st.beams i x.tok⟩
  else if st.inBeam && x.ends then ⟨false, none, continueBeam true st.beams i x.tok st.prev⟩
  else if st.inBeam && !x.tok.rest && !x.tok.grace then
    ⟨true, some (i, x.tok, x.brk), continueBeam false st.beams i x.tok st.prev⟩
  else st

/-- The walk over the layer. -/
def beamWalk : Nat → HBState → List HBItem → HBState
  | _, st, [] => st
  | i, st, x :: xs => beamWalk (i + 1) (beamStep i st x) xs

/-- The beams that the tokens of a layer get. -/
def layerBeams (ts : List HBTok) : List (List BeamT) :=
  (List.range ts.length).map (beamWalk 0 ⟨false, none, fun _ => []⟩ (hbLayerItems ts)).beams

end C21
