import Verif.Model.PyStr
/-
Ties in MEI: mei/meiscore.py:447-495 and 779-896 (which notes are joined), mei/meilayer.py:641-710 and
mei/m21objectconvert.py:978-1035, 1195-1199 (the elements written), mei/meireader.py:1005-1024, 2211-2224 and 4926-4928 (read).

One part is modelled: notes of different parts are never joined, and have different ids. A note of a voice is a chord with one note
here: the code for a chord does for each of its notes what the code for a note does. Offsets are in the part; lengths are exact
fractions. Pitches are compared by `nameWithOctave`, a string.
-/
namespace C21

/-- `note.tie.type`; the other types of music21 (let-ring, continue-let-ring) are left out. -/
inductive TieType
  | start | cont | stop
  deriving DecidableEq, Repr

/-- A note: its xml id (as a number), its pitch, its tie, and whether the tie is hidden (`tie.style == 'hidden'`). -/
structure TieNote where
  id : Nat
  pitch : Str
  tie : Option TieType
  hidden : Bool
  deriving DecidableEq

/-- A note or chord in a voice. -/
structure TieObj where
  off : Rat
  dur : Rat
  notes : List TieNote

/-- mei/meiscore.py:795-806 `startsTie`. -/
def TieNote.starts (n : TieNote) : Bool := n.tie == some .start || n.tie == some .cont

/-- A tie spanner that has no end yet, and the number of measures searched: mei/meiscore.py:867-875. `stop` is the end of the note or
chord where the tie starts (833-843). -/
structure TieSp where
  start : Nat
  pitch : Str
  stop : Rat
  searched : Nat
  deriving DecidableEq

/-- The spanners without an end, and the ties that have one (ids of the two notes). -/
structure TieState where
  pending : List TieSp
  done : List (Nat × Nat)

/-- mei/meiscore.py:859-876: the ties that start in a note or chord. -/
def TieObj.starting (o : TieObj) : List TieSp :=
  (o.notes.filter TieNote.starts).map fun n => ⟨n.id, n.pitch, o.off + o.dur, 1⟩

/-- mei/meiscore.py:814-850 `stopsTieInWhichSpanner`: does the note, which begins at `off`, end this tie? -/
def TieSp.fits (off : Rat) (n : TieNote) (sp : TieSp) : Bool :=
  sp.start != n.id && sp.pitch == n.pitch && decide (sp.stop ≤ off)

/-- mei/meiscore.py:885-896: one note that may end a tie. `list.remove` of the pair is `erase`: spanners are told apart by their first
note. -/
def stopNote (off : Rat) (st : TieState) (n : TieNote) : TieState :=
  match st.pending.find? (TieSp.fits off n) with
  | none => st
  | some sp => ⟨st.pending.erase sp, st.done ++ [(sp.start, n.id)]⟩

/-- mei/meiscore.py:779-896 `annotateTies`. -/
def annotateTies (stopsOnly : Bool) (st : TieState) (o : TieObj) : TieState :=
  o.notes.foldl (stopNote o.off) (if stopsOnly then st else { st with pending := st.pending ++ o.starting })

/-- mei/meiscore.py:452-460: at the beginning of a measure: ties that have been searched for in two measures are given up. -/
def bumpTies (ps : List TieSp) : List TieSp :=
  (ps.filter fun sp => sp.searched < 2).map fun sp => { sp with searched := sp.searched + 1 }

/-- mei/meiscore.py:448-491: one measure: all voices, then all voices again for the ends only. -/
def tieMeasure (st : TieState) (voices : List (List TieObj)) : TieState :=
  voices.flatten.foldl (annotateTies true)
    (voices.flatten.foldl (annotateTies false) { st with pending := bumpTies st.pending })

/-- mei/meiscore.py:447-495: the measures of a part. -/
def tieMeasures (measures : List (List (List TieObj))) : TieState := measures.foldl tieMeasure ⟨[], []⟩

/-- An element `tie`: startid, and endid if there is an end (mei/m21objectconvert.py:1008-1012: none when the last note of the spanner is
the first). -/
structure TieEl where
  startid : Nat
  endid : Option Nat
  deriving DecidableEq

/-- mei/meilayer.py:641-710, mei/m21objectconvert.py:1195-1199: the `tie` elements of a part, in the order of the notes where they start; none for
a hidden tie. -/
def writeTies (measures : List (List (List TieObj))) : List TieEl :=
  let done := (tieMeasures measures).done
  measures.flatten.flatten.flatMap fun o =>
    (o.notes.filter fun n => n.starts && !n.hidden).map fun n => ⟨n.id, done.lookup n.id⟩

/-! ## Reading -/

/-- `m21Attr[id]['tie']`, empty if it is not there. -/
def TieAttrs := Nat → Str

/-- No attributes. -/
def noTieAttrs : TieAttrs := fun _ => []

/-- Set the attribute of one id. -/
def TieAttrs.set (m : TieAttrs) (i : Nat) (s : Str) : TieAttrs := fun j => if j = i then s else m j

/-- mei/meireader.py:1005-1024 `_ppTies`, one element. -/
def ppTie (m : TieAttrs) (e : TieEl) : TieAttrs :=
  match e.endid with
  | none => m
  | some b =>
    let m := m.set e.startid (if m e.startid = ['t'] then ['t', 'i'] else ['i'])
    m.set b (if m b = ['i'] then ['i', 't'] else ['t'])

/-- mei/meireader.py:2211-2224 `_tieFromAttr` and 4926-4928. -/
def tieFromAttr (s : Str) : Option TieType :=
  if s = [] then none
  else if s.contains 'm' || (s.contains 't' && s.contains 'i') then some .cont
  else if s.contains 'i' then some .start
  else some .stop

/-- The tie of the note with an id after reading the elements. -/
def readTies (els : List TieEl) (i : Nat) : Option TieType := tieFromAttr (els.foldl ppTie noTieAttrs i)

end C21
