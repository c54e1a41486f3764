import Verif.Model.Slur
import Verif.Model.HumTies
/-
Slurs in Humdrum files: m21convert.py 1306-1345 (written), humdrumfile.py 7362-7462 (read).
One spine with one layer; the notes (or chords) are the tokens (0, 0), (1, 0), …. Other lines hold no slur marks and are left out.
-/
namespace C21

/-- A music21 `Slur`: the places of its first and last notes, and its placement. -/
structure HSlur where
  first : Nat
  last : Nat
  place : KTiePlace
deriving DecidableEq, Repr

/-- A note to be written: its slurs in the order of `getSpannerSites`, and the token without slur marks. -/
structure SlurNoteOut where
  sites : List HSlur
  body : Str

/-- `slurStarts`. m21convert.py 1319-1326. -/
def slurStartsAt (i : Nat) (sites : List HSlur) : List HSlur := sites.filter (fun s => s.first == i)

/-- `slurEndCount`. m21convert.py 1325-1328. -/
def slurStopsAt (i : Nat) (sites : List HSlur) : Nat := (sites.filter (fun s => !(s.first == i) && s.last == i)).length

/-- One slur start. m21convert.py 1331-1340. -/
def slurStartText : KTiePlace → Str
  | .unset => ['(']
  | .above => ['(', '>']
  | .below => ['(', '<']

/-- The token of note `i`. m21convert.py 1306-1345 with 1205-1210, 1463-1470. -/
def slurNoteText (i : Nat) (n : SlurNoteOut) : Str :=
  (slurStartsAt i n.sites).flatMap (fun s => slurStartText s.place) ++ n.body ++ List.replicate (slurStopsAt i n.sites) ')'

/-- The texts of all the notes. -/
def slurTexts (ns : List SlurNoteOut) : List Str := ns.zipIdx.map (fun p => slurNoteText p.2 p.1)

/-! ### Reading -/

/-- The character after the opening mark with the given number: the loops of humdrumfile.py 7415-7425 and 7453-7462. -/
def afterOpen (number : Int) : Int → Str → Option Char
  | count, ch :: d :: rest =>
    let count := if ch = '(' then count + 1 else count
    if count = number then some d else afterOpen number count (d :: rest)
  | _, _ => none

/-- `slurStartList`, from 0. humdrumfile.py 7370-7374. -/
def slurStartList (P : AutoParams) (e : TokId) : List (Int × Option TokId) :=
  (List.range (getAutoInt P e "slurEndCount".toList).toNat).map fun i =>
    (getSlurStartNumber P e (i + 1 : Nat), getSlurStartToken P e (i + 1 : Nat))

/-- Placement of doubly slurred chords. humdrumfile.py 7399-7411. With one slur end there is no other one to find. -/
def forcedPlace (L : List (Int × Option TokId)) (i : Nat) : KTiePlace :=
  match (List.range L.length).find? (fun j => !(j == i) && (L[j]?.map (·.2)) == (L[i]?.map (·.2))) with
  | some j => if j < i then .above else .below
  | none => .unset

/-- Placement by the token itself. humdrumfile.py 7414-7425. -/
def ownPlace (ab be : Str) (next : Option Char) (otherwise : KTiePlace) : KTiePlace :=
  match next with
  | some c => if [c] = ab then .above else if [c] = be then .below else otherwise
  | none => otherwise

/-- One slur that ends at `e`: the tokens of its first and last note, and its placement. humdrumfile.py 7376-7430. The layout
parameters for slurs (`LO:S`) are never written and left out. -/
def readSlur (ab be : Str) (text : TokId → Str) (e : TokId) (L : List (Int × Option TokId)) (i : Nat) : Option (TokId × TokId × KTiePlace) :=
  match L[i]? with
  | some (n, some s) =>
    if afterOpen n 0 (text s) = some 'y' then none
    else some (s, e, ownPlace ab be (afterOpen n 0 (text s)) (forcedPlace L i))
  | _ => none

/-- `_processSlurs` for the token `e`. humdrumfile.py 7362-7430. -/
def processSlurs (ab be : Str) (text : TokId → Str) (P : AutoParams) (e : TokId) : List (TokId × TokId × KTiePlace) :=
  (List.range (slurStartList P e).length).filterMap (readSlur ab be text e (slurStartList P e))

/-- The text of a note's token. -/
def textAt (texts : List Str) (t : TokId) : Str := texts[t.1]?.getD []

/-- Slur analysis (Model/Slur) and `_processSlurs` for every note. -/
def readHumSlurs (ab be : Str) (time : TokId → Rat) (texts : List Str) : Except PyErr (List (TokId × TokId × KTiePlace)) :=
  match spineSlurs .slur [] (texts.zipIdx.map (fun p => [((p.2, 0), p.1)])) [] [] with
  | .error e => .error e
  | .ok S =>
    let P := recordLinks .slur (fun t => countChar '(' (textAt texts t)) time (S.links.map (fun l => (l.1.1, l.2.1))) (fun _ _ => none)
    .ok ((List.range texts.length).flatMap (fun e => processSlurs ab be (textAt texts) P (e, 0)))

end C21
