import Verif.Model.HumDynam
import Verif.Model.HumHarm
import Verif.Model.HumChords
/-
Where dynamics and hairpins stand: the placement parameters of the exporter (humdrum/m21convert.py:2264-2296, 2414-2441), the interpretations that
set the place for a spine (humdrum/humdrumfile.py:2863-2917), the search of `**dynam` tokens from a note and the place read from them
(humdrum/humdrumfile.py:8564-8903, 8944-9055, 12619-12774).
-/
namespace C21

/-- Where a dynamic stands; `middle` is music21's placement `below` with `alignVertical` `middle`. -/
inductive DynPos
  | above | below | middle
deriving DecidableEq, Repr

/-- `style.justify`, as far as it is written. -/
inductive DynJust
  | none | right | center
deriving DecidableEq, Repr

/-! ### Export -/

/-- The staff in a parameter: nothing for the top staff of the part (m21convert.py:2274-2276). -/
def staffSuffix (i : Nat) : Str := if 0 < i then '=' :: natStr (i + 1) else []

/-- m21convert.py:2278-2289 and 2425-2441: the placement parameter, without its colon, of a dynamic or hairpin on staff `i` of its part. -/
def posPieces (pos : Option DynPos) (i : Nat) : List Str :=
  match pos with
  | none => []
  | some .above => ['a' :: staffSuffix i]
  | some .below => ['b' :: staffSuffix i]
  | some .middle => if i = 0 then [] else ['c' :: staffSuffix i]

/-- m21convert.py:2292-2296. -/
def justPieces : DynJust → List Str
  | .none => []
  | .right => ["rj".toList]
  | .center => ["cj".toList]

/-- The parameters of the text (m21convert.py:2298-2329, C102). -/
def textPieces (value : Str) : List Str :=
  let p := dynParams value
  if p.1 ≠ [] then ["ed=".toList ++ p.1] else if p.2 ≠ [] then ["t=".toList ++ p.2] else []

/-- A layout comment with the given parameters, if there are any (humdrumwriter.py:2466-2478, 2932-2943). -/
def dynComment (cat : Str) (pieces : List Str) : List Str :=
  if pieces = [] then [] else ["!LO:".toList ++ cat ++ pieces.flatMap (fun q => ':' :: q)]

/-- The layout comments of a dynamic that is alone in its token. -/
def dynComments (value : Str) (pos : Option DynPos) (just : DynJust) (i : Nat) : List Str :=
  dynComment "DY".toList (posPieces pos i ++ justPieces just ++ textPieces value)

/-- The layout comments of a hairpin that is alone in its token. -/
def hairpinComments (pos : Option DynPos) (i : Nat) : List Str := dynComment "HP".toList (posPieces pos i)

/-! ### Import -/

/-- The state variables of a staff (humdrumfile.py:425-427 and `hasLyrics`). -/
structure DynState where
  pos : Int := 0
  defined : Bool := false
  adj : Int := 0
  lyrics : Bool := false
deriving DecidableEq

/-- humdrumfile.py:2873-2917: one `**dynam` token of an interpretation line. -/
def dynInterp (st : DynState) (t : Str) : DynState :=
  if t = "*above".toList then { st with pos := 1, adj := 0 }
  else if t = "*above:2".toList then { st with pos := 1, adj := -1 }
  else if t = "*below:2".toList then { st with pos := -1, adj := -1 }
  else if t = "*below".toList then { st with pos := -1, adj := 0 }
  else if t = "*center".toList then { st with pos := 0, defined := true, adj := 0 }
  else if t = "*center:2".toList then { st with pos := 0, defined := true, adj := -1 }
  else st

/-- humdrumfile.py:12642-12653: the value of a placement parameter. `int(...)`: digits only, else an exception, which is caught. -/
def paramAdj (v : Str) (adj : Int) : Int :=
  if v = "true".toList then 0
  else match v with
    | [] => adj
    | c :: _ =>
      if isDig c then
        match noteNumber v with
        | .ok n => if n = 0 then 0 else -(n - 1)
        | .error _ => adj
      else adj

/-- humdrumfile.py:12638-12655: the loop over the parameters of a set. -/
def posInSet (key alt : Str) (adj : Int) : List (Str × Str) → Option Int
  | [] => none
  | p :: ps => if p.1 = key then some (paramAdj p.2 adj) else if p.1 = alt then some adj else posInSet key alt adj ps

/-- `_hasAboveParameterStaffAdj`, `_hasBelowParameterStaffAdj` and `_hasCenterParameterStaffAdj` (humdrumfile.py:12619-12657, 12690-12727,
12736-12774), which differ only in the two names. -/
def posParam (cat key alt : Str) : List HumParamSet → Int → Bool × Int
  | [], adj => (false, adj)
  | h :: hs, adj =>
    if h.ns1 ≠ "LO".toList ∨ h.ns2 ≠ cat then posParam cat key alt hs adj
    else match posInSet key alt adj h.params with
      | some a => (true, a)
      | none => posParam cat key alt hs adj

/-- What the parameters say: above, below, center and the staff (humdrumfile.py:8810-8820, 9009-9021). The sets searched for the center are those of
the note for a dynamic and those of the **dynam token for a hairpin. `center0` is left over from before. -/
def posFlags (cat : Str) (sets centerSets : List HumParamSet) (center0 : Bool) (adj : Int) : Bool × Bool × Bool × Int :=
  let a := posParam cat "a".toList "Z".toList sets adj
  if a.1 then (true, false, center0, a.2)
  else
    let b := posParam cat "b".toList "Y".toList sets a.2
    if b.1 then (false, true, center0, b.2)
    else
      let c := posParam cat "c".toList "Y".toList centerSets b.2
      (false, false, c.1 || center0, c.2)

/-- humdrumfile.py:8603-8613: above, below or center preferred, and whether it is forced. -/
def dynForce (st : DynState) : Option DynPos × Bool :=
  if st.pos > 0 then (some .above, true)
  else if st.pos < 0 then (some .below, true)
  else if st.defined then (some .middle, false)
  else if st.lyrics then (some .above, false)
  else (none, false)

/-- humdrumfile.py:8881-8899: the place of a dynamic. -/
def dynamicPos (st : DynState) (above below center : Bool) : Option DynPos :=
  let f := dynForce st
  if above || (f.2 && f.1 = some .above) || (f.1 = some .above && !below && !center) then some .above
  else if below || (f.2 && f.1 = some .below) || (f.1 = some .below && !above && !center) then some .below
  else if center || (f.2 && f.1 = some .middle) || (f.1 = some .middle && !above && !below) then some .middle
  else none

/-- humdrumfile.py:9041-9060: the place of a hairpin. -/
def hairpinPos (st : DynState) (above below center : Bool) : Option DynPos :=
  let f := dynForce st
  if center || (f.2 && f.1 = some .middle) || (f.1 = some .middle && !above && !below) then some .middle
  else if above || (f.2 && f.1 = some .above) || (f.1 = some .above && !below && !center) then some .above
  else if below || (f.2 && f.1 = some .below) || (f.1 = some .below && !above && !center) then some .below
  else none

/-- humdrumfile.py:8873-8875 and 9031-9033: the staff, within the staves of the file. -/
def staffFor (staff : Nat) (count : Nat) (adj : Int) : Nat := (min (max ((staff : Int) - adj) 0) ((count : Int) - 1)).toNat

/-- A dynamic as it is put in a measure: value, staff, place, justification. -/
structure DynOut where
  value : Str
  staff : Nat
  pos : Option DynPos
  just : DynJust
deriving DecidableEq

/-- A boolean parameter of the token (`layoutParameter(...) == 'true'`). -/
def justParam (sets : List HumParamSet) (key : Str) : Bool := (layoutParameter "DY".toList key (-1) [] sets).toOption == some "true".toList

/-- humdrumfile.py:8830-8835. -/
def readJust (sets : List HumParamSet) : DynJust :=
  if justParam sets "rj".toList then .right else if justParam sets "cj".toList then .center else .none

/-- humdrumfile.py:8805-8809 and 8837-8866: the text around the mark. Only the parameters the exporter writes. -/
def dynDecorate (d ed txt : Str) : Str :=
  let d := if txt = [] then d else strip (replaceAll "%s".toList (d ++ [' ']) txt)
  if isInfix "brack".toList ed then "[ ".toList ++ d ++ " ]".toList
  else if isInfix "paren".toList ed then "( ".toList ++ d ++ " )".toList
  else if isInfix "curly".toList ed then "{ ".toList ++ d ++ " }".toList
  else if isInfix "angle".toList ed then "< ".toList ++ d ++ " >".toList
  else d

/-- A token right of the note, as far as it matters: `**kern`, another kind of kern, `**dynam` (with text, layout comments and whether it was
processed before), anything else. -/
inductive DynField
  | kern
  | kernLike
  | dynam (text : Str) (layouts : List Str) (done : Bool)
  | other
deriving DecidableEq

/-- What is the same for all tokens of the search: is the note a grace note, its own parameter sets, the state of its staff, its staff and the number
of staves, `str.isalpha`. -/
structure DynCtx where
  grace : Bool := false
  noteSets : List HumParamSet := []
  st : DynState := {}
  staff : Nat
  count : Nat
  alpha : Char → Bool

/-- humdrumfile.py:8800-8903: the dynamic of one `**dynam` token; `dynamic` and `center` are variables of the whole method. -/
def dynOutOf (c : DynCtx) (dynamic : Str) (center : Bool) (layouts : List Str) : DynOut × Bool :=
  let sets := layouts.map (({} : HumParamSet).readString ·)
  let f := posFlags "DY".toList sets c.noteSets center c.st.adj
  ({ value := dynDecorate dynamic (layoutValue "DY".toList "ed".toList [] sets) (layoutValue "DY".toList "t".toList [] sets),
     staff := staffFor c.staff c.count f.2.2.2, pos := dynamicPos c.st f.1 f.2.1 f.2.2.1, just := readJust sets }, f.2.2.1)

/-- humdrumfile.py:8736-8903: the search for `**dynam` tokens from a note, without the hairpins: the dynamics in order. Simplified: all spines have a
track. -/
def dynScan (c : DynCtx) : Bool → Str → Bool → List DynField → List DynOut
  | _, _, _, [] => []
  | active, dynamic, center, f :: fs =>
    match f with
    | .kernLike => dynScan c false dynamic center fs
    | .kern => if c.grace then dynScan c true dynamic center fs else []
    | .other => dynScan c active dynamic center fs
    | .dynam text layouts done =>
      if !active then dynScan c active dynamic center fs
      else if done then []
      else
        let d := (dynLetters (text.filter c.alpha)).getD dynamic
        if d = [] then dynScan c active d center fs
        else
          let o := dynOutOf c d center layouts
          o.1 :: dynScan c active o.1.value o.2 fs

/-- The dynamics found from a note without `z` (humdrumfile.py:8570-8730 does nothing then). -/
def readDynamics (c : DynCtx) (fs : List DynField) : List DynOut := dynScan c true [] false fs

/-- humdrumfile.py:9009-9060: staff and place of a hairpin. -/
def readHairpinPos (st : DynState) (staff count : Nat) (layouts : List Str) : Nat × Option DynPos :=
  let sets := layouts.map (({} : HumParamSet).readString ·)
  let f := posFlags "HP".toList sets sets false st.adj
  (staffFor staff count f.2.2.2, hairpinPos st f.1 f.2.1 f.2.2.1)

end C21
