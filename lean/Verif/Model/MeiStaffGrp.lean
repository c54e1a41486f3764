import Verif.Model.Decoration
/-
Staff definitions and staff groups in MEI: mei/meiscore.py:311-427 (written), mei/meireader.py:495-551, 3372-3435 and
3453-3724 (read).
-/
namespace C21

/-- An element `staffDef` or `staffGrp`. The attribute n of a staffDef is a string in the code, which is only compared with others;
here it is the number it stands for. Everything else in a staffDef (clef, key, names) is left out. -/
inductive StaffEl
  | sdef (n : Nat)
  | grp (attrs : List (Str × Str)) (subs : List StaffEl)

/-- `StaffGroup.barTogether`. -/
inductive BarTogether
  | yes | no | mensur
  deriving DecidableEq

/-- mei/meiscore.py:312-320, `_M21_STAFFGROUP_SYMBOL_TO_MEI`. -/
def GSym.toMei : GSym → Str
  | .brace => "brace".toList
  | .bracket => "bracket".toList
  | .square => "bracketsq".toList
  | .line => "line".toList
  | .none => "none".toList

/-- mei/meiscore.py:323-336: the attributes of a staffGrp; the label is left out. -/
def grpAttrs (sym : GSym) (bar : BarTogether) : List (Str × Str) :=
  (match bar with
   | .mensur => [("bar.method".toList, "mensur".toList)]
   | .no => [("bar.thru".toList, "false".toList)]
   | .yes => [("bar.thru".toList, "true".toList)]) ++ [("symbol".toList, sym.toMei)]

/-- The Boolean of a modelled staff group as a `BarTogether`. -/
def barOf (b : Bool) : BarTogether := if b then .yes else .no

/-- mei/meiscore.py:345-357: the staves before a subgroup that begins at `low`; `order` is the set of staves in the order in which Python
iterates over it, `todo` the staves not processed yet. -/
def defsBefore (low : Nat) (todo : List Nat) : List Nat → List Nat
  | [] => []
  | n :: ns => if low ≤ n then [] else if todo.contains n then n :: defsBefore low todo ns else defsBefore low todo ns

/-- What the loop over the subgroups gives: the elements, the staves still to be processed, the staves processed. -/
structure GrpPart where
  els : List StaffEl
  todo : List Nat
  nums : List Nat

mutual
/-- mei/meiscore.py:322-376 `makeStaffGrpElement`: the element, and the staff numbers returned. `ord` is the order in which Python iterates
over a set of numbers (line 345: the set is not sorted). -/
def meiGrp (ord : List Nat → List Nat) : SGTree → StaffEl × List Nat
  | .node g children =>
    let p := meiKids ord (ord g.nums) g.nums children
    (.grp (grpAttrs g.sym (barOf g.bar)) (p.els ++ (p.todo.insertionSort (· ≤ ·)).map StaffEl.sdef),
      (p.nums ++ p.todo.insertionSort (· ≤ ·)).insertionSort (· ≤ ·))
/-- mei/meiscore.py:343-364: the loop over the subgroups. -/
def meiKids (ord : List Nat → List Nat) (order todo : List Nat) : List SGTree → GrpPart
  | [] => ⟨[], todo, []⟩
  | c :: cs =>
    let before := defsBefore c.group.lowest todo order
    let sub := meiGrp ord c
    let rest := meiKids ord order ((todo.filter (fun n => !before.contains n)).filter (fun n => !sub.2.contains n)) cs
    ⟨before.map StaffEl.sdef ++ sub.1 :: rest.els, rest.todo, before ++ sub.2 ++ rest.nums⟩
end

/-- mei/meiscore.py:378-385 `_findTopStaffGroupTreeStartingWith`. -/
def topTreeAt (ts : List SGTree) (n : Nat) : Option SGTree := ts.reverse.find? (fun t => t.group.lowest == n)

/-- mei/meiscore.py:387-398 and 419-421: the loop over the staves, from `next`; the staves of the score are 1 to `count`. `fuel` bounds the number of
rounds; each one increases `next` when the groups are not empty, so `count` is enough. -/
def scoreDefLoop (ord : List Nat → List Nat) (ts : List SGTree) (count : Nat) : Nat → Nat → List StaffEl
  | 0, _ => []
  | fuel + 1, next =>
    if next = 0 ∨ count < next then []
    else match topTreeAt ts next with
      | none => .sdef next :: scoreDefLoop ord ts count fuel (next + 1)
      | some t => (meiGrp ord t).1 :: scoreDefLoop ord ts count fuel ((meiGrp ord t).2.getLastD 0 + 1)

/-- mei/meiscore.py:400-407 `_nonGroupedStavesExist`. -/
def nonGrouped (ts : List SGTree) (count : Nat) : Bool :=
  (List.range' 1 count).any fun n => !(ts.any fun t => t.group.nums.contains n)

/-- mei/meiscore.py:410-427 `makeScoreDefElement`: the elements in the scoreDef. -/
def writeScoreDef (ord : List Nat → List Nat) (ts : List SGTree) (count : Nat) : List StaffEl :=
  if 1 < ts.length ∨ nonGrouped ts count = true then [.grp [] (scoreDefLoop ord ts count count 1)]
  else scoreDefLoop ord ts count count 1

/-! ## Reading -/

/-- mei/meireader.py:3453-3462 and 3483: the symbol of a group. -/
def symFromMei (attrs : List (Str × Str)) : GSym :=
  let s := (attrs.lookup "symbol".toList).getD "none".toList
  if s = "brace".toList then .brace
  else if s = "bracket".toList then .bracket
  else if s = "bracketsq".toList then .square
  else if s = "line".toList then .line
  else .none

/-- mei/meireader.py:3464-3468 and 3485-3495. A value of bar.thru that is not in the table gives the empty string, which counts as false. -/
def barFromMei (attrs : List (Str × Str)) : BarTogether :=
  let m := (attrs.lookup "bar.method".toList).getD []
  let m := if m = [] then (attrs.lookup "barplace".toList).getD [] else m
  if m = "mensur".toList then .mensur
  else if (attrs.lookup "bar.thru".toList).getD [] = "true".toList then .yes else .no

mutual
/-- The staves of an element in the order of the document: mei/meireader.py:540-543 and the lists `staffIds` (3509-3532). -/
def StaffEl.doc : StaffEl → List Nat
  | .sdef n => [n]
  | .grp _ subs => docList subs
/-- The same for several elements. -/
def docList : List StaffEl → List Nat
  | [] => []
  | e :: es => e.doc ++ docList es
end

/-- mei/meireader.py:3522: `ownedStaffIds`. -/
def ownedOf : List StaffEl → List Nat
  | [] => []
  | .sdef n :: es => n :: ownedOf es
  | .grp _ _ :: es => ownedOf es

/-- mei/meireader.py:3621-3652: the owned staves before a subgroup whose first staff is `first`. -/
def ownedBefore (first : Nat) : List Nat → List Nat → List Nat
  | _, [] => []
  | todo, o :: os =>
    if o = first then []
    else if todo.contains o then o :: ownedBefore first (todo.filter (· != o)) os
    else ownedBefore first todo os

/-- mei/meireader.py:3681-3709: the owned staves after the last subgroup. -/
def ownedRest : List Nat → List Nat → List Nat
  | _, [] => []
  | todo, o :: os =>
    if todo.contains o then o :: ownedRest (todo.filter (· != o)) os else ownedRest todo os

/-- A staff group that was made: the attributes of the element, and the parts in it. A part is named by the staff it was made for (its name
comes from that staffDef). -/
structure MadeGroup where
  attrs : List (Str × Str)
  parts : List Nat
  deriving DecidableEq

/-- What the loop over subgroups gives: groups, parts in order, staves still to be processed. -/
structure MadePart where
  groups : List MadeGroup
  parts : List Nat
  todo : List Nat

/-- Is it a group? -/
def StaffEl.isGrp : StaffEl → Bool
  | .sdef _ => false
  | .grp _ _ => true

mutual
/-- mei/meireader.py:3577-3724 `processStaffGroupDescriptionTree`: the groups (the outermost last) and the parts. `none` is an exception.
Whether parts are Part or PartStaff is left out. -/
def makeGroups : StaffEl → Option (List MadeGroup × List Nat)
  | .sdef _ => some ([], [])
  | .grp attrs subs =>
    if docList subs = [] then some ([], [])
    else match makeKids (ownedOf subs) (docList subs) subs with
      | none => none
      | some p =>
        let rest := ownedRest p.todo (ownedOf subs)
        if (p.todo.filter (fun n => !rest.contains n)) = [] then
          some ((⟨attrs, p.parts ++ rest⟩ :: p.groups).reverse, p.parts ++ rest)
        else none
/-- mei/meireader.py:3616-3677: the loop over the subgroups. -/
def makeKids (owned todo : List Nat) : List StaffEl → Option MadePart
  | [] => some ⟨[], [], todo⟩
  | e :: es =>
    if e.isGrp then
      match e.doc with
      | [] => none
      | first :: _ =>
        match makeGroups e with
        | none => none
        | some sub =>
          let before := ownedBefore first todo owned
          match makeKids owned ((todo.filter (fun n => !before.contains n)).filter (fun n => !sub.2.contains n)) es with
          | none => none
          | some p => some ⟨sub.1 ++ p.groups, before ++ sub.2 ++ p.parts, p.todo⟩
    else makeKids owned todo es
end

/-- A staff group of the score that was read. -/
structure MeiReadGroup where
  sym : GSym
  bar : BarTogether
  staves : List Nat
  deriving DecidableEq

/-- Keep the first of equal staves (mei/meireader.py:542). -/
def firstOnly : List Nat → List Nat
  | [] => []
  | n :: ns => n :: (firstOnly ns).filter (· != n)

/-- mei/meireader.py:3430-3432: the staff whose music goes into the part that was made for `p`: `zip(allPartNs, parts)`. -/
def staffOfPart (all parts : List Nat) (p : Nat) : Nat := (((parts.zip all).lookup p)).getD 0

/-- mei/meireader.py:3372-3435, for the first scoreDef of a score, when it has one staffGrp: the staff groups with the staves whose music is in
them, and for each staff (in the order of the document) the staff whose name its part has. -/
def readScoreDef (top : StaffEl) : Option (List MeiReadGroup × List (Nat × Nat)) :=
  match makeGroups top with
  | none => none
  | some (gs, parts) =>
    let all := firstOnly top.doc
    if parts.insertionSort (· ≤ ·) = all.insertionSort (· ≤ ·) then
      some (gs.map (fun g => ⟨symFromMei g.attrs, barFromMei g.attrs, g.parts.map (staffOfPart all parts)⟩), all.zip parts)
    else none

end C21
