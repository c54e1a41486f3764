import Mathlib.Algebra.Order.Ring.Unbundled.Rat
/-
Tuplets in MEI: mei/meiscore.py:734-777 (the tuplets that are written), mei/m21objectconvert.py:1316-1355 (their attributes),
mei/meireader.py:2938-3097 (`scaleToTuplet`), 3100-3200 (`_guessTuplets`), 6215-6279 (`tupletFromElement`), 4766-4769, 5000-5017 and
5032-5035 (attributes of a note).
-/
namespace C21

/-- `Tuplet.type`; `None` is `none`. -/
inductive TupType
  | start | stop | startStop
  deriving DecidableEq, Repr

/-- `Tuplet.bracket`: False, True, 'slur' or None. -/
inductive TupBracket
  | no | yes | slur | unset
  deriving DecidableEq, Repr

/-- `Tuplet.tupletActualShow` and `tupletNormalShow`; `None` is `none`. -/
inductive TupShow
  | number | type | both
  deriving DecidableEq, Repr

/-- How a tuplet looks. `above` is `Tuplet.placement` (above or below; `None` is `none`). -/
structure TupLook where
  bracket : TupBracket
  actual : Option TupShow
  normal : Option TupShow
  above : Option Bool
  deriving DecidableEq, Repr

/-- A tuplet: `num` notes in the time of `base`. -/
structure TupInfo where
  num : Nat
  base : Nat
  look : TupLook
  deriving DecidableEq, Repr

/-- Notes, chords and rests; grace notes; other things in a layer (clefs and so on). -/
inductive TupKind
  | note | grace | other
  deriving DecidableEq, Repr

/-- A thing of a layer, with its duration and `duration.tuplets`. -/
structure TupNote where
  id : Nat
  kind : TupKind
  dur : Rat
  tuplets : List (TupInfo × Option TupType)
  deriving DecidableEq, Repr

/-! ## Writing -/

/-- mei/meiscore.py:748-751. -/
def stopsTuplet (ty : Option TupType) : Bool := ty == some .stop || ty == some .startStop

/-- mei/meiscore.py:753-756. -/
def startsTuplet (ty : Option TupType) : Bool := ty == some .start || ty == some .startStop

/-- `currentTupletSpanners[part]` (the last one first) and the finished spanners, in the order in which they end. A spanner is its tuplet
and its notes. -/
structure TupState where
  opened : List (TupInfo × List Nat)
  done : List (TupInfo × List Nat)

/-- mei/meiscore.py:768-771. -/
def openTup (st : List (TupInfo × List Nat)) (t : TupInfo × Option TupType) : List (TupInfo × List Nat) :=
  if startsTuplet t.2 || (t.2.isNone && st.isEmpty) then (t.1, []) :: st else st

/-- `currentTupletSpanners[part] = currentTupletSpanners[part][:-1]`. -/
def popTup (st : TupState) : TupState := ⟨st.opened.tail, st.done ++ st.opened.head?.toList⟩

/-- mei/meiscore.py:778-781. -/
def closeTup (st : TupState) (t : TupInfo × Option TupType) : TupState := if stopsTuplet t.2 then popTup st else st

/-- mei/meiscore.py:775-776. -/
def addToTup (i : Nat) (sp : TupInfo × List Nat) : TupInfo × List Nat := (sp.1, sp.2 ++ [i])

/-- mei/meiscore.py:734-777 `annotateTuplets`. -/
def annotateTuplet (st : TupState) (n : TupNote) : TupState :=
  if n.kind = .other then st
  else if n.tuplets.isEmpty && !st.opened.isEmpty then
    if n.kind = .grace then st else popTup st
  else
    n.tuplets.foldl closeTup ⟨(n.tuplets.foldl openTup st.opened).map (addToTup n.id), st.done⟩

/-- All things of a part, measure by measure and voice by voice. -/
def annotateTuplets (ns : List TupNote) : TupState := ns.foldl annotateTuplet ⟨[], []⟩

/-- Attributes of `tuplet` and `tupletSpan`; an attribute that is absent is `none`. bracket.visible and num.visible are 'true' or 'false';
`ratio` is num.format (true for 'ratio', false for 'count'); the places are above (true) or below. -/
structure TupAttrs where
  num : Nat
  base : Nat
  bracketVisible : Option Bool
  bracketPlace : Option Bool
  numVisible : Option Bool
  numPlace : Option Bool
  ratio : Option Bool
  deriving DecidableEq, Repr

/-- mei/m21objectconvert.py:1320-1331. -/
def bracketAttr : TupBracket → Option Bool
  | .no => some false
  | .yes => some true
  | .slur => some true
  | .unset => none

/-- mei/m21objectconvert.py:1334-1336. -/
def numIsVisible (l : TupLook) : Bool := l.actual.isSome || l.normal.isSome

/-- mei/m21objectconvert.py:1340-1344. -/
def formatAttr (l : TupLook) : Option Bool :=
  if l.actual = some .number then
    if l.normal = some .number then some true
    else if l.normal = none then some false
    else none
  else none

/-- mei/m21objectconvert.py:1316-1355 `fillInTupletAttributes`. -/
def tupAttrs (t : TupInfo) : TupAttrs :=
  { num := t.num
    base := t.base
    bracketVisible := bracketAttr t.look.bracket
    bracketPlace := if bracketAttr t.look.bracket ≠ some false then t.look.above else none
    numVisible := if numIsVisible t.look then none else some false
    numPlace := if numIsVisible t.look then t.look.above else none
    ratio := if numIsVisible t.look then formatAttr t.look else none }

/-! ## Reading -/

/-- What music21 makes a new Tuplet look like: `tupletActualShow = 'number'`, `tupletNormalShow = None`. -/
def newTupShow : Option TupShow × Option TupShow := (some .number, none)

/-- mei/meireader.py:3080-3089. -/
def readShow (numVisible ratio : Option Bool) : Option TupShow × Option TupShow :=
  if numVisible = some false then (none, none)
  else if ratio = some true then (some .number, some .number)
  else (some .number, none)

/-- mei/meireader.py:3057-3065. -/
def readPlace (a : TupAttrs) : Option Bool :=
  let p := if a.bracketVisible ≠ some false then a.bracketPlace else none
  if p.isNone && a.numVisible ≠ some false then a.numPlace else p

/-- mei/meireader.py:3067-3076. -/
def readBracket : Option Bool → TupBracket
  | none => .unset
  | some true => .yes
  | some false => .no

/-- mei/meireader.py:3033-3089: the new tuplet. -/
def readTup (a : TupAttrs) : TupInfo :=
  ⟨a.num, a.base, ⟨readBracket a.bracketVisible, (readShow a.numVisible a.ratio).1, (readShow a.numVisible a.ratio).2, readPlace a⟩⟩

/-- mei/meireader.py:3033-3055 and 3091: one thing, with the type of the new tuplet. Durations with gestural lengths are left out. -/
def withTuplet (a : TupAttrs) (ty : Option TupType) (n : TupNote) : TupNote :=
  if n.kind = .note then { n with dur := n.dur * a.base / a.num, tuplets := n.tuplets ++ [(readTup a, ty)] } else n

/-- mei/meireader.py:2975-3091 `scaleToTuplet` for a list; `first` at its first element. -/
def scaleToTuplet (a : TupAttrs) : Bool → List TupNote → List TupNote
  | _, [] => []
  | first, n :: r =>
    withTuplet a (if first then some .start else if r.isEmpty then some .stop else none) n :: scaleToTuplet a false r

/-- `duration.tuplets[-1].type = ty`. -/
def setLastType (ty : TupType) (n : TupNote) : TupNote :=
  { n with tuplets := n.tuplets.dropLast ++ (n.tuplets.getLast?.map fun t => (t.1, some ty)).toList }

/-- Change the first note. -/
def onFirst (f : TupNote → TupNote) : List TupNote → List TupNote
  | [] => []
  | n :: r => if n.kind = .note then f n :: r else n :: onFirst f r

/-- Change the last note. -/
def onLast (f : TupNote → TupNote) : List TupNote → List TupNote
  | [] => []
  | n :: r => if n.kind = .note && r.all (fun m => m.kind != .note) then f n :: r else n :: onLast f r

/-- mei/meireader.py:6252-6279: the members of a `tuplet` element. -/
def tupletElement (a : TupAttrs) (members : List TupNote) : List TupNote :=
  let ms := scaleToTuplet a true members
  match (members.filter fun m => m.kind == .note).length with
  | 0 => []
  | 1 => onFirst (setLastType .startStop) (onFirst (setLastType .start) ms)
  | _ => onLast (setLastType .stop) (onFirst (setLastType .start) ms)

/-! ### `tupletSpan` with no plist -/

/-- mei/meireader.py:3124-3132: what is remembered between notes. -/
structure GuessState where
  inTuplet : Bool
  attrs : TupAttrs

/-- Attributes of a note for the search: start (true) or end, and the attributes of its `tupletSpan`. -/
abbrev SearchMark := Option (Bool × TupAttrs)

/-- mei/meireader.py:3139-3179: an attribute that is absent is as it was. -/
def GuessState.begin (st : GuessState) (a : TupAttrs) : GuessState :=
  ⟨true, { num := a.num
           base := a.base
           bracketVisible := a.bracketVisible.or st.attrs.bracketVisible
           bracketPlace := a.bracketPlace.or st.attrs.bracketPlace
           numVisible := a.numVisible.or st.attrs.numVisible
           numPlace := a.numPlace.or st.attrs.numPlace
           ratio := a.ratio.or st.attrs.ratio }⟩

/-- `duration.tuplets[0].type = ty`. -/
def setFirstType (ty : TupType) (n : TupNote) : TupNote :=
  { n with tuplets := (n.tuplets.head?.map fun t => (t.1, some ty)).toList ++ n.tuplets.tail }

/-- mei/meireader.py:3134-3200 `_guessTuplets`. Grace notes never have a mark (mei/meireader.py:2990-2993), but one that has (because of
a bare attribute) is not left out here. -/
def guessTuplets : GuessState → List (TupNote × SearchMark) → List TupNote
  | _, [] => []
  | st, (n, mark) :: r =>
    if n.kind = .other then n :: guessTuplets st r
    else
      let st := match mark with
        | some (true, a) => st.begin a
        | _ => st
      if st.inTuplet then
        match mark with
        | none => withTuplet st.attrs none n :: guessTuplets st r
        | some (true, _) => setFirstType .start (withTuplet st.attrs none n) :: guessTuplets st r
        | some (false, _) => setFirstType .stop (withTuplet st.attrs none n) :: guessTuplets { st with inTuplet := false } r
      else n :: guessTuplets st r

/-- No attributes remembered. -/
def noGuess : GuessState := ⟨false, ⟨3, 2, none, none, none, none, none⟩⟩

/-! ### Bare attributes -/

/-- The attribute `tuplet` of a note: begins with i, begins with t, or neither. -/
inductive TupAttrI
  | i | t | other
  deriving DecidableEq

/-- mei/meireader.py:4766-4769, 5002-5017 and 5032-5035, for a note that no `tupletSpan` is about: the mark for the search, and the new
value of `inTupletCount`. -/
def bareTuplet (count : Int) (a : TupAttrI) : Option Bool × Int :=
  let count := if a = .i then count + 1 else count
  let mark := if count = 0 then
      match a with
      | .i => some true
      | .t => some false
      | .other => none
    else none
  (mark, if a = .t then count - 1 else count)

/-- The marks of the notes of a file, one after the other. -/
def bareTuplets : Int → List TupAttrI → List (Option Bool)
  | _, [] => []
  | c, a :: r => (bareTuplet c a).1 :: bareTuplets (bareTuplet c a).2 r

end C21
