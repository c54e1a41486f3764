import Verif.Model.PyStr
/-
MEI element trees (mei/meielement.py), the tree builder they are written with (shared/debugutilities.py and
xml.etree.ElementTree.TreeBuilder) and the text of an element (mei/meishared.py:113-277).
-/
namespace C21

/-- mei/meielement.py:22-55, class `MeiElement`. `name` is a function of the tag (`MeiEl.name`). -/
inductive MeiEl where
  | mk (tag : Str) (attrib : List (Str × Str)) (text tail : Str) (subs : List MeiEl)

/-- `Element` of xml.etree.ElementTree: like `MeiEl`, but text and tail may be absent. -/
inductive XEl where
  | mk (tag : Str) (attrib : List (Str × Str)) (text tail : Option Str) (subs : List XEl)

namespace MeiEl
/-- The fields of the class. -/
def tag : MeiEl → Str | mk t _ _ _ _ => t
def attrib : MeiEl → List (Str × Str) | mk _ a _ _ _ => a
def text : MeiEl → Str | mk _ _ t _ _ => t
def tail : MeiEl → Str | mk _ _ _ t _ => t
def subs : MeiEl → List MeiEl | mk _ _ _ _ s => s

/-- mei/meielement.py:38-41 and 51-55: the tag without its namespace: `self.tag.split('}')[-1]`. -/
def nameOf (t : Str) : Str :=
  if startsWith t ['{'] && t.contains '}' then (splitOn '}' t).getLast?.getD [] else t

/-- mei/meielement.py:32: `self.name`. -/
def name (e : MeiEl) : Str := nameOf e.tag

/-- mei/meielement.py:79: `tagOrName in ('*', subEl.tag, subEl.name)`. -/
def isNamed (q : Str) (e : MeiEl) : Bool := q == ['*'] || q == e.tag || q == e.name

mutual
/-- mei/meielement.py:71-82 `findAll` with `recurse=True`. -/
def findAll (q : Str) : MeiEl → List MeiEl
  | mk _ _ _ _ subs => findAllIn q subs
/-- The loop of `findAll`. -/
def findAllIn (q : Str) : List MeiEl → List MeiEl
  | [] => []
  | s :: ss => (if isNamed q s then [s] else []) ++ findAll q s ++ findAllIn q ss
end

/-- mei/meielement.py:71-82 `findAll` with `recurse=False`. -/
def findAllHere (q : Str) (e : MeiEl) : List MeiEl := e.subs.filter (isNamed q)

mutual
/-- mei/meielement.py:84-96 `findFirst` with `recurse=True`. -/
def findFirst (q : Str) : MeiEl → Option MeiEl
  | mk _ _ _ _ subs => findFirstIn q subs
/-- The loop of `findFirst`. -/
def findFirstIn (q : Str) : List MeiEl → Option MeiEl
  | [] => none
  | s :: ss =>
    if isNamed q s then some s
    else match findFirst q s with
      | some f => some f
      | none => findFirstIn q ss
end

/-- mei/meielement.py:84-96 `findFirst` with `recurse=False`. -/
def findFirstHere (q : Str) (e : MeiEl) : Option MeiEl := e.subs.find? (isNamed q)

/-- mei/meielement.py:104-108: some attribute whose name ends with `key` has the value. -/
def hasAttr (key value : Str) (e : MeiEl) : Bool :=
  e.attrib.any fun kv => startsWith kv.1.reverse key.reverse && kv.2 == value

mutual
/-- mei/meielement.py:103-117: the search of `findFirstWithAttributeValue` with `recurse=True`, after line 102. -/
def findAttr (key value : Str) : MeiEl → Option MeiEl
  | mk _ _ _ _ subs => findAttrIn key value subs
/-- The loop of `findFirstWithAttributeValue`. -/
def findAttrIn (key value : Str) : List MeiEl → Option MeiEl
  | [] => none
  | s :: ss =>
    if hasAttr key value s then some s
    else match findAttr key value s with
      | some f => some f
      | none => findAttrIn key value ss
end

/-- mei/meielement.py:96-117 `findFirstWithAttributeValue`: `key = key.split(':')[-1]` first. The recursive calls split
the key again, which changes nothing. -/
def findFirstWithAttributeValue (key value : Str) (e : MeiEl) : Option MeiEl :=
  findAttr ((splitOn ':' key).getLast?.getD []) value e

/-- A call on the tree builder. -/
inductive Ev where
  | start (tag : Str) (attrib : List (Str × Str))
  | data (s : Str)
  | stop (tag : Str)
deriving DecidableEq

mutual
/-- mei/meielement.py:137-145 `makeRootElement`: the calls on the tree builder. -/
def events : MeiEl → List Ev
  | mk tag attrib text tail subs =>
    [.start tag attrib] ++ (if text.isEmpty then [] else [.data text]) ++ eventsIn subs ++ [.stop tag] ++
      (if tail.isEmpty then [] else [.data tail])
/-- The loop over the sub-elements. -/
def eventsIn : List MeiEl → List Ev
  | [] => []
  | s :: ss => events s ++ eventsIn ss
end
end MeiEl

namespace XEl
/-- `elem.text or ''` -/
def orEmpty (s : Option Str) : Str := s.getD []

mutual
/-- mei/meielement.py:36-48: a `MeiElement` made from an `Element`. -/
def toMei : XEl → MeiEl
  | mk tag attrib text tail subs => .mk tag attrib (orEmpty text) (orEmpty tail) (toMeiIn subs)
/-- The loop over the sub-elements. -/
def toMeiIn : List XEl → List MeiEl
  | [] => []
  | s :: ss => toMei s :: toMeiIn ss
end

/-- Set the tail of an element. -/
def setTail (s : Str) : XEl → XEl
  | mk tag attrib text _ subs => mk tag attrib text (some s) subs
end XEl

/-- An element that is open in the tree builder; its sub-elements are in reverse. -/
structure XFrame where
  tag : Str
  attrib : List (Str × Str)
  text : Option Str
  kids : List XEl

/-- The state of the tree builder: open elements (innermost first), the data not flushed yet, and the root once it is
closed. shared/debugutilities.py:15-30. The builder flushes when data is pending before the next start or end. -/
structure TBState where
  opened : List XFrame
  pending : List Str
  root : Option XEl

/-- TreeBuilder._flush: the pending data becomes the text of the element just started, or the tail of the one just
ended: in a frame, these are the frame itself when it has no sub-elements, or its last sub-element. -/
def tbFlush (st : TBState) : TBState :=
  if st.pending.isEmpty then st
  else match st.opened with
    | [] => { st with pending := [] }
    | f :: fs =>
      match f.kids with
      | [] => { st with opened := { f with text := some st.pending.flatten } :: fs, pending := [] }
      | k :: ks => { st with opened := { f with kids := XEl.setTail st.pending.flatten k :: ks } :: fs, pending := [] }

/-- One call; an error is shared/debugutilities.py:36-43 (`DebugError`, or an IndexError when nothing is open). A second
root element is not modelled: it is dropped, as the real builder does. -/
def tbStep (st : TBState) : MeiEl.Ev → Option TBState
  | .data s => some { st with pending := st.pending ++ [s] }
  | .start tag attrib =>
    let st := tbFlush st
    some { st with opened := ⟨tag, attrib, none, []⟩ :: st.opened }
  | .stop tag =>
    let st := tbFlush st
    match st.opened with
    | [] => none
    | f :: fs =>
      if f.tag == tag then
        let e : XEl := .mk f.tag f.attrib f.text none f.kids.reverse
        match fs with
        | [] => some { st with opened := [], root := st.root.or (some e) }
        | g :: gs => some { st with opened := { g with kids := e :: g.kids } :: gs }
      else none

/-- All calls in turn. -/
def tbRun : TBState → List MeiEl.Ev → Option TBState
  | st, [] => some st
  | st, ev :: evs => match tbStep st ev with
    | some st' => tbRun st' evs
    | none => none

/-- A new builder. -/
def tbNew : TBState := ⟨[], [], none⟩

/-- TreeBuilder.close: everything must be closed. Data after the root is never flushed. -/
def tbClose (st : TBState) : Option XEl := if st.opened.isEmpty then st.root else none

/-- mei/meielement.py:147-151 and 36-48: write an element and make a `MeiElement` of the result. -/
def rebuild (e : MeiEl) : Option MeiEl :=
  ((tbRun tbNew e.events).bind tbClose).map XEl.toMei

/-! ## The text of an element -/

/-- mei/meishared.py:197-199: text that begins with a newline and is white space only is layout of the file. -/
def cleanText (s : Str) : Str :=
  match s with
  | [] => []
  | c :: _ => if c != '\n' || !s.all isPySpace then s else []

/-- mei/meishared.py:108-111. -/
def choosingNames : List Str := ["app".toList, "choice".toList]

/-- mei/meishared.py:95-106. -/
def passThruNames : List Str :=
  ["add".toList, "corr".toList, "damage".toList, "expan".toList, "orig".toList, "reg".toList, "sic".toList,
   "subst".toList, "supplied".toList, "unclear".toList]

/-- `str.endswith` -/
def endsWithStr (suf s : Str) : Bool := startsWith s.reverse suf.reverse

/-- mei/meishared.py:165-187 `chooseSubMeiElement`, as an index into the sub-elements. -/
def chooseIndex (tag : Str) (subs : List MeiEl) : Option Nat :=
  let first (q : Str) := subs.findIdx? (MeiEl.isNamed q)
  if endsWithStr "app".toList tag then (first "lem".toList).or (first "rdg".toList)
  else if endsWithStr "choice".toList tag then
    ((first "corr".toList).or (first "reg".toList)).or (first "*".toList)
  else none

/-- mei/meishared.py:240-247: text and tails of everything below a pass-through element. -/
def belowText (els : List MeiEl) : Str :=
  (els.map fun s => cleanText s.text ++ cleanText s.tail).flatten

/-- mei/meishared.py:118-125 `_glyphNumToUnicodeChar`, 113-116 `_glyphNameToUnicodeChar` and 252-262: the glyph of a
`symbol`, as a function of its attributes; the tables are a parameter. -/
abbrev Glyphs := List (Str × Str) → Str

mutual
/-- mei/meishared.py:189-277 `textFromElem` without `endAt`: the text. The style that is returned with it is not
modelled. -/
def textFromElem (g : Glyphs) : MeiEl → Str
  | .mk _ _ text _ subs => cleanText text ++ textOfKids g subs
termination_by structural e => e
/-- The loop over the sub-elements (mei/meishared.py:201-275). -/
def textOfKids (g : Glyphs) : List MeiEl → Str
  | [] => []
  | .mk tag attrib text tail subs :: rest =>
    let name := MeiEl.nameOf tag
    if name ∈ choosingNames then
      match chooseIndex tag subs with
      | none => textOfKids g rest
      | some i =>
        (nthText g subs i).1 ++ cleanText (nthText g subs i).2 ++ textOfKids g rest
    else
      (if name ∈ passThruNames then belowText (MeiEl.findAllIn ['*'] subs)
       else if name = "lb".toList then ['\n']
       else if name = "symbol".toList then g attrib else []) ++
      (cleanText text ++ textOfKids g subs) ++ cleanText tail ++ textOfKids g rest
/-- The text and the tail of one of the sub-elements. -/
def nthText (g : Glyphs) : List MeiEl → Nat → Str × Str
  | [], _ => ([], [])
  | .mk _ _ text tail subs :: _, 0 => (cleanText text ++ textOfKids g subs, tail)
  | _ :: rest, i + 1 => nthText g rest i
end

end C21
