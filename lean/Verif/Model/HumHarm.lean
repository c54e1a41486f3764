import Verif.Model.ParamSet
import Verif.Model.PyNum
import Verif.Model.HumLyrics
/-
Chord symbols in Humdrum: humdrum/humdrumwriter.py:2946-3025, humdrum/m21convert.py:286-334, 411-450 and 2333-2367 and
humdrum/humdrumfile.py:1697-1787 and 10223-10267. The texts of single chords (`**harte`) are modelled in Model/Harte.lean.
-/
namespace C21

/-! ### Export -/

/-- A chord symbol of a measure: part, offset, whether its place is the very end of the measure, its text in the spine, the full text and
the text of its kind (empty for none). -/
structure HarmIn where
  part : Nat
  offset : Rat
  atEnd : Bool := false
  text : Str
  full : Option Str := none
  kind : Str := []

/-- m21convert.py:2362-2365 `getHarmonyParameters`. -/
def harmParams (h : HarmIn) : Str :=
  (match h.full with
   | some t => ":t=".toList ++ t
   | none => []) ++
  (if h.kind = [] then [] else ":kt=".toList ++ h.kind)

/-- What is written at one place of one part: the token, and its layout comments in order. -/
structure HarmCell where
  text : Str
  layouts : List Str := []
deriving DecidableEq

/-- humdrumwriter.py:3004-3010: the token at a place. -/
def harmToken (old : Option HarmCell) (t : Str) : HarmCell :=
  match old with
  | none => { text := t }
  | some c => { c with text := c.text ++ ' ' :: t }

/-- humdrumwriter.py:3015-3023: the layout comment, if there are parameters. -/
def harmLayout (many : Bool) (i : Nat) (h : HarmIn) : List Str :=
  if harmParams h = [] then []
  else ["!LO:H".toList ++ (if many then ":n=".toList ++ natStr i else []) ++ harmParams h]

/-- What is known at a place: the cell written and the number of the next symbol. -/
structure HarmState where
  cell : Nat × Rat → Option HarmCell := fun _ => none
  idx : Nat × Rat → Nat := fun _ => 1

/-- humdrumwriter.py:3004-3025: one symbol. -/
def harmStep (many : Nat × Rat → Bool) (s : HarmState) (h : HarmIn) : HarmState :=
  let k := (h.part, h.offset)
  let c := harmToken (s.cell k) h.text
  { cell := fun k' => if k' = k then some { c with layouts := c.layouts ++ harmLayout (many k) (s.idx k) h } else s.cell k'
    idx := fun k' => if k' = k then (if many k then s.idx k + 1 else s.idx k) else s.idx k' }

/-- humdrumwriter.py:2986-3025: the loop; a symbol at the end of the measure ends it (`return`). -/
def harmGo (many : Nat × Rat → Bool) : HarmState → List HarmIn → HarmState
  | s, [] => s
  | s, h :: hs => if h.atEnd then s else harmGo many (harmStep many s h) hs

/-- humdrumwriter.py:2966-2982: the places with more than one symbol. -/
def manyAt (hs : List HarmIn) (k : Nat × Rat) : Bool := decide (1 < (hs.filter (fun h => (h.part, h.offset) = k)).length)

/-- humdrumwriter.py:2946-3025 `_addUnassociatedHarmonies`. Simplified: finding (or making) the slice of an offset always gives the slice of
that offset. -/
def writeHarm (hs : List HarmIn) : Nat × Rat → Option HarmCell := (harmGo (manyAt hs) {} hs).cell

/-! ### Import -/

/-- humdrumfile.py:10245-10256: the set is about number `n`, or there is no number. -/
def setHasN (n : Str) (hps : HumParamSet) : Bool := n = [] || hps.params.any (fun p => p.1 = "n".toList && p.2 = n)

/-- humdrumfile.py:10223-10267 `_getLayoutParameterWithDefaults` with empty defaults. -/
def layoutValue (ns2 key n : Str) : List HumParamSet → Str
  | [] => []
  | hps :: rest =>
    if hps.ns1 ≠ "LO".toList || hps.ns2 ≠ ns2 || !setHasN n hps then layoutValue ns2 key n rest
    else match hps.params.find? (fun p => p.1 = key) with
      | some p => p.2
      | none => layoutValue ns2 key n rest

/-- A chord symbol as read: the chord, its full text, and the text given for its kind. -/
structure HarmOut (α : Type) where
  chord : α
  full : Option Str := none
  kind : Option Str := none
deriving DecidableEq

/-- humdrumfile.py:1765-1779: the texts of symbol `n`. -/
def harmTexts {α : Type} (sets : List HumParamSet) (n : Str) (a : α) : HarmOut α :=
  let full := layoutValue "H".toList "t".toList n sets
  let kind := layoutValue "H".toList "kt".toList n sets
  if full ≠ [] then { chord := a, full := some full }
  else if kind ≠ [] then { chord := a, kind := some kind }
  else { chord := a }

/-- humdrumfile.py:1752-1786: the texts of a token one after the other; `parse` reads one text. -/
def harmLoop {α : Type} (parse : Str → Except PyErr (Option α)) (sets : List HumParamSet) (many : Bool) :
    Nat → List Str → Except PyErr (List (HarmOut α))
  | _, [] => .ok []
  | n, t :: ts =>
    match parse t with
    | .error e => .error e
    | .ok none => harmLoop parse sets many n ts
    | .ok (some a) =>
      match harmLoop parse sets many (if many then n + 1 else n) ts with
      | .error e => .error e
      | .ok rest => .ok (harmTexts sets (if many then natStr (n + 1) else []) a :: rest)

/-- humdrumfile.py:1724-1786: one token with its layout comments, for `**harte`. Simplified: the parameter `auto:hidden` is given. -/
def readHarm {α : Type} (parse : Str → Except PyErr (Option α)) (hidden : Bool) (c : HarmCell) : Except PyErr (List (HarmOut α)) :=
  if c.text = ['.'] then .ok []
  else if hidden || isInfix "yy".toList c.text then .ok []
  else
    let ts := splitOn ' ' c.text
    harmLoop parse (c.layouts.map (({} : HumParamSet).readString ·)) (decide (1 < ts.length)) 0 ts

/-- The tokens of a data line, as far as they matter: staves (`**kern` with their track, `**mens`), chord symbols, others. -/
inductive HarmTok (β : Type) where
  | kern (track : Nat)
  | mens
  | harm (c : β)
  | other

/-- humdrumfile.py:1708-1729 and 1781: the track a symbol is put in. -/
def harmLine {β : Type} : Bool → Nat → List (HarmTok β) → List (Nat × β)
  | _, _, [] => []
  | _, tr, .mens :: l => harmLine false tr l
  | _, _, .kern t :: l => harmLine true t l
  | active, tr, .harm c :: l => if active then (tr, c) :: harmLine active tr l else harmLine active tr l
  | active, tr, .other :: l => harmLine active tr l

/-! ### `**mxhm` -/

/-- What a `**mxhm` text is read as. -/
inductive MxChord where
  | skip
  | noChord
  | chord (root kind bass : Str)
deriving DecidableEq

/-- m21convert.py:328-331: the alias of a kind (a dictionary), else the kind itself. -/
def mxKind (aliases : List (Str × Str)) (k : Str) : Str := (aliases.lookup k).getD k

/-- m21convert.py:286-334 and 400: `getM21ChordSymFromHarmonyText` for `**mxhm`, with music21's tables of aliases and kinds. -/
def readMxhm (aliases : List (Str × Str)) (types : List Str) (s : Str) : Except PyErr MxChord :=
  if s = "none".toList then .ok .noChord
  else match (splitBlanks s).filter (fun w => !w.isEmpty) with
    | [] => .error .indexError
    | root :: ws =>
      let kind := ws.head?.getD []
      if kind.contains '/' then
        match splitOn '/' kind with
        | [k, b] => if types.contains (mxKind aliases k) then .ok (.chord root (mxKind aliases k) b) else .ok .skip
        | _ => .ok .skip
      else if types.contains (mxKind aliases kind) then .ok (.chord root (mxKind aliases kind) []) else .ok .skip

/-- m21convert.py:428-432: the loop over the aliases, in order. -/
def mxAlias (aliases : List (Str × Str)) (kind : Str) : Str := aliases.foldl (fun k p => if p.2 = k then p.1 else k) kind

/-- m21convert.py:411-450 `m21ChordSymToHarmonyText` for `**mxhm`; empty texts stand for what is not there. -/
def writeMxhm (aliases : List (Str × Str)) (root kind bass noResult : Str) : Str :=
  let k := mxAlias aliases kind
  let out := root ++ (if root ≠ [] ∧ k ≠ [] then [' '] else []) ++ k ++ (if bass ≠ [] ∧ bass ≠ root then '/' :: bass else [])
  if out = [] then noResult else out

end C21
