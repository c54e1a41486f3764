import Verif.Model.PyStr
import Verif.Model.PyNum
import Verif.Model.PyDict
/-
humsignifiers.py and the RDF records of humdrumwriter.py.
-/
namespace C21

/-! ### Reading -/

/-- Text after a literal at its first occurrences: all suffixes of `s` that follow `lit`, left to right (`re.search` tries each). -/
def afterAll (lit : Str) : Str → List Str
  | [] => if lit.isEmpty then [[]] else []
  | c :: cs => if lit.isPrefixOf (c :: cs) then (c :: cs).drop lit.length :: afterAll lit cs else afterAll lit cs

def skipSpace (s : Str) : Str := s.dropWhile isPySpace

/-- A HumSignifier (humsignifiers.py:19-30). -/
structure Signifier where
  exInterp : Str
  signifier : Str
  definition : Str
deriving DecidableEq

/-- humsignifiers.py:44: `(\*\*[^\s:]+)\s*:\s*(.*)\s*$` after `!!!RDF`. The text of a line has no newline, so `.*` takes the rest. -/
def rdfHead (s : Str) : Option (Str × Str) :=
  if "**".toList.isPrefixOf s then
    let name := (s.drop 2).takeWhile (fun c => !isPySpace c && c != ':')
    if name.isEmpty then none
    else
      match skipSpace (s.drop (2 + name.length)) with
      | ':' :: rest => some ("**".toList ++ name, skipSpace rest)
      | _ => none
  else none

/-- humsignifiers.py:37-68 `parseSignifier`. -/
def parseSignifier (line : Str) : Option Signifier :=
  match (afterAll "!!!RDF".toList line).findSome? rdfHead with
  | none => none
  | some (ex, value) =>
    let v := skipSpace value
    let word := v.takeWhile (fun c => !isPySpace c && c != '=')
    if word.isEmpty then some ⟨ex, [], v⟩
    else
      match skipSpace (v.drop word.length) with
      | '=' :: rest => some ⟨ex, word, skipSpace rest⟩
      | _ => some ⟨ex, [], v⟩

/-- humsignifiers.py:95 EQUALSVALUE_PATTERN: `\s*=\s*"?\s*([^"\s]+)\s*"?` here. -/
def equalsValueHere (s : Str) : Option Str :=
  match skipSpace s with
  | '=' :: r =>
    let r := skipSpace r
    let r := match r with
      | '"' :: r' => skipSpace r'
      | _ => r
    let v := r.takeWhile (fun c => c != '"' && !isPySpace c)
    if v.isEmpty then none else some v
  | _ => none

/-- `re.search(word + EQUALSVALUE_PATTERN, definition)`. -/
def equalsValue (word definition : Str) : Option Str := (afterAll word definition).findSome? equalsValueHere

/-- humsignifiers.py:96 EQUALSVALUEWITHSPACES_PATTERN: `\s*=\s*"?([^"]+)"?` here. When nothing but a quote or the end follows the
space after '=', the expression gives back one space. -/
def equalsSpacedHere (s : Str) : Option Str :=
  match skipSpace s with
  | '=' :: r =>
    let sp := r.takeWhile isPySpace
    let r' := skipSpace r
    let q := match r' with
      | '"' :: x => x
      | _ => r'
    let v := q.takeWhile (· != '"')
    if v.isEmpty then sp.getLast?.map (fun c => [c]) else some v
  | _ => none

/-- `re.search(word + EQUALSVALUEWITHSPACES_PATTERN, definition)`. -/
def equalsSpaced (word definition : Str) : Option Str := (afterAll word definition).findSome? equalsSpacedHere

/-- What is known from the RDF records (humsignifiers.py:100-161), except the styles of dynamics. -/
structure Known where
  spaceColor : Str := []
  irestColor : Str := []
  ispaceColor : Str := []
  rspaceColor : Str := []
  textMarks : List Str := []
  textColors : List Str := []
  noteMarks : List Str := []
  noteColors : List Str := []
  noteDirs : List Str := []
  noStem : Str := []
  cueSize : Str := []
  hairpinAccent : Str := []
  verticalStroke : Str := []
  terminalLong : Str := []
  above : Str := []
  below : Str := []
  linked : Str := []
  editorialAccidentals : List Str := []
  editorialAccidentalTypes : List Str := []
  phraseStyle : Str := []
  phraseIsSlur : Bool := false
  phraseColor : Str := []
deriving DecidableEq

/-- humsignifiers.py:187-220: records without a signifier. -/
def knownMeta (K : Known) (d : Str) : Known :=
  let m := equalsValue "color".toList d
  if isInfix "show space".toList d then { K with spaceColor := m.getD "hotpink".toList }
  else if isInfix "show invisible rest".toList d then { K with irestColor := m.getD "chartreuse".toList }
  else if isInfix "show implicit space".toList d then { K with ispaceColor := m.getD "blueviolet".toList }
  else if isInfix "show recip space".toList d then { K with rspaceColor := m.getD "royalblue".toList }
  else K

/-- humsignifiers.py:228-236: lyrics. -/
def knownText (K : Known) (s d : Str) : Known :=
  if isInfix "marked text".toList d || isInfix "matched text".toList d then
    { K with textMarks := K.textMarks ++ [s], textColors := K.textColors ++ [(equalsValue "color".toList d).getD "red".toList] }
  else K

/-- humsignifiers.py:327-350: phrases. -/
def knownPhrase (K : Known) (d : Str) : Known :=
  let K := if isInfix "slur".toList d then { K with phraseIsSlur := true } else K
  let K := match equalsValue "color".toList d with
    | some c => { K with phraseColor := c }
    | none => K
  if isInfix "none".toList d then { K with phraseStyle := "none".toList }
  else if isInfix "brack".toList d then { K with phraseStyle := "brack".toList }
  else if isInfix "dot".toList d then { K with phraseStyle := "dot".toList }
  else if isInfix "dash".toList d then { K with phraseStyle := "dash".toList }
  else K

/-- humsignifiers.py:352-376: colored notes. -/
def knownNote (K : Known) (s d : Str) : Known :=
  match equalsValue "color".toList d with
  | some c =>
    { K with noteMarks := K.noteMarks ++ [s], noteColors := K.noteColors ++ [c],
             noteDirs := K.noteDirs ++ [(equalsSpaced "text".toList d).getD []] }
  | none =>
    if isInfix "marked note".toList d || isInfix "matched note".toList d then
      { K with noteMarks := K.noteMarks ++ [s], noteColors := K.noteColors ++ ["red".toList],
               noteDirs := K.noteDirs ++ [(equalsSpaced "text".toList d).getD []] }
    else K

/-- humsignifiers.py:312-324: editorial accidentals. -/
def knownEditorial (K : Known) (s d : Str) : Known :=
  let K := { K with editorialAccidentals := K.editorialAccidentals ++ [s] }
  if isInfix "brack".toList d then { K with editorialAccidentalTypes := K.editorialAccidentalTypes ++ ["brack".toList] }
  else if isInfix "paren".toList d then { K with editorialAccidentalTypes := K.editorialAccidentalTypes ++ ["paren".toList] }
  else if isInfix "none".toList d then { K with editorialAccidentalTypes := K.editorialAccidentalTypes ++ ["none".toList] }
  else { K with editorialAccidentalTypes := K.editorialAccidentalTypes ++ [[]] }

/-- humsignifiers.py:298-376: from "terminal longs" on. -/
def knownKern2 (K : Known) (s d : Str) : Known :=
  if isInfix "terminal long".toList d || isInfix "long note".toList d then { K with terminalLong := s }
  else if isInfix "above".toList d then { K with above := s }
  else if isInfix "below".toList d then { K with below := s }
  else if isInfix "link".toList d then { K with linked := s }
  else if isInfix "editorial accidental".toList d then knownEditorial K s d
  else if isInfix "phrase".toList d then knownPhrase K d
  else knownNote K s d

/-- humsignifiers.py:269-376: **kern. The record for vertical strokes goes on to the later tests. -/
def knownKern (K : Known) (s d : Str) : Known :=
  if isInfix "no stem".toList d then { K with noStem := s }
  else if isInfix "cue size".toList d then { K with cueSize := s }
  else if isInfix "hairpin accent".toList d then { K with hairpinAccent := s }
  else knownKern2 (if isInfix "vertical stroke".toList d then { K with verticalStroke := s } else K) s d

/-- humsignifiers.py:186-376: one record. Dynamics (238-262) change no table modelled here. -/
def knownStep (K : Known) (r : Signifier) : Known :=
  if r.signifier = [] then if r.exInterp = "**kern".toList then knownMeta K r.definition else K
  else if r.exInterp = "**silbe".toList ∨ r.exInterp = "**text".toList then knownText K r.signifier r.definition
  else if r.exInterp = "**kern".toList then knownKern K r.signifier r.definition
  else K

/-- humdrumline.py:381-384 `isSignifier`. -/
def isRDFLine (line : Str) : Bool := decide (9 ≤ line.length) && startsWith line "!!!RDF**".toList

/-- humdrumfilestructure.py:990-994 `analyzeSignifiers` on the lines of a file. -/
def readSignifiers (lines : List Str) : Known :=
  ((lines.filter isRDFLine).filterMap parseSignifier).foldl knownStep {}

/-- humdrumfile.py:7858-7865: the color of a note with marks. -/
def markColor (K : Known) (text : Str) : Option Str :=
  ((K.noteMarks.zip K.noteColors).find? (fun m => isInfix m.1 text)).map (·.2)

/-! ### Writing -/

/-- humdrumwriter.py:74. -/
def reservableSignifiers : Str := "ijZVNl!+|".toList

/-- `_rdfKernSignifierLookup` and `_assignedRDFKernSignifiers`. -/
structure SigSt (δ : Type) where
  lookup : Dict δ Char
  assigned : Str

def SigSt.init {δ : Type} : SigSt δ := ⟨[], []⟩

def SigSt.assign {δ : Type} [DecidableEq δ] (S : SigSt δ) (d : δ) (c : Char) : SigSt δ := ⟨S.lookup.set d c, S.assigned ++ [c]⟩

/-- humdrumwriter.py:243-289 `_chosenSignifierForRDFDefinition`. -/
def chooseSignifier {δ : Type} [DecidableEq δ] (reserved : Str) (d : δ) (favorite : Char) (S : SigSt δ) : Except PyErr (Char × SigSt δ) :=
  match S.lookup.get? d with
  | some c => .ok (c, S)
  | none =>
    if !reserved.contains favorite && !S.assigned.contains favorite then .ok (favorite, S.assign d favorite)
    else
      match reservableSignifiers.find? (fun c => !reserved.contains c && !S.assigned.contains c) with
      | some c => .ok (c, S.assign d c)
      | none =>
        match reservableSignifiers.find? (fun c => !S.assigned.contains c) with
        | some c => .ok (c, S.assign d c)
        | none => .error .humdrumInternal

/-- A sequence of requests and the characters given. -/
def chooseAll {δ : Type} [DecidableEq δ] (reserved : Str) : List (δ × Char) → SigSt δ → Except PyErr (List Char × SigSt δ)
  | [], S => .ok ([], S)
  | q :: qs, S =>
    match chooseSignifier reserved q.1 q.2 S with
    | .error e => .error e
    | .ok (c, S) =>
      match chooseAll reserved qs S with
      | .error e => .error e
      | .ok (cs, S) => .ok (c :: cs, S)

/-- humdrumwriter.py:332-351: the setter of the reserved signifiers. -/
def setReserved (s : Str) : Except PyErr Str :=
  if s.all reservableSignifiers.contains then .ok s else .error .valueError

/-- What the exporter asks for (humdrumwriter.py:291-325). -/
inductive RDFDef where
  | editorial (bracket : Bool)
  | caesura
  | cueSize
  | noteColor (color : Str)
  | linked
deriving DecidableEq

/-- The favorite signifiers. -/
def RDFDef.favorite : RDFDef → Char
  | .editorial false => 'i'
  | .editorial true => 'j'
  | .caesura => 'Z'
  | .cueSize => '!'
  | .noteColor _ => 'i'
  | .linked => 'N'

/-- humdrumwriter.py:532-543: the text of a definition. -/
def RDFDef.text : RDFDef → Str
  | .editorial false => "editorial accidental (paren)".toList
  | .editorial true => "editorial accidental (bracket)".toList
  | .caesura => "caesura".toList
  | .cueSize => "cue size".toList
  | .noteColor [] => "marked note, color=".toList
  | .noteColor c => "marked note, color=\"".toList ++ c ++ "\"".toList
  | .linked => "linked".toList

/-- humdrumwriter.py:528-548 `_addFooterRecords`. -/
def footerRecords (lookup : Dict RDFDef Char) : List Str :=
  lookup.map (fun p => "!!!RDF**kern: ".toList ++ [p.2] ++ " = ".toList ++ p.1.text) ++
    ["!!!RDF**kern: > = above".toList, "!!!RDF**kern: < = below".toList]

end C21
