import Verif.Model.PyNum
/-
Lines and files as text: humdrumline.py (classification, tokenising, reference records) and the text part of
humdrumfilebase.py (reading, printing, repairs). Lines are immutable values; a mutating method returns the
new line.
-/
namespace C21

/-- humdrumline.py:59-96: the fields of a HumdrumLine used here. `tabs` is `_numTabsAfterToken`;
tokens are represented by their text. -/
structure Line where
  text : Str
  tokens : List Str
  tabs : List Nat
deriving DecidableEq, Repr

/-- `re.finditer(r'([^\t]+)(\t*)', text)` (humdrumline.py:909): the matches as (token, number of tabs after
it), with in front the number of tabs before the first match, which no match contains. Computed from the right:
a non-tab character followed by tabs (or nothing) ends a match. -/
def scanTokens : Str → Nat × List (Str × Nat)
  | [] => (0, [])
  | c :: cs =>
    let (n, ms) := scanTokens cs
    if c = '\t' then (n + 1, ms)
    else if n > 0 then (0, ([c], n) :: ms)
    else match ms with
      | [] => (0, [([c], 0)])
      | (t, k) :: rest => (0, (c :: t, k) :: rest)

/-- humdrumline.py:882-928 `createTokensFromLine`. -/
def createTokensFromLine (text : Str) : Line :=
  if text = [] then ⟨text, [[]], [0]⟩
  else if startsWith text "!!".toList then ⟨text, [text], [0]⟩
  else
    let ms := (scanTokens text).2
    ⟨text, ms.map (·.1), ms.map (·.2)⟩

/-- Step 1 of humdrumline.py:940-955: make `tabs` as long as `tokens`. -/
def fitTabs (count : Nat) (tabs : List Nat) : List Nat :=
  if count > tabs.length then tabs ++ List.replicate (count - tabs.length - 1) 1 ++ [0]
  else if count < tabs.length then
    let t := tabs.take count
    if t = [] then t else t.dropLast ++ [0]
  else tabs

/-- Step 2 of humdrumline.py:957-960: zeros become ones, except the last entry. -/
def repairTabs : List Nat → List Nat
  | [] => []
  | [x] => [x]
  | x :: y :: rest => (if x = 0 then 1 else x) :: repairTabs (y :: rest)

/-- Step 3 of humdrumline.py:962-970. -/
def joinTabs (tokens : List Str) (tabs : List Nat) : Str :=
  (List.zipWith (fun t n => t ++ List.replicate n '\t') tokens tabs).flatten

/-- humdrumline.py:940-970 `createLineFromTokens`. -/
def createLineFromTokens (l : Line) : Line :=
  let tabs := repairTabs (fitTabs l.tokens.length l.tabs)
  ⟨joinTabs l.tokens tabs, l.tokens, tabs⟩

/-! ### Classification -/

/-- humdrumline.py:282 `isComment`. -/
def Line.isComment (l : Line) : Bool := startsWith l.text "!".toList
/-- humdrumline.py:300 `isGlobalComment`. -/
def Line.isGlobalComment (l : Line) : Bool := startsWith l.text "!!".toList
/-- humdrumline.py:291 `isLocalComment`. -/
def Line.isLocalComment (l : Line) : Bool := l.isComment && !l.isGlobalComment
/-- humdrumline.py:309 `isUniversalComment`. -/
def Line.isUniversalComment (l : Line) : Bool := startsWith l.text "!!!!".toList
/-- humdrumline.py:509 `isInterpretation`. -/
def Line.isInterpretation (l : Line) : Bool := startsWith l.text "*".toList
/-- humdrumline.py:862 `isEmpty`. -/
def Line.isEmpty (l : Line) : Bool := l.text == []
/-- humdrumline.py:519 `isBarline`: asks the first token; IndexError when there is none. -/
def Line.isBarline (l : Line) : Except PyErr Bool :=
  match l.tokens with
  | [] => .error .indexError
  | t :: _ => .ok (startsWith t "=".toList)
/-- humdrumline.py:546 `isData` (`or` short-circuits, so the barline test is reached only otherwise). -/
def Line.isData (l : Line) : Except PyErr Bool :=
  if l.isComment || l.isInterpretation then .ok false
  else match l.isBarline with
    | .error e => .error e
    | .ok b => .ok (!(b || l.isEmpty))
/-- humdrumline.py:834 `isGlobal`. -/
def Line.isGlobal (l : Line) : Bool := l.isEmpty || l.isGlobalComment
/-- humdrumline.py:824 `hasSpines`. -/
def Line.hasSpines (l : Line) : Bool := !l.isGlobal

/-- Token predicates: humdrumtoken.py:1988, 2067, 2036, 2052, 2104, 2085, 2277 (caches are modelled in
Model/Cache). -/
def tokIsBarline (t : Str) : Bool := startsWith t "=".toList
def tokIsComment (t : Str) : Bool := startsWith t "!".toList
def tokIsGlobalComment (t : Str) : Bool := startsWith t "!!".toList
def tokIsLocalComment (t : Str) : Bool := tokIsComment t && !tokIsGlobalComment t
def tokIsInterpretation (t : Str) : Bool := startsWith t "*".toList
def tokIsData (t : Str) : Bool := !tokIsInterpretation t && !tokIsComment t && !tokIsBarline t
def tokIsNull (t : Str) : Bool := t == ".".toList || t == "*".toList || t == "!".toList

/-- humdrumline.py:560-568 `isAllNull`. -/
def Line.isAllNull (l : Line) : Bool := l.hasSpines && l.tokens.all tokIsNull

/-- humdrumtoken.py:2185-2267 and 777-790: manipulator tokens. -/
def tokIsManipulator (t : Str) : Bool :=
  t == "*^".toList || t == "*v".toList || t == "*x".toList || t == "*+".toList || t == "*-".toList ||
  startsWith t "**".toList

/-- humdrumline.py:846 `isManipulator`. -/
def Line.isManipulator (l : Line) : Bool := l.tokens.any tokIsManipulator

/-! ### Reference records -/

/-- humdrumline.py:341 `preAndPostColon = ':'.split(self.text)` -- sic: it is the string ':' that is split, at
occurrences of the line's text. `':'.split(sep)` is `[':']` unless sep is ':' itself. -/
def colonSplitBy (sep : Str) : List Str := if sep = ":".toList then [[], []] else [":".toList]

/-- humdrumline.py:331-348 `isGlobalReference`. -/
def isGlobalReference (text : Str) : Bool :=
  if text.length < 5 then false
  else if !startsWith text "!!!".toList then false
  else if startsWith text "!!!!".toList then false
  else if ':' ∉ text then false
  else match colonSplitBy text with
    | p :: _ => if ' ' ∈ p then false else if '\t' ∈ p then false else true
    | [] => false

/-- humdrumline.py:355-373 `isUniversalReference`. -/
def isUniversalReference (text : Str) : Bool :=
  if text.length < 5 then false
  else if !startsWith text "!!!!".toList then false
  else if startsWith text "!!!!!".toList then false
  else if ':' ∉ text then false
  else match colonSplitBy text with
    | p :: _ => if ' ' ∈ p then false else if '\t' ∈ p then false else true
    | [] => false

/-- humdrumline.py:40-45 `_getKeyAndValue`. -/
def getKeyAndValue (s : Str) : Str × Str :=
  match splitFirst ':' s with
  | none => (strip s, [])
  | some (a, b) => (strip a, strip b)

/-- humdrumline.py:421-435. -/
def globalReferenceKey (text : Str) : Str :=
  if isGlobalReference text then (getKeyAndValue (text.drop 3)).1 else []
def globalReferenceValue (text : Str) : Str :=
  if isGlobalReference text then (getKeyAndValue (text.drop 3)).2 else []
/-- humdrumline.py:447-453. -/
def universalReferenceKey (text : Str) : Str :=
  if isUniversalReference text then (getKeyAndValue (text.drop 4)).1 else []
/-- humdrumline.py:461-468: returns `[0]`, the key, where the value is meant. -/
def universalReferenceValue (text : Str) : Str :=
  if isUniversalReference text then (getKeyAndValue (text.drop 4)).1 else []

/-- humdrumline.py:392-400 `referenceKey`. -/
def referenceKey (text : Str) : Str :=
  if isGlobalReference text then globalReferenceKey text
  else if isUniversalReference text then universalReferenceKey text else []
/-- humdrumline.py:408-416 `referenceValue`. -/
def referenceValue (text : Str) : Str :=
  if isGlobalReference text then globalReferenceValue text
  else if isUniversalReference text then universalReferenceValue text else []

/-! ### Files -/

/-- humdrumfilebase.py:335-347: the lines kept by `readString`, up to a line `<eos>`. `contents[-1]` raises
IndexError on the empty string. -/
def readLines (contents : Str) : Except PyErr (List Str) :=
  match contents.getLast? with
  | none => .error .indexError
  | some c =>
    let contents := if c = '\n' then contents.dropLast else contents
    .ok ((splitOn '\n' contents).takeWhile (fun l => l ≠ "<eos>".toList))

/-- humdrumfilebase.py:254-260 `__str__`. -/
def fileStr (lines : List Line) : Str := joinWith '\n' (lines.map (·.text))

/-- humdrumtoken.py:802-811 `isRecipOnly`: `^[\d]+(%[\d]+)?[.]*$`. -/
def isRecipOnly (t : Str) : Bool :=
  let a := t.takeWhile isDig
  let r := t.dropWhile isDig
  let dotsOnly (s : Str) : Bool := s.all (· == '.')
  a ≠ [] && (dotsOnly r ||
    (match r with
     | '%' :: r2 => r2.takeWhile isDig ≠ [] && dotsOnly (r2.dropWhile isDig)
     | _ => false))

/-- One line of humdrumfilebase.py:661-693 `fixLinesWithMismatchedTokens`.
`none` is an exception (a line without tokens has no class). -/
def fixMismatch (l : Line) : Except PyErr Line :=
  let retoken (ok : Str → Bool) (dflt : Str) : Line :=
    if l.tokens.all ok then l
    else createLineFromTokens { l with tokens := l.tokens.map (fun t => if ok t then t else dflt) }
  match l.isData with
  | .error e => .error e
  | .ok true => .ok (retoken tokIsData ".".toList)
  | .ok false =>
    if l.isInterpretation then .ok (retoken tokIsInterpretation "*".toList)
    else if l.isComment then .ok (retoken tokIsComment "!".toList)
    else match l.isBarline with
      | .error e => .error e
      | .ok false => .ok l
      | .ok true =>
        -- the first token is a barline here, so `firstBarlineSeen` is its text
        .ok (retoken tokIsBarline (l.tokens.headD []))

/-- One line of humdrumfilebase.py:619-634 `fixupKernRecipOnlyTokens`; `kern` tells which tokens are in a
**kern spine (decided by the spine analysis, see Model/Spines). -/
def fixRecipOnly (kern : Nat → Bool) (l : Line) : Line :=
  if l.isGlobal then l
  else
    let hit (p : Str × Nat) : Bool := kern p.2 && isRecipOnly p.1
    if l.tokens.zipIdx.any hit then
      createLineFromTokens
        { l with tokens := l.tokens.zipIdx.map (fun p => if hit p then p.1 ++ "ryy".toList else p.1) }
    else l

/-- humdrumfilebase.py:335-352 + 570-586: the text side of `readString`. `kern i j` tells whether token `j` of
line `i` is in a **kern spine; spine analysis and link analysis do not change texts. -/
def readString (acceptSyntaxErrors : Bool) (kern : Nat → Nat → Bool) (contents : Str) :
    Except PyErr (List Line) :=
  match readLines contents with
  | .error e => .error e
  | .ok texts =>
    let lines := texts.map createTokensFromLine
    match (if acceptSyntaxErrors then lines.mapM fixMismatch else .ok lines) with
    | .error e => .error e
    | .ok lines => .ok (lines.zipIdx.map (fun p => fixRecipOnly (kern p.2) p.1))

/-- Lines of a file with their stored index (`lineIndex`, initially -1: humdrumline.py:69). -/
abbrev Indexed (α : Type) := List (α × Int)

/-- humdrumfilebase.py:1298-1318 `appendLine` (without link analysis): the new line's index is not set. -/
def appendLine {α : Type} (f : Indexed α) (l : α) : Indexed α := f ++ [(l, -1)]

/-- Python `list.insert(index, x)`: negative indices count from the end, out-of-range ones are clamped. -/
def pyInsert {α : Type} (xs : List α) (index : Int) (x : α) : List α :=
  let i : Int := if index < 0 then index + xs.length else index
  let k := (max 0 (min i xs.length)).toNat
  xs.take k ++ x :: xs.drop k

/-- humdrumfilebase.py:1326-1344 `insertLine` (without link analysis). -/
def insertLine {α : Type} (f : Indexed α) (index : Int) (l : α) : Indexed α :=
  (pyInsert f index (l, -1)).zipIdx.map
    (fun p => if (p.2 : Int) ≥ index then (p.1.1, (p.2 : Int)) else p.1)

/-- humdrumfilebase.py:653-657 `analyzeLines`. -/
def analyzeLines {α : Type} (f : Indexed α) : Indexed α :=
  f.zipIdx.map (fun p => (p.1.1, (p.2 : Int)))

end C21
