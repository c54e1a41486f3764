import Verif.Model.Spine
/-
humdrumfilecontent.py: slur and phrase analysis.
-/
namespace C21

/-- HumdrumToken.SLUR, HumdrumToken.PHRASE. -/
inductive SlurKind where
  | slur | phrase
deriving DecidableEq, Repr

def SlurKind.beginChar : SlurKind → Char
  | .slur => '('
  | .phrase => '{'
def SlurKind.endChar : SlurKind → Char
  | .slur => ')'
  | .phrase => '}'

/-- convert.py:777-790, the loop; `rev` is the text passed, reversed, `left` is `target - count`. -/
def elisionLoop (c : Char) : Str → Nat → Str → Option Nat
  | _, _, [] => none
  | rev, left, ch :: t =>
    let left' := if ch = c then left - 1 else left
    if left' = 0 then some (rev.takeWhile (· == '&')).length else elisionLoop c (ch :: rev) left' t

/-- convert.py:771-795 `_getElisionLevelWorker`; `none` is -1. -/
def elisionLevel (c : Char) (text : Str) (index : Nat) : Option Nat := elisionLoop c [] (index + 1) text

/-- Python `t[i:]`. -/
def sliceFrom (t : Str) (i : Int) : Str := if i ≥ 0 then t.drop i.toNat else t.drop (t.length - (-i).toNat)

/-- The loops of humdrumfilecontent.py:704-721 and 739-756: `hit i` is asked at the first position `i ≥ 1` where `index + 1`
marks `c` have been seen. -/
def linkedLoop (c : Char) (index : Nat) (hit : Nat → Bool) : Nat → Nat → Str → Bool
  | _, _, [] => false
  | i, seen, ch :: t =>
    let seen := if ch = c then seen + 1 else seen
    if i = 0 then linkedLoop c index hit (i + 1) seen t
    else if seen ≠ index + 1 then linkedLoop c index hit (i + 1) seen t
    else hit i

/-- humdrumfilecontent.py:686-723 `_isLinkedSlurOrPhraseEnd`. The start index is `1 - len(pattern) + 1` in the code. -/
def isLinkedEnd (k : SlurKind) (text : Str) (index : Nat) (pattern : Str) : Bool :=
  if pattern.length ≤ 1 then false
  else linkedLoop k.endChar index (fun _ => startsWith (sliceFrom text (1 - (pattern.length : Int) + 1)) pattern) 0 0 text

/-- humdrumfilecontent.py:731-757 `_isLinkedSlurOrPhraseBegin`: the pattern anywhere from the mark on. -/
def isLinkedBegin (k : SlurKind) (text : Str) (index : Nat) (pattern : Str) : Bool :=
  if pattern.length ≤ 1 then false
  else linkedLoop k.beginChar index (fun i => isInfix pattern (sliceFrom text ((i : Int) - pattern.length + 1))) 0 0 text

/-- A mark: the token and the number of the mark in it. The lists of the code hold only the token. -/
abbrev SlurItem := TokId × Nat

/-- `opens` of the code (innermost mark first), the pairs linked, the end marks found hanging, and the lists for
linked slurs, each in the order of the code. -/
structure SlurSt where
  opens : Nat → Nat → List SlurItem
  links : List (SlurItem × SlurItem)
  hanging : List SlurItem
  linkStarts : List TokId
  linkEnds : List TokId

def SlurSt.setOpens (S : SlurSt) (level layer : Nat) (l : List SlurItem) : SlurSt :=
  { S with opens := fun a b => if a = level ∧ b = layer then l else S.opens a b }

/-- humdrumfilecontent.py:594-641: a closing mark. -/
def SlurSt.close (S : SlurSt) (level layer : Nat) (y : SlurItem) : Except PyErr SlurSt :=
  if 4 ≤ level ∨ 8 ≤ layer then .error .indexError
  else
    match S.opens level layer with
    | x :: xs => .ok { S.setOpens level layer xs with links := S.links ++ [(x, y)] }
    | [] =>
      match (List.range 8).find? (fun k => !(S.opens level k).isEmpty) with
      | some k => .ok { S.setOpens level k (S.opens level k).tail with
          links := S.links ++ ((S.opens level k).head?.toList.map (fun x => (x, y))) }
      | none => .ok { S with hanging := S.hanging ++ [y] }

/-- humdrumfilecontent.py:653: an opening mark. -/
def SlurSt.open (S : SlurSt) (level layer : Nat) (x : SlurItem) : Except PyErr SlurSt :=
  if 4 ≤ level ∨ 8 ≤ layer then .error .indexError
  else .ok (S.setOpens level layer (x :: S.opens level layer))

/-- humdrumfilecontent.py:585-592: the closing marks of a token. -/
def slurCloses (k : SlurKind) (linkSig text : Str) (layer : Nat) (tok : TokId) : List Nat → SlurSt → Except PyErr SlurSt
  | [], S => .ok S
  | i :: is, S =>
    if isLinkedEnd k text i (linkSig ++ [k.endChar]) then
      slurCloses k linkSig text layer tok is { S with linkEnds := S.linkEnds ++ [tok] }
    else
      match elisionLevel k.endChar text i with
      | none => slurCloses k linkSig text layer tok is S
      | some level =>
        match S.close level layer (tok, i) with
        | .error e => .error e
        | .ok S => slurCloses k linkSig text layer tok is S

/-- humdrumfilecontent.py:646-653: the opening marks of a token. -/
def slurOpens (k : SlurKind) (linkSig text : Str) (layer : Nat) (tok : TokId) : List Nat → SlurSt → Except PyErr SlurSt
  | [], S => .ok S
  | i :: is, S =>
    if isLinkedBegin k text i (linkSig ++ [k.beginChar]) then
      slurOpens k linkSig text layer tok is { S with linkStarts := S.linkStarts ++ [tok] }
    else
      match elisionLevel k.beginChar text i with
      | none => slurOpens k linkSig text layer tok is S
      | some level =>
        match S.open level layer (tok, i) with
        | .error e => .error e
        | .ok S => slurOpens k linkSig text layer tok is S

/-- A token of the track: where it is, its text, and its place (layer) in its row. -/
structure SlurTok where
  id : TokId
  text : Str
  layer : Nat

/-- humdrumfilecontent.py:577-653: one token; the numbers of marks are counted with '(' and ')' for phrases too. -/
def slurTok (k : SlurKind) (linkSig : Str) (t : SlurTok) (S : SlurSt) : Except PyErr SlurSt :=
  if tokIsInterpretation t.text || tokIsComment t.text || tokIsBarline t.text then .ok S
  else if tokIsNull t.text then .ok S
  else
    match slurCloses k linkSig t.text t.layer t.id (List.range (countChar ')' t.text)) S with
    | .error e => .error e
    | .ok S => slurOpens k linkSig t.text t.layer t.id (List.range (countChar '(' t.text)) S

/-- humdrumfilecontent.py:575-653: the tokens of the track in order. -/
def slurToks (k : SlurKind) (linkSig : Str) : List SlurTok → SlurSt → Except PyErr SlurSt
  | [], S => .ok S
  | t :: ts, S =>
    match slurTok k linkSig t S with
    | .error e => .error e
    | .ok S => slurToks k linkSig ts S

/-- The track of `getTrackSequence`, row by row; the layer of a token is its place in its row
(humdrumfilecontent.py:575-576). -/
def trackToks (rows : List (List (TokId × Str))) : List SlurTok :=
  rows.flatMap (fun row => row.zipIdx.map (fun p => ⟨p.1.1, p.1.2, p.2⟩))

def SlurSt.empty : SlurSt := ⟨fun _ _ => [], [], [], [], []⟩

/-- humdrumfilecontent.py:656-661: the opening marks never closed. -/
def SlurSt.unclosed (S : SlurSt) : List SlurItem :=
  (List.range 4).flatMap (fun e => (List.range 8).flatMap (fun t => (S.opens e t).reverse))

/-- humdrumfilecontent.py:516-663 `analyzeSpineSlursOrPhrases` for one spine; `linkStarts` and `linkEnds` come from the
spines before. -/
def spineSlurs (k : SlurKind) (linkSig : Str) (rows : List (List (TokId × Str))) (linkStarts linkEnds : List TokId) :
    Except PyErr SlurSt :=
  slurToks k linkSig (trackToks rows) ⟨fun _ _ => [], [], [], linkStarts, linkEnds⟩

/-! ### What is recorded on the tokens -/

/-- A value in a token's `auto` namespace. -/
inductive SlurVal where
  | tok (t : TokId)
  | int (i : Int)
  | rat (r : Rat)
deriving DecidableEq, Repr

/-- The `auto` parameters of all tokens. -/
abbrev AutoParams := TokId → Str → Option SlurVal

def setAuto (P : AutoParams) (t : TokId) (key : Str) (v : SlurVal) : AutoParams :=
  fun t' key' => if t' = t ∧ key' = key then some v else P t' key'

/-- humhash getValueInt: 0 when there is no value. -/
def getAutoInt (P : AutoParams) (t : TokId) (key : Str) : Int :=
  match P t key with
  | some (.int i) => i
  | _ => 0

def SlurKind.prefix : SlurKind → Str
  | .slur => "slur".toList
  | .phrase => "phrase".toList

/-- The suffix of a tag: humdrumfilecontent.py:791-800 and humdrumtoken.py:58-61 `makeTag`. -/
def numberTag (tag : Str) (n : Int) : Str := if n > 1 then tag ++ intStr n else tag

/-- humdrumfilecontent.py:765-815 `_linkSlurOrPhraseEndpoints`; `opening` is the number of opening marks in the text of the start token, `time` the time of a token. -/
def linkEndpoints (k : SlurKind) (opening : TokId → Nat) (time : TokId → Rat) (P : AutoParams) (s e : TokId) : AutoParams :=
  let pre := k.prefix
  let startCount := getAutoInt P s (pre ++ "StartCount".toList) + 1
  let openEnum := (opening s : Int) - startCount + 1
  let endTag := numberTag (pre ++ "EndId".toList) openEnum
  let durTag := numberTag (pre ++ "Duration".toList) openEnum
  let endCount := getAutoInt P e (pre ++ "EndCount".toList) + 1
  let startTag := numberTag (pre ++ "StartId".toList) endCount
  let startNumberTag := numberTag (pre ++ "StartNumber".toList) endCount
  let P := setAuto P s endTag (.tok e)
  let P := setAuto P s "id".toList (.tok s)
  let P := setAuto P s (pre ++ "EndNumber".toList) (.int endCount)
  let P := setAuto P s durTag (.rat (time e - time s))
  let P := setAuto P s (pre ++ "StartCount".toList) (.int startCount)
  let P := setAuto P e startTag (.tok s)
  let P := setAuto P e "id".toList (.tok e)
  let P := setAuto P e startNumberTag (.int openEnum)
  setAuto P e (pre ++ "EndCount".toList) (.int endCount)

/-- All links of the file, in the order made. -/
def recordLinks (k : SlurKind) (opening : TokId → Nat) (time : TokId → Rat) (links : List (TokId × TokId)) (P : AutoParams) :
    AutoParams :=
  links.foldl (fun P l => linkEndpoints k opening time P l.1 l.2) P

/-- humdrumfilecontent.py:672-684 `createLinkedSlursOrPhrases`. -/
def linkedPairs (starts ends : List TokId) : List (TokId × TokId) := List.zip starts ends

/-- humdrumtoken.py:2632, 2641 `getSlurStartToken`, `getSlurStartNumber`. -/
def getSlurStartToken (P : AutoParams) (t : TokId) (n : Int) : Option TokId :=
  match P t (numberTag "slurStartId".toList n) with
  | some (.tok s) => some s
  | _ => none
def getSlurStartNumber (P : AutoParams) (t : TokId) (n : Int) : Int := getAutoInt P t (numberTag "slurStartNumber".toList n)
/-- humdrumtoken.py:2654 `getSlurEndToken`: reads `slurEnd`. -/
def getSlurEndToken (P : AutoParams) (t : TokId) (n : Int) : Option TokId :=
  match P t (numberTag "slurEnd".toList n) with
  | some (.tok s) => some s
  | _ => none
/-- humdrumtoken.py:2667, 2680 `getPhraseStartToken`, `getPhraseEndToken`: read `phraseStart`, `phraseEnd`. -/
def getPhraseStartToken (P : AutoParams) (t : TokId) (n : Int) : Option TokId :=
  match P t (numberTag "phraseStart".toList n) with
  | some (.tok s) => some s
  | _ => none
def getPhraseEndToken (P : AutoParams) (t : TokId) (n : Int) : Option TokId :=
  match P t (numberTag "phraseEnd".toList n) with
  | some (.tok s) => some s
  | _ => none

/-! ### Endings -/

/-- humdrumfilecontent.py:468-474: the label of each line; `some t` for the text of a label. -/
def labelOf (first : Str) (isInterp : Bool) : Option Str :=
  if isInterp && startsWith first "*>".toList && !first.contains '[' then some first else none

/-- humdrumfilecontent.py:476-480: every entry of `labels` is the same object (`[TokenPair(None, None)] * n`), so after the
loop all of them hold the last label of the file. -/
def labelFirst (ls : List (Option Str)) : Option Nat :=
  (ls.zipIdx.filterMap (fun p => p.1.map (fun _ => p.2))).getLast?

/-- humdrumfilecontent.py:488-496: the number of the ending each line is in (0: none). -/
def endingNumbers : Nat → List (Option Str) → List Nat
  | _, [] => []
  | ending, none :: ls => ending :: endingNumbers ending ls
  | _, some label :: ls =>
    let e := match label.getLast? with
      | some c => if isDig c then c.toNat - 48 else 0
      | none => 0
    e :: endingNumbers e ls

/-- humdrumfilecontent.py:614-641: an unmatched end on line `i` counts as continuing from before the endings. -/
def endsEndingBack (ls : List (Option Str)) (i : Nat) : Bool :=
  let nums := endingNumbers 0 ls
  let endNum := nums[i]?.getD 0
  let endNumPre : Nat :=
    match labelFirst ls with
    | some (j + 1) => nums[j]?.getD 0
    | _ => 0
  endNumPre > 0 && endNum > 0 && endNumPre != endNum

end C21
