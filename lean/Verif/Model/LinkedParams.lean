import Verif.Model.Line
/-
Layout parameters (`!LO:` and `!!LO:` comments) linked to the tokens they are about: humdrum/humdrumtoken.py:2400-2434 and
humdrum/humdrumfilestructure.py:349-391 and 737-765.
-/
namespace C21

/-- A token: its identity (tokens are compared by identity), the index of its line, and its text. -/
structure LTok where
  id : Nat
  line : Nat
  text : Str
  deriving DecidableEq

/-- humdrumtoken.py:2428-2431: insertion before the first token of a later line. -/
def insertByLine (t : LTok) : List LTok → List LTok
  | [] => []
  | x :: xs => if t.line < x.line then t :: x :: xs else x :: insertByLine t xs

/-- The index used there. -/
def insertIndex (t : LTok) : List LTok → Int
  | [] => -1
  | x :: xs => if t.line < x.line then 0 else if insertIndex t xs = -1 then -1 else insertIndex t xs + 1

/-- humdrumtoken.py:2426: `token.lineIndex >= self._linkedParameterTokens[-1].lineIndex`. -/
def notBeforeLast (t : LTok) (l : List LTok) : Bool :=
  match l.getLast? with
  | none => true
  | some x => decide (x.line ≤ t.line)

/-- humdrumtoken.py:2400-2434 `addLinkedParameterSet`: the value returned, and the list after. -/
def addLinked (l : List LTok) (t : LTok) : Int × List LTok :=
  if isInfix ":ignore".toList t.text then (-1, l)
  else if l.any (fun x => x.id == t.id) then ((l.findIdx (fun x => x.id == t.id) : Nat), l)
  else if notBeforeLast t l then (l.length, l ++ [t])
  else (insertIndex t l, insertByLine t l)

/-- The linked parameters of every token. -/
abbrev ParamLinks := Nat → List LTok

/-- The call for the token `k`. -/
def linkTo (L : ParamLinks) (k : Nat) (t : LTok) : ParamLinks := fun j => if j = k then (addLinked (L k) t).2 else L j

/-- humdrumfilestructure.py:745-753: the token can have layout parameters: data, barlines, interpretations other than `*` and manipulators. -/
def canHaveLayout (t : LTok) : Bool :=
  if tokIsData t.text then true
  else if tokIsBarline t.text then true
  else tokIsInterpretation t.text && t.text != ['*'] && !tokIsManipulator t.text

/-- humdrumfilestructure.py:754: a local comment with layout parameters. -/
def isLocalLayout (t : LTok) : Bool := tokIsLocalComment t.text && startsWith t.text "!LO:".toList

/-- humdrumfilestructure.py:742-765: the walk, from the end of the strand to its start. `dtok` is the last token seen that can have layout parameters.
Simplified: `storeParameterSet` (the parsing of the comment) is modelled elsewhere (Model/ParamSet.lean) and does nothing to the links. -/
def strandWalk : List LTok → Option Nat → ParamLinks → ParamLinks
  | [], _, L => L
  | t :: ts, dtok, L =>
    if canHaveLayout t then strandWalk ts (some t.id) L
    else if isLocalLayout t then
      match dtok with
      | none => strandWalk ts dtok L
      | some k => strandWalk ts dtok (linkTo L k t)
    else strandWalk ts dtok L

/-- humdrumfilestructure.py:737-765 `processLocalParametersForStrand`; the strand is given from start to end. -/
def processStrand (toks : List LTok) (L : ParamLinks) : ParamLinks := strandWalk toks.reverse none L

/-- A line, as far as global parameters are concerned: a `!!LO:` comment (its zeroth token), a line that can have layout parameters (its tokens), or any
other line: humdrumfilestructure.py:352-366. -/
inductive GLine
  | layout (t : LTok)
  | target (ids : List Nat)
  | other

/-- humdrumfilestructure.py:352-370: the kind of a line, given its zeroth token and the identities of its tokens. -/
def glineOf (l : Line) (zeroth : LTok) (ids : List Nat) : GLine :=
  if l.isGlobalComment && startsWith l.text "!!LO:".toList then .layout zeroth
  else if !l.hasSpines then .other
  else if l.isAllNull then .other
  else if l.isLocalComment then .other
  else .target ids

/-- humdrumfilestructure.py:373-376: all tokens of the line get all the pending parameters. -/
def linkAll (pending : List LTok) : List Nat → ParamLinks → ParamLinks
  | [], L => L
  | k :: ks, L => linkAll pending ks (pending.foldl (fun L t => linkTo L k t) L)

/-- humdrumfilestructure.py:349-380 `analyzeGlobalParameters`. -/
def globalWalk : List GLine → List LTok → ParamLinks → ParamLinks
  | [], _, L => L
  | .layout t :: ls, pending, L => globalWalk ls (pending ++ [t]) L
  | .target ids :: ls, pending, L => if pending = [] then globalWalk ls pending L else globalWalk ls [] (linkAll pending ids L)
  | .other :: ls, pending, L => globalWalk ls pending L

end C21
