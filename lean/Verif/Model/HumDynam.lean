import Verif.Model.PyStr
import Verif.Model.ParamSet
/-
Dynamic marks in **dynam tokens: written on export, read on import.

Models converter21/humdrum/m21convert.py 2176-2230 (dynamicPatterns, dynamicBrackets, getDynamicString),
2303-2340 (the text part of getDynamicParameters) and converter21/humdrum/humdrumfile.py 8760-8850 (the
dynamics part of _processDynamics for one **dynam token). The regular expressions are matched by hand: each
pattern is a sequence of runs of different letters, and what follows must be white space or the end, so the
longest runs are the only possible match.
-/
namespace C21

/-- `c?` -/
def rxOpt (cs : List Char) (s : Str) : Str × Str :=
  match s with
  | x :: r => if cs.contains x then ([x], r) else ([], s)
  | [] => ([], [])

/-- `c+` -/
def rxPlus (c : Char) (s : Str) : Option (Str × Str) :=
  match s.takeWhile (· == c) with
  | [] => none
  | t => some (t, s.dropWhile (· == c))

/-- The four patterns. m21convert.py 2176-2184. -/
inductive DynPat
  | m | fp | f | p
deriving DecidableEq, Repr

/-- Match a pattern at the start of a text: the match and the rest. -/
def DynPat.run (k : DynPat) (s : Str) : Option (Str × Str) :=
  match k with
  | .m =>
    match s with
    | 'm' :: 'f' :: r => some (['m', 'f'], r)
    | 'm' :: 'p' :: r => some (['m', 'p'], r)
    | _ => none
  | .fp =>
    let a := rxOpt ['s'] s
    match rxPlus 'f' a.2 with
    | none => none
    | some b =>
      let c := rxOpt ['z'] b.2
      match rxPlus 'p' c.2 with
      | none => none
      | some d => some (a.1 ++ b.1 ++ c.1 ++ d.1, d.2)
  | .f =>
    let a := rxOpt ['s', 'r'] s
    match rxPlus 'f' a.2 with
    | none => none
    | some b =>
      let c := rxOpt ['z'] b.2
      some (a.1 ++ b.1 ++ c.1, c.2)
  | .p => rxPlus 'p' s

/-- `$`: the end of the text, or just before a newline there. -/
def rxEnd (rest : Str) : Bool := rest == [] || rest == ['\n']

/-- `re.match('^' + patt + '$', s)` -/
def DynPat.full (k : DynPat) (s : Str) : Option Str :=
  match k.run s with
  | some (t, rest) => if rxEnd rest then some t else none
  | none => none

/-- `\s` -/
def rxSpace (rest : Str) : Bool :=
  match rest with
  | c :: _ => isPySpace c
  | [] => false

/-- `re.search` with `\s` in front: the white space found, the match, the rest. `stop` is the end delimiter. -/
def DynPat.after (k : DynPat) (stop : Str → Bool) : Str → Option (Char × Str × Str)
  | [] => none
  | x :: r =>
    if isPySpace x then
      match k.run r with
      | some (t, rest) => if stop rest then some (x, t, rest) else DynPat.after k stop r
      | none => DynPat.after k stop r
    else DynPat.after k stop r

/-- A dynamic found in a longer text: the white space in front if that was asked for, the mark, the white
space behind if that was asked for. m21convert.py 2206-2216. -/
structure DynHit where
  front : Option Char
  mark : Str
  back : Option Char

/-- The two searches with `\s` in front. -/
def DynPat.hitAfter (k : DynPat) (s : Str) : Option DynHit :=
  match k.after rxSpace s with
  | some (x, t, rest) => some ⟨some x, t, rest.head?⟩
  | none =>
    match k.after rxEnd s with
    | some (x, t, _) => some ⟨some x, t, none⟩
    | none => none

/-- The four searches for one pattern, in order. -/
def DynPat.hit (k : DynPat) (s : Str) : Option DynHit :=
  match k.run s with
  | some (t, rest) =>
    if rxSpace rest then some ⟨none, t, rest.head?⟩
    else if rxEnd rest then some ⟨none, t, none⟩
    else k.hitAfter s
  | none => k.hitAfter s

def dynPats : List DynPat := [.m, .fp, .f, .p]

/-- The first pattern with a hit. m21convert.py 2204-2216, 2318-2338. -/
def dynHit (s : Str) : Option DynHit := dynPats.findSome? fun k => k.hit s

/-- The names and delimiters of `dynamicBrackets`. m21convert.py 2185-2190. -/
def dynBrackets : List (Str × Str × Str) :=
  [("brack".toList, "[ ".toList, " ]".toList), ("paren".toList, "( ".toList, " )".toList),
   ("curly".toList, "{ ".toList, " }".toList), ("angle".toList, "< ".toList, " >".toList)]

/-- `re.match('^' + start + patt + end + '$', value)`: the text between the delimiters. -/
def DynPat.bracketed (k : DynPat) (b : Str × Str × Str) (s : Str) : Option Str :=
  if startsWith s b.2.1 then
    match k.run (s.drop b.2.1.length) with
    | some (t, rest) => if startsWith rest b.2.2 && rxEnd (rest.drop b.2.2.length) then some t else none
    | none => none
  else none

/-- The first pattern and bracket that fit: the name of the bracket and the mark. -/
def dynBracketed (s : Str) : Option (Str × Str) :=
  dynPats.findSome? fun k => dynBrackets.findSome? fun b => (k.bracketed b s).map fun t => (b.1, t)

/-- `getDynamicString`. m21convert.py 2192-2220. -/
def dynString (value : Str) : Str :=
  match dynPats.findSome? fun k => k.full value with
  | some t => t
  | none =>
    match dynBracketed value with
    | some (_, t) => t
    | none =>
      match dynHit value with
      | some h => h.mark
      | none => value

/-- `re.sub(pat, rep, s, count=1)` for literal text. -/
def replaceFirst (pat rep : Str) : Str → Str
  | [] => []
  | x :: r => if pat.isPrefixOf (x :: r) then rep ++ (x :: r).drop pat.length else x :: replaceFirst pat rep r

/-- The parameters `ed` and `t` of the dynamic; empty if not written. m21convert.py 2303-2340. -/
def dynParams (value : Str) : Str × Str :=
  if dynString value = value then ([], [])
  else
    match dynBracketed value with
    | some (name, _) => (name, [])
    | none =>
      match dynHit value with
      | some h =>
        let fmt := replaceFirst (h.front.toList ++ h.mark ++ h.back.toList)
          (h.front.toList ++ "%s".toList ++ h.back.toList) value
        ([], replaceFirst "%s  ".toList "%s ".toList fmt)
      | none => ([], [])

/-- The dynamic in the letters of a **dynam token. humdrumfile.py 8772-8783. -/
def dynLetters (letters : Str) : Option Str :=
  if (DynPat.f.full letters).isSome then some letters
  else if (DynPat.p.full letters).isSome then some letters
  else if (DynPat.m.full letters).isSome || letters = ['f'] || letters = ['p'] then some letters
  else if (DynPat.fp.full letters).isSome then some letters
  else none

/-- The value of the dynamic made from a **dynam token with its `ed` and `t` parameters; `alpha` is
`str.isalpha`. The exporter writes no other parameter that changes the value. humdrumfile.py 8763-8843. -/
def readDynam (alpha : Char → Bool) (tok ed txt : Str) : Option Str :=
  match dynLetters (tok.filter alpha) with
  | none => none
  | some d =>
    let d := if txt = [] then d else strip (replaceAll "%s".toList (d ++ [' ']) txt)
    if isInfix "brack".toList ed then some ("[ ".toList ++ d ++ " ]".toList)
    else if isInfix "paren".toList ed then some ("( ".toList ++ d ++ " )".toList)
    else if isInfix "curly".toList ed then some ("{ ".toList ++ d ++ " }".toList)
    else if isInfix "angle".toList ed then some ("< ".toList ++ d ++ " >".toList)
    else some d

/-- The layout comment written for a dynamic whose token has no other dynamic; without placement and
justification, which are separate parameters in front. humdrumwriter.py 2932-2942; m21convert.py 2303-2340. -/
def dynLayout (value : Str) : Option Str :=
  let p := dynParams value
  if p.1 ≠ [] then some ("!LO:DY:ed=".toList ++ p.1)
  else if p.2 ≠ [] then some ("!LO:DY:t=".toList ++ p.2)
  else none

/-- `_getLayoutParameterWithDefaults` with one linked parameter set. humdrumfile.py 10224-10275. -/
def dynParamOf (key : Str) (layout : Option Str) : Str :=
  match layout with
  | none => []
  | some l =>
    let h := HumParamSet.readString ⟨[], [], []⟩ l
    if h.ns1 = "LO".toList ∧ h.ns2 = "DY".toList then ((h.params.find? fun q => q.1 = key).map (·.2)).getD [] else []

/-- The value read back from the token and the layout comment of a dynamic. -/
def dynReadBack (alpha : Char → Bool) (value : Str) : Option Str :=
  readDynam alpha (dynString value) (dynParamOf "ed".toList (dynLayout value)) (dynParamOf "t".toList (dynLayout value))

end C21
