import Verif.Model.PyStr
/-
Model of /repo/converter21/humdrum/humparamset.py (parameter sets of layout comments).
-/
namespace C21

/-- humparamset.py:24-34: namespaces and the ordered list of [name, value] pairs.  The `_token`
back-reference is not modelled. -/
structure HumParamSet where
  ns1 : Str := []
  ns2 : Str := []
  params : List (Str × Str) := []
deriving DecidableEq, Repr

namespace HumParamSet

/-- humparamset.py:86-88 `count`. -/
def count (p : HumParamSet) : Nat := p.params.length

/-- humparamset.py:95-100 `getParameterName` (Python ints may be negative). -/
def getParameterName (p : HumParamSet) (i : Int) : Str :=
  if i ≥ p.count then [] else if i < 0 then [] else ((p.params[i.toNat]?).map (·.1)).getD []

/-- humparamset.py:107-112 `getParameterValue`. -/
def getParameterValue (p : HumParamSet) (i : Int) : Str :=
  if i ≥ p.count then [] else if i < 0 then [] else ((p.params[i.toNat]?).map (·.2)).getD []

/-- humparamset.py:119-121 `addParameter`; returns the index of the new parameter. -/
def addParameter (p : HumParamSet) (name value : Str) : HumParamSet × Nat :=
  let p' := { p with params := p.params ++ [(name, value)] }
  (p', p'.count - 1)

/-- The in-place search of `setParameter` (lines 130-133). -/
def setFirst (name value : Str) : List (Str × Str) → Option (List (Str × Str) × Nat)
  | [] => none
  | (n, v) :: rest =>
    if n = name then some ((n, value) :: rest, 0)
    else (setFirst name value rest).map fun r => ((n, v) :: r.1, r.2 + 1)

/-- humparamset.py:128-136 `setParameter`. -/
def setParameter (p : HumParamSet) (name value : Str) : HumParamSet × Nat :=
  match setFirst name value p.params with
  | some (ps, i) => ({ p with params := ps }, i)
  | none => p.addParameter name value

/-- humparamset.py:63-70 the `namespace` setter. -/
def setNamespace (p : HumParamSet) (ns : Str) : HumParamSet :=
  match splitOn ':' ns with
  | [] => p
  | [a] => { p with ns1 := [], ns2 := a }
  | a :: b :: _ => { p with ns1 := a, ns2 := b }

/-- humparamset.py:167-173: one `name=value` piece (line 166 computes a replacement and discards it, so it
does not appear here). -/
def nameValue (piece : Str) : Str × Str :=
  match splitFirst '=' piece with
  | none => (piece, "true".toList)
  | some (n, v) => (n, v)

/-- humparamset.py:145-150: skip leading bangs; a text of bangs only is not skipped at all. -/
def skipBangs (text : Str) : Str :=
  match text.dropWhile (· == '!') with
  | [] => text
  | r => r

/-- humparamset.py:143-174 `readString`. -/
def readString (p : HumParamSet) (text : Str) : HumParamSet :=
  match splitOn ':' (skipBangs text) with
  | ns1 :: ns2 :: q :: rest =>
    { ns1 := ns1, ns2 := ns2, params := p.params ++ (q :: rest).map nameValue }
  | _ => p

end HumParamSet

/-- humdrumline.py:1157-1166: one piece of a global layout line: `re.sub('&colon', ':', piece)` (no
semicolon in the pattern), then `split('=')` keeping only fields 0 and 1. -/
def lineNameValue (piece : Str) : Str × Str :=
  match splitOn '=' (replaceAll "&colon".toList [':'] piece) with
  | [] => ([], "true".toList)
  | [k] => (k, "true".toList)
  | k :: v :: _ => (k, v)

/-- humdrumline.py:1146-1166 `HumdrumLine.setParameters`: the (ns1, ns2, key, value) assignments made, in
order (the final `global` marker of line 1168 is left out). -/
def lineSetParameters (pdata : Str) : List (Str × Str × Str × Str) :=
  match splitOn ':' pdata with
  | ns1 :: ns2 :: q :: rest =>
    (q :: rest).map fun piece => (ns1, ns2, (lineNameValue piece).1, (lineNameValue piece).2)
  | _ => []

end C21
