import Verif.Spec.Token
import Verif.Model.Line
/-
humdrumtoken.py: cached properties of a token, and its subtokens.

`Query` (Spec/Token) names the cached properties. A cache slot is the Python attribute `_...Cached`: absent
(`none`) or a value.
-/
namespace C21

/-- The part of a HumdrumToken that the cached properties use. `type` is `self.dataType.text`, `res` the
text of `self.nullResolution` (`none`: the token itself). humdrumtoken.py:87-209. -/
structure Tok where
  text : Str
  type : Str := []
  res : Option Str := none
  cache : Query → Option Bool := fun _ => none
  /-- `_atLeastOneCachedTokenTextPropertyExists` -/
  textFlag : Bool := false
  /-- `_atLeastOneCachedDataTypePropertyExists` -/
  typeFlag : Bool := false
  subs : List Str := []
  subsGenerated : Bool := false

/-- humdrumtoken.py:220-247 `cachedTokenTextProperties`. -/
def textProperties : List Query :=
  [.data, .interpretation, .nonNullData, .nullData, .null, .barline, .comment, .localComment, .globalComment,
   .label, .chord, .exclusive, .split, .merge, .exchange, .terminate, .add, .manipulator, .recipOnly, .beam,
   .fermata, .staff, .part, .group, .rest, .note]

/-- humdrumtoken.py:249-257 `cachedDataTypeProperties`. -/
def typeProperties : List Query := [.kern, .recip, .mens, .rhythm, .staffType, .rest, .note]

/-- humdrumtoken.py:261-268 `_clearCachedTokenTextProperties`. -/
def Tok.clearText (s : Tok) : Tok :=
  if s.textFlag then { s with cache := fun q => if q ∈ textProperties then none else s.cache q, textFlag := false } else s

/-- humdrumtoken.py:270-277 `_clearCachedDataTypeProperties`. -/
def Tok.clearType (s : Tok) : Tok :=
  if s.typeFlag then { s with cache := fun q => if q ∈ typeProperties then none else s.cache q, typeFlag := false } else s

/-- humdrumtoken.py:288-293: the `text` setter. -/
def Tok.setText (t : Str) (s : Tok) : Tok :=
  let s := { s with text := t, subsGenerated := false }
  if s.textFlag then s.clearText else s

/-- humdrumtoken.py:559-570 and 2518-2528: the `track` and `ownerLine` setters, which may change the data
type; `ty` is the data type after the change. -/
def Tok.setType (ty : Str) (s : Tok) : Tok :=
  let s := { s with type := ty }
  if s.typeFlag then s.clearType else s

/-- humdrumtoken.py:2701-2703: the `nullResolution` setter (or a change of the text of the token this one
stands for). -/
def Tok.setRes (r : Option Str) (s : Tok) : Tok := { s with res := r }

/-- The pattern of every cached property: return the attribute, or (AttributeError) evaluate `body`, store
the value and set the flags. -/
def memo (q : Query) (setsText setsType : Bool) (body : Tok → Bool × Tok) (s : Tok) : Bool × Tok :=
  match s.cache q with
  | some v => (v, s)
  | none =>
    let r := body s
    (r.1, { r.2 with
      cache := fun q' => if q' = q then some r.1 else r.2.cache q'
      textFlag := r.2.textFlag || setsText
      typeFlag := r.2.typeFlag || setsType })

/-- A test of the text alone. -/
def textBody (f : Str → Bool) (s : Tok) : Bool × Tok := (f s.text, s)
def typeBody (f : Str → Bool) (s : Tok) : Bool × Tok := (f s.type, s)
/-- Python `not a`, `a and b`, `a or b` of properties, with short cuts. -/
def notM (a : Tok → Bool × Tok) (s : Tok) : Bool × Tok := (!(a s).1, (a s).2)
def andM (a b : Tok → Bool × Tok) (s : Tok) : Bool × Tok := if (a s).1 then b (a s).2 else (false, (a s).2)
def orM (a b : Tok → Bool × Tok) (s : Tok) : Bool × Tok := if (a s).1 then (true, (a s).2) else b (a s).2

/-- humdrumtoken.py:2109 -/
def askInterpretation := memo .interpretation true false (textBody (fun t => startsWith t "*".toList))
/-- humdrumtoken.py:2072 -/
def askComment := memo .comment true false (textBody (fun t => startsWith t "!".toList))
/-- humdrumtoken.py:2041 -/
def askGlobalComment := memo .globalComment true false (textBody (fun t => startsWith t "!!".toList))
/-- humdrumtoken.py:2057 -/
def askLocalComment := memo .localComment true false (andM askComment (notM askGlobalComment))
/-- humdrumtoken.py:1993 -/
def askBarline := memo .barline true false (textBody (fun t => startsWith t "=".toList))
/-- humdrumtoken.py:2090-2094 -/
def askData := memo .data true false (andM (notM askInterpretation) (andM (notM askComment) (notM askBarline)))
/-- humdrumtoken.py:2282-2284 -/
def askNull := memo .null true false (textBody (fun t => t ∈ [".".toList, "*".toList, "!".toList]))
/-- humdrumtoken.py:2125 -/
def askNonNullData := memo .nonNullData true false (andM askData (notM askNull))
/-- humdrumtoken.py:2141 -/
def askNullData := memo .nullData true false (andM askData askNull)
/-- humdrumtoken.py:2156 -/
def askLabel := memo .label true false (textBody (fun t => startsWith t "*>".toList && !t.contains '['))
/-- humdrumtoken.py:2174 -/
def askChord := memo .chord true false (textBody (fun t => t.contains ' '))
/-- humdrumtoken.py:2190 -/
def askExclusive := memo .exclusive true false (textBody (fun t => startsWith t "**".toList))
/-- humdrumtoken.py:2205 -/
def askSplit := memo .split true false (textBody (fun t => t == "*^".toList))
/-- humdrumtoken.py:2220 -/
def askMerge := memo .merge true false (textBody (fun t => t == "*v".toList))
/-- humdrumtoken.py:2235 -/
def askExchange := memo .exchange true false (textBody (fun t => t == "*x".toList))
/-- humdrumtoken.py:2250 -/
def askTerminate := memo .terminate true false (textBody (fun t => t == "*-".toList))
/-- humdrumtoken.py:2265 -/
def askAdd := memo .add true false (textBody (fun t => t == "*+".toList))
/-- humdrumtoken.py:782-790 -/
def askManipulator := memo .manipulator true false
  (orM askSplit (orM askMerge (orM askExchange (orM askAdd (orM askTerminate askExclusive)))))
/-- humdrumtoken.py:807-810 -/
def askRecipOnly := memo .recipOnly true false (textBody isRecipOnly)
/-- humdrumtoken.py:1010-1016 -/
def askBeam := memo .beam true false
  (textBody (fun t => t.contains 'L' || t.contains 'J' || t.contains 'K' || t.contains 'k'))
/-- humdrumtoken.py:1030 -/
def askFermata := memo .fermata true false (textBody (fun t => t.contains ';'))
/-- humdrumtoken.py:1056 -/
def askStaff := memo .staff true false (textBody (fun t => startsWith t "*staff".toList))
/-- humdrumtoken.py:1083 -/
def askPart := memo .part true false (textBody (fun t => startsWith t "*part".toList))
/-- humdrumtoken.py:1105 -/
def askGroup := memo .group true false (textBody (fun t => startsWith t "*group".toList))
/-- humdrumtoken.py:459 -/
def askKern := memo .kern false true (typeBody (fun t => t == "**kern".toList))
/-- humdrumtoken.py:472 -/
def askRecip := memo .recip false true (typeBody (fun t => t == "**recip".toList))
/-- humdrumtoken.py:489 -/
def askMens := memo .mens false true (typeBody (fun t => t == "**mens".toList))
/-- humdrumtoken.py:995 -/
def askRhythm := memo .rhythm false true (typeBody (fun t => t ∈ ["**kern".toList, "**recip".toList, "**mens".toList]))
/-- humdrumtoken.py:1046 -/
def askStaffType := memo .staffType false true (orM askKern askMens)

/-- convert.py:665, 320 `isKernRest`, `isMensRest`. -/
def isRestText (t : Str) : Bool := t.contains 'r'
/-- convert.py:674-684 `isKernNote`. -/
def isKernNoteText (t : Str) : Bool :=
  if isRestText t then false else t.any (fun c => "abcdefgABCDEFG".toList.contains c)
/-- convert.py:329-334 `isMensNote`: `ch.lower() in 'abcdefg'` (no other character has such a lower case). -/
def isMensNoteText (t : Str) : Bool := t.any (fun c => "abcdefg".toList.contains c || "ABCDEFG".toList.contains c)

/-- humdrumtoken.py:1160-1185 -/
def askRest := memo .rest true true (fun s =>
  let n := askNull s
  let txt := if n.1 then n.2.res.getD n.2.text else n.2.text
  let d := askData n.2
  if d.1 then
    let k := askKern d.2
    if k.1 then (isRestText txt, k.2)
    else
      let m := askMens k.2
      if m.1 then (isRestText txt, m.2) else (false, m.2)
  else (false, d.2))

/-- humdrumtoken.py:1194-1207: sets no flag itself. -/
def askNote := memo .note false false (fun s =>
  let r := orM (notM askData) askNull s
  if r.1 then (false, r.2)
  else
    let k := askKern r.2
    if k.1 then (isKernNoteText k.2.text, k.2)
    else
      let m := askMens k.2
      if m.1 then (isMensNoteText m.2.text, m.2) else (false, m.2))

/-- The property named by the query. -/
def Tok.ask : Query → Tok → Bool × Tok
  | .data => askData
  | .interpretation => askInterpretation
  | .nonNullData => askNonNullData
  | .nullData => askNullData
  | .null => askNull
  | .barline => askBarline
  | .comment => askComment
  | .localComment => askLocalComment
  | .globalComment => askGlobalComment
  | .label => askLabel
  | .chord => askChord
  | .exclusive => askExclusive
  | .split => askSplit
  | .merge => askMerge
  | .exchange => askExchange
  | .terminate => askTerminate
  | .add => askAdd
  | .manipulator => askManipulator
  | .recipOnly => askRecipOnly
  | .beam => askBeam
  | .fermata => askFermata
  | .staff => askStaff
  | .part => askPart
  | .group => askGroup
  | .rest => askRest
  | .note => askNote
  | .kern => askKern
  | .recip => askRecip
  | .mens => askMens
  | .rhythm => askRhythm
  | .staffType => askStaffType

/-- humdrumtoken.py:2374-2379 `subtokens`. -/
def Tok.subtokens (s : Tok) : List Str × Tok :=
  if s.subsGenerated then (s.subs, s)
  else (splitOn ' ' s.text, { s with subs := splitOn ' ' s.text, subsGenerated := true })

/-- humdrumtoken.py:2386-2393 `replaceSubtoken`; the index may be negative. -/
def Tok.replaceSubtoken (i : Int) (new : Str) (s : Tok) : Tok :=
  let r := s.subtokens
  if i < 0 ∨ i ≥ r.1.length then r.2
  else
    let subs := r.1.set i.toNat new
    { ({ r.2 with subs := subs }.setText (joinWith ' ' subs)) with subsGenerated := true }

/-- What a client can do to a token. -/
inductive TokOp where
  | ask (q : Query)
  | setText (t : Str)
  | setType (t : Str)
  | setRes (r : Option Str)
  | subtokens
  | replaceSubtoken (i : Int) (new : Str)
deriving DecidableEq, Repr

def Tok.step (s : Tok) : TokOp → Tok
  | .ask q => (s.ask q).2
  | .setText t => s.setText t
  | .setType t => s.setType t
  | .setRes r => s.setRes r
  | .subtokens => s.subtokens.2
  | .replaceSubtoken i n => s.replaceSubtoken i n

def Tok.run (s : Tok) (ops : List TokOp) : Tok := ops.foldl Tok.step s

end C21
