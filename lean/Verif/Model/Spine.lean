import Verif.Model.Line
/-
Spine bookkeeping: humdrumfilebase.py analyzeSpines, adjustSpines, getMergedSpineInfo, addToTrackStarts,
stitchLinesTogether, analyzeLinks; humdrumline.py analyzeTracks. This is the strict mode
(`acceptSyntaxErrors` False, the default); the repairs of the lenient mode are not modelled.
A token is identified by (line, field). A recorded parse error is `.error .humdrumSyntax`.
-/
namespace C21

abbrev TokId := Nat × Nat

/-- humdrumtoken.py:2185-2267: the manipulator tests. They exclude one another; the order is the one of the
if-chain at humdrumfilebase.py:1222-1275. -/
inductive Kind where
  | split | merge | add | exchange | terminate | exclusive | other
deriving DecidableEq, Repr

def kindOf (t : Str) : Kind :=
  if t = "*^".toList then .split
  else if t = "*v".toList then .merge
  else if t = "*+".toList then .add
  else if t = "*x".toList then .exchange
  else if t = "*-".toList then .terminate
  else if startsWith t "**".toList then .exclusive
  else .other

/-- Python `s[1:-2]`. -/
def inner (s : Str) : Str := (s.take (s.length - 2)).drop 1

/-- humdrumfilebase.py:400-404: one sweep, left to right; `prev` is the current value of `newInfo[i-1]`. -/
def mergeSweepFrom : Str → List Str → List Str × Bool
  | prev, [] => ([prev], false)
  | prev, x :: xs =>
    if prev.dropLast = x.dropLast then ([] :: (mergeSweepFrom (inner x) xs).1, true)
    else (prev :: (mergeSweepFrom x xs).1, (mergeSweepFrom x xs).2)

/-- humdrumfilebase.py:400-409: a sweep, then the empty entries are dropped. -/
def mergeSweep : List Str → List Str × Bool
  | [] => ([], false)
  | x :: xs => ((mergeSweepFrom x xs).1.filter (· ≠ []), (mergeSweepFrom x xs).2)

/-- humdrumfilebase.py:398-425: the while loop. A round that simplifies something shortens the list, so the
length of the list bounds the number of rounds (`fuel`). -/
def mergeRounds : Nat → List Str → List Str
  | 0, l => l
  | fuel + 1, l =>
    if l.length > 1 then
      let r1 := mergeSweep l
      let r2 := mergeSweep r1.1
      if r1.2 || r2.2 then mergeRounds fuel r2.1 else r2.1
    else l

/-- humdrumfilebase.py:363-432 `getMergedSpineInfo`. -/
def getMergedSpineInfo (info : List Str) (startSpine numExtra : Nat) : Except PyErr Str :=
  if numExtra < 1 then
    match info[startSpine]? with
    | some a => .ok a
    | none => .error .indexError
  else if numExtra = 1 then
    match info[startSpine]?, info[startSpine + 1]? with
    | some a, some b => if a.dropLast = b.dropLast then .ok (inner a) else .ok (a ++ ' ' :: b)
    | _, _ => .error .indexError
  else if startSpine + numExtra < info.length then
    let l := (info.drop startSpine).take (numExtra + 1)
    match mergeRounds l.length l with
    | [] => .error .indexError
    | l => .ok (joinWith ' ' l)
  else .error .indexError

/-- The local variables of adjustSpines and the two track tables it updates. -/
structure Adj where
  newType : List Str
  newInfo : List Str
  merge : Nat
  skip : Bool
  starts : List (Option TokId)
  ends : List (List TokId)
deriving DecidableEq, Repr

/-- humdrumfilebase.py:1149-1157 `addToTrackStarts`. -/
def addToTrackStarts (tok : Option TokId) (starts : List (Option TokId)) (ends : List (List TokId)) :
    List (Option TokId) × List (List TokId) :=
  match tok with
  | none => (starts ++ [none], ends ++ [[]])
  | some t =>
    if starts.length > 1 ∧ starts.getLast? = some none then (starts.dropLast ++ [some t], ends)
    else (starts ++ [some t], ends ++ [[]])

/-- `l[k].append(x)`. -/
def appendAt {α : Type} (l : List (List α)) (k : Nat) (x : α) : Except PyErr (List (List α)) :=
  match l[k]? with
  | some row => .ok (l.set k (row ++ [x]))
  | none => .error .indexError

/-- humdrumfilebase.py:1222-1275: the if-chain of adjustSpines for the token `t` at field `i` of line `li`,
`rest` being the tokens after it. -/
def adjTok (li : Nat) (dt si : List Str) (i : Nat) (t : Str) (rest : List Str) (a : Adj) :
    Except PyErr Adj :=
  match dt[i]?, si[i]? with
  | some ty, some inf =>
    match kindOf t with
    | .split => .ok { a with
        newType := a.newType ++ [ty, ty],
        newInfo := a.newInfo ++ ['(' :: inf ++ ")a".toList, '(' :: inf ++ ")b".toList] }
    | .merge => .ok { a with merge := 1 }
    | .add =>
      let (starts, ends) := addToTrackStarts none a.starts a.ends
      .ok { a with
        newType := a.newType ++ [ty, []],
        newInfo := a.newInfo ++ [inf, natStr (starts.length - 1)],
        starts := starts, ends := ends }
    | .exchange =>
      match rest with
      | [] => .error .humdrumSyntax
      | u :: _ =>
        if kindOf u ≠ .exchange then .error .humdrumSyntax
        else match dt[i + 1]?, si[i + 1]? with
          | some ty1, some inf1 => .ok { a with
              newType := a.newType ++ [ty1, ty],
              newInfo := a.newInfo ++ [inf1, inf],
              skip := true }
          | _, _ => .error .indexError
    | .terminate =>
      match appendAt a.ends (a.starts.length - 1) (li, i) with
      | .ok ends => .ok { a with ends := ends }
      | .error e => .error e
    | .exclusive =>
      if a.starts.length > 1 ∧ a.starts.getLast? = some none then
        let (starts, ends) := addToTrackStarts (some (li, i)) a.starts a.ends
        .ok { a with
          newType := a.newType ++ [t], newInfo := a.newInfo ++ [inf], starts := starts, ends := ends }
      else .error .humdrumSyntax
    | .other => .ok { a with newType := a.newType ++ [ty], newInfo := a.newInfo ++ [inf] }
  | _, _ => .error .indexError

/-- humdrumfilebase.py:1182-1276: the loop of adjustSpines. `i == line.tokenCount - 1` is `rest = []`. -/
def adjLoop (li : Nat) (dt si : List Str) : Nat → List Str → Adj → Except PyErr Adj
  | _, [], a => .ok a
  | i, t :: rest, a =>
    if a.skip then adjLoop li dt si (i + 1) rest { a with skip := false }
    else if a.merge > 0 ∧ kindOf t = .merge ∧ rest ≠ [] then
      adjLoop li dt si (i + 1) rest { a with merge := a.merge + 1 }
    else
      let m := if a.merge > 0 ∧ kindOf t = .merge then a.merge + 1 else a.merge
      if m > 0 then
        if m = 1 then .error .humdrumSyntax
        else
          let start := if kindOf t = .merge then i + 1 - m else i - m
          match getMergedSpineInfo si start (m - 1), dt[start]? with
          | .error e, _ => .error e
          | _, none => .error .indexError
          | .ok inf, some ty =>
            let a' := { a with newType := a.newType ++ [ty], newInfo := a.newInfo ++ [inf], merge := 0 }
            if kindOf t = .merge then adjLoop li dt si (i + 1) rest a'
            else match adjTok li dt si i t rest a' with
              | .ok a'' => adjLoop li dt si (i + 1) rest a''
              | .error e => .error e
      else match adjTok li dt si i t rest a with
        | .ok a'' => adjLoop li dt si (i + 1) rest a''
        | .error e => .error e

/-- The state analyzeSpines carries from line to line. -/
structure Spines where
  types : List Str
  infos : List Str
  starts : List (Option TokId)
  ends : List (List TokId)
deriving DecidableEq, Repr

/-- humdrumfilebase.py:1165-1280 `adjustSpines`. -/
def adjustSpines (li : Nat) (tokens : List Str) (s : Spines) : Except PyErr Spines :=
  match adjLoop li s.types s.infos 0 tokens ⟨[], [], 0, false, s.starts, s.ends⟩ with
  | .ok a => .ok ⟨a.newType, a.newInfo, a.starts, a.ends⟩
  | .error e => .error e

/-- humdrumline.py:483-487. -/
def Line.isExclusive (l : Line) : Bool := l.tokens.any (fun t => startsWith t "**".toList)

/-- humdrumfilebase.py:1028-1040: the state after the first exclusive interpretation line. -/
def firstSpines (li : Nat) (tokens : List Str) : Spines :=
  { types := tokens
    infos := (List.range tokens.length).map (fun j => natStr (j + 1))
    starts := none :: (List.range tokens.length).map (fun j => some (li, j))
    ends := [] :: tokens.map (fun _ => []) }

/-- humdrumfilebase.py:990-1133 `analyzeSpines`: gives each line the spine description of each of its tokens
(the empty list for a line without spines), and the final state. `none` is "no exclusive
interpretation seen yet". -/
def spinesLoop : Nat → List Line → Option Spines → Except PyErr (List (List Str) × Option Spines)
  | _, [], s => .ok ([], s)
  | li, l :: ls, s =>
    if l.hasSpines = false ∧ l.tokens ≠ [] then
      match spinesLoop (li + 1) ls s with
      | .ok (r, s') => .ok ([] :: r, s')
      | .error e => .error e
    else match s with
      | none =>
        if l.isExclusive then
          match spinesLoop (li + 1) ls (some (firstSpines li l.tokens)) with
          | .ok (r, s') => .ok ((firstSpines li l.tokens).infos :: r, s')
          | .error e => .error e
        else .error .humdrumSyntax
      | some s =>
        if s.types.length ≠ l.tokens.length then .error .humdrumSyntax
        else if l.isManipulator then
          match adjustSpines li l.tokens s with
          | .ok s' =>
            match spinesLoop (li + 1) ls (some s') with
            | .ok (r, s'') => .ok (s.infos :: r, s'')
            | .error e => .error e
          | .error e => .error e
        else
          match spinesLoop (li + 1) ls (some s) with
          | .ok (r, s'') => .ok (s.infos :: r, s'')
          | .error e => .error e

def analyzeSpines (lines : List Line) : Except PyErr (List (List Str) × Spines) :=
  match spinesLoop 0 lines none with
  | .ok (r, some s) => .ok (r, s)
  | .ok (_, none) => .error .humdrumSyntax
  | .error e => .error e

/-! ### Tracks -/

/-- humdrumline.py:1036-1043: the number matched by `\(*(\d+)` in a spine description, 0 if none. -/
def trackOf (info : Str) : Nat :=
  parseNat ((info.dropWhile (· == '(')).takeWhile isDig)

/-- humdrumline.py:1049-1062: the second and third loops of analyzeTracks, `seen` being `currSubTrack`. -/
def subTracks (all : List Nat) : List Nat → List Nat → List Nat
  | _, [] => []
  | seen, t :: ts =>
    (if all.count t > 1 then seen.count t + 1 else 0) :: subTracks all (t :: seen) ts

/-- humdrumline.py:1028-1062 `analyzeTracks` on a line with spines: (track, subtrack) of each token. Counting
arrays are replaced by counting in the list. Track and subtrack numbers above 1000 raise (humaddress.py:68-76,
104-110). -/
def analyzeTracks (infos : List Str) : Except PyErr (List (Nat × Nat)) :=
  let tr := infos.map trackOf
  let sub := subTracks tr [] tr
  if tr.any (fun t => decide (t > 1000)) then .error .humdrumSyntax
  else if sub.any (fun t => decide (t > 1000)) then .error .humdrumSyntax
  else .ok (tr.zip sub)

/-! ### Links -/

/-- The link fields of all tokens: `nextTokens` and `previousTokens`. -/
structure Links where
  next : TokId → List TokId
  prev : TokId → List TokId

/-- humdrumtoken.py:2490-2494 `makeForwardLink`. -/
def makeForwardLink (s : Links) (a b : TokId) : Links :=
  { next := fun x => if x = a then s.next x ++ [b] else s.next x
    prev := fun x => if x = b then s.prev x ++ [a] else s.prev x }

/-- humdrumtoken.py:2502-2506 `makeBackwardLink`. -/
def makeBackwardLink (s : Links) (a b : TokId) : Links :=
  { prev := fun x => if x = a then s.prev x ++ [b] else s.prev x
    next := fun x => if x = b then s.next x ++ [a] else s.next x }

/-- Local variables of the complicated case of stitchLinesTogether; the links made are listed as pairs
(field on the previous line, field on the next line), in order. -/
structure Stitch where
  nextIdx : Nat
  skip : Bool
  merge : Nat
  links : List (Nat × Nat)
deriving DecidableEq, Repr

/-- `if nextLine[j] is not None: makeForwardLink(...)` -/
def linkIf (next : List Str) (i j : Nat) (s : Stitch) : Stitch :=
  if j < next.length then { s with links := s.links ++ [(i, j)] } else s

/-- The same, followed by `nextTokenIdx += 1` when the token exists. -/
def linkAdvance (next : List Str) (i : Nat) (s : Stitch) : Stitch :=
  if s.nextIdx < next.length then
    { s with links := s.links ++ [(i, s.nextIdx)], nextIdx := s.nextIdx + 1 }
  else s

/-- humdrumfilebase.py:838-950: the if-chain for one token of the previous line. -/
def stitchTok (next : List Str) (i : Nat) (t : Str) (rest : List Str) (s : Stitch) : Except PyErr Stitch :=
  match kindOf t with
  | .other => .ok (linkAdvance next i s)
  | .split => .ok (linkAdvance next i (linkAdvance next i s))
  | .merge =>
    if s.nextIdx < next.length then .ok { linkIf next i s.nextIdx s with merge := 1 }
    else .error .humdrumInternal
  | .exchange =>
    match rest with
    | [] => .error .humdrumSyntax
    | u :: _ =>
      if kindOf u ≠ .exchange then .error .humdrumSyntax
      else
        let s1 := linkIf next (i + 1) s.nextIdx s
        let s2 := linkIf next i (s.nextIdx + 1) s1
        .ok { s2 with nextIdx := s.nextIdx + 2, skip := true }
  | .terminate => .ok s
  | .add =>
    match next[s.nextIdx + 1]? with
    | none => .error .humdrumSyntax
    | some u =>
      if kindOf u ≠ .exclusive then .error .humdrumSyntax
      else
        let s1 := linkAdvance next i s
        .ok { s1 with nextIdx := s1.nextIdx + 1 }
  | .exclusive => .ok (linkAdvance next i s)

/-- humdrumfilebase.py:799-950: the loop of the complicated case. -/
def stitchLoop (next : List Str) : Nat → List Str → Stitch → Except PyErr Stitch
  | _, [], s => .ok s
  | i, t :: rest, s =>
    if s.skip then stitchLoop next (i + 1) rest { s with skip := false }
    else if s.merge ≠ 0 ∧ kindOf t = .merge ∧ rest ≠ [] then
      stitchLoop next (i + 1) rest { linkIf next i s.nextIdx s with merge := s.merge + 1 }
    else
      let s := if s.merge ≠ 0 ∧ kindOf t = .merge then
          { linkIf next i s.nextIdx s with merge := s.merge + 1 } else s
      if s.merge ≠ 0 then
        if s.merge = 1 then .error .humdrumSyntax
        else
          let s' := { s with nextIdx := s.nextIdx + 1, merge := 0 }
          if kindOf t = .merge then stitchLoop next (i + 1) rest s'
          else match stitchTok next i t rest s' with
            | .ok s'' => stitchLoop next (i + 1) rest s''
            | .error e => .error e
      else match stitchTok next i t rest s with
        | .ok s'' => stitchLoop next (i + 1) rest s''
        | .error e => .error e

/-- humdrumfilebase.py:757-980 `stitchLinesTogether` (strict mode): the links made between two lines. -/
def stitch (prev next : Line) : Except PyErr (List (Nat × Nat)) :=
  if prev.isInterpretation = false ∧ next.isInterpretation = false then
    if prev.tokens.length ≠ next.tokens.length then .error .humdrumSyntax
    else .ok ((List.range prev.tokens.length).map (fun i => (i, i)))
  else match stitchLoop next.tokens 0 prev.tokens ⟨0, false, 0, []⟩ with
    | .error e => .error e
    | .ok s => if s.nextIdx ≠ next.tokens.length then .error .humdrumSyntax else .ok s.links

/-- humdrumfilebase.py:716-729 `analyzeLinks`; `prev` is the last line with spines, with its number. -/
def linksLoop : Nat → List Line → Option (Nat × Line) → Links → Except PyErr Links
  | _, [], _, s => .ok s
  | li, l :: ls, prev, s =>
    if l.hasSpines then
      match prev with
      | none => linksLoop (li + 1) ls (some (li, l)) s
      | some (pi, pl) =>
        match stitch pl l with
        | .error e => .error e
        | .ok lk =>
          linksLoop (li + 1) ls (some (li, l))
            (lk.foldl (fun s p => makeForwardLink s (pi, p.1) (li, p.2)) s)
    else linksLoop (li + 1) ls prev s

def analyzeLinks (lines : List Line) : Except PyErr Links :=
  linksLoop 0 lines none ⟨fun _ => [], fun _ => []⟩

end C21
