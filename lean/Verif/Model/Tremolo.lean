import Verif.Model.Recip
import Verif.Model.DurSplit
/-
The expansion of tremolos (humdrum/humdrumtools.py:28-507) and null data lines (humdrum/humdrumfilebase.py:1355-1410).
Spines are columns: files without spine manipulators in tremolos.
-/
namespace C21

/-- A line of the file: is it data, its time and duration, its tokens. -/
structure TLine where
  data : Bool
  time : Rat
  dur : Rat
  toks : List Str
  deriving DecidableEq, Repr

/-- A data line that is not one of grace notes. -/
def TLine.timed (x : TLine) : Bool := x.data && x.dur ≠ 0

/-- Where a null line goes: there is a line already, or after a line, or nowhere. -/
inductive NullPlace
  | here
  | after (i : Option Nat)
  deriving DecidableEq, Repr

/-- The search of `insertNullDataLine` (humdrumfilebase.py:1362-1380). -/
def nullPlace (ts : Rat) : Nat → Option Nat → List TLine → NullPlace
  | _, b, [] => .after b
  | i, b, x :: rest =>
    if x.data = false then nullPlace ts (i + 1) b rest
    else if x.time = ts then .here
    else if ts < x.time then .after b
    else nullPlace ts (i + 1) (some i) rest

/-- The line before a new one, shortened (humdrumfilebase.py:1399, 1405). -/
def shortened (ts : Rat) (x : TLine) : TLine := { x with dur := ts - x.time }

/-- The new line (humdrumfilebase.py:1391-1404). -/
def nullLine (ts : Rat) (x : TLine) : TLine :=
  { data := true, time := ts, dur := x.dur - (ts - x.time), toks := x.toks.map (fun _ => ".".toList) }

/-- `insertNullDataLine` (humdrumfilebase.py:1355-1410). -/
def insertNull (ts : Rat) (l : List TLine) : List TLine :=
  match nullPlace ts 0 none l with
  | .here => l
  | .after none => l
  | .after (some i) =>
    match l[i]? with
    | none => l
    | some x => l.take i ++ shortened ts x :: nullLine ts x :: l.drop (i + 1)

/-- `re.search(r'@(\d+)@', text)` (humdrumtools.py:65, 237). -/
def markValue : Str → Option Nat
  | [] => none
  | c :: rest =>
    if c = '@' ∧ rest.takeWhile isDig ≠ [] ∧ (rest.dropWhile isDig).head? = some '@' then some (parseNat (rest.takeWhile isDig))
    else markValue rest

/-- Is it marked as a tremolo of two notes? (humdrumtools.py:77, 220) -/
def isFinger (t : Str) : Bool := isInfix "@@".toList t

/-- The times of the null lines for a marked note (humdrumtools.py:71-92): none if they are not a whole number. -/
def nullTimes (start : Rat) (t : Str) : Except PyErr (List Rat) :=
  match markValue t with
  | none => .ok []
  | some v =>
    match recipToDuration t with
    | .error e => .error e
    | .ok d =>
      if v = 0 then .error .zeroDivision
      else if ((if isFinger t then 2 else 1) * (d * v / 4)).den = 1 then
        .ok ((List.range (((if isFinger t then 2 else 1) * (d * v / 4)).num.toNat - 1)).map (fun k : Nat => start + 4 / v * (k + 1)))
      else .ok []

/-- A token with its line's time and its column. -/
structure TMark where
  time : Rat
  col : Nat
  text : Str
  deriving DecidableEq, Repr

/-- The columns with their tokens. -/
def withCols (l : List Str) : List (Nat × Str) := (List.range l.length).zip l

/-- The marked tokens in forward order (humdrumtools.py:52-69); the tokens of a line are in reverse order. `kern` says which columns
are `**kern`. -/
def lineMarks (kern : Nat → Bool) (x : TLine) : List TMark :=
  if x.timed then
    ((withCols x.toks).reverse.filter (fun p => kern p.1 && p.2 ≠ ".".toList && (markValue p.2).isSome)).map
      (fun p => ⟨x.time, p.1, p.2⟩)
  else []

def tremoloMarks (kern : Nat → Bool) (l : List TLine) : List TMark := l.flatMap (lineMarks kern)

/-- The null lines for one mark. -/
def addNulls (m : TMark) (l : List TLine) : Except PyErr (List TLine) :=
  (nullTimes m.time m.text).map (fun ts => ts.foldl (fun l t => insertNull t l) l)

/-- The loop that adds null lines (humdrumtools.py:52-92). It goes through the lines backwards, so the last mark comes first. -/
def addAllNulls : List TMark → List TLine → Except PyErr (List TLine)
  | [], l => .ok l
  | m :: ms, l =>
    match addAllNulls ms l with
    | .error e => .error e
    | .ok l' => addNulls m l'

/-- `re.sub(pattern, rep, text)` for a pattern without empty matches: `m` gives the length of the match at the start, or 0. -/
def reSub (m : Str → Nat) (rep : Str) : Nat → Str → Str
  | _, [] => []
  | k + 1, _ :: xs => reSub m rep k xs
  | 0, x :: xs => if m (x :: xs) = 0 then x :: reSub m rep 0 xs else rep ++ reSub m rep (m (x :: xs) - 1) xs

/-- Length of a run. -/
def runLen (q : Char → Bool) (s : Str) : Nat := (s.takeWhile q).length

/-- `\d+%?\d*\.*` -/
def recipLen (s : Str) : Nat :=
  if runLen isDig s = 0 then 0
  else
    match s.dropWhile isDig with
    | '%' :: r => runLen isDig s + 1 + runLen isDig r + runLen (fun c => c = '.') (r.dropWhile isDig)
    | r => runLen isDig s + runLen (fun c => c = '.') r

/-- `<` or `>`. -/
def isPlacement (c : Char) : Bool := c = '<' || c = '>'

/-- A run and what may follow it, like `_+[<>]?`. -/
def runThen (q : Char → Bool) (s : Str) : Nat :=
  if runLen q s = 0 then 0
  else match s.dropWhile q with
    | c :: _ => if isPlacement c then runLen q s + 1 else runLen q s
    | [] => runLen q s

/-- `[(]+[<>]`, where a placement must follow. A shorter run cannot match as it is followed by a parenthesis. -/
def runPlaced (q : Char → Bool) (s : Str) : Nat :=
  if runLen q s = 0 then 0
  else match s.dropWhile q with
    | c :: _ => if isPlacement c then runLen q s + 1 else 0
    | [] => 0

def isTie (c : Char) : Bool := c = '[' || c = '_' || c = ']'

def isBeam (c : Char) : Bool := c = 'L' || c = 'J' || c = 'K' || c = 'k'

/-- The text without the mark (humdrumtools.py:284-285). -/
def noMark (v : Nat) (t : Str) : Str := replaceAll ('@' :: natStr v ++ ['@']) [] t

/-- Without beams and with the new rhythm (humdrumtools.py:296, 303). -/
def newRhythm (v : Nat) (t : Str) : Str := reSub recipLen (natStr v) 0 (t.filter (fun c => !isBeam c))

/-- The number of beams (humdrumtools.py:283); the logarithm is exact here. -/
def beamCount (v : Nat) : Nat := Nat.log2 v - 2

/-- `[\[_\]]+[<>]?` taken out. -/
def noTies (t : Str) : Str := reSub (runThen isTie) [] 0 t

/-- The first note (humdrumtools.py:304-306, 312). -/
def bowedInitial (v : Nat) (d : Rat) (t : Str) : Str :=
  reSub (runThen (fun c => c = '_')) [] 0
    (newRhythm v (noMark v t) ++ (if 1 / 2 < d ∨ 'L' ∈ noMark v t then List.replicate (beamCount v) 'L' else []))

/-- The notes in the middle (humdrumtools.py:314). -/
def bowedBase (v : Nat) (t : Str) : Str := noTies (newRhythm v (noMark v t))

/-- The last note (humdrumtools.py:307-309, 316, 319). -/
def bowedTerminal (v : Nat) (d : Rat) (t : Str) : Str :=
  reSub (runPlaced (fun c => c = '(')) [] 0 (noTies
    (newRhythm v (noMark v t) ++ (if 1 / 2 < d ∨ 'J' ∈ noMark v t then List.replicate (beamCount v) 'J' else [])))

/-- What a tremolo becomes: the number of notes, the time of each, and the text of the first, second, ... -/
structure TPlan where
  count : Nat
  inc : Rat
  text : Nat → Str

/-- `expandTremolo` without the walk (humdrumtools.py:232-320). -/
def bowedPlan (t : Str) : Except PyErr (Option TPlan) :=
  match markValue t with
  | none => .ok none
  | some v =>
    match recipToDuration t with
    | .error e => .error e
    | .ok d =>
      if (d * v / 4).den ≠ 1 then .ok none
      else if v < 8 then .ok none
      else .ok (some ⟨(d * v / 4).num.toNat, 4 / v, fun j =>
        if j = 1 then bowedInitial v d t else if j = (d * v / 4).num.toNat then bowedTerminal v d t else bowedBase v t⟩)

/-- `re.search(r'@@(\d+)@@', text)` (humdrumtools.py:397). -/
def fingerValue : Str → Option Nat
  | [] => none
  | c :: rest =>
    if c = '@' ∧ rest.head? = some '@' ∧ (rest.drop 1).takeWhile isDig ≠ [] ∧
        "@@".toList.isPrefixOf ((rest.drop 1).dropWhile isDig) then some (parseNat ((rest.drop 1).takeWhile isDig))
    else fingerValue rest

/-- The text without the mark (humdrumtools.py:424-426, 452). -/
def noFingerMark (v : Nat) (t : Str) : Str := replaceAll ("@@".toList ++ natStr v ++ "@@".toList) [] t

def isSlur (c : Char) : Bool := c = '(' || c = ')'

/-- The first note of a tremolo of two notes (humdrumtools.py:436-440). -/
def fingerInitial (v : Nat) (t : Str) : Str :=
  reSub (runThen (fun c => c = '_')) [] 0 (reSub (runThen (fun c => c = ')')) [] 0
    (newRhythm v (noFingerMark v t) ++ List.replicate (beamCount v) 'L'))

/-- Its repetitions (humdrumtools.py:443-445). -/
def fingerBase1 (v : Nat) (t : Str) : Str := noTies (reSub (runThen isSlur) [] 0 (newRhythm v (noFingerMark v t)))

/-- The second note (humdrumtools.py:451-454). -/
def fingerBase2 (v : Nat) (t : Str) : Str := newRhythm v (noFingerMark v t)

/-- The last note (humdrumtools.py:456-460). -/
def fingerTerminal (v : Nat) (t : Str) : Str :=
  noTies (reSub (runThen (fun c => c = '(')) [] 0 (fingerBase2 v t ++ List.replicate (beamCount v) 'J'))

/-- `expandFingerTremolo` without the walk (humdrumtools.py:392-462), given the text of the second note. -/
def fingerPlan (t t2 : Str) : Except PyErr (Option TPlan) :=
  match fingerValue t with
  | none => .ok none
  | some v =>
    if isPow2 v = false then .ok none
    else if v < 8 then .ok none
    else
      match recipToDuration t with
      | .error e => .error e
      | .ok d =>
        if (d * v / 4).den ≠ 1 then .ok none
        else .ok (some ⟨(d * v / 4).num.toNat * 2, 4 / v, fun j =>
          if j = 1 then fingerInitial v t else if j = (d * v / 4).num.toNat * 2 then fingerTerminal v t2
          else if j % 2 = 0 then fingerBase2 v t2 else fingerBase1 v t⟩)

/-- A token replaced. -/
def TLine.setTok (x : TLine) (c : Nat) (t : Str) : TLine := { x with toks := x.toks.set c t }

/-- The walk that writes the notes (humdrumtools.py:325-358, 464-507); `counter` notes are written, the next is due at `ts`. -/
def fill (c : Nat) (p : TPlan) : Nat → Rat → List TLine → List TLine
  | _, _, [] => []
  | counter, ts, x :: rest =>
    if x.timed = false then x :: fill c p counter ts rest
    else if x.time < ts then x :: fill c p counter ts rest
    else if ts < x.time then x :: rest
    else if p.count ≤ counter + 1 then x.setTok c (p.text (counter + 1)) :: rest
    else x.setTok c (p.text (counter + 1)) :: fill c p (counter + 1) (ts + p.inc) rest

/-- The tremolo written from its first note on. -/
def writePlan (c : Nat) (p : TPlan) (x : TLine) (rest : List TLine) : List TLine :=
  x.setTok c (p.text 1) :: fill c p 1 (x.time + p.inc) rest

/-- Is the token's duration zero? -/
def zeroDuration (t : Str) : Bool :=
  match recipToDuration t with
  | .ok d => d = 0
  | .error _ => false

/-- Is it passed over when the second note is looked for? Its duration is zero, or it is null or a rest (humdrumtools.py:373-379). -/
def notSecond (t : Str) : Bool := zeroDuration t || t = ".".toList || decide ('r' ∈ t)

/-- `getNextNote` (humdrumtools.py:365-385): the text of the next note in the column. -/
def nextNote (c : Nat) : List TLine → Option Str
  | [] => none
  | x :: rest =>
    if x.data = false then nextNote c rest
    else match x.toks[c]? with
      | none => nextNote c rest
      | some t => if notSecond t then nextNote c rest else some t

/-- `expandTremolo` or `expandFingerTremolo` (humdrumtools.py:212-226) from the line of the note on. -/
def tokenPlan (c : Nat) (t : Str) (rest : List TLine) : Except PyErr (Option TPlan) :=
  if '@' ∉ t then .ok none
  else if isFinger t then
    match nextNote c rest with
    | none => .ok none
    | some t2 => fingerPlan t t2
  else bowedPlan t

/-- The token of a line expanded. -/
def expandToken (c : Nat) (x : TLine) (rest : List TLine) : Except PyErr (List TLine) :=
  match x.toks[c]? with
  | none => .ok (x :: rest)
  | some t =>
    match tokenPlan c t rest with
    | .error e => .error e
    | .ok none => .ok (x :: rest)
    | .ok (some p) => .ok (writePlan c p x rest)

/-- One of the marked tokens expanded; a token is known by the time of its line and its column. -/
def expandMark (m : TMark) : List TLine → Except PyErr (List TLine)
  | [] => .ok []
  | x :: rest =>
    if x.timed && x.time = m.time then expandToken m.col x rest
    else (expandMark m rest).map (x :: ·)

/-- `expandTremolos` (humdrumtools.py:212-226). -/
def expandMarks : List TMark → List TLine → Except PyErr (List TLine)
  | [], l => .ok l
  | m :: ms, l =>
    match expandMark m l with
    | .error e => .error e
    | .ok l' => expandMarks ms l'

/-- `processFile` (humdrumtools.py:41-92), without the `*tremolo` and `*Xtremolo` lines added at the end. -/
def processTremolos (kern : Nat → Bool) (l : List TLine) : Except PyErr (List TLine) :=
  match addAllNulls (tremoloMarks kern l) l with
  | .error e => .error e
  | .ok l' => expandMarks (tremoloMarks kern l) l'

end C21
