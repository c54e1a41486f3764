import Verif.Model.PyStr
import Verif.Model.PyNum
/-
shared/m21utilities.py:2145-2480: Humdrum dates.
-/
namespace C21

inductive DateErr where
  | approximate | uncertain
deriving DecidableEq, Repr

/-- One attribute of a music21 Date and its error. -/
structure DateField where
  value : Option Int := none
  error : Option DateErr := none
deriving DecidableEq, Repr

/-- music21's Date. The second is an integer (m21utilities.py:2311-2315). -/
structure Date where
  year : DateField := {}
  month : DateField := {}
  day : DateField := {}
  hour : DateField := {}
  minute : DateField := {}
  second : DateField := {}
deriving DecidableEq, Repr

/-- The relevance of a DateRelative. -/
inductive RelDate where
  | prior | after | onOrBefore | onOrAfter
deriving DecidableEq, Repr

/-- DateSingle (with its relevance, if any), DateRelative, DateBetween, DateSelection (with relevance 'and' or 'or'). -/
inductive DatePrim where
  | single (rel : Option DateErr) (d : Date)
  | relative (rel : RelDate) (d : Date)
  | between (a b : Date)
  | selection (isAnd : Bool) (ds : List Date)
deriving DecidableEq, Repr

/-! ### Writing -/

/-- `'%02.i' % v`. -/
def pad2 (v : Int) : Str :=
  if 0 ≤ v ∧ v < 10 then '0' :: intStr v else intStr v

/-- m21utilities.py:2432-2437 `_dateErrorToSymbol`. -/
def dateErrorSymbol : DateErr → Str
  | .approximate => ['x']
  | .uncertain => ['z']

/-- The mark written after a value. -/
def errSuffix : Option DateErr → Str
  | none => []
  | some e => dateErrorSymbol e

/-- m21utilities.py:2401-2403: a negative year is written with '@'. -/
def atYear : Str → Str
  | [] => []
  | c :: r => if c = '-' then '@' :: r else c :: r

/-- m21utilities.py:2393-2413: one value. -/
def dateMsg (i : Nat) (f : DateField) : Str :=
  match f.value with
  | none => []
  | some v =>
    if v = 0 then []
    else
      (if i = 0 then atYear (intStr v)
        else if i = 5 then (if startsWith (pad2 v) "60".toList then "59".toList else pad2 v)
        else pad2 v) ++ errSuffix f.error

/-- m21utilities.py:2383-2429 `_stringFromDate`. -/
def stringFromDate (d : Date) : Str :=
  let m0 := dateMsg 0 d.year
  let m1 := dateMsg 1 d.month
  let m2 := dateMsg 2 d.day
  if d.hour.value = none ∧ d.minute.value = none ∧ d.second.value = none then
    m0 ++ (if m1 ≠ [] ∨ m2 ≠ [] then '/' :: m1 else []) ++ (if m2 ≠ [] then '/' :: m2 else [])
  else
    m0 ++ '/' :: (m1 ++ '/' :: (m2 ++ '/' :: (dateMsg 3 d.hour ++ ':' :: (dateMsg 4 d.minute ++ ':' :: dateMsg 5 d.second))))

/-- m21utilities.py:2360-2364: '<' or '>'. -/
def relSymbol : RelDate → Char
  | .after => '>'
  | .onOrAfter => '>'
  | .prior => '<'
  | .onOrBefore => '<'

/-- m21utilities.py:2372-2377: '?' or '~'. -/
def singleSymbol : Option DateErr → Str
  | none => []
  | some .uncertain => ['?']
  | some .approximate => ['~']

/-- m21utilities.py:2338-2380 `stringFromM21DateObject`. -/
def stringFromPrim : DatePrim → Str
  | .selection _ ds => joinWith '|' (ds.map stringFromDate)
  | .between a b => joinWith '-' [stringFromDate a, stringFromDate b]
  | .relative r d => relSymbol r :: stringFromDate d
  | .single r d => singleSymbol r ++ stringFromDate d

/-! ### Reading -/

/-- `int(s)` for the digits after the sign: ASCII digits, underscores between digits. -/
def pyDigits (t : Str) : Option Nat :=
  if (splitOn '_' t).all (fun p => !p.isEmpty && p.all isDig) then some (parseNat (t.filter (· != '_'))) else none

/-- The sign of a number (is it '-'?) and the rest. -/
def signOf : Str → Bool × Str
  | [] => (false, [])
  | c :: r => if c = '-' then (true, r) else if c = '+' then (false, r) else (false, c :: r)

/-- A number with its sign. -/
def withSign (neg : Bool) (n : Nat) : Int := if neg then -(n : Int) else n

/-- Python's `int(s)`, `none` for ValueError. Digits other than ASCII are not modelled. -/
def pyInt (s : Str) : Option Int := (pyDigits (signOf (strip s)).2).map (withSign (signOf (strip s)).1)

/-- `int(float(s))` for an unsigned decimal: the part before the point. -/
def floatInt (t : Str) : Option Nat :=
  match splitFirst '.' t with
  | none => if !t.isEmpty && t.all isDig then some (parseNat t) else none
  | some (a, b) => if !(a.isEmpty && b.isEmpty) && a.all isDig && b.all isDig then some (parseNat a) else none

/-- The words `float` reads as infinity. -/
def isInfinity (t : Str) : Bool :=
  t.map Char.toLower == "inf".toList || t.map Char.toLower == "infinity".toList

/-- Python's `int(float(s))`: `ok none` for ValueError, OverflowError for infinity. Exponents, underscores and rounding to binary
fractions are not modelled. -/
def pyFloatInt (s : Str) : Except PyErr (Option Int) :=
  if isInfinity (signOf (strip s)).2 then .error .overflow
  else .ok ((floatInt (signOf (strip s)).2).map (withSign (signOf (strip s)).1))

/-- m21utilities.py:2258-2280 `_stripDateError`. -/
def stripDateError (value : Str) : Str × Option DateErr :=
  match value.find? (fun c => c == '~' || c == 'x' || c == '?' || c == 'z') with
  | none => (value, none)
  | some c => (value.filter (· != c), some (if c == '~' || c == 'x' then .approximate else .uncertain))

/-- m21utilities.py:2304-2307: a year with '@' is B.C.E. -/
def bceYear (i : Nat) (value : Str) : Str :=
  if i = 0 ∧ 2 ≤ value.length ∧ value.head? = some '@' then '-' :: value.tail else value

/-- m21utilities.py:2303-2319: one piece; `ok none` for ValueError. -/
def parseChunk (i : Nat) (chunk : Str) : Except PyErr (Option DateField) :=
  let p := stripDateError chunk
  let value := bceYear i p.1
  if value = [] then .ok (some ⟨none, p.2⟩)
  else if i = 5 then
    match pyFloatInt value with
    | .error e => .error e
    | .ok none => .ok none
    | .ok (some v) => .ok (some ⟨some v, p.2⟩)
  else
    match pyInt value with
    | none => .ok none
    | some v => .ok (some ⟨some v, p.2⟩)

/-- m21utilities.py:2301-2322: the loop over the pieces; `ok none` when a ValueError ends it. -/
def parseChunks : Nat → List Str → Except PyErr (Option (List DateField))
  | _, [] => .ok (some [])
  | i, c :: cs =>
    match parseChunk i c with
    | .error e => .error e
    | .ok none => .ok none
    | .ok (some f) =>
      match parseChunks (i + 1) cs with
      | .error e => .error e
      | .ok none => .ok none
      | .ok (some fs) => .ok (some (f :: fs))

/-- m21utilities.py:2329-2333: the attribute set from a piece: the error only with a value. -/
def setField (fs : List DateField) (i : Nat) : DateField :=
  match fs[i]? with
  | some ⟨some v, e⟩ => ⟨some v, e⟩
  | _ => {}

/-- m21utilities.py:2291-2335 `_dateFromString`. -/
def dateFromString (s : Str) : Except PyErr (Option Date) :=
  let t := (s.map (fun c => if c = ':' then '/' else c)).filter (· != ' ')
  match parseChunks 0 (splitOn '/' t) with
  | .error e => .error e
  | .ok none => .ok none
  | .ok (some fs) =>
    if fs.any (fun f => f.value.isSome) then
      .ok (some ⟨setField fs 0, setField fs 1, setField fs 2, setField fs 3, setField fs 4, setField fs 5⟩)
    else .ok none

/-- m21utilities.py:2230-2236: all the dates, or none. -/
def datesFromStrings : List Str → Except PyErr (Option (List Date))
  | [] => .ok (some [])
  | s :: ss =>
    match dateFromString s with
    | .error e => .error e
    | .ok none => .ok none
    | .ok (some d) =>
      match datesFromStrings ss with
      | .error e => .error e
      | .ok none => .ok none
      | .ok (some ds) => .ok (some (d :: ds))

/-- Does a string begin with one of these characters? -/
def beginsWith (cs : List Char) (s : Str) : Bool :=
  match s with
  | [] => false
  | c :: _ => cs.contains c

/-- m21utilities.py:2212-2220: a leading '~' or '?'. -/
def singleKind : Str → Option DateErr × Str
  | [] => (none, [])
  | c :: r => if c = '~' then (some .approximate, r) else if c = '?' then (some .uncertain, r) else (none, c :: r)

/-- m21utilities.py:2185-2194: a leading '<' or '>'; all of these characters are removed. -/
def relativeKind : Str → Option RelDate × Str
  | [] => (none, [])
  | c :: r =>
    if c = '<' then (some .prior, (c :: r).filter (· != '<'))
    else if c = '>' then (some .after, (c :: r).filter (· != '>'))
    else (none, c :: r)

/-- m21utilities.py:2185-2194, 2212-2247: a string without divider. -/
def primNoDivider (rel : Option RelDate) (s : Str) : Except PyErr (Option DatePrim) :=
  match rel with
  | some r =>
    if beginsWith ['~', '?'] s then .ok none
    else
      match dateFromString s with
      | .error e => .error e
      | .ok none => .ok none
      | .ok (some d) => .ok (some (.relative r d))
  | none =>
    match dateFromString (singleKind s).2 with
    | .error e => .error e
    | .ok none => .ok none
    | .ok (some d) => .ok (some (.single (singleKind s).1 d))

/-- m21utilities.py:2197-2209, 2222-2253: a string with a divider. The type is replaced even after '<' or '>'. -/
def primDivided (isSelection : Bool) (ss : List Str) : Except PyErr (Option DatePrim) :=
  if ss.any (beginsWith ['~', '?']) then .ok none
  else
    match datesFromStrings ss with
    | .error e => .error e
    | .ok none => .ok none
    | .ok (some ds) =>
      if isSelection then .ok (some (.selection false ds))
      else
        match ds with
        | [a, b] => .ok (some (.between a b))
        | _ => .ok none

/-- m21utilities.py:2196-2255: dividers in their order. -/
def primKind (rel : Option RelDate) (s : Str) : Except PyErr (Option DatePrim) :=
  match splitFirst '-' s with
  | some (a, b) => primDivided false [a, b]
  | none =>
    match splitFirst '^' s with
    | some (a, b) => primDivided false [a, b]
    | none => if s.contains '|' then primDivided true (splitOn '|' s) else primNoDivider rel s

/-- m21utilities.py:2164-2255 `m21DatePrimitiveFromString`. -/
def primFromString (string : Str) : Except PyErr (Option DatePrim) :=
  if string = [] then .ok none
  else if countChar '-' string > 1 then .ok none
  else if countChar '-' string = 1 ∧ (splitOn '-' string).any (beginsWith ['~', '?', '>', '<']) then .ok none
  else primKind (relativeKind string).1 (relativeKind string).2

/-! ### Ranges -/

/-- m21utilities.py:2440-2466 `stringFromM21DatePrimitiveRange`. -/
def stringFromRange (a b : DatePrim) : Str :=
  match a, b with
  | .single none x, .single none y => stringFromPrim (.between x y)
  | a, b =>
    (stringFromPrim a).map (fun c => if c = '-' then '^' else c) ++ '-' ::
      (stringFromPrim b).map (fun c => if c = '-' then '^' else c)

/-- m21utilities.py:2469-2480 `m21DatePrimitiveRangeFromString`. -/
def rangeFromString (s : Str) : Except PyErr (Option DatePrim × Option DatePrim) :=
  match splitOn '-' s with
  | [a, b] =>
    match primFromString a, primFromString b with
    | .ok x, .ok y => .ok (x, y)
    | .error e, _ => .error e
    | .ok _, .error e => .error e
  | _ => .ok (none, none)

end C21
