import Verif.Model.Dates
/-
shared/m21utilities.py:1797-2143: ISO and EDTF dates.
-/
namespace C21

/-! ### Writing -/

/-- `'%04d' % v` and `'%02d' % v`. -/
def padZeros (w : Nat) (v : Int) : Str :=
  if v < 0 then '-' :: (List.replicate (w - 1 - (natStr v.natAbs).length) '0' ++ natStr v.natAbs)
  else List.replicate (w - (natStr v.natAbs).length) '0' ++ natStr v.natAbs

/-- m21utilities.py:2121-2129: the mark of an error; `none` where an empty string is returned instead. -/
def isoSuffix (edtf : Bool) : Option DateErr → Option Str
  | none => some []
  | some e => if edtf then some (match e with | .uncertain => ['?'] | .approximate => ['~']) else none

/-- m21utilities.py:2131-2137: one value. -/
def isoNumber (i : Nat) (v : Int) : Str := padZeros (if i = 0 then 4 else 2) v

/-- m21utilities.py:2114-2137: the loop over the attributes, up to the first without value. -/
def isoMsgs (edtf : Bool) : Nat → List DateField → Option (List Str)
  | _, [] => some []
  | i, f :: fs =>
    match f.value with
    | none => some []
    | some v =>
      match isoSuffix edtf f.error with
      | none => none
      | some suf =>
        match isoMsgs edtf (i + 1) fs with
        | none => none
        | some ms => some ((isoNumber i v ++ suf) :: ms)

/-- The attributes in the order of `attrNames`. -/
def Date.fields (d : Date) : List DateField := [d.year, d.month, d.day, d.hour, d.minute, d.second]

/-- m21utilities.py:2111-2143 `isoDateFromM21Date`. -/
def isoDate (edtf : Bool) (d : Date) : Str :=
  match isoMsgs edtf 0 d.fields with
  | none => []
  | some msg => joinWith '-' (msg.take 4) ++ (if 4 ≤ msg.length then 'T' :: joinWith ':' (msg.drop 4) else [])

/-- m21utilities.py:2071-2076: all the dates, or none if one is empty. -/
def isoDates (edtf : Bool) : List Date → Option (List Str)
  | [] => some []
  | d :: ds =>
    if isoDate edtf d = [] then none
    else
      match isoDates edtf ds with
      | none => none
      | some ss => some (isoDate edtf d :: ss)

/-- m21utilities.py:2036-2108 `isoDateFromM21DatePrimitive` with `edtf` for a date object: the EDTF text (`none`: no text). -/
def edtfText : DatePrim → Option Str
  | .single _ d => match isoDates true [d] with | some [s] => some s | _ => none
  | .relative r d =>
    match isoDates true [d] with
    | some [s] =>
      match r with
      | .prior | .onOrBefore => some ("../".toList ++ s)
      | .after | .onOrAfter => some (s ++ "/..".toList)
    | _ => none
  | .between a b => match isoDates true [a, b] with | some [s, t] => some (s ++ '/' :: t) | _ => none
  | .selection isAnd ds =>
    match isoDates true ds with
    | some ss => some (if isAnd then '{' :: (joinWith ',' ss ++ ['}']) else '[' :: (joinWith ',' ss ++ [']']))
    | none => none

/-- m21utilities.py:2036-2108 `isoDateFromM21DatePrimitive` without `edtf`: the attributes and their texts. -/
def isoAttributes : DatePrim → List (String × Str)
  | .single (some _) _ => []
  | .single none d => match isoDates false [d] with | some [s] => [("isodate", s)] | _ => []
  | .relative r d =>
    match isoDates false [d] with
    | some [s] =>
      match r with
      | .prior | .onOrBefore => [("notafter", s)]
      | .after | .onOrAfter => [("notbefore", s)]
    | _ => []
  | .between a b => match isoDates false [a, b] with | some [s, t] => [("startdate", s), ("enddate", t)] | _ => []
  | .selection _ _ => []

/-! ### Reading -/

/-- `s.strip(c)`. -/
def stripChar (c : Char) (s : Str) : Str := (((s.dropWhile (· == c)).reverse).dropWhile (· == c)).reverse

/-- m21utilities.py:1801-1804 `removeSplitChars`. -/
def removeSplitChars (s : Str) : Str := stripChar ']' (stripChar '[' (stripChar '}' (stripChar '{' s)))

/-- `s.split('..')`. -/
def splitDots : Str → List Str
  | [] => [[]]
  | [c] => [[c]]
  | c :: e :: r =>
    if c = '.' ∧ e = '.' then [] :: splitDots r
    else
      match splitDots (e :: r) with
      | [] => [[c]]
      | h :: t => (c :: h) :: t

/-- A keyword of music21's constructor `Date(...)`: the error mark is taken off and the rest converted by `int`; `none` for the exception.
This is music21's code, not /repo's: an assumption of the model. -/
def m21Field : Option Str → Option DateField
  | none => some {}
  | some s =>
    match pyInt (stripDateError s).1 with
    | none => none
    | some v => some ⟨some v, (stripDateError s).2⟩

/-- m21utilities.py:1905-1921: the date and the time. -/
def isoDateTime (s : Str) : Option (Str × Str) :=
  if s.contains 'T' then
    match splitOn 'T' s with
    | [a, b] => some (a, b)
    | _ => none
  else if !s.contains ':' then some (s, [])
  else if !s.contains '-' then some ([], s)
  else none

/-- m21utilities.py:1930-1936: a piece of the date. -/
def datePiece (date : Str) (i : Nat) : Option Str := if date = [] then none else (splitOn '-' date)[i]?

/-- m21utilities.py:1938-1943: a piece of the time. -/
def timePiece (time : Str) (i : Nat) : Option Str :=
  if time = [] then none else if 3 ≤ (splitOn ':' time).length then (splitOn ':' time)[i]? else none

/-- m21utilities.py:1945-1957: the date made of the pieces. -/
def m21Date (y mo d h mi s : Option Str) : Option Date :=
  match m21Field y, m21Field mo, m21Field d, m21Field h, m21Field mi, m21Field s with
  | some a, some b, some c, some e, some f, some g => some ⟨a, b, c, e, f, g⟩
  | _, _, _, _, _, _ => none

/-- m21utilities.py:1887-1957 `m21DateFromIsoDate`. -/
def isoRead (s : Str) : Option Date :=
  if s = [] then none
  else if s.contains '/' then none
  else if s.head? = some '{' ∨ s.head? = some '[' then none
  else
    match isoDateTime s with
    | none => none
    | some p => m21Date (datePiece p.1 0) (datePiece p.1 1) (datePiece p.1 2) (timePiece p.2 0) (timePiece p.2 1) (timePiece p.2 2)

/-- The object made of a list of dates; music21's DateBetween of other than two dates is outside the model. -/
def betweenOf : List Date → Option DatePrim
  | [a, b] => some (.between a b)
  | _ => none

/-- m21utilities.py:1856-1874: a mark at the end. -/
def isoSingleKind (s : Str) : Option DateErr × Str :=
  if s.getLast? = some '~' then (some .approximate, s.dropLast)
  else if s.getLast? = some '?' then (some .uncertain, s.dropLast)
  else (none, s)

/-- m21utilities.py:1842-1855: an open range, its end taken off. -/
def openRange (s : Str) : Option (RelDate × Str) :=
  if startsWith s "../".toList then some (.prior, s.drop 3)
  else if startsWith s.reverse "../".toList then some (.after, (s.reverse.drop 3).reverse)
  else none

/-- m21utilities.py:1797-1874 `m21DatePrimitiveFromIsoDate`. -/
def edtfRead (s : Str) : Option DatePrim :=
  if s = [] then none
  else if countChar '/' s > 1 then none
  else if s.head? = some '[' ∧ isInfix "..".toList s then betweenOf ((splitDots (removeSplitChars s)).filterMap isoRead)
  else if s.head? = some '[' then some (.selection false ((splitOn ',' (removeSplitChars s)).filterMap isoRead))
  else if s.head? = some '{' then some (.selection true ((splitOn ',' (removeSplitChars s)).filterMap isoRead))
  else if s.contains '/' then
    if !isInfix "..".toList s then betweenOf (((splitOn '/' s).filterMap isoRead).take 2)
    else
      match openRange s with
      | none => none
      | some p => if p.2.contains '/' then none else (isoRead p.2).map (.relative p.1)
  else (isoRead (isoSingleKind s).2).map (.single (isoSingleKind s).1)

/-! ### Nested ranges -/

/-- m21utilities.py:1990-1993: the mark of a single date. -/
def isoMark : Option DateErr → Str
  | none => []
  | some .approximate => ['~']
  | some .uncertain => ['?']

/-- m21utilities.py:1978-2012 and 2014-2033: one end of the range. -/
def nestedEnd : DatePrim → Option Str
  | .single r d => match isoDates true [d] with | some [s] => some (s ++ isoMark r) | _ => none
  | .relative r d => edtfText (.relative r d)
  | .between a b => match isoDates true [a, b] with | some [s, t] => some ('[' :: (s ++ "..".toList ++ t ++ [']'])) | _ => none
  | .selection isAnd ds => edtfText (.selection isAnd ds)

/-- m21utilities.py:1960-2034 `edtfNestedDateRangeFromString`: the start and the end (`none`: no text). -/
def edtfNested (s : Str) : Except PyErr (Option (Str × Str)) :=
  match rangeFromString s with
  | .error e => .error e
  | .ok (some a, some b) =>
    match nestedEnd a, nestedEnd b with
    | some x, some y => .ok (some (x, y))
    | _, _ => .ok none
  | .ok _ => .ok none

end C21
