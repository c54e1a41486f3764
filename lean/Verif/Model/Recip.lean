import Verif.Model.PyNum
import Verif.Model.PyDict
/-
Model of the rhythm conversions of /repo/converter21/humdrum/convert.py.

`HumNum` (Fraction, or the float music21's `opFrac` uses for a dyadic rational) is an exact `Rat`.
-/
namespace C21

/-- The match of `re.search(r'([\d]+)%([\d]+)', s)` at the very beginning of `s`, if any. -/
def percentHere (s : Str) : Option (Str × Str) :=
  match s.takeWhile isDig, s.dropWhile isDig with
  | a :: as, '%' :: r =>
    match r.takeWhile isDig with
    | b :: bs => some (a :: as, b :: bs)
    | [] => none
  | _, _ => none

/-- `re.search(r'([\d]+)%([\d]+)', s)` (convert.py:66): leftmost match, both groups greedy. -/
def findPercent : Str → Option (Str × Str)
  | [] => none
  | c :: cs =>
    match percentHere (c :: cs) with
    | some r => some r
    | none => findPercent cs

/-- `re.search(r'([\d]+)', s)` (convert.py:71): the first run of digits. -/
def findDigits (s : Str) : Option Str :=
  match (s.dropWhile (fun c => !isDig c)).takeWhile isDig with
  | [] => none
  | r => some r

/-- convert.py:87-98: the factor of `dots` augmentation dots. -/
def dotFactor (dots : Nat) : Rat :=
  if dots > 0 then ((2 : Rat) ^ (dots + 1) - 1) / 2 ^ dots else 1

/-- convert.py:66-84: the undotted duration in whole notes; `ok none` when there are no digits;
`Fraction(x, 0)` raises. -/
def recipBase (sub : Str) : Except PyErr (Option Rat) :=
  match findPercent sub with
  | some (g1, g2) =>
    if parseNat g1 = 0 then .error .zeroDivision
    else .ok (some ((parseNat g2 : Rat) / (parseNat g1 : Rat)))
  | none =>
    match findDigits sub with
    | none => .ok none
    | some run =>
      if run.head? = some '0' then .ok (some (2 ^ countChar '0' run))
      else .ok (some (1 / (parseNat run : Rat)))

/-- The first space-separated piece (convert.py:63). -/
def firstSub (s : Str) : Str := s.takeWhile (· != ' ')

/-- convert.py:57-102 `recipToDuration` without the cache: result, and whether the code caches it. -/
def recipUncached (recip : Str) (scale : Rat) : Except PyErr (Rat × Bool) :=
  if 'q' ∈ recip then .ok (0, true)
  else
    let sub := firstSub recip
    match recipBase sub with
    | .error e => .error e
    | .ok none => .ok (0, false)
    | .ok (some b) => .ok (b * dotFactor (countChar '.' sub) * scale, true)

/-- The class-level cache `_knownRecipDurationCache` (convert.py:50). -/
abbrev RecipCache := Dict Str Rat

/-- convert.py:53-102 `recipToDuration`, with the cache as explicit state. -/
def recipCall (cache : RecipCache) (recip : Str) (scale : Rat) : Except PyErr Rat × RecipCache :=
  match cache.get? recip with
  | some v => (.ok v, cache)
  | none =>
    match recipUncached recip scale with
    | .error e => (.error e, cache)
    | .ok (v, true) => (.ok v, cache.set recip v)
    | .ok (v, false) => (.ok v, cache)

/-- convert.py:110-113: `re.sub(r'\.', 'Z', recip)`. -/
def zDots (recip : Str) : Str := recip.map fun c => if c = '.' then 'Z' else c

/-- convert.py:110-113 `recipToDurationNoDots`, with the cache as explicit state. -/
def recipNoDotsCall (cache : RecipCache) (recip : Str) (scale : Rat) : Except PyErr Rat × RecipCache :=
  recipCall cache (zDots recip) scale

/-- `recipToDuration(recip)` with the default scale in a fresh process. -/
def recipToDuration (recip : Str) : Except PyErr Rat := (recipCall [] recip 4).1

/-- `recipToDurationNoDots(recip)` with the default scale in a fresh process. -/
def recipToDurationNoDots (recip : Str) : Except PyErr Rat := (recipNoDotsCall [] recip 4).1

/-- `str(Fraction.numerator)` for a non-negative numerator etc. -/
def numStr (i : Int) : Str := intStr i

/-- convert.py:149-197 `durationToRecip`. -/
def durationToRecip (duration : Rat) : Str :=
  let dur := duration / 4
  if dur.num = 1 then natStr dur.den
  else if dur = 2 then "0".toList
  else if dur = 3 then "0.".toList
  else if dur = 4 then "00".toList
  else if dur = 6 then "00.".toList
  else if dur = 8 then "000".toList
  else if dur = 12 then "000.".toList
  else if dur.num = 0 then "q".toList
  else if (dur * (2 / 3)).num = 1 then natStr (dur * (2 / 3)).den ++ ".".toList
  else if (dur * (4 / 7)).num = 1 then natStr (dur * (4 / 7)).den ++ "..".toList
  else if (dur * (8 / 15)).num = 1 then natStr (dur * (8 / 15)).den ++ "...".toList
  else natStr dur.den ++ '%' :: numStr dur.num

/-- gridslice.py:187-213 `_createRecipTokenFromDuration` (the text of the token). -/
def gridRecip (duration : Rat) : Str :=
  let dur := duration / 4
  if dur.num = 0 then "g".toList
  else if dur.num = 1 then natStr dur.den
  else if dur.num % 3 = 0 ∧ (dur * (2 / 3)).num = 1 then natStr (dur * (2 / 3)).den ++ ".".toList
  else natStr dur.den ++ '%' :: numStr dur.num

/-- humdrumtoken.py:851-861 `dotCount`. -/
def tokenDotCount : Str → Nat
  | [] => 0
  | c :: cs => if c = ' ' then 0 else (if c = '.' then 1 else 0) + tokenDotCount cs

/-- humdrumtoken.py:870-878 `durationNoDots`, given the token's duration. -/
def tokenDurationNoDots (text : Str) (duration : Rat) : Rat :=
  let dots := tokenDotCount text
  if dots = 0 then duration
  else duration * ((2 : Rat) ^ dots / (2 ^ (dots + 1) - 1))

/-- convert.py:235-258 the note value of a **mens rhythm letter, in whole notes. -/
def mensValue (ch : Char) : Option Rat :=
  if ch = 'X' then some 8 else if ch = 'L' then some 4 else if ch = 'S' then some 2
  else if ch = 's' then some 1 else if ch = 'M' then some (1/2) else if ch = 'm' then some (1/4)
  else if ch = 'U' then some (1/8) else if ch = 'u' then some (1/16) else none

/-- convert.py:228-261 the loop of `mensToDuration`: (output, perfect). -/
def mensLoop : Bool → Str → Rat × Bool
  | perfect, [] => (0, perfect)
  | perfect, ch :: rest =>
    let perfect := if ch = 'p' then true else perfect
    let perfect := if ch = 'i' then false else perfect
    match mensValue ch with
    | some v => (v, perfect)
    | none => if ch = ' ' then (0, perfect) else mensLoop perfect rest

/-- convert.py:225-269 `mensToDuration`. -/
def mensToDuration (text : Str) : Rat :=
  let (output, perfect) := mensLoop false text
  (if perfect then output * 3 / 2 else output) * 4

/-- convert.py:277-311 `mensToDurationNoDots`. -/
def mensToDurationNoDots (text : Str) : Rat := (mensLoop false text).1 * 4

/-- convert.py:643-651 `getLcm`: `none` is the ZeroDivisionError of `x // gcd(0, 0)`. -/
def getLcm : List Nat → Option Nat
  | [] => some 1
  | n :: rest => rest.foldlM (fun out m => if Nat.gcd out m = 0 then none else some (out * m / Nat.gcd out m)) n

/-- humdrumfilestructure.py:156-177 `tpq` when nothing is cached.  The code collects the durations in a
set first (order unspecified); here they come in line order, which `tpq_perm` shows is irrelevant. -/
def tpq (lineDurations : List Rat) : Option Nat :=
  let denoms := ((lineDurations.filter (fun d => decide (d > 0))).map (·.den)).filter (fun d => decide (d > 1))
  if denoms.length > 0 then getLcm denoms else some 1

end C21
