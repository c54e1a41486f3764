import Verif.Model.PyNum
import Mathlib.Data.Rat.Floor
/-
MEI time stamps: how the MEI reader turns a decimal beat into a fraction (mei/meireader.py:7062-7153), and how the
writer makes the decimal (mei/m21objectconvert.py:812-863).

Simplifications: floats are exact rationals; the rounding errors of float arithmetic are a separate, explicit
perturbation in the theorems. `opFrac` (which limits denominators to 65535) is the identity. The text of the decimal is
represented by its value.
-/
namespace C21

/-- mei/meireader.py:227 `DENOM_LIMIT`. -/
def denomLimit : Int := 768

/-- The variables of the loop that are used after it. -/
structure LDState where
  p0 : Int
  q0 : Int
  p1 : Int
  q1 : Int

/-- mei/meireader.py:7094-7100: the `while True` loop; `//` is floor division and raises for 0. The first argument bounds the
number of iterations; running out of it stands for a loop that goes on. -/
def ldLoop : Nat → Int → Int → LDState → Except PyErr LDState
  | 0, _, _, _ => .error .overflow
  | fuel + 1, n, d, s =>
    if d = 0 then .error .zeroDivision
    else
      let a := n / d
      let q2 := s.q0 + a * s.q1
      if q2 > denomLimit then .ok s
      else ldLoop fuel d (n - a * d) ⟨s.p1, s.q1, s.p0 + a * s.p1, q2⟩

/-- mei/meireader.py:7102-7116: choose between the two bounds. -/
def ldChoose (nOrg dOrg : Int) (s : LDState) : Except PyErr (Int × Int) :=
  if s.q1 = 0 then .error .zeroDivision
  else
    let k := (denomLimit - s.q0) / s.q1
    let bound1n := s.p0 + k * s.p1
    let bound1d := s.q0 + k * s.q1
    let bound2n := s.p1
    let bound2d := s.q1
    let bound1minusS_n := |bound1n * dOrg - nOrg * bound1d|
    let bound1minusS_d := dOrg * bound1d
    let bound2minusS_n := |bound2n * dOrg - nOrg * bound2d|
    let bound2minusS_d := dOrg * bound2d
    let difference := bound1minusS_n * bound2minusS_d - bound2minusS_n * bound1minusS_d
    if difference ≥ 0 then .ok (bound2n, bound2d) else .ok (bound1n, bound1d)

/-- mei/meireader.py:7075-7116 `_preFracLimitDenominator`. -/
def limitDenominator (n d : Int) : Except PyErr (Int × Int) :=
  if d ≤ denomLimit then .ok (n, d)
  else (ldLoop (d.toNat + 2) n d ⟨0, 1, 1, 0⟩).bind (ldChoose n d)

/-- mei/meireader.py:7131: `Fraction(num, den)`. -/
def toFraction (nd : Int × Int) : Except PyErr Rat :=
  if nd.2 = 0 then .error .zeroDivision else .ok ((nd.1 : Rat) / (nd.2 : Rat))

/-- mei/meireader.py:7118-7133 `tstampStrToOffsetQL`, from the value of the float on. -/
def tstampToBeat (x : Rat) : Except PyErr Rat :=
  (limitDenominator x.num x.den).bind toFraction

/-- mei/meireader.py:7135-7153 `_beatToOffset`; without a meter the denominator is 4. -/
def beatToOffset (beat : Rat) (denom : Option Nat) : Rat :=
  (beat - 1) / ((denom.getD 4 : Nat) : Rat) * 4

/-- mei/meireader.py:7062-7073 `_tstampToOffset` for a well-formed decimal. -/
def tstampToOffset (x : Rat) (denom : Option Nat) : Except PyErr Rat :=
  (tstampToBeat x).map (fun b => beatToOffset b denom)

/-- mei/m21objectconvert.py:847-863 `_offsetToBeat`. -/
def offsetToBeat (offset : Rat) (denom : Option Nat) : Rat :=
  offset / 4 * ((denom.getD 4 : Nat) : Rat) + 1

/-- The decimals that `'{:.6g}'` leaves to a number at least 1. -/
def decimals6 (x : Rat) : Nat :=
  if x < 10 then 5 else if x < 100 then 4 else if x < 1000 then 3 else if x < 10000 then 2 else if x < 100000 then 1 else 0

/-- mei/m21objectconvert.py:812-831 `floatToStringWithDecimalPlacesMinMax(f, 1, 6)`: the value of the text for a number between
1 and 999999: exact when one decimal suffices, otherwise rounded to six significant digits. A tie is rounded up here
(Python rounds it to even). -/
def tstampDecimal (x : Rat) : Rat :=
  if (x * 10).den = 1 then x
  else (⌊x * 10 ^ decimals6 x + 1 / 2⌋ : Rat) / 10 ^ decimals6 x

/-- mei/m21objectconvert.py:833-845 `makeTstamp`: the value of the text. -/
def makeTstamp (offset : Rat) (denom : Option Nat) : Rat := tstampDecimal (offsetToBeat offset denom)

end C21
