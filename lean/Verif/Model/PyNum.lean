import Verif.Model.PyStr
/-
Decimal printing and parsing of Python ints, and the exceptions of the modelled code.
Only ASCII digits are modelled (Python's `\d` and `int()` also accept other Unicode digits).
-/
namespace C21

/-- Exceptions that the modelled functions can raise. -/
inductive PyErr where
  | valueError | indexError | keyError | zeroDivision | humdrumInternal | humdrumSyntax | humdrumExport
  | typeError | attributeError | overflow
deriving DecidableEq, Repr

/-- ASCII decimal digit. -/
def isDig (c : Char) : Bool := 48 ≤ c.toNat && c.toNat ≤ 57

/-- The digit character of `d < 10`. -/
def digitChar (d : Nat) : Char := Char.ofNat (48 + d)

/-- Worker of `natStr` (structural on the fuel). -/
def natStrAux : Nat → Nat → Str
  | 0, _ => []
  | f + 1, n => if n < 10 then [digitChar n] else natStrAux f (n / 10) ++ [digitChar (n % 10)]

/-- `str(n)` for a non-negative int. -/
def natStr (n : Nat) : Str := natStrAux (n + 1) n

/-- `int(s)` for a string of ASCII digits. -/
def parseNat (s : Str) : Nat := s.foldl (fun a c => a * 10 + (c.toNat - 48)) 0

/-- `str(i)` for an int. -/
def intStr (i : Int) : Str :=
  if i < 0 then '-' :: natStr i.natAbs else natStr i.natAbs

end C21
