/-
Python `str` methods used by the modelled code, on `List Char`.

These model CPython built-ins, not code of /repo; the trusted reading is the Python language reference.
-/
namespace C21

/-- Python `str`: a list of code points. -/
abbrev Str := List Char

/-- `s.split(c)` for a one-character separator (always at least one piece). -/
def splitOn (c : Char) : Str → List Str
  | [] => [[]]
  | x :: xs =>
    if x = c then [] :: splitOn c xs
    else match splitOn c xs with
      | [] => [[x]]
      | h :: t => (x :: h) :: t

/-- `c.join(pieces)` for a one-character separator. -/
def joinWith (c : Char) : List Str → Str
  | [] => []
  | [p] => p
  | p :: q :: rest => p ++ c :: joinWith c (q :: rest)

/-- `s.split(c, 1)`: split at the first occurrence only; `none` when there is no occurrence. -/
def splitFirst (c : Char) : Str → Option (Str × Str)
  | [] => none
  | x :: xs =>
    if x = c then some ([], xs)
    else (splitFirst c xs).map fun p => (x :: p.1, p.2)

/-- Worker of `replaceAll`; `skip` characters belong to an occurrence already replaced. -/
def replaceGo (pat rep : Str) : Nat → Str → Str
  | _, [] => []
  | skip + 1, _ :: xs => replaceGo pat rep skip xs
  | 0, x :: xs =>
    if pat.isPrefixOf (x :: xs) then rep ++ replaceGo pat rep (pat.length - 1) xs
    else x :: replaceGo pat rep 0 xs

/-- `s.replace(pat, rep)` for non-empty `pat`: left to right, non-overlapping. -/
def replaceAll (pat rep s : Str) : Str := replaceGo pat rep 0 s

/-- `pat in s` for strings. -/
def isInfix (pat : Str) : Str → Bool
  | [] => pat.isEmpty
  | x :: xs => pat.isPrefixOf (x :: xs) || isInfix pat xs

/-- `s.startswith(p)` -/
def startsWith (s p : Str) : Bool := p.isPrefixOf s

/-- `s.count(c)` for one character. -/
def countChar (c : Char) (s : Str) : Nat := (s.filter (· == c)).length

/-- Python `str.isspace` characters, as stripped by `str.strip()` (CPython's Unicode whitespace table). -/
def isPySpace (c : Char) : Bool :=
  let n := c.toNat
  (9 ≤ n && n ≤ 13) || (28 ≤ n && n ≤ 32) || n == 0x85 || n == 0xa0 || n == 0x1680 ||
  (0x2000 ≤ n && n ≤ 0x200a) || n == 0x2028 || n == 0x2029 || n == 0x202f || n == 0x205f || n == 0x3000

/-- `s.strip()` -/
def strip (s : Str) : Str :=
  (((s.dropWhile isPySpace).reverse).dropWhile isPySpace).reverse

end C21
