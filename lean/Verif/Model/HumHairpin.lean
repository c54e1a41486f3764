import Verif.Model.PyStr
/-
Hairpins in **dynam spines: written on export, read on import.

Models converter21/humdrum/m21convert.py 2232-2257 (getDynamicWedgeString), humdrumwriter.py 2440-2490 and 2915-2930
(the text of the token of a part at one time) and converter21/humdrum/humdrumfile.py 8944-9080 (which hairpins
_processHairpin makes, and from where to where), 9447-9473 (_getHairpinEnd).

A spine is the list of the texts of its rows; a null token is the empty text. Starts and ends are rows. The search for
the notes at these times, placement and colour are not modelled.
-/
namespace C21

/-- The text for one end of a hairpin; starts and ends are always separate events (measuredata.py 432-490).
m21convert.py 2244-2255. -/
def wedgeText (cresc isStart : Bool) : Str :=
  match isStart, cresc with
  | true, true => ['<']
  | true, false => ['>']
  | false, true => ['[']
  | false, false => [']']

/-- The token of a part at one time: the texts of its dynamics and ends of hairpins, as they come.
humdrumwriter.py 2464-2470, 2925-2929. -/
def dynamRow (texts : List Str) : Str := joinWith ' ' texts

/-- `_getHairpinEnd`: the row after this one with the end of the hairpin, unless something else comes first.
humdrumfile.py 9447-9473. -/
def hairpinEnd (alpha : Char → Bool) (stop : Char) : List Str → Option Nat
  | [] => none
  | t :: ts =>
    if t.contains stop then some 0
    else if t.any (fun c => alpha c || c == '<' || c == '>') then none
    else (hairpinEnd alpha stop ts).map (· + 1)

/-- Where a hairpin ends: in its own token, in a later row, or nowhere; then it is a word. -/
inductive PinEnd
  | own
  | row (n : Nat)
  | word
  deriving DecidableEq, Repr

/-- The end of the hairpin of a token. The number of the row is counted from the next row. humdrumfile.py 8957-9008, 9023. -/
def pinTo (alpha : Char → Bool) (later : List Str) (pins : Str) (s e : Char) : PinEnd :=
  if isInfix [s, e] pins || isInfix [s, ' ', e] pins then .own
  else
    match hairpinEnd alpha e later with
    | some k => .row k
    | none => .word

/-- The hairpin of a token, with the later rows. humdrumfile.py 8779-8785, 8944-8967. -/
def readPin (alpha : Char → Bool) (row : Str) (later : List Str) : Option (Bool × PinEnd) :=
  let pins := row.filter fun c => !alpha c
  if pins.contains '<' then some (true, pinTo alpha later pins '<' '[')
  else if pins.contains '>' then some (false, pinTo alpha later pins '>' ']')
  else none

/-- From the number of the next row to the number in the spine. -/
def PinEnd.shift (d : Nat) : PinEnd → PinEnd
  | .row k => .row (d + k)
  | x => x

/-- All hairpins of a spine: crescendo or not, the row of the start, the end. -/
def readPins (alpha : Char → Bool) (rows : List Str) : List (Bool × Nat × PinEnd) :=
  (List.range rows.length).filterMap fun i =>
    (readPin alpha (rows.getD i []) (rows.drop (i + 1))).map fun r =>
      (r.1, i, r.2.shift (i + 1))

end C21
