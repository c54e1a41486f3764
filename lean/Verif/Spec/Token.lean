import Verif.Model.PyNum
/-
What the questions about a token mean, as functions of its current text, the exclusive interpretation of its
spine and (for null tokens) the text of the token it stands for.
-/
namespace C21

/-- The questions a token answers with a cached value. -/
inductive Query where
  | data | interpretation | nonNullData | nullData | null | barline | comment | localComment | globalComment
  | label | chord | exclusive | split | merge | exchange | terminate | add | manipulator | recipOnly | beam
  | fermata | staff | part | group | rest | note | kern | recip | mens | rhythm | staffType
deriving DecidableEq, Repr

/-- The text begins with `p`. -/
def Begins (p t : Str) : Bool := p.isPrefixOf t

def isNullText (t : Str) : Bool := t == ".".toList || t == "*".toList || t == "!".toList
def isDataText (t : Str) : Bool := !Begins "*".toList t && !Begins "!".toList t && !Begins "=".toList t

/-- A recip value and nothing else: digits, perhaps `%` and digits, dots. -/
def isRecipText (t : Str) : Bool :=
  let n := t.takeWhile Char.isDigit
  let r := t.dropWhile Char.isDigit
  let dots (u : Str) : Bool := u.all (· == '.')
  !n.isEmpty &&
  match r with
  | '%' :: u => !(u.takeWhile Char.isDigit).isEmpty && dots (u.dropWhile Char.isDigit)
  | u => dots u

/-- The right answer. -/
def meaning (q : Query) (text type : Str) (res : Option Str) : Bool :=
  match q with
  | .data => isDataText text
  | .interpretation => Begins "*".toList text
  | .nonNullData => isDataText text && !isNullText text
  | .nullData => isDataText text && isNullText text
  | .null => isNullText text
  | .barline => Begins "=".toList text
  | .comment => Begins "!".toList text
  | .localComment => Begins "!".toList text && !Begins "!!".toList text
  | .globalComment => Begins "!!".toList text
  | .label => Begins "*>".toList text && !text.contains '['
  | .chord => text.contains ' '
  | .exclusive => Begins "**".toList text
  | .split => text == "*^".toList
  | .merge => text == "*v".toList
  | .exchange => text == "*x".toList
  | .terminate => text == "*-".toList
  | .add => text == "*+".toList
  | .manipulator => text ∈ ["*^".toList, "*v".toList, "*x".toList, "*+".toList, "*-".toList] || Begins "**".toList text
  | .recipOnly => isRecipText text
  | .beam => text.any (fun c => c ∈ ['L', 'J', 'K', 'k'])
  | .fermata => text.contains ';'
  | .staff => Begins "*staff".toList text
  | .part => Begins "*part".toList text
  | .group => Begins "*group".toList text
  | .kern => type == "**kern".toList
  | .recip => type == "**recip".toList
  | .mens => type == "**mens".toList
  | .rhythm => type ∈ ["**kern".toList, "**recip".toList, "**mens".toList]
  | .staffType => type ∈ ["**kern".toList, "**mens".toList]
  | .rest => isDataText text && (type == "**kern".toList || type == "**mens".toList) &&
      (if isNullText text then res.getD text else text).contains 'r'
  | .note => isDataText text && !isNullText text &&
      ((type == "**kern".toList && !text.contains 'r' && text.any (fun c => c ∈ "abcdefgABCDEFG".toList)) ||
       (type == "**mens".toList && text.any (fun c => c ∈ "abcdefgABCDEFG".toList)))

end C21
