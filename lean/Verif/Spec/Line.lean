import Verif.Model.PyNum
/-
Independent specification of Humdrum line classes (https://www.humdrum.org/guide/ch05/).
-/
namespace C21

/-- The structural classes of lines. -/
inductive LineClass where
  | empty | globalComment | localComment | interpretation | barline | data
deriving DecidableEq, Repr

/-- The class is decided by the first one or two characters. -/
def lineClass : Str → LineClass
  | [] => .empty
  | '!' :: '!' :: _ => .globalComment
  | '!' :: _ => .localComment
  | '*' :: _ => .interpretation
  | '=' :: _ => .barline
  | _ => .data

/-- `s` is surrounded by nothing to strip: its first and last characters are not blank. -/
def Trim (space : Char → Bool) (s : Str) : Prop :=
  (∀ c, s.head? = some c → space c = false) ∧ (∀ c, s.getLast? = some c → space c = false)

/-- A text without its final newline, if it has one. -/
def dropFinalNewline (s : Str) : Str := if s.getLast? = some '\n' then s.dropLast else s

end C21
