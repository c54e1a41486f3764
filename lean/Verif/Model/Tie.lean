import Verif.Model.Slur
import Verif.Model.Pitch
/-
humdrumfilecontent.py: linked ties.
-/
namespace C21

/-- The place a Python index refers to in a list of `n` items; `none` is an IndexError. -/
def pyIndex (n : Nat) (i : Int) : Option Nat :=
  if 0 ≤ i ∧ i < n then some i.toNat else if -(n : Int) ≤ i ∧ i < 0 then some (i + n).toNat else none

/-- `startDatabase` (400 places; `none` is `(None, -1)`), `linkedTieStarts`, `linkedTieEnds`. A note is a token and the place of the
subtoken in it. -/
structure TieSt (α : Type) where
  db : Nat → Option α
  starts : List α
  ends : List α

def TieSt.put {α : Type} (S : TieSt α) (p : Nat) (v : Option α) : TieSt α :=
  { S with db := fun q => if q = p then v else S.db q }

/-- humdrumfilecontent.py:876-878. -/
def tieStartStep {α : Type} (sig : Str) (n : α) (text : Str) (S : TieSt α) : Except PyErr (TieSt α) :=
  if isInfix (sig ++ ['[']) text then
    match pyIndex 400 (kernToBase40 text) with
    | none => .error .indexError
    | some p => .ok (S.put p (some n))
  else .ok S

/-- humdrumfilecontent.py:880-888. -/
def tieEndStep {α : Type} (sig : Str) (n : α) (text : Str) (S : TieSt α) : Except PyErr (TieSt α) :=
  if isInfix (sig ++ [']']) text then
    match pyIndex 400 (kernToBase40 text) with
    | none => .error .indexError
    | some p =>
      match S.db p with
      | some m => .ok ({ S with starts := S.starts ++ [m], ends := S.ends ++ [n] }.put p none)
      | none => .ok S
  else .ok S

/-- humdrumfilecontent.py:890-900. -/
def tieMiddleStep {α : Type} (sig : Str) (n : α) (text : Str) (S : TieSt α) : Except PyErr (TieSt α) :=
  if isInfix (sig ++ ['_']) text then
    match pyIndex 400 (kernToBase40 text) with
    | none => .error .indexError
    | some p =>
      match S.db p with
      | some m => .ok ({ S with starts := S.starts ++ [m], ends := S.ends ++ [n] }.put p (some n))
      | none => .ok (S.put p (some n))
  else .ok S

/-- humdrumfilecontent.py:875-900: one subtoken. -/
def tieNote {α : Type} (sig : Str) (n : α) (text : Str) (S : TieSt α) : Except PyErr (TieSt α) :=
  match tieStartStep sig n text S with
  | .error e => .error e
  | .ok S =>
    match tieEndStep sig n text S with
    | .error e => .error e
    | .ok S => tieMiddleStep sig n text S

def tieNotes {α : Type} (sig : Str) : List (α × Str) → TieSt α → Except PyErr (TieSt α)
  | [], S => .ok S
  | x :: xs, S =>
    match tieNote sig x.1 x.2 S with
    | .error e => .error e
    | .ok S => tieNotes sig xs S

/-- humdrumfilecontent.py:839-919 `generateLinkedTieStartsAndEnds`, `createLinkedTies`. `notes` are the subtokens of the kern tokens
which are not null or rests, in the order of the file. -/
def linkedTies {α : Type} (sig : Str) (notes : List (α × Str)) : Except PyErr (List (α × α)) :=
  if sig.isEmpty then .ok []
  else
    match tieNotes sig notes ⟨fun _ => none, [], []⟩ with
    | .error e => .error e
    | .ok S => .ok (List.zip S.starts S.ends)

/-! ### What is recorded -/

/-- The suffix of humdrumfilecontent.py:949-961: the number of the subtoken, for chords only. -/
def tieTag (isChord : TokId → Bool) (tag : Str) (n : TokId × Nat) : Str :=
  if isChord n.1 then tag ++ natStr (n.2 + 1) else tag

/-- humdrumfilecontent.py:933-974 `_linkTieEndpoints`. Numbers are stored as strings in the code. -/
def linkTieEndpoints (isChord : TokId → Bool) (time : TokId → Rat) (P : AutoParams) (s e : TokId × Nat) : AutoParams :=
  let P := setAuto P s.1 (tieTag isChord "tieEnd".toList s) (.tok e.1)
  let P := setAuto P s.1 "id".toList (.tok s.1)
  let P := setAuto P s.1 (tieTag isChord "tieEndSubtokenNumber".toList s) (.int (e.2 + 1 : Nat))
  let P := setAuto P e.1 (tieTag isChord "tieStart".toList e) (.tok s.1)
  let P := setAuto P e.1 "id".toList (.tok e.1)
  let P := setAuto P e.1 (tieTag isChord "tieStartSubtokenNumber".toList e) (.int (s.2 + 1 : Nat))
  setAuto P s.1 (tieTag isChord "tieDuration".toList s) (.rat (time e.1 - time s.1))

/-- humdrumfilecontent.py:916-919. -/
def recordTies (isChord : TokId → Bool) (time : TokId → Rat) (links : List ((TokId × Nat) × (TokId × Nat))) (P : AutoParams) :
    AutoParams :=
  links.foldl (fun P l => linkTieEndpoints isChord time P l.1 l.2) P

/-- humdrumfile.py:8327-8331: the token a linked tie comes from. -/
def getTieStart (isChord : TokId → Bool) (P : AutoParams) (n : TokId × Nat) : Option TokId :=
  match P n.1 (tieTag isChord "tieStart".toList n) with
  | some (.tok s) => some s
  | _ => none

/-- humdrumfile.py:8263-8267: the token a linked tie goes to. -/
def getTieEnd (isChord : TokId → Bool) (P : AutoParams) (n : TokId × Nat) : Option TokId :=
  match P n.1 (tieTag isChord "tieEnd".toList n) with
  | some (.tok s) => some s
  | _ => none

/-- humdrumfile.py:8271-8276: the number of the subtoken it goes to. -/
def getTieEndNumber (isChord : TokId → Bool) (P : AutoParams) (n : TokId × Nat) : Int :=
  getAutoInt P n.1 (tieTag isChord "tieEndSubtokenNumber".toList n)

end C21
