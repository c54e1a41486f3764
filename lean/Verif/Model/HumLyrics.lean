import Verif.Model.PyNum
import Verif.Model.Text
/-
Model of lyrics in **text spines: what is written for the lyrics of the notes of one line
(/repo/converter21/humdrum/humdrumwriter.py, gridside.py) and what is read from it
(/repo/converter21/humdrum/humdrumfile.py, humdrumtoken.py).
-/
namespace C21

/-- music21's `Lyric.syllabic`. -/
inductive Syllabic
  | single | begins | middle | ends
deriving DecidableEq, Repr

/-- A syllable: text and place in its word. -/
abbrev Syllable := Str × Syllabic

/-- A lyric of a note: verse number and syllables (several when they are elided). -/
structure NoteLyric where
  number : Int
  syllables : List Syllable
deriving DecidableEq, Repr

/-! ### music21 -/

/-- `Lyric.text`: the syllables with a blank (the default elision) between them. -/
def lyricText (ss : List Syllable) : Str := joinWith ' ' (ss.map (·.1))

/-- `Lyric.rawText`: hyphens at the ends, by the first and the last syllable. -/
def rawText (ss : List Syllable) : Str :=
  match ss.head?, ss.getLast? with
  | some a, some z =>
    (if a.2 = .middle ∨ a.2 = .ends then ['-'] else []) ++ lyricText ss ++
    (if z.2 = .begins ∨ z.2 = .middle then ['-'] else [])
  | _, _ => []

/-- `Lyric.setTextAndSyllabic(raw, applyRaw=False)`. -/
def parseSyllable (raw : Str) : Syllable :=
  if raw.head? = some '-' then
    if raw.getLast? = some '-' then (raw.tail.dropLast, .middle) else (raw.tail, .ends)
  else if raw.getLast? = some '-' then (raw.dropLast, .begins)
  else (raw, .single)

/-! ### Export -/

/-- `str.split()`: the pieces between blanks, some empty. -/
def splitBlanks : Str → List Str
  | [] => [[]]
  | x :: xs =>
    if isPySpace x then [] :: splitBlanks xs
    else match splitBlanks xs with
      | [] => [[x]]
      | h :: t => (x :: h) :: t

/-- humdrumwriter.py:3314-3321 `_cleanSpaces`. -/
def cleanSpaces (s : Str) : Str := joinWith ' ' ((splitBlanks s).filter fun w => !w.isEmpty)

/-- humdrumwriter.py:3272-3296: the token written for a lyric. -/
def lyricToken (ss : List Syllable) : Str :=
  let t := cleanSpaces (rawText ss)
  let t := match t with
    | c :: _ => if c = '!' ∨ c = '*' then '\\' :: t else t
    | [] => t
  if t = [] then ['.'] else t

/-- humdrumwriter.py:3251-3262: one lyric put among the verses. -/
def placeVerse (vs : List (Option NoteLyric)) (l : NoteLyric) : List (Option NoteLyric) :=
  if l.number = vs.length + 1 then vs ++ [some l]
  else if 0 < l.number ∧ l.number < vs.length then vs.set (l.number.toNat - 1) (some l)
  else if l.number > 0 then
    (vs ++ List.replicate (l.number.toNat - vs.length) none).set (l.number.toNat - 1) (some l)
  else vs

/-- humdrumwriter.py:3244-3262: the verses of a note, in order; `none` when a number is too large (the
function then returns without writing anything). -/
def orderVerses : List (Option NoteLyric) → List NoteLyric → Option (List (Option NoteLyric))
  | vs, [] => some vs
  | vs, l :: ls => if l.number > 100 then none else orderVerses (placeVerse vs l) ls

/-- gridside.py:64-78 `setVerse`. -/
def setVerse (cols : List (Option Str)) (i : Nat) (tok : Str) : List (Option Str) :=
  if i = cols.length then cols ++ [some tok]
  else if i < cols.length then cols.set i (some tok)
  else (cols ++ List.replicate (i + 1 - cols.length) none).set i (some tok)

/-- humdrumwriter.py:3225-3304 `_addLyrics`, without labels: the verse columns of the staff after the note. -/
def addLyrics (cols : List (Option Str)) (ls : List NoteLyric) : List (Option Str) :=
  match ls with
  | [] => cols
  | _ =>
    match orderVerses [] ls with
    | none => cols
    | some vs =>
      (vs.zipIdx).foldl (fun cols v =>
        setVerse cols v.2 (match v.1 with | some l => lyricToken l.syllables | none => ['.'])) cols

/-- gridslice.py:588-606: the verse fields of the line: a column without a token gets a null token, up to the
number of verses of the staff. -/
def verseFields (count : Nat) (cols : List (Option Str)) : List Str :=
  cols.map (fun c => c.getD ['.']) ++ List.replicate (count - cols.length) ['.']

/-! ### Import -/

/-- `x` put at the front of the first piece. -/
def consFirst (x : Char) : List Str → List Str
  | [] => [[x]]
  | h :: t => (x :: h) :: t

/-- humdrumfile.py:8089-8101: the loop from the second character on. -/
def elideGo : Str → List Str
  | [] => [[]]
  | [x] => [[x]]
  | x :: y :: r =>
    if (x = ' ' ∨ x = nbsp) ∧ y ≠ '\'' then [] :: elideGo (y :: r) else consFirst x (elideGo (y :: r))

/-- humdrumfile.py:8085-8106: the pieces of a token between elisions.  HTML entities are not decoded here
(theorems exclude `&`), and no text colour marks are declared. -/
def elide (content : Str) : List Str :=
  match content with
  | [] => []
  | c :: r => (consFirst c (elideGo r)).map (replaceAll ['\\', 'n'] ['\n'])

/-- humdrumfile.py:8060-8126: the syllables read from a field; `none` for a null token. -/
def readLyric (field : Str) : Option (List Syllable) :=
  if field = ['.'] ∨ field = [] then none else some ((elide field).map parseSyllable)

/-- humdrumfile.py:7984-8126: the lyrics read from the verse fields, from a verse number on. -/
def readVersesFrom : Nat → List Str → List NoteLyric
  | _, [] => []
  | n, f :: fs =>
    match readLyric f with
    | some ss => ⟨(n : Int) + 1, ss⟩ :: readVersesFrom (n + 1) fs
    | none => readVersesFrom (n + 1) fs

/-- All lyrics of a line. -/
def readVerses (fields : List Str) : List NoteLyric := readVersesFrom 0 fields

/-- What a voice has on a line: a note with its lyrics, or something else (a rest, a null token). -/
inductive VoiceSlot
  | note (lyrics : List NoteLyric)
  | other
deriving DecidableEq, Repr

/-- humdrumwriter.py:2372-2375: what a voice adds to the verse columns of the staff. -/
def voiceLyrics (cols : List (Option Str)) : VoiceSlot → List (Option Str)
  | .note ls => addLyrics cols ls
  | .other => cols

/-- The lyrics of the notes of all voices of a staff, added in the order of the voices. -/
def staffFields (count : Nat) (voices : List VoiceSlot) : List Str :=
  verseFields count (voices.foldl voiceLyrics [])

/-- A voice that gets no lyrics. -/
def muteSlot : VoiceSlot → VoiceSlot
  | .note _ => .note []
  | .other => .other

/-- humdrumfile.py:7972-7978 and humdrumtoken.py:2296-2317: only the first voice with a note gets the lyrics. -/
def giveLyrics (fields : List Str) : List VoiceSlot → List VoiceSlot
  | [] => []
  | .note _ :: rest => .note (readVerses fields) :: rest.map muteSlot
  | .other :: rest => .other :: giveLyrics fields rest

/-! ### Verse labels -/

/-- The characters with a meaning in regular expressions. -/
def isRegexChar (c : Char) : Bool := ".^$*+?{}[]\\|()".toList.contains c

/-- humdrumfile.py:8144-8151: `re.search(contents, r'^\d+$')` looks for the label, as a pattern, in the text
`^\d+$`.  Modelled for labels without special characters, and for labels whose only special character is a
closing parenthesis (`re.error`); `none` otherwise. -/
def labelText (label : Str) : Option (Except PyErr Str) :=
  if label.all (fun c => !isRegexChar c) then
    some (.ok (if isInfix label "^\\d+$".toList then label ++ ['.'] else label))
  else if label.all (fun c => !isRegexChar c || c == ')') then some (.error .valueError)
  else none

/-- humdrumwriter.py:3288-3290: the label token. -/
def labelToken (label : Str) : Str := "*v:".toList ++ label

/-- humdrumfile.py:8133-8151: `_getVerseLabelText` on a token. -/
def readLabel (token : Str) : Option (Except PyErr Str) :=
  if startsWith token "*v:".toList then labelText (token.drop 3) else some (.ok [])

end C21
