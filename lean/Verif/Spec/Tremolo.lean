import Verif.Model.Tremolo
import Verif.Spec.Recip
/-
Independent specification of what a tremolo means (C51).
-/
namespace C21

/-- A note, chord or rest of a spine: is it timed (not a grace note), when does it start, its text. -/
structure CEvent where
  timed : Bool
  time : Rat
  text : Str
  deriving DecidableEq, Repr

def lineEvent (c : Nat) (x : TLine) : Option CEvent :=
  if x.data = true then (x.toks[c]?).bind (fun t => if t = ".".toList then none else some ⟨decide (x.dur ≠ 0), x.time, t⟩) else none

/-- What happens in a column of the file: the tokens of its data lines that are not null. -/
def columnEvents (c : Nat) (l : List TLine) : List CEvent := l.filterMap (lineEvent c)

/-- The lines follow each other in time, and data lines have as many tokens as there are spines. -/
def FileOk (w : Nat) (l : List TLine) : Prop :=
  l.Pairwise (fun a b => a.time + a.dur ≤ b.time) ∧ ∀ x ∈ l, 0 ≤ x.dur ∧ (x.data = true → x.toks.length = w)

/-- At this time some line with notes is sounding. -/
def CoveredAt (l : List TLine) (t : Rat) : Prop := ∃ x ∈ l, x.data = true ∧ x.time ≤ t ∧ t < x.time + x.dur

/-- Text without digits, dots, spaces, the grace note mark, percent signs and tremolo marks. -/
def PlainText (s : Str) : Prop := Inert s ∧ ∀ c ∈ s, c ≠ '%' ∧ c ≠ '@'

/-- A note or chord lasting `d` quarter notes. -/
def HasRhythm (t : Str) (d : Rat) : Prop :=
  ∃ (pre : Str) (b : RBase) (dots : Nat) (suf chord : Str), b.Valid ∧ Inert pre ∧ Inert suf ∧ ChordRest chord ∧
    t = pre ++ b.text ++ List.replicate dots '.' ++ suf ++ chord ∧ d = 4 * b.wholes * (2 - 1 / 2 ^ dots)

/-- `@v@` stands in the text, before any other mark. -/
def MarkedWith (v : Nat) (t : Str) : Prop := ∃ a b, t = a ++ '@' :: natStr v ++ '@' :: b ∧ '@' ∉ a

/-- A note or chord lasting `d` quarter notes to be repeated as notes of value `v`, with the mark on the first or another note of the
chord. -/
def TremoloText (v : Nat) (d : Rat) (t : Str) : Prop :=
  MarkedWith v t ∧ (¬ ∃ a b, t = a ++ "@@".toList ++ b) ∧
  ∃ (pre : Str) (b : RBase) (dots : Nat) (suf mark suf2 chord : Str), b.Valid ∧ PlainText pre ∧ PlainText suf ∧ PlainText suf2 ∧
    (mark = '@' :: natStr v ++ ['@'] ∨ mark = []) ∧ ChordRest chord ∧
    t = pre ++ b.text ++ List.replicate dots '.' ++ suf ++ mark ++ suf2 ++ chord ∧ d = 4 * b.wholes * (2 - 1 / 2 ^ dots)

/-- One of the two notes of a tremolo of two notes, in notes of value `v`. -/
def FingerText (v : Nat) (d : Rat) (t : Str) : Prop :=
  ∃ (pre : Str) (b : RBase) (dots : Nat) (suf suf2 chord : Str), b.Valid ∧ PlainText pre ∧ PlainText suf ∧ PlainText suf2 ∧
    ChordRest chord ∧
    t = pre ++ b.text ++ List.replicate dots '.' ++ suf ++ ("@@".toList ++ natStr v ++ "@@".toList) ++ suf2 ++ chord ∧
    d = 4 * b.wholes * (2 - 1 / 2 ^ dots)

/-- Characters that say how long a note is, or how it is beamed, tied or slurred, or that there is a tremolo. -/
def isOutward (c : Char) : Bool := isDig c || c ∈ ".%@LJKk[_]()<>".toList

/-- The rest: pitches, accidentals, articulations, stems, ... -/
def essence (t : Str) : Str := t.filter (fun c => !isOutward c)

/-- How many of a character there are. -/
def howMany (c : Char) (s : Str) : Nat := (s.filter (fun x => x = c)).length

/-- Beams and ties of note number `k` of `n` notes of value `v` that a note `t` lasting `d` has become. The notes are beamed together,
with as many beams as their value has, if the note was longer than an eighth or was itself beamed. Ties are those of the note, but ties in
the middle and on the other notes are gone. -/
def TremoloMarks (v : Nat) (d : Rat) (t : Str) (n k : Nat) (s : Str) : Prop :=
  (∃ b, 2 ^ (b + 2) ≤ v ∧ v < 2 ^ (b + 3) ∧
    howMany 'L' s = (if k = 0 ∧ (1 / 2 < d ∨ 'L' ∈ t) then b else 0) ∧
    howMany 'J' s = (if k + 1 = n ∧ (1 / 2 < d ∨ 'J' ∈ t) then b else 0)) ∧
  howMany 'K' s = 0 ∧ howMany 'k' s = 0 ∧ howMany '_' s = 0 ∧
  howMany '[' s = (if k = 0 then howMany '[' t else 0) ∧ howMany ']' s = (if k = 0 then howMany ']' t else 0)

/-- The notes of a tremolo: they fill the duration, start one after the other, have the right rhythm and are the same note. -/
def TremoloNotes (v : Nat) (d : Rat) (e : CEvent) (es : List CEvent) : Prop :=
  (es.length : Rat) * (4 / v) = d ∧
  ∀ (k : Nat) (x : CEvent), es[k]? = some x →
    x.timed = true ∧ x.time = e.time + k * (4 / v) ∧ HasRhythm x.text (4 / v) ∧ essence x.text = essence e.text ∧
    TremoloMarks v d e.text es.length k x.text

/-- The notes of a tremolo of two notes: they fill the durations of both, and are the one and the other in turn. -/
def FingerNotes (v : Nat) (d : Rat) (e1 e2 : CEvent) (es : List CEvent) : Prop :=
  (es.length : Rat) * (4 / v) = d + d ∧
  ∀ (k : Nat) (x : CEvent), es[k]? = some x →
    x.timed = true ∧ x.time = e1.time + k * (4 / v) ∧ HasRhythm x.text (4 / v) ∧
    essence x.text = essence (if k % 2 = 0 then e1.text else e2.text)

/-- What becomes of a note: a tremolo is written out, the others stay. -/
def ExpandsTo (e : CEvent) (es : List CEvent) : Prop :=
  (e.timed = true ∧ ∃ v d, TremoloText v d e.text ∧ TremoloNotes v d e es) ∨ ((e.timed = false ∨ '@' ∉ e.text) ∧ es = [e])

/-- Tremolos the tool is made for: of eighth notes or shorter, two of them at least, while the file goes on. -/
def TremoloOk (l : List TLine) (e : CEvent) (v : Nat) (d : Rat) : Prop :=
  TremoloText v d e.text ∧ 8 ≤ v ∧ (∃ n : Nat, 2 ≤ n ∧ d = n * (4 / v)) ∧ ∀ t, e.time ≤ t → t < e.time + d → CoveredAt l t

/-- The notes of a column: each is without a tremolo or with one the tool is made for, during which nothing else happens in the
column. -/
def ColumnOk (l : List TLine) (c : Nat) : Prop :=
  (∀ e ∈ columnEvents c l, e.timed = true → '@' ∉ e.text ∨ ∃ v d, TremoloOk l e v d) ∧
  (columnEvents c l).Pairwise (fun a b => a.time ≤ b.time ∧ ∀ v d, a.timed = true → TremoloText v d a.text → a.time + d ≤ b.time)

end C21
