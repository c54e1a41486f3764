/-
Model of `M21Utilities.fixupBadBeams` (converter21/shared/m21utilities.py:4067-4179), which repairs the beams of a score.

Simplifications: a note is its name, whether it is left aside (a grace note or a chord symbol) and its beams; a part is
the list of its measures, and a measure the list of its voices, each with its id. The id of the measure itself, used if it has no
voices, is one of the ids. Ids of the voices of one measure are distinct. The code changes notes in place, looking at one
note to change the note before it: every note is changed at most once, when the next one is looked at, and the next one
was not changed by then. So the model changes each note by looking at the next one as it was.
-/
namespace C21

/-- The types of a beam (music21). -/
inductive FBType | start | cont | stop | partialBeam
  deriving DecidableEq, Repr

/-- A beam of a note. -/
structure FBeam where
  num : Nat
  typ : FBType
  deriving DecidableEq, Repr

/-- A note or chord; `aside` for grace notes and chord symbols (m21utilities.py:4110-4121). -/
structure FBNote where
  id : Nat
  aside : Bool
  beams : List FBeam
  deriving DecidableEq, Repr

/-- A voice: its id and its notes. -/
abbrev FBVoice := Nat × List FBNote

/-- A `continue` becomes a `stop` (m21utilities.py:4139-4140, 4147-4148, 4156-4157, 4170-4171). -/
def contToStop (b : FBeam) : FBeam := if b.typ = .cont then { b with typ := .stop } else b

/-- A `stop` becomes a `continue` (m21utilities.py:4162-4163). -/
def stopToCont (b : FBeam) : FBeam := if b.typ = .stop then { b with typ := .cont } else b

/-- A beam of the note before `next` (m21utilities.py:4135-4163); `one` if there is one part. -/
def fixBeamFor (one : Bool) (next : FBNote) (b : FBeam) : FBeam :=
  match next.beams with
  | [] => contToStop b
  | c :: cs =>
    match (c :: cs).find? (fun x => decide (x.num = b.num)) with
    | none => contToStop b
    | some t =>
      if t.typ = .start then contToStop b
      else if t.typ = .stop ∧ one = true then stopToCont b
      else b

/-- The note before `next` (m21utilities.py:4130-4163). -/
def fixNoteFor (one : Bool) (next n : FBNote) : FBNote := { n with beams := n.beams.map (fixBeamFor one next) }

/-- The last note of a voice in the last measure (m21utilities.py:4165-4171). -/
def closeBeams (n : FBNote) : FBNote := { n with beams := n.beams.map contToStop }

/-- The notes that count (m21utilities.py:4107-4121). -/
def countedNotes (ns : List FBNote) : List FBNote := ns.filter (fun n => !n.aside)

/-- A note whose next note in the measure, else after it, is given (m21utilities.py:4123-4178). -/
def fixOneNote (one : Bool) (here after : Option FBNote) (last : Bool) (n : FBNote) : FBNote :=
  match here with
  | some t => fixNoteFor one t n
  | none =>
    match after with
    | some t => fixNoteFor one t n
    | none => if last then closeBeams n else n

/-- A voice (m21utilities.py:4123-4178). `after` is the note with which the voice goes on in a later measure; `last` in
the last measure. -/
def fixVoiceNotes (one : Bool) (after : Option FBNote) (last : Bool) : List FBNote → List FBNote
  | [] => []
  | n :: ns =>
    (if n.aside then n else fixOneNote one (countedNotes ns).head? after last n) :: fixVoiceNotes one after last ns

/-- The notes of a voice of a measure, if it has the voice. -/
def voiceNotes (k : Nat) (m : List FBVoice) : Option (List FBNote) := (m.find? (fun v => decide (v.1 = k))).map (·.2)

/-- The note that finds the last note of the voice remembered (m21utilities.py:4127-4128, 4172-4178): measures without the
voice are passed over; a measure in which the voice has no notes makes it forgotten. -/
def nextInVoice (k : Nat) : List (List FBVoice) → Option FBNote
  | [] => none
  | m :: ms =>
    match voiceNotes k m with
    | none => nextInVoice k ms
    | some ns => (countedNotes ns).head?

/-- The measures of a part (m21utilities.py:4087-4178). -/
def fixPartBeams (one : Bool) : List (List FBVoice) → List (List FBVoice)
  | [] => []
  | m :: ms =>
    m.map (fun v => (v.1, fixVoiceNotes one (nextInVoice v.1 ms) ms.isEmpty v.2)) :: fixPartBeams one ms

/-- `fixupBadBeams` (m21utilities.py:4067-4179). -/
def fixupBeams (parts : List (List (List FBVoice))) : List (List (List FBVoice)) :=
  parts.map (fixPartBeams (decide (parts.length = 1)))

end C21
