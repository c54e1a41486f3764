import Verif.Model.Accidental
/-
Reading printed accidentals (C29). What is on the page: key signatures, barlines, and notes at a staff position with or without a
printed accidental. In force at a position is the last accidental printed there in the measure, else the key signature.
-/
namespace C21

/-- Alteration of a step (0 = c, …, 6 = b) in a key signature `*k[f#c#]`. -/
def keyAlter (text : Str) (step : Nat) : Int :=
  let l := "cdefgab".toList[step]?.getD 'x'
  if isInfix [l, '-'] text then -1 else if isInfix [l, '#'] text then 1 else 0

inductive SeenEvent where
  | key (staff : Nat) (text : Str)
  | bar (staff : Nat)
  /-- A note at staff position `pos` (diatonic steps above C0), the accidental printed, and whether a tie arrives at it. -/
  | note (staff : Nat) (pos : Int) (printed : Option Int) (tied : Bool)

/-- The reader: key signature and accidentals in force, by staff. -/
structure Reader where
  key : Nat → Nat → Int
  force : Nat → Int → Int

/-- Nothing seen: all naturals. -/
def Reader.start : Reader := ⟨fun _ _ => 0, fun _ _ => 0⟩

def Reader.see (R : Reader) : SeenEvent → Reader
  | .key s text => ⟨fun a => if a = s then keyAlter text else R.key a,
                    fun a p => if a = s then keyAlter text (p % 7).toNat else R.force a p⟩
  | .bar s => { R with force := fun a p => if a = s then R.key s (p % 7).toNat else R.force a p }
  | .note s pos (some a) _ => { R with force := fun b p => if b = s ∧ p = pos then a else R.force b p }
  | .note _ _ none _ => R

/-- The alteration the reader gives a note: the one printed; none of its own if a tie arrives; else the one in force. -/
def Reader.reads (R : Reader) : SeenEvent → Option Int
  | .note _ _ (some a) _ => some a
  | .note _ _ none true => none
  | .note s pos none false => some (R.force s pos)
  | _ => none

/-- A subtoken has a pitch, and is not hidden. -/
def onStaff (n : AccNote) : Bool := decide (0 ≤ kernToDiatonicPC n.text) && !isInfix "yy".toList n.text

/-- A tie arrives at the note. -/
def tieArrives (n : AccNote) : Bool := n.text.contains '_' || n.text.contains ']'

/-- The note as printed. -/
def seenNote (r : AccRes) : SeenEvent :=
  .note r.1.track (kernToBase7 r.1.text)
    (if r.2.any (·.visual) then some (kernToAccidentalCount r.1.text) else none) (tieArrives r.1)

/-- What is seen on one line. -/
def seenLine : AccLine → List AccRes → List SeenEvent
  | .interp toks, _ => (toks.filter (fun t => startsWith t.2 "*k[".toList)).map (fun t => .key t.1 t.2)
  | .bar toks, _ => (toks.filter (fun t => !t.2.contains '-')).map (fun t => .bar t.1)
  | .data _, rs => (rs.filter (fun r => onStaff r.1)).map seenNote
  | .other, _ => []

/-- The readings of the events in order. -/
def readings : Reader → List SeenEvent → List (Option Int)
  | _, [] => []
  | R, e :: es => R.reads e :: readings (R.see e) es

/-- The alteration meant by the encoder, in the same form; key signatures and barlines read as nothing, and so does a note without
printed accidental at which a tie arrives. -/
def meant : AccLine → List AccRes → List (Option Int)
  | .interp toks, _ => (toks.filter (fun t => startsWith t.2 "*k[".toList)).map (fun _ => none)
  | .bar toks, _ => (toks.filter (fun t => !t.2.contains '-')).map (fun _ => none)
  | .data _, rs => (rs.filter (fun r => onStaff r.1)).map (fun r =>
      if tieArrives r.1 && !r.2.any (·.visual) then none else some (kernToAccidentalCount r.1.text))
  | .other, _ => []

/-- The alteration in force where each event is. -/
def forces : Reader → List SeenEvent → List Int
  | _, [] => []
  | R, e :: es => (match e with | .note s p _ _ => R.force s p | _ => 0) :: forces (R.see e) es

/-- An accidental is printed that is not marked as cautionary, editorial or asked for by a layout parameter. -/
def plainAccidental (r : AccRes) : Bool :=
  r.2.any (fun o => o.visual && !o.caution) && !r.1.editorial && r.1.layout.isNone

/-- The same accidental is printed at the same position on the same line of the file, earlier in the line. -/
def printedBeside (earlier : List AccRes) (r : AccRes) : Bool :=
  earlier.any (fun q => q.1.track == r.1.track && decide (kernToBase7 q.1.text = kernToBase7 r.1.text) &&
    decide (kernToAccidentalCount q.1.text = kernToAccidentalCount r.1.text) && q.2.any (·.visual))

/-- For the notes of a line: is there a plain accidental that no earlier note of the line explains? -/
def plainMarks : List AccRes → List AccRes → List Bool
  | _, [] => []
  | earlier, r :: rs =>
    if onStaff r.1 then (plainAccidental r && !printedBeside earlier r) :: plainMarks (earlier ++ [r]) rs
    else plainMarks (earlier ++ [r]) rs

def plainLine : AccLine → List AccRes → List Bool
  | .interp toks, _ => (toks.filter (fun t => startsWith t.2 "*k[".toList)).map (fun _ => false)
  | .bar toks, _ => (toks.filter (fun t => !t.2.contains '-')).map (fun _ => false)
  | .data _, rs => plainMarks [] rs
  | .other, _ => []

end C21
