import Verif.Model.NoteTexts
/-
Spec for C131: the texts attached to a note.
-/
namespace C21

/-- The elements of a kind that are attached to a note: with a text, and not a fingering. -/
def attached (els : List TextEl) (id : Str) (k : TextKind) : List TextEl :=
  els.filter (fun e => e.startId = id ∧ e.kind = k ∧ e.text ≠ [] ∧ ¬ (k = .dir ∧ e.fingering = true))

/-- What should be made of a direction or a dynamic: its kind, its text with brackets if it has them, and its styles. -/
def textAsRead (e : TextEl) : TextRead :=
  ⟨e.kind,
   (match e.enclose with
    | .paren => '(' :: ' ' :: e.text ++ [' ', ')']
    | .brack => '[' :: ' ' :: e.text ++ [' ', ']']
    | .no => e.text),
   [(.place, e.field .place), (.fontStyle, e.field .fontStyle), (.fontWeight, e.field .fontWeight), (.fontFamily, e.field .fontFamily),
    (.justify, e.field .justify), (.enclosure, e.field .enclosure)]⟩

end C21
