import Verif.Model.Arpeggios
/-
Spec for C132: the notes an arpeggio element names.
-/
namespace C21

/-- The element names this reference: in its list, as its start or as its end. -/
def ArpEl.Refers (e : ArpEl) (x : Str) : Prop := x ∈ e.plist ∨ (x = e.startId ∧ e.startId ≠ []) ∨ (x = e.endId ∧ e.endId ≠ [])

/-- A reference to the note with an id: the id, with a `#` before it or without. -/
def refersTo (x id : Str) : Prop := x = '#' :: id ∨ (x = id ∧ id.head? ≠ some '#')

/-- The element names the note with this id. -/
def ArpEl.Names (e : ArpEl) (id : Str) : Prop := ∃ x, e.Refers x ∧ refersTo x id

/-- The element names at least two notes. -/
def ArpEl.Joined (e : ArpEl) : Prop := ∃ a b, e.Names a ∧ e.Names b ∧ a ≠ b

/-- No note is named twice: the list has no reference twice, and none is written once with and once without `#`. -/
def ArpEl.Clean (e : ArpEl) : Prop := e.plist.Nodup ∧ ∀ x y id, e.Refers x → e.Refers y → refersTo x id → refersTo y id → x = y

/-- Arrow and order have values of the standard, or are not there. -/
def ArpEl.Standard (e : ArpEl) : Prop :=
  e.arrow ∈ ["".toList, "false".toList, "true".toList] ∧ e.order ∈ ["".toList, "up".toList, "down".toList, "nonarp".toList]

/-- No note is named by two elements that join notes. -/
def OneJoin (es : List ArpEl) : Prop :=
  ∀ (i j : Nat) (a b : ArpEl) (id : Str), es[i]? = some a → es[j]? = some b → a.Joined → b.Joined → a.Names id → b.Names id → i = j

/-- No note is named by two elements for single notes. -/
def OneMark (es : List ArpEl) : Prop :=
  ∀ (i j : Nat) (a b : ArpEl) (id : Str), es[i]? = some a → es[j]? = some b → ¬ a.Joined → ¬ b.Joined → a.Names id → b.Names id → i = j

/-- The type: no arpeggio if the order says so, else down, else with an arrow up, else normal. -/
def arpTypeSpec (arrow order : Str) : Str :=
  if order = "nonarp".toList then "non-arpeggio".toList
  else if order = "down".toList then "down".toList
  else if arrow = "true".toList then "up".toList
  else "normal".toList

end C21
