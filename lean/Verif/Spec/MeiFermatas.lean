import Verif.Model.MeiFermatas
import Verif.Spec.Arpeggios
/-
Spec for C136: the fermata an element describes.
-/
namespace C21

/-- The element's values are those of the standard. -/
structure FermEl.Standard (e : FermEl) : Prop where
  place : e.place = none ∨ e.place = some "above".toList ∨ e.place = some "below".toList
  form : e.form ∈ ["".toList, "norm".toList, "inv".toList]
  shape : e.shape ∈ ["".toList, "curved".toList, "angular".toList, "square".toList]

/-- The fermata is the one described: below if the element says so, else above; inverted if the form says so, or if there is
no form and it is below; angled, square or normal as the shape says. -/
structure FermAs (e : FermEl) (o : FermOut) : Prop where
  below : o.placement = some "below".toList ↔ e.place = some "below".toList
  above : o.placement = some "above".toList ↔ e.place ≠ some "below".toList
  inverted : o.type = "inverted".toList ↔ e.form = "inv".toList ∨ (e.form = [] ∧ e.place = some "below".toList)
  upright : o.type = "upright".toList ↔ ¬ (e.form = "inv".toList ∨ (e.form = [] ∧ e.place = some "below".toList))
  angled : o.shape = "angled".toList ↔ e.shape = "angular".toList
  square : o.shape = "square".toList ↔ e.shape = "square".toList
  normal : o.shape = "normal".toList ↔ e.shape = [] ∨ e.shape = "curved".toList

end C21
