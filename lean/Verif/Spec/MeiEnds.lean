import Verif.Model.MeiEnds
import Verif.Spec.Arpeggios
/-
Spec for C133: hairpins and octave lines and their two notes.
-/
namespace C21

/-- What a hairpin with this form is. -/
inductive HairSpec : TwoEl → Str → Prop where
  | cresc (s t x : Str) : HairSpec ⟨s, t, "cres".toList, x⟩ "Crescendo".toList
  | dim (s t x : Str) : HairSpec ⟨s, t, "dim".toList, x⟩ "Diminuendo".toList

/-- The octave lines there are: distance, side and music21's name. -/
inductive OttSpec : TwoEl → Str → Prop where
  | va (s t : Str) : OttSpec ⟨s, t, "8".toList, "above".toList⟩ "8va".toList
  | vb (s t : Str) : OttSpec ⟨s, t, "8".toList, "below".toList⟩ "8vb".toList
  | ma (s t : Str) : OttSpec ⟨s, t, "15".toList, "above".toList⟩ "15ma".toList
  | mb (s t : Str) : OttSpec ⟨s, t, "15".toList, "below".toList⟩ "15mb".toList
  | da (s t : Str) : OttSpec ⟨s, t, "22".toList, "above".toList⟩ "22da".toList
  | db (s t : Str) : OttSpec ⟨s, t, "22".toList, "below".toList⟩ "22db".toList

/-- Of the elements that make a spanner, only number `i` starts at note `s`, and only number `i` ends at note `t`. -/
def OwnEnds (kind : TwoEl → Option Str) (es : List TwoEl) (i : Nat) (s t : Str) : Prop :=
  ∀ (j : Nat) (b : TwoEl) (k : Str), es[j]? = some b → kind b = some k → (refersTo b.startRef s ∨ refersTo b.endRef t) → j = i

end C21
