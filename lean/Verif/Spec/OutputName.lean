import Verif.Model.OutputName
/-
Spec for C135: paths with extensions, and the extensions of a format.
-/
namespace C21

/-- A path whose last part is a name: folders that end with `/`, then a name without `/` that is not only dots. -/
def NamedPath (p : Str) : Prop :=
  ∃ d s : Str, p = d ++ s ∧ (d = [] ∨ d.getLast? = some '/') ∧ '/' ∉ s ∧ ∃ c ∈ s, c ≠ '.'

/-- The path is `root.e`: `e` is its extension. -/
def HasExt (p root e : Str) : Prop := NamedPath root ∧ '.' ∉ e ∧ '/' ∉ e ∧ p = root ++ '.' :: e

/-- The extension is registered for the format. -/
def RegisteredExt (subs : List SubConv) (form x : Str) : Prop := ∃ s ∈ subs, form ∈ s.formats ∧ x ∈ s.outExts

/-- Registered extensions are plain. -/
def PlainExts (subs : List SubConv) : Prop := ∀ s ∈ subs, ∀ x ∈ s.outExts, '.' ∉ x ∧ '/' ∉ x

end C21
