import Verif.Model.MeiTree
/-
What it means to search an element tree, and what the text of an element is.
-/
namespace C21
namespace MeiEl

mutual
/-- Everything below an element, in the order of the document. -/
def docOrder : MeiEl → List MeiEl
  | mk _ _ _ _ subs => docOrderIn subs
def docOrderIn : List MeiEl → List MeiEl
  | [] => []
  | s :: ss => s :: docOrder s ++ docOrderIn ss
end

/-- `n` is the tag without its namespace. -/
def LocalName (t n : Str) : Prop :=
  (∃ ns : Str, t = '{' :: ns ++ '}' :: n ∧ '}' ∉ n) ∨ (t = n ∧ (t.head? ≠ some '{' ∨ '}' ∉ t))

/-- The element without the text that follows it. -/
def noTail : MeiEl → MeiEl
  | mk tag attrib text _ subs => mk tag attrib text [] subs
end MeiEl
open MeiEl

/-- An element answers to `*`, to its whole tag and to its local name. -/
def Answers (q : Str) (e : MeiEl) : Prop := q = ['*'] ∨ q = e.tag ∨ LocalName e.tag q

/-- The element has the attribute with this name (in any namespace, written `{uri}name`) and value. -/
def HasAttribute (key value : Str) (e : MeiEl) : Prop :=
  ∃ a, LocalName a key ∧ (a, value) ∈ e.attrib

/-- White space that begins a new line is the layout of the file, not text. -/
def LayoutOnly (s : Str) : Prop := s.head? = some '\n' ∧ ∀ c ∈ s, isPySpace c = true

/-- `v` is what a reader sees of the characters `s`. -/
def Visible (s v : Str) : Prop := (LayoutOnly s ∧ v = []) ∨ (¬ LayoutOnly s ∧ v = s)

/-- `c` is the first of the elements with the local name `n`. -/
def FirstNamed (n : String) (subs : List MeiEl) (c : MeiEl) : Prop :=
  ∃ before after, subs = before ++ c :: after ∧ MeiEl.LocalName c.tag n.toList ∧
    ∀ b ∈ before, ¬ MeiEl.LocalName b.tag n.toList

def NoneNamed (n : String) (subs : List MeiEl) : Prop :=
  ∀ b ∈ subs, ¬ MeiEl.LocalName b.tag n.toList

/-- The reading of an `app`: its lemma, or else its first reading. The reading of a `choice`: the correction, or
else the regularisation, or else the first alternative. -/
inductive Reading : Str → List MeiEl → MeiEl → Prop
  | lem {subs c} : FirstNamed "lem" subs c → Reading "app".toList subs c
  | rdg {subs c} : NoneNamed "lem" subs → FirstNamed "rdg" subs c → Reading "app".toList subs c
  | corr {subs c} : FirstNamed "corr" subs c → Reading "choice".toList subs c
  | reg {subs c} : NoneNamed "corr" subs → FirstNamed "reg" subs c → Reading "choice".toList subs c
  | first {c rest} : NoneNamed "corr" (c :: rest) → NoneNamed "reg" (c :: rest) →
      Reading "choice".toList (c :: rest) c

/-- What stands for the element itself: a new line, a glyph, or nothing. -/
inductive Lead (g : Glyphs) (n : Str) (attrib : List (Str × Str)) : Str → Prop
  | lb : n = "lb".toList → Lead g n attrib ['\n']
  | symbol : n = "symbol".toList → Lead g n attrib (g attrib)
  | other : n ≠ "lb".toList → n ≠ "symbol".toList → Lead g n attrib []

mutual
/-- `TextOf g e s`: the text of `e` is `s`: its characters and the text of its sub-elements in the order of the
document, with an editorial choice replaced by its reading. -/
inductive TextOf (g : Glyphs) : MeiEl → Str → Prop
  | mk {tag attrib text tail subs v s} : Visible text v → TextIn g subs s → TextOf g (.mk tag attrib text tail subs) (v ++ s)
/-- The text of consecutive sub-elements and of what follows each of them. -/
inductive TextIn (g : Glyphs) : List MeiEl → Str → Prop
  | nil : TextIn g [] []
  | plain {e es n lead s v r} : MeiEl.LocalName e.tag n → n ≠ "app".toList → n ≠ "choice".toList →
      Lead g n e.attrib lead → TextOf g e s → Visible e.tail v → TextIn g es r →
      TextIn g (e :: es) (lead ++ s ++ v ++ r)
  | choice {e es n c s v r} : MeiEl.LocalName e.tag n → Reading n e.subs c → TextOf g c s → Visible e.tail v →
      TextIn g es r → TextIn g (e :: es) (s ++ v ++ r)
  | none {e es n v r} : MeiEl.LocalName e.tag n → n = "app".toList ∨ n = "choice".toList →
      (∀ c, ¬ Reading n e.subs c) → Visible e.tail v → TextIn g es r → TextIn g (e :: es) (v ++ r)
end

mutual
/-- The trees whose text comes out right: editorial elements that are passed through (`add`, `corr`, `sic`, …) have
no elements inside them, and what follows an editorial choice is the same as what follows the reading inside it
(in practice: nothing, or layout). -/
def TextSafe : MeiEl → Prop
  | .mk _ _ _ _ subs => TextSafeIn subs
def TextSafeIn : List MeiEl → Prop
  | [] => True
  | .mk tag _ _ tail subs :: es =>
    (∀ n, MeiEl.LocalName tag n →
      (n ∈ ["add", "corr", "damage", "expan", "orig", "reg", "sic", "subst", "supplied", "unclear"].map String.toList →
        subs = []) ∧
      (∀ c, Reading n subs c → (∀ v, Visible c.tail v ↔ Visible tail v)) ∧
      (n = "app".toList ∨ n = "choice".toList → (∀ c, ¬ Reading n subs c) → Visible tail [])) ∧
    TextSafeIn subs ∧ TextSafeIn es
end

end C21
