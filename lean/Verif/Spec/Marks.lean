import Verif.Model.Marks
import Mathlib.Data.List.Chain
/-
Spec for C73, C74.
-/
namespace C21

/-- C73: how a tuplet looks: without number it has no bracket either. First: is the number hidden? Second: the bracket? -/
def TupletStart.look (e : TupletStart) : Bool × Bool :=
  match e.hideNum with
  | true => (true, true)
  | false => (false, e.hideBracket)

/-- How the tuplets of a measure look, voice by voice. -/
def looks (n : Nat) (m : List TupletStart) : List (List (Bool × Bool)) :=
  (List.range n).map (fun v => (m.filter (fun e => e.voice = v)).map TupletStart.look)

/-- The tuplets of a measure begin in the order of their voices. So it is when only one voice of the measure has tuplets. -/
def VoicesInOrder (m : List TupletStart) : Prop := m.Pairwise (fun a b => a.voice ≤ b.voice)

/-- C74: the times of a mark. -/
def PedalMark.times (m : PedalMark) : List Rat := m.start :: m.bounces.map Prod.fst ++ m.stop.toList

/-- The marks have ends, and everything about them happens at different times, one mark after the other. -/
structure Spaced (ms : List PedalMark) : Prop where
  ends : ∀ m ∈ ms, m.stop.isSome
  apart : (ms.flatMap PedalMark.times).Pairwise (· < ·)

/-- A token about the pedal. -/
def isPedalTok (t : Str) : Prop := t = "*ped".toList ∨ t = "*Xped".toList

instance (t : Str) : Decidable (isPedalTok t) := inferInstanceAs (Decidable (_ ∨ _))

/-- Tokens of a layer with `toks` about the pedal: between them other tokens may stand, times never go down. -/
structure LayerWith (toks layer : List (Rat × Str)) : Prop where
  sorted : (layer.map Prod.fst).Pairwise (· ≤ ·)
  pedals : layer.filter (fun x => isPedalTok x.2) = toks

end C21
