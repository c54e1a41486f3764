import Mathlib.Algebra.Order.Ring.Unbundled.Rat
import Mathlib.Tactic.Linarith
import Verif.Model.NullHoles
import Verif.Spec.NullHoles
/-
C130: holes in the grid of the Humdrum writer are filled with invisible rests.
-/
namespace C21

theorem fillHoles_get (xs : List HoleSlice) (i : Nat) (x : HoleSlice) (h : xs[i]? = some x) :
    (fillHoles xs)[i]? = some (fillHoleSlice x (xs.drop (i + 1))) := by
  induction xs generalizing i with
  | nil => simp at h
  | cons y xs ih =>
    cases i with
    | zero =>
      simp only [List.getElem?_cons_zero, Option.some.injEq] at h
      subst h
      simp [fillHoles]
    | succ i =>
      simp only [List.getElem?_cons_succ] at h
      simp only [fillHoles, List.getElem?_cons_succ, List.drop_succ_cons]
      exact ih i h

theorem fill_place (x : HoleSlice) (later : List HoleSlice) (p s v : Nat) :
    (fillHoleSlice x later).place p s v = (x.place p s v).map (fun w => if x.note then fillVoice x.dur later p s v w else w) := by
  unfold fillHoleSlice HoleSlice.place
  cases hn : x.note with
  | false => simp
  | true =>
    simp only [if_true, List.getElem?_mapIdx]
    cases x.parts[p]? with
    | none => rfl
    | some part =>
      simp only [Option.map_some, Option.bind_some, List.getElem?_mapIdx]
      cases part[s]? with
      | none => rfl
      | some staff => simp only [Option.map_some, Option.bind_some, List.getElem?_mapIdx]

/-- C130: no slice is added, lost or changed in its kind and its duration, and every place that was there is there: a
token stays the same; a hole of a note slice becomes a rest; other holes stay. -/
theorem holes_filled (xs : List HoleSlice) :
    (fillHoles xs).length = xs.length ∧ ∀ (i : Nat) (x : HoleSlice), xs[i]? = some x → ∃ y, (fillHoles xs)[i]? = some y ∧
      y.note = x.note ∧ y.dur = x.dur ∧ ∀ p s v,
        (x.place p s v = none → y.place p s v = none) ∧
        (∀ t, x.place p s v = some (some t) → y.place p s v = some (some t)) ∧
        (x.place p s v = some none → x.note = true → ∃ d, y.place p s v = some (some (.rest d))) ∧
        (x.place p s v = some none → x.note = false → y.place p s v = some none) := by
  constructor
  · induction xs with
    | nil => rfl
    | cons x xs ih => simp [fillHoles, ih]
  · intro i x hx
    refine ⟨_, fillHoles_get xs i x hx, ?_, ?_, ?_⟩
    · unfold fillHoleSlice; split <;> rfl
    · unfold fillHoleSlice; split <;> rfl
    · intro p s v
      rw [fill_place]
      refine ⟨fun h => by rw [h]; rfl, fun t h => ?_, fun h hn => ?_, fun h hn => ?_⟩
      · rw [h]; cases x.note <;> rfl
      · rw [h, hn]; exact ⟨_, rfl⟩
      · rw [h, hn]; rfl

theorem place_some (q : HoleSlice) (p s v : Nat) : (q.place p s v).isSome = true ↔ v < ((q.parts.getD p []).getD s []).length := by
  unfold HoleSlice.place
  rw [List.getD_eq_getElem?_getD, List.getD_eq_getElem?_getD]
  cases q.parts[p]? with
  | none => simp
  | some part =>
    simp only [Option.bind_some, Option.getD_some]
    cases part[s]? with
    | none => simp
    | some staff => simp

theorem holeDur_spec (p s v : Nat) (qs : List HoleSlice) : ∀ (d : Rat), NotLast p s qs → NextToo p s v qs →
    holeDur p s v d qs = d + timeWithout p s v qs := by
  induction qs with
  | nil => intro d _ _; simp [holeDur, timeWithout]
  | cons q qs ih =>
    intro d h1 h2
    have ihx := fun d => ih d (fun x hx => h1 x (by simp [hx])) (fun x hx => h2 x (by simp [hx]))
    rw [holeDur, timeWithout]
    cases hn : q.note with
    | false => simp only [if_true, Bool.false_eq_true, if_false, ihx]
    | true =>
      obtain ⟨g1, g2⟩ := h1 q (by simp) hn
      have e1 : ¬ q.parts.length - 1 ≤ p := by omega
      have e2 : ¬ (q.parts.getD p []).length - 1 ≤ s := by omega
      simp only [if_neg e1, if_neg e2, if_true]
      have h3 := h2 q (by simp) hn
      rw [place_some, place_some] at h3
      simp only [place_some]
      by_cases hv : v < ((q.parts.getD p []).getD s []).length
      · have h4 := h3 hv
        have e3 : ¬ ((q.parts.getD p []).getD s []).length - 1 ≤ v := by omega
        simp only [if_neg e3, if_pos hv]
        simp
      · have e3 : ((q.parts.getD p []).getD s []).length - 1 ≤ v := by omega
        simp only [if_pos e3, if_neg hv, ihx]
        simp only [Bool.true_eq_false, if_false]
        linarith

/-- C130: a rest that fills a hole lasts until the next note slice that has the voice, if the staff is neither in the last
part nor the last of its part and the voice is never the last of the staff. -/
theorem hole_duration_partial (xs : List HoleSlice) (i : Nat) (x : HoleSlice) (hx : xs[i]? = some x) (hn : x.note = true) (p s v : Nat)
    (hh : x.place p s v = some none) (h1 : NotLast p s (xs.drop (i + 1))) (h2 : NextToo p s v (xs.drop (i + 1))) :
    ∃ y, (fillHoles xs)[i]? = some y ∧ y.place p s v = some (some (.rest (x.dur + timeWithout p s v (xs.drop (i + 1))))) := by
  refine ⟨_, fillHoles_get xs i x hx, ?_⟩
  rw [fill_place, hh, hn]
  simp only [Option.map_some, if_true, fillVoice, holeDur_spec p s v _ x.dur h1 h2]

/-! ## Where the claim is false -/

/-- A hole in the last part, or in the last staff of its part, lasts only as long as its own slice, however long
the voice is missing. -/
theorem last_staff_breaks (xs : List HoleSlice) (i : Nat) (x : HoleSlice) (hx : xs[i]? = some x) (hn : x.note = true) (p s v : Nat)
    (hh : x.place p s v = some none)
    (hl : ∀ q ∈ xs.drop (i + 1), q.note = true → q.parts.length ≤ p + 1 ∨ (q.parts.getD p []).length ≤ s + 1) :
    ∃ y, (fillHoles xs)[i]? = some y ∧ y.place p s v = some (some (.rest x.dur)) := by
  have key : ∀ (qs : List HoleSlice) (d : Rat), (∀ q ∈ qs, q.note = true → q.parts.length ≤ p + 1 ∨ (q.parts.getD p []).length ≤ s + 1) →
      holeDur p s v d qs = d := by
    intro qs
    induction qs with
    | nil => intro d _; rfl
    | cons q qs ih =>
      intro d h
      have ihx := ih d (fun y hy => h y (by simp [hy]))
      rw [holeDur]
      split
      · exact ihx
      · rename_i hq
        split
        · exact ihx
        · rename_i g1
          split
          · exact ihx
          · rename_i g2
            have := h q (by simp) (by simpa using hq)
            omega
  refine ⟨_, fillHoles_get xs i x hx, ?_⟩
  rw [fill_place, hh, hn]
  simp only [Option.map_some, if_true, fillVoice, key _ x.dur hl]

/-- A hole in the last voice of another staff is taken to last until the end of the piece, although the voice is there
in the next slices: the rest of the first slice lasts 3, and not 1. -/
theorem last_voice_breaks :
    (fillHoles [⟨true, 1, [[[none], []], []]⟩, ⟨true, 1, [[[some (.given ['a'])], []], []]⟩, ⟨true, 1, [[[some (.given ['b'])], []], []]⟩])[0]? =
      some ⟨true, 1, [[[some (.rest 3)], []], []]⟩ := by decide +kernel

/-! ## The hypotheses are met -/

/-- A part with two staves and a second part; the first voice is missing at the start, and not there in the third slice. -/
def holedGrid : List HoleSlice :=
  [⟨true, 1, [[[none, some (.given ['x'])], []], []]⟩, ⟨false, 0, []⟩, ⟨true, 2, [[[], []], []]⟩,
   ⟨true, 1, [[[some (.given ['a']), some (.given ['y'])], []], []]⟩]

example : NotLast 0 0 (holedGrid.drop 1) ∧ NextToo 0 0 0 (holedGrid.drop 1) := by
  constructor
  · intro q hq
    simp [holedGrid] at hq
    rcases hq with rfl | rfl | rfl <;> simp
  · intro q hq
    simp [holedGrid] at hq
    rcases hq with rfl | rfl | rfl <;> simp [HoleSlice.place]

example : (fillHoles holedGrid)[0]? = some ⟨true, 1, [[[some (.rest 3), some (.given ['x'])], []], []]⟩ := by decide +kernel

/-- One part with one staff, as in most scores: the hole at the start lasts 1, although the voice is missing for 3. -/
example : (fillHoles [⟨true, 1, [[[none]]]⟩, ⟨true, 2, [[[]]]⟩])[0]? = some ⟨true, 1, [[[some (.rest 1)]]]⟩ ∧
    1 + timeWithout 0 0 0 [⟨true, 2, [[[]]]⟩] = 3 := by decide +kernel

end C21
