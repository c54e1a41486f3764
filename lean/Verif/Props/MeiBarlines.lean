import Verif.Model.MeiBarlines
import Mathlib.Tactic.Tauto
/-
C79: bar lines survive MEI export and import.
-/
namespace C21

/-! ## Specification -/

/-- The bar line types of music21 (music21/bar.py). -/
def m21BarTypes : List String :=
  ["regular", "dotted", "dashed", "heavy", "double", "final", "heavy-light", "heavy-heavy", "tick", "short", "none"]

/-- The bar lines that MEI can hold and that come back. -/
def MeiKnows (b : MBar) : Prop :=
  b ∈ [MBar.plain "regular", .plain "dotted", .plain "dashed", .plain "double", .plain "final", .plain "none", .rpt "end"]

/-- A bar line between two measures that MEI's single attribute can hold: any known right bar line with nothing special to its
right, or a start repeat to the right of nothing special or of an end repeat. -/
def Boundary (right left : Option MBar) : Prop :=
  (∀ b ∈ right, MeiKnows b) ∧
  ((left = none ∨ left = some (.plain "regular")) ∨
   left = some (.rpt "start") ∧ (right = none ∨ right = some (.plain "regular") ∨ right = some (.rpt "end")))

/-- Every place between two measures is a `Boundary`. -/
def Boundaries : List MMeasure → Prop
  | [] => True
  | [m] => Boundary m.right none
  | m :: n :: rest => Boundary m.right n.left ∧ Boundaries (n :: rest)

/-- What is drawn: a regular left bar line is nothing, no right bar line is a regular one. -/
def drawnLeft (b : Option MBar) : Option MBar := if b = some (.plain "regular") then none else b
def drawnRight (b : Option MBar) : Option MBar := some (b.getD (.plain "regular"))
def drawn (m : MMeasure) : MMeasure := ⟨drawnLeft m.left, drawnRight m.right⟩

/-! ## Theorems -/

/-- The values the writer produces for one bar line, and `rptboth`. -/
def barAttrs : List String := ["", "heavy", "dotted", "dashed", "dbl", "end", "invis", "rptstart", "rptend", "rptboth"]

/-- C79: combining simultaneous bar lines does not depend on their order … -/
theorem barCombine_comm : ∀ a ∈ barAttrs, ∀ b ∈ barAttrs, barCombine a b = barCombine b a := by decide
/-- … or grouping, … -/
theorem barCombine_assoc : ∀ a ∈ barAttrs, ∀ b ∈ barAttrs, ∀ c ∈ barAttrs,
    barCombine (barCombine a b) c = barCombine a (barCombine b c) := by decide +kernel
/-- … nothing special changes nothing, … -/
theorem barCombine_empty : ∀ a ∈ barAttrs, barCombine "" a = a ∧ barCombine a "" = a ∧ barCombine a a = a := by decide
/-- … and, unless the bar line is invisible, repeats on either side are all kept. -/
theorem barCombine_repeats : ∀ a ∈ barAttrs, ∀ b ∈ barAttrs, a ≠ "invis" → b ≠ "invis" →
    ((barCombine a b = "rptstart" ∨ barCombine a b = "rptboth") ↔
      (a = "rptstart" ∨ a = "rptboth" ∨ b = "rptstart" ∨ b = "rptboth")) ∧
    ((barCombine a b = "rptend" ∨ barCombine a b = "rptboth") ↔
      (a = "rptend" ∨ a = "rptboth" ∨ b = "rptend" ∨ b = "rptboth")) := by decide

theorem boundary_read (right left : Option MBar) (h : Boundary right left) :
    ∃ a, barsToAttr right left = .ok a ∧ readRight a = (right.getD (.plain "regular"), drawnLeft left) := by
  have hr : right = none ∨ ∃ b, right = some b ∧ MeiKnows b := by
    cases right with
    | none => left; rfl
    | some b => right; exact ⟨b, rfl, h.1 b rfl⟩
  rcases h.2 with (rfl | rfl) | ⟨rfl, rfl | rfl | rfl⟩
  · rcases hr with rfl | ⟨b, rfl, hb⟩
    · exact ⟨_, rfl, by decide⟩
    · unfold MeiKnows at hb
      simp only [List.mem_cons, List.not_mem_nil, or_false] at hb
      rcases hb with rfl | rfl | rfl | rfl | rfl | rfl | rfl <;> exact ⟨_, rfl, by decide⟩
  · rcases hr with rfl | ⟨b, rfl, hb⟩
    · exact ⟨_, rfl, by decide⟩
    · unfold MeiKnows at hb
      simp only [List.mem_cons, List.not_mem_nil, or_false] at hb
      rcases hb with rfl | rfl | rfl | rfl | rfl | rfl | rfl <;> exact ⟨_, rfl, by decide⟩
  · exact ⟨_, rfl, by decide⟩
  · exact ⟨_, rfl, by decide⟩
  · exact ⟨_, rfl, by decide⟩

/-- The measures after the first, with the pending left bar line. -/
theorem writeRights_read : ∀ (ms : List MMeasure), Boundaries ms →
    ∃ rs, writeRights ms = .ok rs ∧ ∀ pending : Option MBar,
      readBars pending (rs.map fun r => ⟨"", r⟩) = match ms with
        | [] => []
        | m :: rest => ⟨pending, drawnRight m.right⟩ :: rest.map drawn := by
  intro ms
  induction ms with
  | nil => intro _; exact ⟨[], rfl, fun _ => rfl⟩
  | cons m rest ih =>
    intro h
    have hl : readLeft "" = none := by decide
    cases rest with
    | nil =>
      obtain ⟨a, h1, h2⟩ := boundary_read _ _ h
      refine ⟨[a], by rw [writeRights, h1], fun pending => ?_⟩
      simp only [List.map_cons, List.map_nil, readBars, hl, Option.or_none, h2, drawnRight]
    | cons n rest =>
      obtain ⟨a, h1, h2⟩ := boundary_read _ _ h.1
      obtain ⟨rs, h3, h4⟩ := ih h.2
      refine ⟨a :: rs, by rw [writeRights, h1]; simp only [h3], fun pending => ?_⟩
      simp only [List.map_cons, readBars, hl, Option.or_none, h2, h4]
      rfl

theorem firstLeft_read (l : Option MBar) (h : ∀ b ∈ l, MeiKnows b ∨ b = .rpt "start") :
    ∃ a, barToAttr l = .ok a ∧ readLeft a = drawnLeft l := by
  cases l with
  | none => exact ⟨_, rfl, by decide⟩
  | some b =>
    have := h b rfl
    unfold MeiKnows at this
    simp only [List.mem_cons, List.not_mem_nil, or_false, or_assoc] at this
    rcases this with rfl | rfl | rfl | rfl | rfl | rfl | rfl | rfl <;> exact ⟨_, rfl, by decide⟩

/-- C79, the part that holds: for a score of any length in which each place between measures needs one MEI bar line only, the
export succeeds and every measure gets its bar lines back. It is false for other bar lines: see `heavy_barline_lost`,
`tick_barline_fails`, `invisible_repeat_lost`, `double_barline_at_repeat_lost`. -/
theorem barlines_round_trip_partial (ms : List MMeasure) (h : Boundaries ms)
    (hf : ∀ m ∈ ms.head?, ∀ b ∈ m.left, MeiKnows b ∨ b = .rpt "start") :
    ∃ w, writeBars ms = .ok w ∧ readBars none w = ms.map drawn := by
  obtain ⟨rs, h1, h2⟩ := writeRights_read ms h
  cases ms with
  | nil =>
    rw [writeRights] at h1
    cases h1
    exact ⟨[], by simp [writeBars, barToAttr, writeRights, withFirstLeft], rfl⟩
  | cons m rest =>
    obtain ⟨a, h3, h4⟩ := firstLeft_read m.left (hf m rfl)
    refine ⟨withFirstLeft a rs, ?_, ?_⟩
    · unfold writeBars
      simp only [List.head?_cons, Option.bind_some, h3, h1]
    · cases rs with
      | nil => have := h2 none; simp [readBars] at this
      | cons r rs =>
        have := h2 none
        simp only [List.map_cons, readBars, List.cons.injEq, MMeasure.mk.injEq] at this
        simp only [withFirstLeft, readBars, Option.none_or, h4, List.map_cons, List.cons.injEq]
        refine ⟨?_, this.2⟩
        unfold drawn
        rw [this.1.2]

/-- A repeated section of two measures, then another, then the final bar. -/
def sampleBars : List MMeasure :=
  [⟨some (.rpt "start"), none⟩, ⟨none, some (.rpt "end")⟩, ⟨some (.rpt "start"), some (.plain "double")⟩,
   ⟨some (.plain "regular"), some (.rpt "end")⟩, ⟨none, some (.plain "final")⟩]

example : Boundaries sampleBars := by
  refine ⟨⟨by simp [sampleBars], by decide⟩, ⟨?_, by decide⟩, ⟨?_, by decide⟩, ⟨?_, by decide⟩, ⟨?_, by decide⟩⟩ <;>
  · intro b hb; cases hb; unfold MeiKnows; decide
example : (writeBars sampleBars).toOption.map (readBars none) = some (sampleBars.map drawn) := by decide

/-- C79 is false: a heavy bar line is written as `heavy` and read as a regular one. -/
theorem heavy_barline_lost :
    writeBars [⟨none, some (.plain "heavy")⟩] = .ok [⟨"", "heavy"⟩] ∧
    readBars none [⟨"", "heavy"⟩] = [⟨none, some (.plain "regular")⟩] := ⟨rfl, by decide⟩

/-- C79 is false: the export of a tick, short or heavy-heavy bar line raises KeyError. -/
theorem tick_barline_fails : ∀ t ∈ ["tick", "short", "heavy-heavy"],
    t ∈ m21BarTypes ∧ writeBars [⟨none, some (.plain t)⟩] = .error .keyError := by
  intro t ht
  simp only [List.mem_cons, List.not_mem_nil, or_false] at ht
  rcases ht with rfl | rfl | rfl <;> exact ⟨by decide, rfl⟩

/-- C79 is false: a repeat that starts at an invisible bar line is lost. -/
theorem invisible_repeat_lost :
    writeBars [⟨none, some (.plain "none")⟩, ⟨some (.rpt "start"), none⟩] = .ok [⟨"", "invis"⟩, ⟨"", ""⟩] ∧
    readBars none [⟨"", "invis"⟩, ⟨"", ""⟩] = [⟨none, some (.plain "none")⟩, ⟨none, some (.plain "regular")⟩] := ⟨rfl, by decide⟩

/-- C79 is false: a double bar line where a repeat starts becomes a regular one. -/
theorem double_barline_at_repeat_lost :
    writeBars [⟨none, some (.plain "double")⟩, ⟨some (.rpt "start"), none⟩] = .ok [⟨"", "rptstart"⟩, ⟨"", ""⟩] ∧
    readBars none [⟨"", "rptstart"⟩, ⟨"", ""⟩] = [⟨none, some (.plain "regular")⟩, ⟨some (.rpt "start"), some (.plain "regular")⟩] :=
  ⟨rfl, by decide⟩

/-- A regular or heavy-light bar line is always written as nothing, and every other type of music21 is either written as itself or
refused: the export fails exactly for three types. -/
theorem barline_export_total (t : String) (h : t ∈ m21BarTypes) :
    barToAttr (some (.plain t)) = .error .keyError ↔ t ∈ ["tick", "short", "heavy-heavy"] := by
  unfold m21BarTypes at h
  simp only [List.mem_cons, List.not_mem_nil, or_false] at h
  rcases h with rfl | rfl | rfl | rfl | rfl | rfl | rfl | rfl | rfl | rfl | rfl
  all_goals first
    | exact ⟨fun _ => by decide, fun _ => rfl⟩
    | exact ⟨(fun h => by cases h), fun h => absurd h (by decide)⟩

end C21
