import Verif.Model.MeiFermatas
import Verif.Spec.MeiFermatas
import Verif.Props.Arpeggios
/-
C136: fermatas attached to a note in an MEI file are found at the note.
-/
namespace C21

theorem ferm_others (es : List FermEl) (id : Str) (st : Option FermAttrs) (h : ∀ b ∈ es, ¬ refersTo b.startRef id) : es.foldl (fermStep id) st = st := by
  induction es generalizing st with
  | nil => rfl
  | cons b bs ih =>
    have hb : fermStep id st b = st := by
      unfold fermStep
      split
      · rfl
      · rw [if_neg (fun g => h b (by simp) ((strip_iff _ _).1 g))]
    rw [List.foldl_cons, hb]
    exact ih st (fun c hc => h c (by simp [hc]))

theorem ferm_build_as (e : FermEl) (h : e.Standard) : FermAs e (fermBuild ⟨e.place.getD "above".toList, e.form, e.shape⟩) := by
  obtain ⟨r, p, f, s⟩ := e
  obtain ⟨hp, hf, hs⟩ := h
  simp only [List.mem_cons, List.not_mem_nil, or_false] at hp hf hs
  rcases hp with rfl | rfl | rfl <;> rcases hf with rfl | rfl | rfl <;> rcases hs with rfl | rfl | rfl | rfl <;>
    constructor <;> simp [fermBuild, fermType1]

/-- C136: a note with one fermata element gets the fermata this element describes. -/
theorem fermata_found_partial (pre post : List FermEl) (e : FermEl) (id : Str) (hr : refersTo e.startRef id) (h0 : id ≠ [])
    (hpre : ∀ b ∈ pre, ¬ refersTo b.startRef id) (hpost : ∀ b ∈ post, ¬ refersTo b.startRef id) (hs : e.Standard) :
    ∃ o, fermRead (pre ++ e :: post) id = some o ∧ FermAs e o := by
  refine ⟨_, ?_, ferm_build_as e hs⟩
  have hid := (strip_iff _ _).2 hr
  unfold fermRead fermAttrs
  rw [List.foldl_append, ferm_others pre id none hpre, List.foldl_cons, ferm_others post id _ hpost]
  have hv : ∀ x : Str, (if x = [] then [] else x) = x := by
    intro x
    split
    · rename_i h; exact h.symm
    · rfl
  unfold fermStep
  rw [hid, if_neg h0, if_pos rfl]
  simp only [Option.elim_none, hv, Option.map_some]

/-- C136: a note without a fermata element gets none. -/
theorem no_fermata (es : List FermEl) (id : Str) (h : ∀ b ∈ es, ¬ refersTo b.startRef id) : fermRead es id = none := by
  unfold fermRead fermAttrs
  rw [ferm_others es id none h]
  rfl

/-- C136: whatever elements there are, a note gets a fermata exactly if some element names it. -/
theorem fermata_iff (es : List FermEl) (id : Str) (h0 : id ≠ []) : (∃ o, fermRead es id = some o) ↔ ∃ e ∈ es, refersTo e.startRef id := by
  have key : ∀ (l : List FermEl) (st : Option FermAttrs), (l.foldl (fermStep id) st).isSome = true ↔ st.isSome = true ∨ ∃ e ∈ l, refersTo e.startRef id := by
    intro l
    induction l with
    | nil => intro st; simp
    | cons b bs ih =>
      intro st
      rw [List.foldl_cons, ih]
      by_cases hb : refersTo b.startRef id
      · have hid := (strip_iff _ _).2 hb
        have h1 : (fermStep id st b).isSome = true := by
          unfold fermStep
          rw [hid, if_neg h0, if_pos rfl]
          rfl
        simp [h1, hb]
      · have h1 : fermStep id st b = st := ferm_others [b] id st (by simpa using hb)
        simp [h1, hb]
  unfold fermRead fermAttrs
  rw [← Option.isSome_iff_exists, Option.isSome_map, key]
  simp

/-! ## Where the claim is false -/

/-- Of two fermatas at a note, above and below, there is only one, with the form and shape of the other. -/
theorem second_fermata_breaks :
    fermRead [⟨"#a".toList, none, "norm".toList, "square".toList⟩, ⟨"#a".toList, some "below".toList, [], []⟩] "a".toList =
      some ⟨"upright".toList, "square".toList, some "below".toList⟩ := by
  decide +kernel

/-! ## The hypotheses are met -/

example : (⟨"#a".toList, some "below".toList, [], "angular".toList⟩ : FermEl).Standard := ⟨by decide, by decide, by decide⟩

example : fermRead [⟨"#b".toList, none, "inv".toList, []⟩, ⟨"#a".toList, some "below".toList, [], "angular".toList⟩, ⟨[], none, [], []⟩] "a".toList =
    some ⟨"inverted".toList, "angled".toList, some "below".toList⟩ := by
  decide +kernel

end C21
