import Verif.Model.MeiOrnaments
import Verif.Spec.MeiOrnaments
import Verif.Props.Arpeggios
/-
C134: trills, mordents and turns attached to a note in an MEI file are found at the note.
-/
namespace C21

theorem morn_writes_other (e : MOrnEl) (id : Str) (k : MOrnKind) (f : MOrnField) (h : ¬ (e.kind = k ∧ refersTo e.startRef id)) :
    (mornWrites e).filterMap (fun w => if w.1 = (id, k, f) then some w.2 else none) = [] := by
  rw [List.filterMap_eq_nil_iff]
  intro w hw
  have key : w.1.1 = removeHash e.startRef ∧ w.1.2.1 = e.kind := by
    unfold mornWrites at hw
    split at hw
    · cases hw
    · rcases List.mem_cons.1 hw with rfl | hw
      · exact ⟨rfl, rfl⟩
      · obtain ⟨g, -, hg⟩ := List.mem_filterMap.1 hw
        split at hg
        · cases hg
        · cases hg; exact ⟨rfl, rfl⟩
  rw [if_neg]
  intro heq
  rw [heq] at key
  exact h ⟨key.2.symm, (strip_iff _ _).1 key.1.symm⟩

theorem morn_fields_pick (e : MOrnEl) (id : Str) (f : MOrnField) (fs : List MOrnField) :
    ((fs.filterMap (fun g => if mornValue e g = [] then none else some ((id, e.kind, g), mornValue e g))).filterMap
      (fun w => if w.1 = (id, e.kind, f) then some w.2 else none)) = (fs.filter (fun g => decide (g = f ∧ mornValue e f ≠ []))).map (fun _ => mornValue e f) := by
  induction fs with
  | nil => rfl
  | cons g gs ih =>
    by_cases hg : g = f
    · subst hg
      by_cases hv : mornValue e g = []
      · rw [List.filterMap_cons_none (by simp [hv]), ih]
        simp [hv]
      · rw [List.filterMap_cons_some (b := ((id, e.kind, g), mornValue e g)) (by simp [hv]), List.filterMap_cons_some (b := mornValue e g) (by simp), ih]
        simp [hv]
    · by_cases hv : mornValue e g = []
      · rw [List.filterMap_cons_none (by simp [hv]), ih]
        simp [hg]
      · rw [List.filterMap_cons_some (b := ((id, e.kind, g), mornValue e g)) (by simp [hv]), List.filterMap_cons_none (by simp [hg]), ih]
        simp [hg]

theorem morn_writes_own (e : MOrnEl) (id : Str) (f : MOrnField) (hr : refersTo e.startRef id) (h0 : id ≠ []) (hf : f = .place ∨ f ∈ mornFields e.kind) :
    (((mornWrites e).filterMap (fun w => if w.1 = (id, e.kind, f) then some w.2 else none)).getLast?).getD [] = mornValue e f := by
  have hs := (strip_iff _ _).2 hr
  have hall : ∀ l : List Str, (∀ x ∈ l, x = mornValue e f) → (l = [] → mornValue e f = []) → l.getLast?.getD [] = mornValue e f := by
    intro l hl hn
    cases hg : l.getLast? with
    | none => rw [List.getLast?_eq_none_iff] at hg; exact (hn hg).symm
    | some x => exact hl x (List.mem_of_getLast? hg)
  unfold mornWrites
  rw [hs, if_neg h0, List.filterMap_cons]
  by_cases hp : f = .place
  · subst hp
    simp only [if_true]
    rw [morn_fields_pick]
    apply hall
    · intro x hx
      rcases List.mem_cons.1 hx with rfl | hx
      · rfl
      · obtain ⟨_, -, h⟩ := List.mem_map.1 hx
        exact h.symm
    · intro h; cases h
  · have hp' : ¬ ((id, e.kind, MOrnField.place) = (id, e.kind, f)) := fun h => hp (by cases h; rfl)
    simp only [if_neg hp']
    rw [morn_fields_pick]
    apply hall
    · intro x hx
      obtain ⟨_, -, h⟩ := List.mem_map.1 hx
      exact h.symm
    · intro h
      rw [List.map_eq_nil_iff, List.filter_eq_nil_iff] at h
      have := h f (hf.resolve_left hp)
      simpa using this

theorem morn_attr_own (pre post : List MOrnEl) (e : MOrnEl) (id : Str) (f : MOrnField) (hr : refersTo e.startRef id) (h0 : id ≠ [])
    (hpre : ∀ b ∈ pre, ¬ (b.kind = e.kind ∧ refersTo b.startRef id)) (hpost : ∀ b ∈ post, ¬ (b.kind = e.kind ∧ refersTo b.startRef id))
    (hf : f = .place ∨ f ∈ mornFields e.kind) : mornAttr (pre ++ e :: post) id e.kind f = mornValue e f := by
  have hz : ∀ l : List MOrnEl, (∀ b ∈ l, ¬ (b.kind = e.kind ∧ refersTo b.startRef id)) →
      (l.flatMap mornWrites).filterMap (fun w => if w.1 = (id, e.kind, f) then some w.2 else none) = [] := by
    intro l hl
    induction l with
    | nil => rfl
    | cons b bs ih =>
      rw [List.flatMap_cons, List.filterMap_append, morn_writes_other b id e.kind f (hl b (by simp)), ih (fun c hc => hl c (by simp [hc]))]
      rfl
  unfold mornAttr
  rw [List.flatMap_append, List.flatMap_cons, List.filterMap_append, List.filterMap_append, hz pre hpre, hz post hpost, List.nil_append, List.append_nil]
  exact morn_writes_own e id f hr h0 hf

theorem morn_build_congr (acc : Str → Str) (k : MOrnKind) (v w : MOrnField → Str) (h : ∀ f, f = .place ∨ f ∈ mornFields k → v f = w f) :
    mornBuild acc k v = mornBuild acc k w := by
  unfold mornBuild
  rw [h .place (Or.inl rfl)]
  cases k
  · rw [h .accUpper (by simp [mornFields]), h .accLower (by simp [mornFields])]
  · rw [h .form (by simp [mornFields]), h .accUpper (by simp [mornFields]), h .accLower (by simp [mornFields])]
  · rw [h .form (by simp [mornFields]), h .theType (by simp [mornFields]), h .accUpper (by simp [mornFields]), h .accLower (by simp [mornFields]),
      h .delayed (by simp [mornFields])]

theorem morn_place_back (e : MOrnEl) (h : e.Standard) : mornValue e .place ≠ [] ∧ mornPlace (mornValue e .place) = e.place := by
  obtain ⟨-, h1, h2⟩ := h
  unfold mornValue mornPlace
  cases hp : e.place with
  | none => refine ⟨by simp, by simp⟩
  | some p =>
    rw [hp] at h1 h2
    have g1 : p ≠ [] := fun h => h1 (by rw [h])
    have g2 : p ≠ "place_unspecified".toList := fun h => h2 (by rw [h])
    exact ⟨g1, by rw [Option.getD_some, if_pos ⟨g1, g2⟩]⟩

theorem morn_one_accid (acc : Str → Str) (u l : Str) :
    (u ≠ [] → mornOneAccid acc u l = acc u) ∧ (u = [] → l ≠ [] → mornOneAccid acc u l = acc l) ∧ (u = [] → l = [] → mornOneAccid acc u l = []) := by
  unfold mornOneAccid mornAccid
  refine ⟨fun h => by simp [h], fun h g => by simp [h, g], fun h g => by simp [h, g]⟩

theorem mordent_form_cases (form u l : Str) (h : form = [] ∨ form = "upper".toList ∨ form = "lower".toList) :
    (mordentForm form u l = "upper".toList ∧ (form = "upper".toList ∨ (form = [] ∧ u ≠ []))) ∨
    (mordentForm form u l = "lower".toList ∧ ¬ (form = "upper".toList ∨ (form = [] ∧ u ≠ []))) := by
  unfold mordentForm
  rcases h with rfl | rfl | rfl
  · by_cases hu : u = []
    · right; by_cases hl : l = [] <;> simp [hu, hl]
    · left; simp [hu]
  · left; simp
  · right; simp

theorem morn_build_as (acc : Str → Str) (e : MOrnEl) (h : e.Standard) :
    ∃ o, mornBuild acc e.kind (mornValue e) = .ok (some o) ∧ MOrnAs acc e o := by
  obtain ⟨hp0, hp⟩ := morn_place_back e h
  have hf := h.form
  obtain ⟨ha1, ha2, ha3⟩ := morn_one_accid acc e.accUpper e.accLower
  unfold mornBuild
  rw [if_neg hp0]
  cases hk : e.kind with
  | trill =>
    exact ⟨_, rfl, ⟨hk.symm, hp, fun _ => rfl, fun g => by simp [hk] at g, fun g => by simp [hk] at g, fun g => by simp [hk] at g,
      fun g => by simp [hk] at g, fun _ => ha1, fun _ => ha2, fun _ => ha3, by simp [hk]⟩⟩
  | mordent =>
    simp only
    rcases mordent_form_cases e.form e.accUpper e.accLower hf with ⟨g1, g2⟩ | ⟨g1, g2⟩
    · have g1' : mordentForm (mornValue e .form) (mornValue e .accUpper) (mornValue e .accLower) = "upper".toList := g1
      rw [if_pos g1']
      exact ⟨_, rfl, ⟨hk.symm, hp, fun _ => by simp_all, fun _ => ⟨fun _ => g2, fun _ => rfl⟩, fun g => by simp [hk] at g, fun g => by simp [hk] at g,
        fun g => by simp [hk] at g, fun _ => ha1, fun _ => ha2, fun _ => ha3, by simp [hk]⟩⟩
    · have g1' : mordentForm (mornValue e .form) (mornValue e .accUpper) (mornValue e .accLower) = "lower".toList := g1
      rw [g1', if_neg (by decide), if_pos rfl]
      exact ⟨_, rfl, ⟨hk.symm, hp, fun _ => rfl, fun _ => ⟨fun g => by simp at g, fun g => absurd g g2⟩, fun g => by simp [hk] at g,
        fun g => by simp [hk] at g, fun g => by simp [hk] at g, fun _ => ha1, fun _ => ha2, fun _ => ha3, by simp [hk]⟩⟩
  | turn =>
    refine ⟨_, rfl, ⟨hk.symm, hp, fun g => by simp [hk] at g, fun g => by simp [hk] at g, fun _ => ?_, fun _ => rfl, fun _ => rfl,
      fun g => absurd hk g, fun g => absurd hk g, fun g => absurd hk g, ?_⟩⟩
    · rw [decide_eq_true_iff]
      show turnForm e.form e.theType ≠ "upper".toList ↔ _
      unfold turnForm
      rcases hf with g | g | g
      · by_cases ht : e.theType = "slashed".toList
        · simp [g, ht]
        · rw [if_pos g, if_neg ht]
          simp only [g, ht, and_false, or_false]
          decide
      · simp [g]
      · simp [g]
    · rw [decide_eq_true_iff]
      exact ⟨fun g => ⟨hk, g⟩, fun g => g.2⟩

/-- C134: a note to which one element of a kind is attached gets the ornament this element describes, whatever other
elements the file has. -/
theorem ornament_found_partial (acc : Str → Str) (pre post : List MOrnEl) (e : MOrnEl) (id : Str) (hr : refersTo e.startRef id) (h0 : id ≠ [])
    (hpre : ∀ b ∈ pre, ¬ (b.kind = e.kind ∧ refersTo b.startRef id)) (hpost : ∀ b ∈ post, ¬ (b.kind = e.kind ∧ refersTo b.startRef id))
    (hs : e.Standard) : ∃ o, mornRead acc (pre ++ e :: post) id e.kind = .ok (some o) ∧ MOrnAs acc e o := by
  unfold mornRead
  rw [morn_build_congr acc e.kind _ (mornValue e) (fun f hf => morn_attr_own pre post e id f hr h0 hpre hpost hf)]
  exact morn_build_as acc e hs

/-- C134: a note to which no element of a kind is attached gets no ornament of this kind. -/
theorem no_ornament (acc : Str → Str) (es : List MOrnEl) (id : Str) (k : MOrnKind) (h : ∀ b ∈ es, ¬ (b.kind = k ∧ refersTo b.startRef id)) :
    mornRead acc es id k = .ok none := by
  have hz : (es.flatMap mornWrites).filterMap (fun w => if w.1 = (id, k, MOrnField.place) then some w.2 else none) = [] := by
    induction es with
    | nil => rfl
    | cons b bs ih =>
      rw [List.flatMap_cons, List.filterMap_append, morn_writes_other b id k .place (h b (by simp)), ih (fun c hc => h c (by simp [hc]))]
      rfl
  unfold mornRead mornBuild
  rw [if_pos]
  unfold mornAttr
  rw [hz]
  rfl

/-! ## Where the claim is false -/

/-- Every mordent of another form makes the reader fail, whatever else it says. -/
theorem mordent_form_breaks (acc : Str → Str) (e : MOrnEl) (id : Str) (hk : e.kind = .mordent) (hr : refersTo e.startRef id) (h0 : id ≠ [])
    (hp : e.place ≠ some []) (h1 : e.form ≠ []) (h2 : e.form ≠ "upper".toList) (h3 : e.form ≠ "lower".toList) :
    mornRead acc [e] id .mordent = .error () := by
  have hv := morn_build_congr acc e.kind _ (mornValue e) (fun f hf => morn_attr_own [] [] e id f hr h0 (by simp) (by simp) hf)
  unfold mornRead
  rw [← hk]
  rw [List.nil_append] at hv
  rw [hv]
  have hp0 : mornValue e .place ≠ [] := by
    unfold mornValue
    cases hpl : e.place with
    | none => simp
    | some p => intro h; exact hp (by rw [hpl]; simpa using h)
  have hform : mordentForm e.form e.accUpper e.accLower = e.form := by simp [mordentForm, h1]
  unfold mornBuild
  rw [if_neg hp0, hk]
  simp only [mornValue, hform, if_neg h2, if_neg h3]

/-- Of two mordents at one note there is only one, and it has the accidental and form of the other. -/
theorem second_mordent_breaks :
    mornRead id [⟨.mordent, "#a".toList, none, "upper".toList, [], "s".toList, [], []⟩, ⟨.mordent, "#a".toList, some "below".toList, [], [], [], [], []⟩] "a".toList
      .mordent = .ok (some ⟨.mordent, true, "s".toList, [], false, some "below".toList⟩) := by
  rfl

/-! ## The hypotheses are met -/

example : mornRead id [⟨.trill, "#a".toList, none, [], [], "s".toList, [], []⟩, ⟨.turn, "#a".toList, some "above".toList, [], "slashed".toList, [], "f".toList, "true".toList⟩,
      ⟨.turn, "#b".toList, none, [], [], [], [], []⟩] "a".toList .turn =
    .ok (some ⟨.turn, true, [], "f".toList, true, some "above".toList⟩) := by
  rfl

example : (⟨.turn, "#a".toList, some "above".toList, [], "slashed".toList, [], "f".toList, "true".toList⟩ : MOrnEl).Standard :=
  ⟨Or.inl rfl, by decide, by decide⟩

example : mornRead id [⟨.mordent, "#a".toList, none, "norm".toList, [], [], [], []⟩] "a".toList .mordent = .error () :=
  mordent_form_breaks id _ "a".toList rfl (Or.inl rfl) (by decide) (by simp) (by decide) (by decide) (by decide)

end C21
