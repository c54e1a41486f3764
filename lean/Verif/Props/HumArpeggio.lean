import Verif.Model.HumArpeggio
import Verif.Lemmas.Tac
import Mathlib.Data.List.Pairwise
import Mathlib.Data.List.Nodup
/-
C108: arpeggios in Humdrum.
-/
namespace C21

/-! ## Specification -/

/-- The arpeggio of a note: its own mark, or a spanner. -/
def arpOf (c : ArpNote) : Option (Nat ⊕ Nat) :=
  if c.mark then some (.inl c.id) else c.spans.head?.map .inr

/-- The notes of the same arpeggio as `c`. -/
def arpGroup (line : List ArpNote) (c : ArpNote) : List ArpNote := line.filter fun d => decide (arpOf d = arpOf c)

/-- A cell with a note, or a visible rest. -/
def arpVisible (c : ArpNote) : Bool := c.kern && !c.hidden

/-- All arpeggios of the line, in the order of their leftmost notes. -/
def arpGroups (line : List ArpNote) : List ArpNote → List ArpNote → List (List Nat)
  | _, [] => []
  | before, c :: after =>
    (if arpOf c ≠ none ∧ ∀ d ∈ before, arpOf d ≠ arpOf c then [(arpGroup line c).map (·.id)] else []) ++
      arpGroups line (before ++ [c]) after

/-- Lines whose arpeggios are kept: every note has at most one; the notes of one arpeggio are next to each other;
an arpeggio within a staff is the only one of the staff; to the left of one across staves there is no other. -/
structure GoodArps (line : List ArpNote) : Prop where
  ids : (line.map (·.id)).Nodup
  tracks : line.Pairwise fun a b => a.track ≤ b.track
  one : ∀ c ∈ line, c.spans.length ≤ 1 ∧ (c.mark = true → c.spans = [])
  seen : ∀ c ∈ line, arpOf c ≠ none → arpVisible c = true
  together : ∀ c ∈ line, arpOf c ≠ none → ∃ x y, line.filter arpVisible = x ++ arpGroup line c ++ y
  alone : ∀ c ∈ line, (∀ e ∈ line, arpOf e = arpOf c → e.track = c.track) →
    ∀ d ∈ line, d.track = c.track → arpOf d ≠ none → arpOf c ≠ none → arpOf d = arpOf c
  leftmost : ∀ pre c post, line = pre ++ c :: post → (∃ e ∈ line, arpOf e = arpOf c ∧ e.track ≠ c.track) →
    arpOf c ≠ none → ∀ d ∈ pre, arpOf d = none ∨ arpOf d = arpOf c

/-! ## Proof -/

theorem span_iff (c : ArpNote) (g : Nat) (h : c.spans.length ≤ 1 ∧ (c.mark = true → c.spans = [])) :
    g ∈ c.spans ↔ arpOf c = some (.inr g) := by
  unfold arpOf
  by_cases hm : c.mark = true
  · rw [if_pos hm, h.2 hm]; simp
  · rw [if_neg hm]
    cases hs : c.spans with
    | nil => simp
    | cons a l =>
      rw [hs] at h
      have : l = [] := by
        have h1 := h.1
        simp at h1
        exact h1
      subst this
      simp [eq_comm]

theorem colons_spec (line : List ArpNote) (h : GoodArps line) (c : ArpNote) (hc : c ∈ line) :
    (arpOf c = none → colonsOf line c = 0) ∧
    (arpOf c ≠ none → (∃ e ∈ line, arpOf e = arpOf c ∧ e.track ≠ c.track) → colonsOf line c = 2) ∧
    (arpOf c ≠ none → (∀ e ∈ line, arpOf e = arpOf c → e.track = c.track) → colonsOf line c = 1) := by
  have h1 := h.one c hc
  unfold colonsOf
  by_cases hm : c.mark = true
  · have ha : arpOf c = some (.inl c.id) := by unfold arpOf; rw [if_pos hm]
    rw [h1.2 hm, ha, hm]
    refine ⟨fun h => (by cases h), ?_, fun _ _ => rfl⟩
    rintro - ⟨e, he, hea, het⟩
    exfalso
    have hem : e.mark = true := by
      by_contra hn
      unfold arpOf at hea
      rw [if_neg hn] at hea
      cases hs : e.spans.head? with
      | none => rw [hs] at hea; cases hea
      | some g => rw [hs] at hea; simp at hea
    have hid : e.id = c.id := by
      unfold arpOf at hea
      rw [if_pos hem] at hea
      simpa using hea
    have : e = c := List.inj_on_of_nodup_map h.ids he hc hid
    rw [this] at het
    exact het rfl
  · have hm' : c.mark = false := by simpa using hm
    rw [hm']
    cases hs : c.spans with
    | nil =>
      have ha : arpOf c = none := by unfold arpOf; rw [if_neg hm, hs]; rfl
      rw [ha]
      exact ⟨fun _ => rfl, fun h => absurd rfl h, fun h => absurd rfl h⟩
    | cons g l =>
      have hl : l = [] := by
        rw [hs] at h1
        have := h1.1
        simp at this
        exact this
      subst hl
      have ha : arpOf c = some (.inr g) := by unfold arpOf; rw [if_neg hm, hs]; rfl
      rw [ha]
      have hfilter : line.filter (fun c => decide (g ∈ c.spans)) = line.filter (fun d => decide (arpOf d = some (.inr g))) := by
        apply List.filter_congr
        intro d hd
        rw [decide_eq_decide]
        exact span_iff d g (h.one d hd)
      have hcf : c ∈ line.filter (fun d => decide (arpOf d = some (.inr g))) := by
        rw [List.mem_filter]
        exact ⟨hc, by simpa using ha⟩
      have hcross : (∃ e ∈ line, arpOf e = some (.inr g) ∧ e.track ≠ c.track) ↔ crossStaff line g = true := by
        unfold crossStaff
        rw [hfilter]
        cases hf : line.filter (fun d => decide (arpOf d = some (.inr g))) with
        | nil => rw [hf] at hcf; cases hcf
        | cons a l =>
          simp only
          rw [List.any_eq_true]
          have hmem : ∀ e, e ∈ a :: l ↔ e ∈ line ∧ arpOf e = some (.inr g) := by
            intro e
            rw [← hf, List.mem_filter, decide_eq_true_eq]
          constructor
          · rintro ⟨e, he, hea, het⟩
            have hel := (hmem e).2 ⟨he, hea⟩
            rw [hf] at hcf
            by_contra hno
            have hall : ∀ b ∈ l, b.track = a.track := by
              intro b hb
              by_contra hb2
              exact hno ⟨b, hb, by simpa using hb2⟩
            have hall' : ∀ b ∈ a :: l, b.track = a.track := by
              intro b hb
              rw [List.mem_cons] at hb
              rcases hb with rfl | hb
              · rfl
              · exact hall b hb
            exact het ((hall' e hel).trans (hall' c hcf).symm)
          · rintro ⟨b, hb, hbt⟩
            have hb' := (hmem b).1 (List.mem_cons_of_mem _ hb)
            have ha' := (hmem a).1 (List.mem_cons_self ..)
            simp only [ne_eq, decide_not, Bool.not_eq_true', decide_eq_false_iff_not] at hbt
            by_cases h : b.track = c.track
            · exact ⟨a, ha'.1, ha'.2, fun h2 => hbt (h.trans h2.symm)⟩
            · exact ⟨b, hb'.1, hb'.2, h⟩
      refine ⟨fun h => (by cases h), ?_, ?_⟩
      · intro _ hex
        rw [hcross] at hex
        simp [hex]
      · intro _ hall
        have hn : ¬ crossStaff line g = true := by
          rw [← hcross]
          rintro ⟨e, he, hea, het⟩
          exact het (hall e he hea)
        simp [hn]

/-- The cell written for a note of a line. -/
def arpCell (line : List ArpNote) (c : ArpNote) : ArpCell := ⟨c.id, c.track, c.kern, c.hidden, colonsOf line c⟩

theorem cell_skipped (line : List ArpNote) (c : ArpNote) : (arpCell line c).skipped = !arpVisible c := by
  unfold ArpCell.skipped arpVisible arpCell
  cases c.kern <;> cases c.hidden <;> rfl

theorem systemArp_eq (line l : List ArpNote) :
    systemArp (l.map (arpCell line)) =
      ((l.filter arpVisible).takeWhile fun d => decide (2 ≤ colonsOf line d)).map (arpCell line) := by
  induction l with
  | nil => rfl
  | cons d l ih =>
    rw [List.map_cons, systemArp, cell_skipped]
    by_cases hv : arpVisible d = true
    · rw [hv, List.filter_cons_of_pos hv, List.takeWhile_cons]
      by_cases hc : 2 ≤ colonsOf line d
      · have : ¬ (arpCell line d).colons < 2 := not_lt.2 hc
        simp only [Bool.not_true, Bool.false_eq_true, if_false]
        rw [if_neg this, ih]
        simp [hc]
      · have : (arpCell line d).colons < 2 := not_le.1 hc
        simp only [Bool.not_true, Bool.false_eq_true, if_false]
        rw [if_pos this]
        simp [hc]
    · have hv' : arpVisible d = false := by simpa using hv
      rw [hv', List.filter_cons_of_neg hv]
      simp only [Bool.not_false, if_true]
      exact ih

theorem staffArp_eq (line l : List ArpNote) (t : Nat) :
    staffArp t (l.map (arpCell line)) =
      (((l.takeWhile fun d => decide (d.track = t)).filter arpVisible).takeWhile
        fun d => decide (1 ≤ colonsOf line d)).map (arpCell line) := by
  induction l with
  | nil => rfl
  | cons d l ih =>
    rw [List.map_cons, staffArp, cell_skipped, List.takeWhile_cons]
    by_cases ht : d.track = t
    · have : ¬ (arpCell line d).track ≠ t := by simpa [arpCell] using ht
      rw [if_neg this]
      simp only [ht, decide_true, if_true]
      by_cases hv : arpVisible d = true
      · rw [hv, List.filter_cons_of_pos hv, List.takeWhile_cons]
        by_cases hc : 1 ≤ colonsOf line d
        · have : ¬ (arpCell line d).colons < 1 := not_lt.2 hc
          simp only [Bool.not_true, Bool.false_eq_true, if_false]
          rw [if_neg this, ih]
          simp [hc]
        · have : (arpCell line d).colons < 1 := not_le.1 hc
          simp only [Bool.not_true, Bool.false_eq_true, if_false]
          rw [if_pos this]
          simp [hc]
      · have hv' : arpVisible d = false := by simpa using hv
        rw [hv', List.filter_cons_of_neg hv]
        simp only [Bool.not_false, if_true]
        exact ih
    · have : (arpCell line d).track ≠ t := by simpa [arpCell] using ht
      rw [if_pos this]
      simp [ht]

theorem leftmostSystem_iff (line l : List ArpNote) :
    leftmostSystem (l.map (arpCell line)) = true ↔ ∀ d ∈ l, arpVisible d = true → colonsOf line d = 0 := by
  induction l with
  | nil => simp [leftmostSystem]
  | cons d l ih =>
    rw [List.map_cons, leftmostSystem, cell_skipped]
    by_cases hv : arpVisible d = true
    · rw [hv]
      by_cases hc : colonsOf line d = 0
      · have : ¬ (arpCell line d).colons ≥ 1 := by
          show ¬ colonsOf line d ≥ 1
          omega
        simp only [Bool.not_true, Bool.false_eq_true, if_false]
        rw [if_neg this, ih]
        simp [hv, hc]
      · have : (arpCell line d).colons ≥ 1 := by
          show colonsOf line d ≥ 1
          omega
        simp only [Bool.not_true, Bool.false_eq_true, if_false]
        rw [if_pos this]
        simp [hv, hc]
    · have hv' : arpVisible d = false := by simpa using hv
      rw [hv']
      simp only [Bool.not_false, if_true]
      rw [ih]
      simp [hv']

theorem leftmostStaff_iff (line l : List ArpNote) (t : Nat) :
    leftmostStaff t (l.map (arpCell line)) = true ↔
      ∀ d ∈ l.takeWhile (fun d => decide (d.track = t)), arpVisible d = true → colonsOf line d = 0 := by
  induction l with
  | nil => simp [leftmostStaff]
  | cons d l ih =>
    rw [List.map_cons, leftmostStaff, cell_skipped, List.takeWhile_cons]
    by_cases ht : d.track = t
    · have : ¬ (arpCell line d).track ≠ t := by simpa [arpCell] using ht
      rw [if_neg this]
      simp only [ht, decide_true, if_true]
      by_cases hv : arpVisible d = true
      · rw [hv]
        by_cases hc : colonsOf line d = 0
        · have : ¬ (arpCell line d).colons ≥ 1 := by
            show ¬ colonsOf line d ≥ 1
            omega
          simp only [Bool.not_true, Bool.false_eq_true, if_false]
          rw [if_neg this, ih, List.forall_mem_cons]
          exact ⟨fun h => ⟨fun _ => hc, h⟩, fun h => h.2⟩
        · have : (arpCell line d).colons ≥ 1 := by
            show colonsOf line d ≥ 1
            omega
          simp only [Bool.not_true, Bool.false_eq_true, if_false]
          rw [if_pos this, List.forall_mem_cons]
          constructor
          · intro h; cases h
          · intro h; exact absurd (h.1 hv) hc
      · have hv' : arpVisible d = false := by simpa using hv
        rw [hv']
        simp only [Bool.not_false, if_true]
        rw [ih, List.forall_mem_cons]
        exact ⟨fun h => ⟨fun h2 => (by rw [hv'] at h2; cases h2), h⟩, fun h => h.2⟩
    · have : (arpCell line d).track ≠ t := by simpa [arpCell] using ht
      rw [if_pos this]
      simp [ht]

theorem takeWhile_track_after (t : Nat) (l : List ArpNote) (hs : l.Pairwise fun a b => a.track ≤ b.track)
    (hl : ∀ d ∈ l, t ≤ d.track) :
    l.takeWhile (fun d => decide (d.track = t)) = l.filter fun d => decide (d.track = t) := by
  induction l with
  | nil => rfl
  | cons d l ih =>
    rw [List.pairwise_cons] at hs
    rw [List.takeWhile_cons]
    by_cases ht : d.track = t
    · rw [List.filter_cons_of_pos (by simpa using ht), ih hs.2 (fun x hx => hl x (List.mem_cons_of_mem _ hx))]
      simp [ht]
    · rw [List.filter_cons_of_neg (by simpa using ht)]
      have : l.filter (fun d => decide (d.track = t)) = [] := by
        rw [List.filter_eq_nil_iff]
        intro x hx
        have h1 := hs.1 x hx
        have h2 := hl d (by simp)
        simp
        omega
      rw [this]
      simp [ht]

theorem takeWhile_track_before (t : Nat) (l : List ArpNote) (hs : l.Pairwise fun a b => b.track ≤ a.track)
    (hl : ∀ d ∈ l, d.track ≤ t) (d : ArpNote) :
    d ∈ l.takeWhile (fun d => decide (d.track = t)) ↔ d ∈ l ∧ d.track = t := by
  induction l with
  | nil => simp
  | cons x l ih =>
    rw [List.pairwise_cons] at hs
    rw [List.takeWhile_cons]
    by_cases ht : x.track = t
    · have := ih hs.2 (fun x hx => hl x (List.mem_cons_of_mem _ hx))
      simp only [ht, decide_true, if_true, List.mem_cons, this]
      constructor
      · rintro (rfl | ⟨h1, h2⟩)
        · exact ⟨Or.inl rfl, ht⟩
        · exact ⟨Or.inr h1, h2⟩
      · rintro ⟨rfl | h1, h2⟩
        · exact Or.inl rfl
        · exact Or.inr ⟨h1, h2⟩
    · simp only [ht, decide_false, Bool.false_eq_true, if_false, List.not_mem_nil, false_iff, List.mem_cons]
      rintro ⟨rfl | h1, h2⟩
      · exact ht h2
      · have h3 := hs.1 d h1
        have h4 := hl x (by simp)
        omega

/-- Two ways to cut a list before the first element with a property. -/
theorem first_split {α : Type} (p : α → Prop) (a : List α) (c : α) (b x : List α) (g : α) (y : List α)
    (ha : ∀ d ∈ a, ¬ p d) (hc : p c) (hx : ∀ d ∈ x, ¬ p d) (hg : p g) (h : a ++ c :: b = x ++ g :: y) :
    a = x ∧ c = g ∧ b = y := by
  induction a generalizing x with
  | nil =>
    cases x with
    | nil => injection h with h1 h2; exact ⟨rfl, h1, h2⟩
    | cons z x =>
      injection h with h1 h2
      exact absurd (h1 ▸ hc) (hx z (by simp))
  | cons z a ih =>
    cases x with
    | nil =>
      injection h with h1 h2
      exact absurd (h1 ▸ hg) (ha z (by simp))
    | cons w x =>
      injection h with h1 h2
      obtain ⟨h3, h4, h5⟩ := ih x (fun d hd => ha d (List.mem_cons_of_mem _ hd))
        (fun d hd => hx d (List.mem_cons_of_mem _ hd)) h2
      exact ⟨by rw [h1, h3], h4, h5⟩

/-- The notes after the first of an arpeggio come right after it. -/
theorem group_next (line : List ArpNote) (h : GoodArps line) (pre : List ArpNote) (c : ArpNote) (post : List ArpNote)
    (hl : line = pre ++ c :: post) (ha : arpOf c ≠ none) (hf : ∀ d ∈ pre, arpOf d ≠ arpOf c) :
    ∃ G y, arpGroup line c = c :: G ∧ post.filter arpVisible = G ++ y ∧ (∀ d ∈ y, arpOf d ≠ arpOf c) ∧
      (∀ d ∈ G, arpOf d = arpOf c) := by
  have hc : c ∈ line := by rw [hl]; simp
  obtain ⟨x, y, hxy⟩ := h.together c hc ha
  have hvc := h.seen c hc ha
  have hG : arpGroup line c = c :: post.filter (fun d => decide (arpOf d = arpOf c)) := by
    unfold arpGroup
    rw [hl, List.filter_append, List.filter_cons_of_pos (by simp)]
    have : pre.filter (fun d => decide (arpOf d = arpOf c)) = [] := by
      rw [List.filter_eq_nil_iff]
      intro d hd
      simpa using hf d hd
    rw [this]
    rfl
  generalize hGd : post.filter (fun d => decide (arpOf d = arpOf c)) = G at hG
  have hGa : ∀ d ∈ G, arpOf d = arpOf c := by
    intro d hd
    rw [← hGd, List.mem_filter] at hd
    simpa using hd.2
  -- the group within the visible notes
  have hfil : (line.filter arpVisible).filter (fun d => decide (arpOf d = arpOf c)) = arpGroup line c := by
    unfold arpGroup
    rw [List.filter_filter]
    apply List.filter_congr
    intro d hd
    by_cases hd2 : arpOf d = arpOf c
    · simp [hd2, h.seen d hd (by rw [hd2]; exact ha)]
    · simp [hd2]
  have hGself : (arpGroup line c).filter (fun d => decide (arpOf d = arpOf c)) = arpGroup line c := by
    unfold arpGroup
    rw [List.filter_filter]
    simp
  have hlen : (x.filter (fun d => decide (arpOf d = arpOf c))).length +
      (y.filter (fun d => decide (arpOf d = arpOf c))).length = 0 := by
    have := congrArg List.length hfil
    rw [hxy, List.filter_append, List.filter_append, hGself, List.length_append, List.length_append] at this
    omega
  have hxn : ∀ d ∈ x, arpOf d ≠ arpOf c := by
    intro d hd he
    have : x.filter (fun d => decide (arpOf d = arpOf c)) = [] := List.length_eq_zero_iff.1 (by omega)
    rw [List.filter_eq_nil_iff] at this
    exact this d hd (by simpa using he)
  have hyn : ∀ d ∈ y, arpOf d ≠ arpOf c := by
    intro d hd he
    have : y.filter (fun d => decide (arpOf d = arpOf c)) = [] := List.length_eq_zero_iff.1 (by omega)
    rw [List.filter_eq_nil_iff] at this
    exact this d hd (by simpa using he)
  rw [hG] at hxy
  have hcut : pre.filter arpVisible ++ c :: post.filter arpVisible = x ++ c :: (G ++ y) := by
    rw [hl, List.filter_append, List.filter_cons_of_pos hvc] at hxy
    rw [hxy]
    simp
  obtain ⟨_, _, h3⟩ := first_split (fun d => arpOf d = arpOf c) _ c _ x c _
    (fun d hd => hf d (List.mem_of_mem_filter hd)) rfl hxn rfl hcut
  exact ⟨G, y, hG, h3, hyn, hGa⟩

theorem takeWhile_group {α : Type} (p : α → Bool) (G y : List α) (hG : ∀ d ∈ G, p d = true)
    (hy : ∀ d ∈ y, p d = false) : (G ++ y).takeWhile p = G := by
  induction G with
  | nil =>
    cases y with
    | nil => rfl
    | cons d y => rw [List.nil_append, List.takeWhile_cons, hy d (by simp)]; simp
  | cons d G ih =>
    rw [List.cons_append, List.takeWhile_cons, hG d (by simp)]
    simp [ih (fun x hx => hG x (List.mem_cons_of_mem _ hx))]

/-- What is read at a note. -/
theorem arp_at (line : List ArpNote) (h : GoodArps line) (pre : List ArpNote) (c : ArpNote) (post : List ArpNote)
    (hl : line = pre ++ c :: post) :
    arpAt (pre.map (arpCell line)) (arpCell line c) (post.map (arpCell line)) =
      if arpOf c ≠ none ∧ ∀ d ∈ pre, arpOf d ≠ arpOf c then some ((arpGroup line c).map (arpCell line)) else none := by
  have hc : c ∈ line := by rw [hl]; simp
  obtain ⟨k0, k2, k1⟩ := colons_spec line h c hc
  have hmemp : ∀ d ∈ pre, d ∈ line := fun d hd => by rw [hl]; simp [hd]
  have hmemq : ∀ d ∈ post, d ∈ line := fun d hd => by rw [hl]; simp [hd]
  have htr := h.tracks
  rw [hl, List.pairwise_append, List.pairwise_cons] at htr
  unfold arpAt
  have hcol : (arpCell line c).colons = colonsOf line c := rfl
  rw [hcol]
  by_cases ha : arpOf c = none
  · rw [k0 ha, if_neg (by omega), if_neg (by omega), if_neg (fun h => h.1 ha)]
  · by_cases hx : ∃ e ∈ line, arpOf e = arpOf c ∧ e.track ≠ c.track
    · rw [k2 ha hx, if_pos (by omega)]
      have hleft := h.leftmost pre c post hl hx ha
      have hiff : leftmostSystem (pre.map (arpCell line)).reverse = true ↔ ∀ d ∈ pre, arpOf d ≠ arpOf c := by
        rw [← List.map_reverse, leftmostSystem_iff]
        constructor
        · intro hz d hd he
          have hdl := hmemp d hd
          have hda : arpOf d ≠ none := by rw [he]; exact ha
          have hz' := hz d (by simpa using hd) (h.seen d hdl hda)
          obtain ⟨_, j2, j1⟩ := colons_spec line h d hdl
          by_cases hdx : ∃ e ∈ line, arpOf e = arpOf d ∧ e.track ≠ d.track
          · rw [j2 hda hdx] at hz'; cases hz'
          · have := j1 hda (by
              intro e he1 he2
              by_contra hne
              exact hdx ⟨e, he1, he2, hne⟩)
            rw [this] at hz'; cases hz'
        · intro hn d hd hv
          have hd' : d ∈ pre := by simpa using hd
          rcases hleft d hd' with h1 | h1
          · exact (colons_spec line h d (hmemp d hd')).1 h1
          · exact absurd h1 (hn d hd')
      by_cases hf : ∀ d ∈ pre, arpOf d ≠ arpOf c
      · rw [if_pos (hiff.2 hf), if_pos ⟨ha, hf⟩]
        obtain ⟨G, y, hG, hGy, hyn, hGa⟩ := group_next line h pre c post hl ha hf
        rw [systemArp_eq, hGy, takeWhile_group, hG]
        · rfl
        · intro d hd
          have hdp : d ∈ post := by
            have : d ∈ post.filter arpVisible := by rw [hGy]; simp [hd]
            exact List.mem_of_mem_filter this
          have hda := hGa d hd
          have hdx : ∃ e ∈ line, arpOf e = arpOf d ∧ e.track ≠ d.track := by
            obtain ⟨e, he, hea, het⟩ := hx
            by_cases h1 : c.track = d.track
            · exact ⟨e, he, by rw [hda]; exact hea, by rw [← h1]; exact het⟩
            · exact ⟨c, hc, hda.symm, h1⟩
          have := (colons_spec line h d (hmemq d hdp)).2.1 (by rw [hda]; exact ha) hdx
          simp [this]
        · intro d hd
          have hdp : d ∈ post := by
            have : d ∈ post.filter arpVisible := by rw [hGy]; simp [hd]
            exact List.mem_of_mem_filter this
          obtain ⟨j0, j2, j1⟩ := colons_spec line h d (hmemq d hdp)
          by_cases hda : arpOf d = none
          · simp [j0 hda]
          · by_cases hdx : ∃ e ∈ line, arpOf e = arpOf d ∧ e.track ≠ d.track
            · exfalso
              obtain ⟨p1, p2, hp⟩ := List.append_of_mem hdp
              have hl2 : line = (pre ++ c :: p1) ++ d :: p2 := by rw [hl, hp]; simp
              rcases h.leftmost _ d p2 hl2 hdx hda c (by simp) with h1 | h1
              · exact ha h1
              · exact hyn d hd h1.symm
            · have := j1 hda (by
                intro e he1 he2
                by_contra hne
                exact hdx ⟨e, he1, he2, hne⟩)
              simp [this]
      · rw [if_neg (fun hh => hf (hiff.1 hh)), if_neg (fun hh => hf hh.2)]
    · have hall : ∀ e ∈ line, arpOf e = arpOf c → e.track = c.track := by
        intro e he1 he2
        by_contra hne
        exact hx ⟨e, he1, he2, hne⟩
      rw [k1 ha hall, if_neg (by omega), if_pos (by omega)]
      have hct : (arpCell line c).track = c.track := rfl
      rw [hct]
      have hcol1 : ∀ d ∈ line, d.track = c.track → arpVisible d = true → (colonsOf line d = 0 ↔ arpOf d ≠ arpOf c) := by
        intro d hd ht hv
        obtain ⟨j0, j2, j1⟩ := colons_spec line h d hd
        by_cases hda : arpOf d = none
        · rw [hda]
          exact ⟨fun _ he => ha he.symm, fun _ => j0 hda⟩
        · have he := h.alone c hc hall d hd ht hda ha
          have := j1 hda (by
            intro e he1 he2
            rw [ht]
            exact hall e he1 (by rw [he2]; exact he))
          rw [this, he]
          simp
      have hiff : leftmostStaff c.track (pre.map (arpCell line)).reverse = true ↔ ∀ d ∈ pre, arpOf d ≠ arpOf c := by
        rw [← List.map_reverse, leftmostStaff_iff]
        have hmem : ∀ d, d ∈ pre.reverse.takeWhile (fun d => decide (d.track = c.track)) ↔ d ∈ pre ∧ d.track = c.track := by
          intro d
          rw [takeWhile_track_before c.track pre.reverse (List.pairwise_reverse.2 htr.1)
            (fun x hx => htr.2.2 x (by simpa using hx) c (by simp))]
          simp
        constructor
        · intro hz d hd he
          have hdt := hall d (hmemp d hd) he
          have hv := h.seen d (hmemp d hd) (by rw [he]; exact ha)
          exact (hcol1 d (hmemp d hd) hdt hv).1 (hz d ((hmem d).2 ⟨hd, hdt⟩) hv) he
        · intro hn d hd hv
          obtain ⟨h1, h2⟩ := (hmem d).1 hd
          exact (hcol1 d (hmemp d h1) h2 hv).2 (hn d h1)
      by_cases hf : ∀ d ∈ pre, arpOf d ≠ arpOf c
      · rw [if_pos (hiff.2 hf), if_pos ⟨ha, hf⟩]
        obtain ⟨G, y, hG, hGy, hyn, hGa⟩ := group_next line h pre c post hl ha hf
        have hmemG : ∀ d ∈ G, d ∈ post := by
          intro d hd
          have : d ∈ post.filter arpVisible := by rw [hGy]; simp [hd]
          exact List.mem_of_mem_filter this
        have hvis : (post.takeWhile fun d => decide (d.track = c.track)).filter arpVisible =
            G ++ y.filter (fun d => decide (d.track = c.track)) := by
          rw [takeWhile_track_after c.track post htr.2.1.2 htr.2.1.1, List.filter_filter]
          have : (post.filter fun d => arpVisible d && decide (d.track = c.track)) =
              (post.filter arpVisible).filter (fun d => decide (d.track = c.track)) := by
            rw [List.filter_filter]
            apply List.filter_congr
            intro d _
            rw [Bool.and_comm]
          rw [this, hGy, List.filter_append]
          congr 1
          rw [List.filter_eq_self]
          intro d hd
          simpa using hall d (hmemq d (hmemG d hd)) (hGa d hd)
        rw [staffArp_eq, hvis, takeWhile_group, hG]
        · rfl
        · intro d hd
          have hdl := hmemq d (hmemG d hd)
          have hda := hGa d hd
          have hn : ¬ colonsOf line d = 0 := by
            rw [hcol1 d hdl (hall d hdl hda) (h.seen d hdl (by rw [hda]; exact ha))]
            simp [hda]
          simp
          omega
        · intro d hd
          rw [List.mem_filter] at hd
          have hdf : d ∈ post.filter arpVisible := by rw [hGy]; simp [hd.1]
          have hdl := hmemq d (List.mem_of_mem_filter hdf)
          have : colonsOf line d = 0 := (hcol1 d hdl (by simpa using hd.2) (List.mem_filter.1 hdf).2).2 (hyn d hd.1)
          simp [this]
      · rw [if_neg (fun hh => hf (hiff.1 hh)), if_neg (fun hh => hf hh.2)]

/-- **C108 (partial)** The arpeggios of simultaneous notes, over notes of one chord, over voices of a staff or across
staves, are read back with the same notes, if they are next to each other and do not meet others.
Missing: see the theorems below. -/
theorem arpeggios_round_trip_partial (line : List ArpNote) (h : GoodArps line) :
    readArps [] (arpCells line) = arpGroups line [] line := by
  have key : ∀ (post pre : List ArpNote), line = pre ++ post →
      readArps (pre.map (arpCell line)) (post.map (arpCell line)) = arpGroups line pre post := by
    intro post
    induction post with
    | nil => intro pre _; rfl
    | cons c post ih =>
      intro pre hl
      rw [List.map_cons, readArps, arpGroups, arp_at line h pre c post hl]
      have := ih (pre ++ [c]) (by rw [hl]; simp)
      rw [List.map_append] at this
      have hsingle : [c].map (arpCell line) = [arpCell line c] := rfl
      rw [hsingle] at this
      rw [this]
      congr 1
      by_cases hf : arpOf c ≠ none ∧ ∀ d ∈ pre, arpOf d ≠ arpOf c
      · rw [if_pos hf, if_pos hf]
        simp only [Option.toList_some, List.map_cons, List.map_nil, List.map_map]
        rfl
      · rw [if_neg hf, if_neg hf]
        rfl
  exact key line [] rfl

/-- Two voices of the upper staff and one of the lower, arpeggiated together, and dynamics in a spine between. -/
def arpSample : List ArpNote :=
  [⟨0, 1, true, false, false, [7]⟩, ⟨1, 2, false, false, false, []⟩, ⟨2, 3, true, false, false, [7]⟩,
   ⟨3, 3, true, true, false, []⟩, ⟨4, 3, true, false, false, [7]⟩, ⟨5, 4, true, false, false, []⟩,
   ⟨6, 5, true, false, true, []⟩]

example : GoodArps arpSample where
  ids := by decide
  tracks := by decide
  one := by decide
  seen := by decide
  together := by
    intro c hc ha
    simp only [arpSample, List.mem_cons, List.not_mem_nil, or_false] at hc
    rcases hc with rfl | rfl | rfl | rfl | rfl | rfl | rfl
    · exact ⟨[], [⟨5, 4, true, false, false, []⟩, ⟨6, 5, true, false, true, []⟩], by decide⟩
    · exact absurd rfl ha
    · exact ⟨[], [⟨5, 4, true, false, false, []⟩, ⟨6, 5, true, false, true, []⟩], by decide⟩
    · exact absurd rfl ha
    · exact ⟨[], [⟨5, 4, true, false, false, []⟩, ⟨6, 5, true, false, true, []⟩], by decide⟩
    · exact absurd rfl ha
    · exact ⟨[⟨0, 1, true, false, false, [7]⟩, ⟨2, 3, true, false, false, [7]⟩, ⟨4, 3, true, false, false, [7]⟩,
        ⟨5, 4, true, false, false, []⟩], [], by decide⟩
  alone := by decide
  leftmost := by
    intro pre c post hl hx ha
    have hc : c.id < 6 := by
      have hm : c ∈ arpSample := by rw [hl]; simp
      obtain ⟨e, he, h1, h2⟩ := hx
      revert h1 h2 ha
      revert c
      intro c _ hm ha
      revert e
      have : ∀ c ∈ arpSample, ∀ e ∈ arpSample, arpOf c ≠ none → arpOf e = arpOf c → e.track ≠ c.track → c.id < 6 := by
        decide
      exact fun e he h1 h2 => this c hm e he ha h1 h2
    have hpre : ∀ d ∈ pre, d.id < c.id := by
      have hs : arpSample.Pairwise fun a b => a.id < b.id := by decide
      rw [hl, List.pairwise_append] at hs
      exact fun d hd => hs.2.2 d hd c (by simp)
    have hall : ∀ d ∈ arpSample, d.id < 6 → ∀ c ∈ arpSample, arpOf c ≠ none → c.id < 6 →
        arpOf d = none ∨ arpOf d = arpOf c := by decide
    exact fun d hd => hall d (by rw [hl]; simp [hd]) (by have := hpre d hd; omega) c (by rw [hl]; simp) ha hc

example : readArps [] (arpCells arpSample) = [[0, 2, 4], [6]] := by decide

/-- **C108 is false: two arpeggios become one.**  Two voices of a staff, each with an arpeggio of its own, are read as
one arpeggio over both. -/
theorem voices_arpeggios_joined (a b : ArpNote) (pre post : List ArpNote) (hb : arpVisible b = true)
    (ht : b.track = a.track) (hma : a.mark = true) (hmb : b.mark = true)
    (hpre : ∀ d ∈ pre, d.track ≠ a.track) (hpost : ∀ d ∈ post, d.track ≠ a.track)
    (hsa : a.spans = []) (hsb : b.spans = []) :
    [a.id, b.id] ∈ readArps [] (arpCells (pre ++ a :: b :: post)) := by
  set line := pre ++ a :: b :: post with hline
  have key : ∀ (p q : List ArpNote), [a.id, b.id] ∈
      readArps ((p ++ q).map (arpCell line)) ((a :: b :: post).map (arpCell line)) →
      [a.id, b.id] ∈ readArps (p.map (arpCell line)) ((q ++ a :: b :: post).map (arpCell line)) := by
    intro p q
    induction q generalizing p with
    | nil => intro h; simpa using h
    | cons c q ih =>
      intro h
      rw [List.cons_append, List.map_cons, readArps, List.mem_append]
      right
      have := ih (p ++ [c]) (by simpa using h)
      simpa using this
  have hca : colonsOf line a = 1 := by unfold colonsOf; rw [hma, hsa]; rfl
  have hcb : colonsOf line b = 1 := by unfold colonsOf; rw [hmb, hsb]; rfl
  have hb' : decide (b.track = (arpCell line a).track) = true := decide_eq_true ht
  have h3 : (b :: post).takeWhile (fun d => decide (d.track = (arpCell line a).track)) = [b] := by
    rw [List.takeWhile_cons, hb']
    cases post with
    | nil => rfl
    | cons d post =>
      have h4 : decide (d.track = (arpCell line a).track) = false := decide_eq_false (hpost d (by simp))
      rw [List.takeWhile_cons, h4]
      rfl
  have hl : leftmostStaff (arpCell line a).track (pre.map (arpCell line)).reverse = true := by
    rw [← List.map_reverse, leftmostStaff_iff]
    have : pre.reverse.takeWhile (fun d => decide (d.track = (arpCell line a).track)) = [] := by
      cases hp : pre.reverse with
      | nil => rfl
      | cons d l =>
        have hd : d ∈ pre := by
          rw [← List.mem_reverse, hp]; simp
        have h4 : decide (d.track = (arpCell line a).track) = false := decide_eq_false (hpre d hd)
        rw [List.takeWhile_cons, h4]
        rfl
    rw [this]
    intro d hd
    cases hd
  have hat : arpAt (pre.map (arpCell line)) (arpCell line a) ((b :: post).map (arpCell line)) =
      some [arpCell line a, arpCell line b] := by
    unfold arpAt
    have hcol : (arpCell line a).colons = colonsOf line a := rfl
    rw [hcol, hca, if_neg (by omega), if_pos (by omega), if_pos hl, staffArp_eq, h3, List.filter_cons_of_pos hb]
    simp [hcb]
  have h0 : [a.id, b.id] ∈ readArps (([] ++ pre).map (arpCell line)) ((a :: b :: post).map (arpCell line)) := by
    rw [List.map_cons, readArps, List.mem_append]
    left
    rw [List.nil_append, hat]
    simp [arpCell]
  exact key [] pre h0

/-- **C108 is false: arpeggios to the right of another are lost.**  An arpeggio over two staves is not read when a
note further left has an arpeggio of its own. -/
theorem system_arpeggio_lost :
    readArps [] (arpCells [⟨0, 1, true, false, true, []⟩, ⟨1, 2, true, false, false, [7]⟩, ⟨2, 3, true, false, false, [7]⟩])
      = [[0]] := by decide

/-- **C108 is false: a second arpeggio of a staff is lost.**  Of three voices, the second without arpeggio, the third
loses its own. -/
theorem second_staff_arpeggio_lost :
    readArps [] (arpCells [⟨0, 1, true, false, true, []⟩, ⟨1, 1, true, false, false, []⟩, ⟨2, 1, true, false, true, []⟩])
      = [[0]] := by decide

/-- **C108 is false: interrupted arpeggios are cut.**  An arpeggio over the outer of three staves is read with its
first note only. -/
theorem interrupted_arpeggio_cut :
    readArps [] (arpCells [⟨0, 1, true, false, false, [7]⟩, ⟨1, 2, true, false, false, []⟩, ⟨2, 3, true, false, false, [7]⟩])
      = [[0]] := by decide

/-- **C108 is false: marks add up.**  A chord with a mark of its own within an arpeggio over its staff is taken as
part of an arpeggio over several staves: neither of the two is read as it was. -/
theorem arpeggio_marks_add :
    readArps [] (arpCells [⟨0, 1, true, false, true, [7]⟩, ⟨1, 1, true, false, false, [7]⟩]) = [[0]] := by decide

end C21
