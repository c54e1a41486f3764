import Verif.Model.MeiLayer
import Verif.Props.DurSplit
import Verif.Lemmas.Tac
import Mathlib.Data.List.Flatten
/-
C86: the objects of an MEI layer, and the changes of clef, key and meter, are read at the times they had. C87: layers of a staff have
different numbers.
-/
namespace C21

/-! ## Specification -/

/-- The objects of a voice follow one another: none starts before the voice, before an earlier one, or before the end of an earlier
one that is written. -/
structure LayInOrder (vo : Rat) (objs : List LayObj) : Prop where
  start : ∀ o ∈ objs, vo ≤ o.off
  follow : objs.Pairwise (fun a b => a.off ≤ b.off ∧ (a.did = true → a.off + a.dur ≤ b.off))

/-- When an item should be read: objects and changes at their offset. -/
def ReadRight : LayItem × Rat → Prop
  | (.space _, _) => True
  | (.obj o, p) => p = o.off
  | (.change c, p) => p = c.off
  | (.sameAs c, p) => p = c.off

/-- The object of an item. -/
def LayItem.object? : LayItem → Option LayObj
  | .obj o => some o
  | _ => none

/-- Is an item a change, in full or as a stub? -/
def LayItem.isChange : LayItem → Bool
  | .change _ => true
  | .sameAs _ => true
  | _ => false

/-- Where a layer ends: at the end of the last object that is written, or where a later object would be. -/
def layerEnd : Rat → List LayObj → Rat
  | last, [] => last
  | last, o :: os => layerEnd (if o.did then o.off + o.dur else if o.off > last then o.off else last) os

/-- An offset at which something can be inserted: where an object starts, or the end of the layer. -/
def AtBoundary (vo : Rat) (objs : List LayObj) (x : Rat) : Prop := x ∈ objs.map (·.off) ∨ x = layerEnd vo objs

instance (vo : Rat) (objs : List LayObj) (x : Rat) : Decidable (AtBoundary vo objs x) := by unfold AtBoundary; infer_instance

/-- A change, in full unless it is one of those written already. -/
def changeItem (em : List Nat) (c : StaffChange) : LayItem := if c.id ∈ em then .sameAs c else .change c

/-- Changes in order of time. -/
def ChangesSorted (cs : List StaffChange) : Prop := cs.Pairwise (fun a b => a.off ≤ b.off)

/-! ## Times -/

theorem readPositions_append (a b : List LayItem) (p : Rat) :
    readPositions p (a ++ b) = readPositions p a ++ readPositions (p + (a.map LayItem.len).sum) b := by
  induction a generalizing p with
  | nil => simp [readPositions]
  | cons x a ih => simp [readPositions, ih, add_assoc]

theorem spaces_right (l : List Rat) (p : Rat) : ∀ x ∈ readPositions p (l.map LayItem.space), ReadRight x := by
  induction l generalizing p with
  | nil => intro x hx; cases hx
  | cons d l ih =>
    intro x hx
    rcases List.mem_cons.1 hx with rfl | hx
    · trivial
    · exact ih _ x hx

theorem spaces_len (l : List Rat) : ((l.map LayItem.space).map LayItem.len).sum = l.sum := by
  induction l with
  | nil => rfl
  | cons d l ih => simp only [List.map_cons, List.sum_cons, ih, LayItem.len]

theorem fillGap_len (last off : Rat) (h : last ≤ off) : ((fillGap last off).map LayItem.len).sum = off - last := by
  unfold fillGap
  by_cases hg : off > last
  · rw [if_pos hg, spaces_len, split_sum _ (by linarith)]
  · rw [if_neg hg]
    have : off = last := le_antisymm (not_lt.1 hg) h
    simp [this]

theorem fillGap_right (last off p : Rat) : ∀ x ∈ readPositions p (fillGap last off), ReadRight x := by
  unfold fillGap
  by_cases hg : off > last
  · rw [if_pos hg]; exact spaces_right _ _
  · rw [if_neg hg]; intro x hx; cases hx

theorem writeChange_spec (em : List Nat) (c : StaffChange) : (writeChange em c).1 = changeItem em c ∧
    ∀ x, x ∈ (writeChange em c).2 ↔ x ∈ em ∨ x = c.id := by
  unfold writeChange changeItem
  by_cases h : c.id ∈ em
  · rw [if_pos h, if_pos h]
    refine ⟨rfl, fun x => ⟨Or.inl, ?_⟩⟩
    rintro (h' | rfl)
    · exact h'
    · exact h
  · rw [if_neg h, if_neg h]
    refine ⟨rfl, fun x => ?_⟩
    rw [List.mem_cons]
    exact or_comm

theorem changeItem_len (em : List Nat) (c : StaffChange) : (changeItem em c).len = 0 := by
  unfold changeItem; split <;> rfl

theorem changeItem_right (em : List Nat) (c : StaffChange) : ReadRight (changeItem em c, c.off) := by
  unfold changeItem; split <;> rfl

theorem changesBefore_times (off : Rat) : ∀ (cs : List StaffChange) (em : List Nat),
    ((changesBefore off cs em).1.map LayItem.len).sum = 0 ∧ ∀ x ∈ readPositions off (changesBefore off cs em).1, ReadRight x := by
  intro cs
  induction cs with
  | nil => intro em; exact ⟨rfl, fun x hx => by cases hx⟩
  | cons c cs ih =>
    intro em
    unfold changesBefore
    by_cases h1 : c.off > off
    · rw [if_pos h1]; exact ⟨rfl, fun x hx => by cases hx⟩
    · rw [if_neg h1]
      by_cases h2 : c.off = off
      · rw [if_pos h2]
        have hw := (writeChange_spec em c).1
        refine ⟨?_, ?_⟩
        · simp only [List.map_cons, List.sum_cons, hw, changeItem_len, (ih _).1, add_zero]
        · intro x hx
          simp only [readPositions, hw, changeItem_len, add_zero] at hx
          rcases List.mem_cons.1 hx with rfl | hx
          · rw [← h2]; exact changeItem_right em c
          · exact (ih _).2 x hx
      · rw [if_neg h2]; exact ih em

theorem changesAtEnd_times (last : Rat) : ∀ (cs : List StaffChange) (em : List Nat),
    ∀ x ∈ readPositions last (changesAtEnd last cs em).1, ReadRight x := by
  intro cs
  induction cs with
  | nil => intro em x hx; cases hx
  | cons c cs ih =>
    intro em x hx
    unfold changesAtEnd at hx
    by_cases h2 : c.off = last
    · rw [if_pos h2] at hx
      simp only [readPositions, (writeChange_spec em c).1, changeItem_len, add_zero] at hx
      rcases List.mem_cons.1 hx with rfl | hx
      · rw [← h2]; exact changeItem_right em c
      · exact ih _ x hx
    · rw [if_neg h2] at hx; exact ih em x hx

theorem LayInOrder.tail {vo : Rat} {o : LayObj} {os : List LayObj} (h : LayInOrder vo (o :: os)) :
    LayInOrder (if o.did then o.off + o.dur else if o.off > vo then o.off else vo) os := by
  obtain ⟨h1, h2⟩ := h
  rw [List.pairwise_cons] at h2
  refine ⟨?_, h2.2⟩
  intro b hb
  have := h2.1 b hb
  by_cases hd : o.did = true
  · rw [if_pos hd]; exact this.2 hd
  · rw [if_neg hd]
    by_cases hg : o.off > vo
    · rw [if_pos hg]; exact this.1
    · rw [if_neg hg]; exact h1 b (List.mem_cons_of_mem _ hb)

theorem layerLoop_times : ∀ (objs : List LayObj) (last : Rat) (cs : List StaffChange) (em : List Nat), LayInOrder last objs →
    ∀ x ∈ readPositions last (layerLoop last objs cs em).1, ReadRight x := by
  intro objs
  induction objs with
  | nil => intro last cs em _; exact changesAtEnd_times last cs em
  | cons o os ih =>
    intro last cs em h x hx
    have hlo := h.start o List.mem_cons_self
    have hmax : (if o.off > last then o.off else last) = o.off := by
      by_cases hg : o.off > last
      · rw [if_pos hg]
      · rw [if_neg hg]; exact le_antisymm hlo (not_lt.1 hg)
    simp only [layerLoop] at hx
    rw [readPositions_append, readPositions_append, readPositions_append] at hx
    simp only [List.map_append, List.sum_append, fillGap_len _ _ hlo, (changesBefore_times o.off cs em).1] at hx
    rw [show last + (o.off - last + 0) = o.off by ring, show last + (o.off - last) = o.off by ring] at hx
    rcases List.mem_append.1 hx with hx | hx
    · rcases List.mem_append.1 hx with hx | hx
      · rcases List.mem_append.1 hx with hx | hx
        · exact fillGap_right _ _ _ x hx
        · exact (changesBefore_times o.off cs em).2 x hx
      · by_cases hd : o.did = true
        · rw [if_pos hd] at hx
          rcases List.mem_cons.1 hx with rfl | hx
          · rfl
          · cases hx
        · rw [if_neg hd] at hx; cases hx
    · refine ih _ (changesBefore o.off cs em).2.1 (changesBefore o.off cs em).2.2 h.tail x ?_
      rw [hmax] at hx ⊢
      by_cases hd : o.did = true
      · rw [if_pos hd] at hx ⊢
        simp only [List.map_cons, List.map_nil, List.sum_cons, List.sum_nil, LayItem.len] at hx
        rwa [if_pos hd, show last + (o.off - last + 0 + (o.dur + 0)) = o.off + o.dur by ring] at hx
      · rw [if_neg hd] at hx ⊢
        simp only [List.map_nil, List.sum_nil] at hx
        rwa [if_neg hd, show last + (o.off - last + 0 + 0) = o.off by ring] at hx

/-- C86, the part that holds: whatever is written in a layer, object or change, is read at its offset in the measure, when the objects of
the voice follow one another. It is false when a clef stands in the middle of a note: `clef_in_note_shifts`. -/
theorem layer_times_partial (vo : Rat) (hvo : 0 ≤ vo) (objs : List LayObj) (cs : List StaffChange) (em : List Nat)
    (h : LayInOrder vo objs) : ∀ x ∈ readPositions 0 (writeLayer vo objs cs em).1, ReadRight x := by
  intro x hx
  unfold writeLayer at hx
  simp only at hx
  rw [readPositions_append] at hx
  rcases List.mem_append.1 hx with hx | hx
  · by_cases hv : vo ≠ 0
    · rw [if_pos hv] at hx; exact spaces_right _ _ x hx
    · rw [if_neg hv] at hx; cases hx
  · have : (0 : Rat) + (List.map LayItem.len (if vo ≠ 0 then (splitQL vo).map .space else [])).sum = vo := by
      by_cases hv : vo ≠ 0
      · rw [if_pos hv, spaces_len, split_sum _ (lt_of_le_of_ne hvo (Ne.symm hv)), zero_add]
      · rw [if_neg hv]; simp only [not_not] at hv; simp [hv]
    rw [this] at hx
    exact layerLoop_times objs vo cs em h x hx

/-! ## Nothing is lost -/

theorem fillGap_objects (a b : Rat) : (fillGap a b).filterMap LayItem.object? = [] := by
  unfold fillGap
  split
  · rw [List.filterMap_map]
    exact List.filterMap_eq_nil_iff.2 (fun _ _ => rfl)
  · rfl

theorem changeItem_object (em : List Nat) (c : StaffChange) : (changeItem em c).object? = none := by
  unfold changeItem; split <;> rfl

theorem changesBefore_objects (off : Rat) : ∀ (cs : List StaffChange) (em : List Nat),
    (changesBefore off cs em).1.filterMap LayItem.object? = [] := by
  intro cs
  induction cs with
  | nil => intro em; rfl
  | cons c cs ih =>
    intro em
    unfold changesBefore
    by_cases h1 : c.off > off
    · rw [if_pos h1]; rfl
    · rw [if_neg h1]
      by_cases h2 : c.off = off
      · rw [if_pos h2]
        simp only [(writeChange_spec em c).1]
        rw [List.filterMap_cons_none (changeItem_object em c)]
        exact ih _
      · rw [if_neg h2]; exact ih em

theorem changesAtEnd_objects (last : Rat) : ∀ (cs : List StaffChange) (em : List Nat),
    (changesAtEnd last cs em).1.filterMap LayItem.object? = [] := by
  intro cs
  induction cs with
  | nil => intro em; rfl
  | cons c cs ih =>
    intro em
    unfold changesAtEnd
    by_cases h2 : c.off = last
    · rw [if_pos h2]
      simp only [(writeChange_spec em c).1]
      rw [List.filterMap_cons_none (changeItem_object em c)]
      exact ih _
    · rw [if_neg h2]; exact ih em

/-- C86: the objects that can be written are all written, in their order, whatever their times. -/
theorem layer_objects (vo : Rat) (objs : List LayObj) (cs : List StaffChange) (em : List Nat) :
    (writeLayer vo objs cs em).1.filterMap LayItem.object? = objs.filter (·.did) := by
  have hl : ∀ (objs : List LayObj) (last : Rat) (cs : List StaffChange) (em : List Nat),
      (layerLoop last objs cs em).1.filterMap LayItem.object? = objs.filter (·.did) := by
    intro objs
    induction objs with
    | nil => intro last cs em; exact changesAtEnd_objects last cs em
    | cons o os ih =>
      intro last cs em
      simp only [layerLoop, List.filterMap_append, fillGap_objects, changesBefore_objects, List.nil_append, ih]
      by_cases hd : o.did = true
      · rw [if_pos hd, List.filter_cons_of_pos hd]; rfl
      · rw [if_neg hd, List.filter_cons_of_neg hd]; rfl
  unfold writeLayer
  simp only [List.filterMap_append, hl]
  by_cases hv : vo ≠ 0
  · rw [if_pos hv, List.filterMap_map,
      show List.filterMap (LayItem.object? ∘ LayItem.space) (splitQL vo) = [] from List.filterMap_eq_nil_iff.2 (fun _ _ => rfl)]
    rfl
  · rw [if_neg hv]; rfl

theorem changeItem_cons (em em' : List Nat) (c : StaffChange) (cs : List StaffChange) (hem : ∀ x, x ∈ em' ↔ x ∈ em ∨ x = c.id)
    (hn : c.id ∉ cs.map (·.id)) : cs.map (changeItem em') = cs.map (changeItem em) := by
  refine List.map_congr_left ?_
  intro d hd
  have : d.id ≠ c.id := by
    intro h
    exact hn (h ▸ List.mem_map_of_mem hd)
  unfold changeItem
  by_cases h : d.id ∈ em
  · rw [if_pos ((hem _).2 (Or.inl h)), if_pos h]
  · rw [if_neg (fun h' => ((hem _).1 h').elim h this), if_neg h]

theorem changesAtEnd_spec (last : Rat) : ∀ (cs : List StaffChange) (em : List Nat), (cs.map (·.id)).Nodup →
    (changesAtEnd last cs em).1 = (cs.filter (fun c => c.off = last)).map (changeItem em) ∧
    ∀ x, x ∈ (changesAtEnd last cs em).2 ↔ x ∈ em ∨ ∃ c ∈ cs, c.off = last ∧ c.id = x := by
  intro cs
  induction cs with
  | nil => intro em _; exact ⟨rfl, fun x => by simp [changesAtEnd]⟩
  | cons c cs ih =>
    intro em hn
    rw [List.map_cons, List.nodup_cons] at hn
    unfold changesAtEnd
    by_cases h2 : c.off = last
    · rw [if_pos h2, List.filter_cons_of_pos (by simpa using h2)]
      have hw := writeChange_spec em c
      obtain ⟨i1, i2⟩ := ih (writeChange em c).2 hn.2
      refine ⟨?_, ?_⟩
      · simp only [hw.1, List.map_cons, i1]
        rw [changeItem_cons em _ c _ hw.2]
        intro hh
        apply hn.1
        rw [List.mem_map] at hh ⊢
        obtain ⟨d, hd, he⟩ := hh
        exact ⟨d, List.mem_of_mem_filter hd, he⟩
      · intro x
        simp only [i2, hw.2]
        constructor
        · rintro ((h | h) | ⟨d, hd, h⟩)
          · exact Or.inl h
          · exact Or.inr ⟨c, List.mem_cons_self, h2, h.symm⟩
          · exact Or.inr ⟨d, List.mem_cons_of_mem _ hd, h⟩
        · rintro (h | ⟨d, hd, h⟩)
          · exact Or.inl (Or.inl h)
          · rcases List.mem_cons.1 hd with rfl | hd
            · exact Or.inl (Or.inr h.2.symm)
            · exact Or.inr ⟨d, hd, h⟩
    · rw [if_neg h2, List.filter_cons_of_neg (by simpa using h2)]
      obtain ⟨i1, i2⟩ := ih em hn.2
      refine ⟨i1, ?_⟩
      intro x
      rw [i2]
      constructor
      · rintro (h | ⟨d, hd, h⟩)
        · exact Or.inl h
        · exact Or.inr ⟨d, List.mem_cons_of_mem _ hd, h⟩
      · rintro (h | ⟨d, hd, h⟩)
        · exact Or.inl h
        · rcases List.mem_cons.1 hd with rfl | hd
          · exact absurd h.1 h2
          · exact Or.inr ⟨d, hd, h⟩

theorem changesBefore_spec (off : Rat) : ∀ (cs : List StaffChange) (em : List Nat), (cs.map (·.id)).Nodup → ChangesSorted cs →
    (changesBefore off cs em).1 = (cs.filter (fun c => c.off = off)).map (changeItem em) ∧
    (changesBefore off cs em).2.1 = cs.filter (fun c => off < c.off) ∧
    ∀ x, x ∈ (changesBefore off cs em).2.2 ↔ x ∈ em ∨ ∃ c ∈ cs, c.off = off ∧ c.id = x := by
  intro cs
  induction cs with
  | nil => intro em _ _; exact ⟨rfl, rfl, fun x => by simp [changesBefore]⟩
  | cons c cs ih =>
    intro em hn hs
    rw [List.map_cons, List.nodup_cons] at hn
    unfold ChangesSorted at hs
    rw [List.pairwise_cons] at hs
    unfold changesBefore
    by_cases h1 : c.off > off
    · rw [if_pos h1]
      have hall : ∀ d ∈ c :: cs, off < d.off := by
        intro d hd
        rcases List.mem_cons.1 hd with rfl | hd
        · exact h1
        · exact lt_of_lt_of_le h1 (hs.1 d hd)
      refine ⟨?_, ?_, ?_⟩
      · rw [List.filter_eq_nil_iff.2]
        · rfl
        · intro d hd
          have := hall d hd
          simp only [decide_eq_true_eq]
          intro h; rw [h] at this; exact lt_irrefl _ this
      · rw [List.filter_eq_self.2]
        intro d hd
        simpa using hall d hd
      · intro x
        refine ⟨Or.inl, ?_⟩
        rintro (h | ⟨d, hd, h, _⟩)
        · exact h
        · have := hall d hd
          rw [h] at this
          exact absurd this (lt_irrefl _)
    · rw [if_neg h1]
      by_cases h2 : c.off = off
      · rw [if_pos h2, List.filter_cons_of_pos (by simpa using h2), List.filter_cons_of_neg (by simp [h2])]
        have hw := writeChange_spec em c
        obtain ⟨i1, i2, i3⟩ := ih (writeChange em c).2 hn.2 hs.2
        refine ⟨?_, i2, ?_⟩
        · simp only [hw.1, List.map_cons, i1]
          rw [changeItem_cons em _ c _ hw.2]
          intro hh
          apply hn.1
          rw [List.mem_map] at hh ⊢
          obtain ⟨d, hd, he⟩ := hh
          exact ⟨d, List.mem_of_mem_filter hd, he⟩
        · intro x
          simp only [i3, hw.2]
          constructor
          · rintro ((h | h) | ⟨d, hd, h⟩)
            · exact Or.inl h
            · exact Or.inr ⟨c, List.mem_cons_self, h2, h.symm⟩
            · exact Or.inr ⟨d, List.mem_cons_of_mem _ hd, h⟩
          · rintro (h | ⟨d, hd, h⟩)
            · exact Or.inl (Or.inl h)
            · rcases List.mem_cons.1 hd with rfl | hd
              · exact Or.inl (Or.inr h.2.symm)
              · exact Or.inr ⟨d, hd, h⟩
      · rw [if_neg h2, List.filter_cons_of_neg (by simpa using h2), List.filter_cons_of_neg (by simpa using h1)]
        obtain ⟨i1, i2, i3⟩ := ih em hn.2 hs.2
        refine ⟨i1, i2, ?_⟩
        intro x
        rw [i3]
        constructor
        · rintro (h | ⟨d, hd, h⟩)
          · exact Or.inl h
          · exact Or.inr ⟨d, List.mem_cons_of_mem _ hd, h⟩
        · rintro (h | ⟨d, hd, h⟩)
          · exact Or.inl h
          · rcases List.mem_cons.1 hd with rfl | hd
            · exact absurd h.1 h2
            · exact Or.inr ⟨d, hd, h⟩

/-- A sorted list of changes, taken at an offset and after it. -/
theorem filter_split_sorted (off : Rat) (B' : StaffChange → Bool) (B : StaffChange → Bool)
    (hB : ∀ c, B c = true ↔ c.off = off ∨ (off < c.off ∧ B' c = true)) : ∀ cs : List StaffChange, ChangesSorted cs →
    cs.filter B = cs.filter (fun c => c.off = off) ++ (cs.filter (fun c => off < c.off)).filter B' := by
  intro cs
  induction cs with
  | nil => intro _; rfl
  | cons c cs ih =>
    intro hs
    unfold ChangesSorted at hs
    rw [List.pairwise_cons] at hs
    have ih := ih hs.2
    by_cases h2 : c.off = off
    · rw [List.filter_cons_of_pos ((hB c).2 (Or.inl h2)), List.filter_cons_of_pos (by simpa using h2),
        List.filter_cons_of_neg (by simp [h2]), ih, List.cons_append]
    · by_cases h1 : off < c.off
      · have hnil : ∀ l : List StaffChange, (∀ d ∈ l, d ∈ c :: cs) → l.filter (fun c => decide (c.off = off)) = [] := by
          intro l hl
          rw [List.filter_eq_nil_iff]
          intro d hd
          have : off < d.off := by
            rcases List.mem_cons.1 (hl d hd) with rfl | hd
            · exact h1
            · exact lt_of_lt_of_le h1 (hs.1 d hd)
          simp only [decide_eq_true_eq]
          intro h; rw [h] at this; exact lt_irrefl _ this
        rw [hnil _ (fun d hd => List.mem_cons_of_mem _ hd), List.nil_append] at ih
        rw [hnil _ (fun d hd => hd), List.nil_append, List.filter_cons_of_pos (p := fun c : StaffChange => decide (off < c.off)) (by simpa using h1)]
        by_cases hb : B' c = true
        · rw [List.filter_cons_of_pos hb, List.filter_cons_of_pos ((hB c).2 (Or.inr ⟨h1, hb⟩)), ih]
        · rw [List.filter_cons_of_neg hb, List.filter_cons_of_neg (fun h => ((hB c).1 h).elim h2 (fun h => hb h.2)), ih]
      · rw [List.filter_cons_of_neg (fun h => ((hB c).1 h).elim h2 (fun h => h1 h.1)), List.filter_cons_of_neg (by simpa using h2),
          List.filter_cons_of_neg (by simpa using h1), ih]

theorem layerEnd_ge : ∀ (objs : List LayObj) (last : Rat), LayInOrder last objs → (∀ o ∈ objs, 0 ≤ o.dur) →
    last ≤ layerEnd last objs ∧ ∀ o ∈ objs, o.off ≤ layerEnd last objs := by
  intro objs
  induction objs with
  | nil => intro last _ _; exact ⟨le_refl _, fun o h => by cases h⟩
  | cons o os ih =>
    intro last h hd
    have hlo := h.start o List.mem_cons_self
    have h0 := hd o List.mem_cons_self
    obtain ⟨i1, i2⟩ := ih _ h.tail (fun o ho => hd o (List.mem_cons_of_mem _ ho))
    have hge : o.off ≤ (if o.did then o.off + o.dur else if o.off > last then o.off else last) := by
      by_cases hdid : o.did = true
      · rw [if_pos hdid]; linarith
      · rw [if_neg hdid]
        by_cases hg : o.off > last
        · rw [if_pos hg]
        · rw [if_neg hg]; exact not_lt.1 hg
    refine ⟨?_, ?_⟩
    · show last ≤ layerEnd _ os
      linarith
    · intro b hb
      show b.off ≤ layerEnd _ os
      rcases List.mem_cons.1 hb with rfl | hb
      · linarith
      · exact i2 b hb

theorem map_changeItem_filter (em : List Nat) (cs : List StaffChange) :
    (cs.map (changeItem em)).filter LayItem.isChange = cs.map (changeItem em) := by
  rw [List.filter_eq_self]
  intro x hx
  rw [List.mem_map] at hx
  obtain ⟨c, _, rfl⟩ := hx
  unfold changeItem; split <;> rfl

theorem spaces_filter (l : List Rat) : (l.map LayItem.space).filter LayItem.isChange = [] := by
  rw [List.filter_eq_nil_iff]
  intro x hx
  rw [List.mem_map] at hx
  obtain ⟨c, _, rfl⟩ := hx
  simp [LayItem.isChange]

theorem layerLoop_changes : ∀ (objs : List LayObj) (last : Rat) (cs : List StaffChange) (em : List Nat), LayInOrder last objs →
    (∀ o ∈ objs, 0 ≤ o.dur) → (cs.map (·.id)).Nodup → ChangesSorted cs →
    (layerLoop last objs cs em).1.filter LayItem.isChange =
      (cs.filter (fun c => AtBoundary last objs c.off)).map (changeItem em) ∧
    ∀ x, x ∈ (layerLoop last objs cs em).2 ↔ x ∈ em ∨ ∃ c ∈ cs, AtBoundary last objs c.off ∧ c.id = x := by
  intro objs
  induction objs with
  | nil =>
    intro last cs em _ _ hn _
    obtain ⟨h1, h2⟩ := changesAtEnd_spec last cs em hn
    refine ⟨?_, ?_⟩
    · simp only [layerLoop, h1, map_changeItem_filter]
      congr 2
      funext c
      simp [AtBoundary, layerEnd]
    · intro x
      simp only [layerLoop, h2, AtBoundary, layerEnd, List.map_nil, List.not_mem_nil, false_or]
  | cons o os ih =>
    intro last cs em h hd hn hs
    obtain ⟨b1, b2, b3⟩ := changesBefore_spec o.off cs em hn hs
    have hn' : ((cs.filter (fun c => decide (o.off < c.off))).map (·.id)).Nodup :=
      hn.sublist (List.Sublist.map _ List.filter_sublist)
    have hs' : ChangesSorted (cs.filter (fun c => decide (o.off < c.off))) := List.Pairwise.sublist List.filter_sublist hs
    have hd' : ∀ o ∈ os, 0 ≤ o.dur := fun o ho => hd o (List.mem_cons_of_mem _ ho)
    obtain ⟨i1, i2⟩ := ih _ (cs.filter (fun c => decide (o.off < c.off))) (changesBefore o.off cs em).2.2 h.tail hd' hn' hs'
    have hEnd := (layerEnd_ge (o :: os) last h hd).2 o List.mem_cons_self
    have hos : ∀ b ∈ os, o.off ≤ b.off := fun b hb => ((List.pairwise_cons.1 h.follow).1 b hb).1
    -- boundaries of the rest
    have hB : ∀ c : StaffChange, AtBoundary last (o :: os) c.off ↔ c.off = o.off ∨ (o.off < c.off ∧
        AtBoundary (if o.did then o.off + o.dur else if o.off > last then o.off else last) os c.off) := by
      intro c
      unfold AtBoundary
      rw [List.map_cons, List.mem_cons]
      have he : layerEnd last (o :: os) = layerEnd (if o.did then o.off + o.dur else if o.off > last then o.off else last) os := rfl
      rw [← he]
      constructor
      · rintro ((h | h) | h)
        · exact Or.inl h
        · rw [List.mem_map] at h
          obtain ⟨b, hb, hbc⟩ := h
          rcases lt_or_eq_of_le (hos b hb) with hl | hl
          · exact Or.inr ⟨hbc ▸ hl, Or.inl (List.mem_map.2 ⟨b, hb, hbc⟩)⟩
          · exact Or.inl (by rw [← hbc, hl])
        · rcases lt_or_eq_of_le hEnd with hl | hl
          · exact Or.inr ⟨h ▸ hl, Or.inr h⟩
          · exact Or.inl (by rw [h, hl])
      · rintro (h | ⟨_, h | h⟩)
        · exact Or.inl (Or.inl h)
        · exact Or.inl (Or.inr h)
        · exact Or.inr h
    refine ⟨?_, ?_⟩
    · simp only [layerLoop, List.filter_append, b2, i1]
      have hgap : (fillGap last o.off).filter LayItem.isChange = [] := by
        unfold fillGap; split
        · exact spaces_filter _
        · rfl
      have hobj : (if o.did = true then [LayItem.obj o] else []).filter LayItem.isChange = [] := by
        split <;> rfl
      rw [hgap, hobj, b1, map_changeItem_filter, List.nil_append, List.append_nil]
      rw [filter_split_sorted o.off
        (fun c => decide (AtBoundary (if o.did then o.off + o.dur else if o.off > last then o.off else last) os c.off))
        (fun c => decide (AtBoundary last (o :: os) c.off)) (by
        intro c
        simp only [decide_eq_true_iff]
        exact hB c) cs hs, List.map_append]
      congr 1
      refine List.map_congr_left ?_
      intro c hc
      have hc1 := List.mem_of_mem_filter hc
      rw [List.mem_filter] at hc1
      have hcgt : o.off < c.off := by simpa using hc1.2
      unfold changeItem
      have : c.id ∈ (changesBefore o.off cs em).2.2 ↔ c.id ∈ em := by
        rw [b3]
        refine ⟨?_, Or.inl⟩
        rintro (h | ⟨d, hdc, he, hid⟩)
        · exact h
        · exfalso
          have : d = c := List.inj_on_of_nodup_map hn hdc hc1.1 hid
          rw [this] at he
          rw [he] at hcgt
          exact lt_irrefl _ hcgt
      by_cases hh : c.id ∈ em
      · rw [if_pos (this.2 hh), if_pos hh]
      · rw [if_neg (fun h => hh (this.1 h)), if_neg hh]
    · intro x
      simp only [layerLoop, b2, i2, b3]
      constructor
      · rintro ((h | ⟨c, hc, he, hid⟩) | ⟨c, hc, hb, hid⟩)
        · exact Or.inl h
        · exact Or.inr ⟨c, hc, (hB c).2 (Or.inl he), hid⟩
        · rw [List.mem_filter] at hc
          exact Or.inr ⟨c, hc.1, (hB c).2 (Or.inr ⟨by simpa using hc.2, hb⟩), hid⟩
      · rintro (h | ⟨c, hc, hb, hid⟩)
        · exact Or.inl (Or.inl h)
        · rcases (hB c).1 hb with he | ⟨hl, hb⟩
          · exact Or.inl (Or.inr ⟨c, hc, he, hid⟩)
          · exact Or.inr ⟨c, List.mem_filter.2 ⟨hc, by simpa using hl⟩, hb, hid⟩

/-- C86: exactly the changes at a boundary of the layer are written in it, in full unless an earlier layer did. -/
theorem layer_changes (vo : Rat) (objs : List LayObj) (cs : List StaffChange) (em : List Nat) (h : LayInOrder vo objs)
    (hd : ∀ o ∈ objs, 0 ≤ o.dur) (hn : (cs.map (·.id)).Nodup) (hs : ChangesSorted cs) :
    (writeLayer vo objs cs em).1.filter LayItem.isChange = (cs.filter (fun c => AtBoundary vo objs c.off)).map (changeItem em) ∧
    ∀ x, x ∈ (writeLayer vo objs cs em).2 ↔ x ∈ em ∨ ∃ c ∈ cs, AtBoundary vo objs c.off ∧ c.id = x := by
  obtain ⟨h1, h2⟩ := layerLoop_changes objs vo cs em h hd hn hs
  refine ⟨?_, h2⟩
  unfold writeLayer
  simp only [List.filter_append, h1]
  by_cases hv : vo ≠ 0
  · rw [if_pos hv, spaces_filter]; rfl
  · rw [if_neg hv]; rfl

/-- C86: a change is written in full exactly once among the layers of the staff, if it is at a boundary of some layer; otherwise it is
not written at all. -/
theorem change_written_once (cs : List StaffChange) (hn : (cs.map (·.id)).Nodup) (hs : ChangesSorted cs) :
    ∀ (vs : List (Rat × List LayObj)) (em : List Nat), (∀ v ∈ vs, LayInOrder v.1 v.2 ∧ ∀ o ∈ v.2, 0 ≤ o.dur) → ∀ c ∈ cs,
    (writeLayers cs vs em).flatten.count (.change c) =
      if c.id ∉ em ∧ ∃ v ∈ vs, AtBoundary v.1 v.2 c.off then 1 else 0 := by
  intro vs
  induction vs with
  | nil => intro em _ c _; simp [writeLayers]
  | cons v vs ih =>
    intro em hv c hc
    obtain ⟨h1, h2⟩ := layer_changes v.1 v.2 cs em (hv v List.mem_cons_self).1 (hv v List.mem_cons_self).2 hn hs
    have ih := ih (writeLayer v.1 v.2 cs em).2 (fun v h => hv v (List.mem_cons_of_mem _ h)) c hc
    show ((writeLayer v.1 v.2 cs em).1 :: writeLayers cs vs (writeLayer v.1 v.2 cs em).2).flatten.count (.change c) = _
    rw [List.flatten_cons, List.count_append, ih]
    have hcount : (writeLayer v.1 v.2 cs em).1.count (.change c) = if c.id ∉ em ∧ AtBoundary v.1 v.2 c.off then 1 else 0 := by
      rw [← List.count_filter (p := LayItem.isChange) rfl, h1]
      by_cases hem : c.id ∈ em
      · rw [if_neg (fun h => h.1 hem), List.count_eq_zero]
        intro hh
        rw [List.mem_map] at hh
        obtain ⟨d, _, he⟩ := hh
        unfold changeItem at he
        split at he
        · cases he
        · next hne => injection he with he; rw [he] at hne; exact hne hem
      · have hinj : ∀ l : List StaffChange, (l.map (changeItem em)).count (.change c) = l.count c := by
          intro l
          induction l with
          | nil => rfl
          | cons d l ihl =>
            rw [List.map_cons, List.count_cons, List.count_cons, ihl]
            congr 1
            by_cases hdc : d = c
            · rw [hdc]; unfold changeItem; rw [if_neg hem]; simp
            · have : changeItem em d ≠ .change c := by
                unfold changeItem
                split
                · intro h; cases h
                · intro h; injection h with h; exact hdc h
              simp [this, hdc]
        rw [hinj]
        have hnd : cs.Nodup := List.Nodup.of_map _ hn
        by_cases hb : AtBoundary v.1 v.2 c.off
        · rw [if_pos ⟨hem, hb⟩]
          exact List.count_eq_one_of_mem (hnd.filter _) (List.mem_filter.2 ⟨hc, by simpa using hb⟩)
        · rw [if_neg (fun h => hb h.2), List.count_eq_zero]
          intro hh
          rw [List.mem_filter] at hh
          exact hb (by simpa using hh.2)
    rw [hcount]
    by_cases hem : c.id ∈ em
    · rw [if_neg (fun h => h.1 hem), if_neg (fun h => h.1 ((h2 _).2 (Or.inl hem))), if_neg (fun h => h.1 hem)]
    · by_cases hb : AtBoundary v.1 v.2 c.off
      · rw [if_pos ⟨hem, hb⟩, if_neg, if_pos ⟨hem, v, List.mem_cons_self, hb⟩]
        intro h
        exact h.1 ((h2 _).2 (Or.inr ⟨c, hc, hb, rfl⟩))
      · rw [if_neg (fun h => hb h.2)]
        have e1 : c.id ∉ (writeLayer v.1 v.2 cs em).2 := by
          rw [h2]
          rintro (h | ⟨d, hd, hbd, hid⟩)
          · exact hem h
          · have : d = c := List.inj_on_of_nodup_map hn hd hc hid
            exact hb (this ▸ hbd)
        by_cases hvs : ∃ v ∈ vs, AtBoundary v.1 v.2 c.off
        · obtain ⟨w, hw, hwb⟩ := hvs
          rw [if_pos ⟨e1, w, hw, hwb⟩, if_pos ⟨hem, w, List.mem_cons_of_mem _ hw, hwb⟩]
        · rw [if_neg (fun h => hvs h.2), if_neg]
          rintro ⟨_, w, hw, hwb⟩
          rcases List.mem_cons.1 hw with rfl | hw
          · exact hb hwb
          · exact hvs ⟨w, hw, hwb⟩

/-- Two voices, the second starting on the second beat after a gap, and clef changes on the second beat and at the end. -/
example : writeLayers [⟨1, 7⟩, ⟨4, 8⟩] [(0, [⟨0, 1, true⟩, ⟨1, 3, true⟩]), (1, [⟨1, 1, true⟩, ⟨3, 1, true⟩])] [] =
    [[.obj ⟨0, 1, true⟩, .change ⟨1, 7⟩, .obj ⟨1, 3, true⟩, .change ⟨4, 8⟩],
     [.space 1, .sameAs ⟨1, 7⟩, .obj ⟨1, 1, true⟩, .space 1, .obj ⟨3, 1, true⟩, .sameAs ⟨4, 8⟩]] := by decide +kernel
example : LayInOrder 1 [⟨1, 1, true⟩, ⟨3, 1, true⟩] := by
  refine ⟨?_, ?_⟩
  · intro o ho
    simp only [List.mem_cons, List.not_mem_nil, or_false] at ho
    rcases ho with rfl | rfl <;> norm_num
  · simp only [List.pairwise_cons, List.mem_cons, List.not_mem_nil, or_false]
    refine ⟨?_, ?_, List.Pairwise.nil⟩
    · rintro b rfl; norm_num
    · intro b hb; cases hb

/-- C86 is false: a clef in the middle of a half note moves the next note a beat later. -/
theorem clef_in_note_shifts :
    readPositions 0 (writeLayer 0 [⟨0, 2, true⟩, ⟨1, 0, true⟩, ⟨2, 2, true⟩] [] []).1 =
      [(.obj ⟨0, 2, true⟩, 0), (.obj ⟨1, 0, true⟩, 2), (.space 1, 2), (.obj ⟨2, 2, true⟩, 3)] := by decide +kernel

/-- C86 is false: a change in the middle of the notes of all voices is not written at all. -/
theorem change_in_note_lost :
    (writeLayers [⟨1, 7⟩] [(0, [⟨0, 2, true⟩, ⟨2, 2, true⟩]), (0, [⟨0, 4, true⟩])] []).flatten.filter LayItem.isChange = [] := by
  decide +kernel

/-- C86 is false: the stub that stands for a bass clef in the second layer is read as a treble clef there. -/
theorem sameas_clef_read_as_treble : readSameAsClef = ⟨"G", none, 0⟩ ∧
    (writeClef ⟨"F", some 4, 0⟩).map readClef = some ⟨"F", some 4, 0⟩ := by decide

/-! ## Numbers of layers (C87) -/

/-- C87, the part that holds: the layers of a staff have different (increasing) numbers if every id given as a number is at least the
next free number when its turn comes; in particular if no id is a number. -/
theorem layerNumbers_partial : ∀ (ids : List VoiceId) (next : Nat),
    (∀ pre n post, ids = pre ++ .low n :: post → ∀ m ∈ layerNumbers next pre, m < n) →
    (∀ n post, ids = .low n :: post → next ≤ n) →
    (layerNumbers next ids).Pairwise (· < ·) ∧ ∀ m ∈ layerNumbers next ids, next ≤ m := by
  have key : ∀ (ids : List VoiceId) (next : Nat),
      (∀ pre n post, ids = pre ++ .low n :: post → next ≤ n ∧ ∀ m ∈ layerNumbers next pre, m < n) →
      (layerNumbers next ids).Pairwise (· < ·) ∧ ∀ m ∈ layerNumbers next ids, next ≤ m := by
    intro ids
    induction ids with
    | nil => intro next _; exact ⟨List.Pairwise.nil, fun m h => by cases h⟩
    | cons v ids ih =>
      intro next h
      cases v with
      | low n =>
        have h0 := (h [] n ids rfl).1
        obtain ⟨i1, i2⟩ := ih (n + 1) (by
          intro pre k post e
          have h2 := (h (.low n :: pre) k post (by rw [e]; rfl)).2
          have hnk : n < k := h2 n (by show n ∈ n :: _; exact List.mem_cons_self)
          exact ⟨hnk, fun m hm => h2 m (List.mem_cons_of_mem _ hm)⟩)
        refine ⟨List.pairwise_cons.2 ⟨fun m hm => i2 m hm, i1⟩, ?_⟩
        intro m hm
        rcases List.mem_cons.1 hm with rfl | hm
        · exact h0
        · exact le_trans h0 (le_trans (Nat.le_succ n) (i2 m hm))
      | address =>
        obtain ⟨i1, i2⟩ := ih (next + 1) (by
          intro pre k post e
          have h2 := (h (.address :: pre) k post (by rw [e]; rfl)).2
          have hnk : next < k := h2 next (by show next ∈ next :: _; exact List.mem_cons_self)
          exact ⟨hnk, fun m hm => h2 m (List.mem_cons_of_mem _ hm)⟩)
        refine ⟨List.pairwise_cons.2 ⟨fun m hm => i2 m hm, i1⟩, ?_⟩
        intro m hm
        rcases List.mem_cons.1 hm with rfl | hm
        · exact le_refl _
        · exact le_trans (Nat.le_succ next) (i2 m hm)
      | str s =>
        obtain ⟨i1, i2⟩ := ih (next + 1) (by
          intro pre k post e
          have h2 := (h (.str s :: pre) k post (by rw [e]; rfl)).2
          have hnk : next < k := h2 next (by show next ∈ next :: _; exact List.mem_cons_self)
          exact ⟨hnk, fun m hm => h2 m (List.mem_cons_of_mem _ hm)⟩)
        refine ⟨List.pairwise_cons.2 ⟨fun m hm => i2 m hm, i1⟩, ?_⟩
        intro m hm
        rcases List.mem_cons.1 hm with rfl | hm
        · exact le_refl _
        · exact le_trans (Nat.le_succ next) (i2 m hm)
  intro ids next h h0
  refine key ids next ?_
  intro pre n post e
  refine ⟨?_, h pre n post e⟩
  cases pre with
  | nil => exact h0 n post e
  | cons v pre =>
    -- the first number is at least `next`, and less than `n`
    have h2 := h _ _ _ e
    cases v with
    | low k =>
      have a := h0 k (pre ++ .low n :: post) e
      have b := h2 k (by show k ∈ k :: _; exact List.mem_cons_self)
      omega
    | address => exact le_of_lt (h2 next (by show next ∈ next :: _; exact List.mem_cons_self))
    | str s => exact le_of_lt (h2 next (by show next ∈ next :: _; exact List.mem_cons_self))

/-- Without numbers among the ids, the layers are 1, 2, 3, … -/
theorem layerNumbers_free : ∀ (ids : List VoiceId) (next : Nat), (∀ n, VoiceId.low n ∉ ids) →
    layerNumbers next ids = List.range' next ids.length := by
  intro ids
  induction ids with
  | nil => intro next _; rfl
  | cons v ids ih =>
    intro next h
    have ih := ih (next + 1) (fun n hn => h n (List.mem_cons_of_mem _ hn))
    cases v with
    | low n => exact absurd List.mem_cons_self (h n)
    | address => show next :: layerNumbers (next + 1) ids = _; rw [ih]; rfl
    | str s => show next :: layerNumbers (next + 1) ids = _; rw [ih]; rfl

/-- A number given on purpose is used as it is. -/
theorem layerNumbers_given (pre : List VoiceId) (n : Nat) (post : List VoiceId) : ∀ next,
    (layerNumbers next (pre ++ .low n :: post))[pre.length]? = some n := by
  induction pre with
  | nil => intro next; rfl
  | cons v pre ih =>
    intro next
    cases v with
    | low k => exact ih (k + 1)
    | address => exact ih (next + 1)
    | str s => exact ih (next + 1)

example : layerNumbers 1 [.address, .low 4, .str "alto".toList, .low 6] = [1, 4, 5, 6] := by decide

/-- C87 is false: a voice without an id takes the number 1 that the next voice was given. -/
theorem layer_numbers_clash : layerNumbers 1 [.address, .low 1] = [1, 1] ∧ layerNumbers 1 [.low 2, .low 1, .address] = [2, 1, 2] := by
  decide

end C21
