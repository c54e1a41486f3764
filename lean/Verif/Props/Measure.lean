import Verif.Spec.Measure
import Verif.Props.Grid
import Verif.Lemmas.Tac
/-
C34: the lines of a measure stay in order of time, and tokens are not lost.
-/
namespace C21

/-! ## Inserting and changing -/

theorem insertAt_end {α : Type} (l : List α) (x : α) : insertAt l l.length x = l ++ [x] := by
  unfold insertAt; simp

theorem insertAt_sublist {α : Type} (l : List α) (i : Nat) (x : α) : l.Sublist (insertAt l i x) := by
  unfold insertAt
  calc l.Sublist (l.take i ++ l.drop i) := by rw [List.take_append_drop]
    _ |>.Sublist _ := List.Sublist.append_left (List.sublist_cons_self _ _) _

theorem mem_insertAt {α : Type} (l : List α) (i : Nat) (x y : α) : y ∈ insertAt l i x ↔ y = x ∨ y ∈ l := by
  unfold insertAt
  rw [List.mem_append, List.mem_cons]
  constructor
  · rintro (h | h | h)
    · exact Or.inr (List.mem_of_mem_take h)
    · exact Or.inl h
    · exact Or.inr (List.mem_of_mem_drop h)
  · rintro (h | h)
    · exact Or.inr (Or.inl h)
    · rw [← List.take_append_drop i l] at h
      rcases List.mem_append.1 h with h | h
      · exact Or.inl h
      · exact Or.inr (Or.inr h)

theorem insertAt_getLast {α : Type} (l : List α) (i : Nat) (x y : α) (h : (insertAt l i x).getLast? = some y) :
    (l.length ≤ i ∧ y = x) ∨ l.getLast? = some y := by
  unfold insertAt at h
  by_cases hi : l.length ≤ i
  · rw [List.drop_eq_nil_of_le hi] at h
    simp at h
    exact Or.inl ⟨hi, h.symm⟩
  · right
    have hd : l.drop i ≠ [] := by simp; omega
    rw [List.getLast?_append, List.getLast?_cons] at h
    cases hq : (l.drop i).getLast? with
    | none => exact absurd (List.getLast?_eq_none_iff.1 hq) hd
    | some z =>
      rw [hq] at h
      have hz : z = y := by simpa using h
      subst hz
      rw [← List.take_append_drop i l, List.getLast?_append, hq]; rfl

theorem chain_insertAt {α : Type} {R : α → α → Prop} (l : List α) (i : Nat) (x : α) (h : l.IsChain R)
    (h1 : ∀ a, 0 < i → l[i - 1]? = some a → R a x) (h2 : ∀ b, l[i]? = some b → R x b) (hi : i ≤ l.length) :
    (insertAt l i x).IsChain R := by
  induction l generalizing i with
  | nil => 
    have : i = 0 := by simpa using hi
    subst this
    exact List.IsChain.singleton x
  | cons a l ih =>
    match i with
    | 0 =>
      show (x :: a :: l).IsChain R
      rw [List.isChain_cons_cons]
      exact ⟨h2 a rfl, h⟩
    | 1 =>
      have hx : R a x := h1 a (by omega) rfl
      show (a :: x :: l).IsChain R
      rw [List.isChain_cons_cons]
      refine ⟨hx, ?_⟩
      cases l with
      | nil => exact List.IsChain.singleton x
      | cons b l => 
        rw [List.isChain_cons_cons]
        exact ⟨h2 b rfl, h.tail⟩
    | i + 2 =>
      have hr := ih (i + 1) h.tail (fun b _ hb => h1 b (by omega) hb) (fun b hb => h2 b hb) (by simp at hi ⊢; omega)
      cases l with
      | nil => simp at hi
      | cons b l =>
        show (a :: b :: insertAt l i x).IsChain R
        rw [List.isChain_cons_cons] at h ⊢
        exact ⟨h.1, hr⟩

theorem chain_map_eq {α : Type} {R : α → α → Prop} (l l' : List α) (h : l.IsChain R)
    (hE : List.Forall₂ (fun a b => (∀ c, R a c → R b c) ∧ (∀ c, R c a → R c b)) l l') : l'.IsChain R := by
  induction hE with
  | nil => exact List.IsChain.nil
  | @cons a b l l' hab hl ih =>
    cases hl with
    | nil => exact List.IsChain.singleton b
    | @cons c d l l' hcd hl =>
      rw [List.isChain_cons_cons] at h ⊢
      exact ⟨hab.1 _ (hcd.2 _ h.1), ih h.2⟩

/-- The same time and kind. -/
def SameSlot (a b : GSlice) : Prop := b.time = a.time ∧ b.kind = a.kind

theorem lineOrder_congr {a b c d : GSlice} (h1 : SameSlot a b) (h2 : SameSlot c d) (h : LineOrder a c) : LineOrder b d := by
  unfold LineOrder at h ⊢
  rw [h1.1, h1.2, h2.1]
  exact h

theorem sameSlot_refl (a : GSlice) : SameSlot a a := ⟨rfl, rfl⟩

theorem forall2_set {α : Type} {R : α → α → Prop} (hr : ∀ a, R a a) (l : List α) : ∀ (i : Nat) (x y : α), l[i]? = some x → R x y →
    List.Forall₂ R l (l.set i y) := by
  induction l with
  | nil => intro i x y h _; simp at h
  | cons a l ih =>
    intro i x y h hxy
    match i with
    | 0 =>
      have : a = x := by simpa using h
      subst this
      exact List.Forall₂.cons hxy (List.forall₂_same.2 (fun a _ => hr a))
    | i + 1 => exact List.Forall₂.cons (hr a) (ih i x y (by simpa using h) hxy)

theorem ordered_sameSlot {endTime : Rat} {l l' : List GSlice} (h : Ordered endTime l) (hE : List.Forall₂ SameSlot l l') :
    Ordered endTime l' := by
  refine ⟨?_, ?_, ?_, ?_⟩
  · apply chain_map_eq l l' h.chain
    exact hE.imp (fun a b hab => ⟨fun c hc => lineOrder_congr hab (sameSlot_refl c) hc, fun c hc => lineOrder_congr (sameSlot_refl c) hab hc⟩)
  · have h2 := h.upto
    clear h
    induction hE with
    | nil => intro x hx; simp at hx
    | @cons a b l l' hab hl ih =>
      intro x hx
      rcases List.mem_cons.1 hx with rfl | hx
      · rw [hab.1]; exact h2 a List.mem_cons_self
      · exact ih (fun y hy => h2 y (List.mem_cons_of_mem _ hy)) x hx
  · have h3 := h.last
    clear h
    intro x hx hk
    have : ∃ y, l.getLast? = some y ∧ SameSlot y x := by
      clear h3
      induction hE with
      | nil => simp at hx
      | @cons a b l l' hab hl ih =>
        cases hl with
        | nil => 
          simp at hx
          subst hx
          exact ⟨a, rfl, hab⟩
        | @cons c d l l' hcd hl =>
          rw [List.getLast?_cons_cons] at hx ⊢
          exact ih hx
    obtain ⟨y, hy, hs⟩ := this
    rw [hs.1]
    exact h3 y hy (by rw [← hs.2]; exact hk)
  · have h4 := h.notes
    clear h
    have : (l'.filter (fun x => x.kind = .notes)).map (fun x => x.time) = (l.filter (fun x => x.kind = .notes)).map (fun x => x.time) := by
      clear h4
      induction hE with
      | nil => rfl
      | @cons a b l l' hab hl ih =>
        by_cases hn : a.kind = .notes
        · have hb : b.kind = .notes := by rw [hab.2]; exact hn
          rw [List.filter_cons_of_pos (by simpa using hb), List.filter_cons_of_pos (by simpa using hn), List.map_cons,
            List.map_cons, ih, hab.1]
        · have hb : ¬ b.kind = .notes := by rw [hab.2]; exact hn
          rw [List.filter_cons_of_neg (by simpa using hb), List.filter_cons_of_neg (by simpa using hn), ih]
    rw [this]; exact h4

/-- Inserting a line keeps the order, if its neighbours allow it. -/
theorem ordered_insertAt {endTime : Rat} {l : List GSlice} (h : Ordered endTime l) (i : Nat) (x : GSlice) (hi : i ≤ l.length)
    (h1 : ∀ a, 0 < i → l[i - 1]? = some a → LineOrder a x) (h2 : ∀ b, l[i]? = some b → LineOrder x b) (hu : x.time ≤ endTime)
    (hl : i = l.length → x.kind = .layouts → x.time = endTime) (hn : x.kind = .notes → ∀ y ∈ l, y.kind = .notes → y.time ≠ x.time) :
    Ordered endTime (insertAt l i x) := by
  refine ⟨chain_insertAt l i x h.chain h1 h2 hi, ?_, ?_, ?_⟩
  · intro y hy
    rcases (mem_insertAt l i x y).1 hy with rfl | hy
    · exact hu
    · exact h.upto y hy
  · intro y hy hk
    rcases insertAt_getLast l i x y hy with ⟨hle, rfl⟩ | hy
    · exact hl (by omega) hk
    · exact h.last y hy hk
  · unfold insertAt
    by_cases hk : x.kind = .notes
    · rw [List.filter_append, List.filter_cons_of_pos (by simpa using hk), List.map_append, List.map_cons]
      have hnd := h.notes
      rw [← List.take_append_drop i l, List.filter_append, List.map_append] at hnd
      rw [List.perm_middle.nodup_iff, List.nodup_cons]
      refine ⟨?_, hnd⟩
      intro hm
      rw [← List.map_append, ← List.filter_append, List.take_append_drop] at hm
      obtain ⟨y, hy, he⟩ := List.mem_map.1 hm
      rw [List.mem_filter] at hy
      exact hn hk y hy.1 (by simpa using hy.2) he
    · rw [List.filter_append, List.filter_cons_of_neg (by simpa using hk), ← List.filter_append, List.take_append_drop]
      exact h.notes

/-! ## Times are sorted -/

theorem chain_pair {R : GSlice → GSlice → Prop} {l : List GSlice} (h : l.IsChain R) : ∀ (i : Nat) (a b : GSlice),
    l[i]? = some a → l[i + 1]? = some b → R a b := by
  induction l with
  | nil => intro i a b ha; simp at ha
  | cons c l ih =>
    intro i a b ha hb
    match i with
    | 0 =>
      cases l with
      | nil => simp at hb
      | cons d l =>
        have h1 : c = a := by simpa using ha
        have h2 : d = b := by simpa using hb
        subst h1; subst h2
        rw [List.isChain_cons_cons] at h
        exact h.1
    | i + 1 => exact ih h.tail i a b (by simpa using ha) (by simpa using hb)

theorem ordered_pair {endTime : Rat} {l : List GSlice} (h : Ordered endTime l) (i : Nat) (a b : GSlice) (ha : l[i]? = some a)
    (hb : l[i + 1]? = some b) : LineOrder a b := chain_pair h.chain i a b ha hb

theorem ordered_le {endTime : Rat} {l : List GSlice} (h : Ordered endTime l) (n : Nat) : ∀ (i : Nat) (a b : GSlice), l[i]? = some a →
    l[i + n]? = some b → a.time ≤ b.time := by
  induction n with
  | zero => 
    intro i a b ha hb
    rw [Nat.add_zero] at hb
    rw [ha] at hb
    injection hb with hb
    rw [hb]
  | succ n ih =>
    intro i a b ha hb
    have hlt : i + n + 1 < l.length := (List.getElem?_eq_some_iff.1 hb).1
    have hc : l[i + n]? = some l[i + n] := List.getElem?_eq_getElem (by omega)
    exact le_trans (ih i a _ ha hc) (ordered_pair h (i + n) _ b hc hb).1

theorem ordered_le' {endTime : Rat} {l : List GSlice} (h : Ordered endTime l) {i j : Nat} {a b : GSlice} (ha : l[i]? = some a)
    (hb : l[j]? = some b) (hij : i ≤ j) : a.time ≤ b.time := by
  obtain ⟨n, rfl⟩ := Nat.exists_eq_add_of_le hij
  exact ordered_le h n i a b ha hb

theorem getLast_index {α : Type} (l : List α) (x : α) (h : l.getLast? = some x) : l[l.length - 1]? = some x := by
  rw [List.getLast?_eq_getElem?] at h; exact h

/-- C34: the times of the lines of an ordered measure never decrease. -/
theorem ordered_sorted {endTime : Rat} {l : List GSlice} (h : Ordered endTime l) : l.Pairwise (fun a b => a.time ≤ b.time) := by
  rw [List.pairwise_iff_getElem]
  intro i j hi hj hij
  exact ordered_le' h (List.getElem?_eq_getElem hi) (List.getElem?_eq_getElem hj) (by omega)

/-! ## insertSliceByTimestamp -/

theorem walkBack_spec (r : List GSlice) (t : Rat) : ∀ (i : Nat), i = r.length → 
    match walkBack r i t with
    | none => ∀ x ∈ r, t < x.time
    | some j => ∃ post x pre, r = post ++ x :: pre ∧ x.time ≤ t ∧ (∀ y ∈ post, t < y.time) ∧ j = pre.length + 1 := by
  induction r with
  | nil => intro i _; intro x hx; simp at hx
  | cons x r ih =>
    intro i hi
    rw [walkBack]
    by_cases h : x.time ≤ t
    · rw [if_pos h]
      exact ⟨[], x, r, rfl, h, by simp, by rw [hi]; simp⟩
    · rw [if_neg h]
      have := ih (i - 1) (by rw [hi]; simp)
      cases hw : walkBack r (i - 1) t with
      | none =>
        rw [hw] at this
        intro y hy
        rcases List.mem_cons.1 hy with rfl | hy
        · exact lt_of_not_ge h
        · exact this y hy
      | some j =>
        rw [hw] at this
        obtain ⟨post, z, pre, h1, h2, h3, h4⟩ := this
        refine ⟨x :: post, z, pre, by rw [h1]; rfl, h2, ?_, h4⟩
        intro y hy
        rcases List.mem_cons.1 hy with rfl | hy
        · exact lt_of_not_ge h
        · exact h3 y hy

/-- `insertSliceByTimestamp` puts the line after all lines that are not later. -/
theorem insertByTime_spec (l : List GSlice) (x : GSlice) (h : l.Pairwise (fun a b => a.time ≤ b.time)) :
    ∃ i, i ≤ l.length ∧ insertByTime l x = .ok (insertAt l i x) ∧ (∀ j a, l[j]? = some a → j < i → a.time ≤ x.time) ∧
      (∀ j a, l[j]? = some a → i ≤ j → x.time < a.time) := by
  unfold insertByTime
  cases l with
  | nil => exact ⟨0, by simp, rfl, by simp, by simp⟩
  | cons first l =>
    dsimp only
    by_cases hf : x.time < first.time
    · rw [if_pos hf]
      refine ⟨0, by simp, rfl, by intro j a _ hj; omega, ?_⟩
      intro j a ha _
      have hj : j < (first :: l).length := (List.getElem?_eq_some_iff.1 ha).1
      match j with
      | 0 => 
        have : first = a := by simpa using ha
        rw [← this]; exact hf
      | j + 1 =>
        have : a ∈ l := List.mem_of_getElem? (by simpa using ha)
        exact lt_of_lt_of_le hf ((List.pairwise_cons.1 h).1 a this)
    · rw [if_neg hf]
      have hw := walkBack_spec (first :: l).reverse x.time (first :: l).length (by simp)
      cases hc : walkBack (first :: l).reverse (first :: l).length x.time with
      | none =>
        rw [hc] at hw
        exact absurd (hw first (by simp)) hf
      | some i =>
        rw [hc] at hw
        obtain ⟨post, y, pre, h1, h2, h3, h4⟩ := hw
        have hl : first :: l = pre.reverse ++ y :: post.reverse := by
          have := congrArg List.reverse h1
          rw [List.reverse_reverse] at this
          rw [this]; simp
        generalize first :: l = L at hl h
        subst hl
        refine ⟨i, by rw [h4]; simp, rfl, ?_, ?_⟩
        · intro j a ha hj
          rw [List.getElem?_append] at ha
          by_cases hjp : j < pre.reverse.length
          · rw [if_pos hjp] at ha
            have hm : a ∈ pre.reverse := List.mem_of_getElem? ha
            exact le_trans ((List.pairwise_append.1 h).2.2 a hm y List.mem_cons_self) h2
          · rw [if_neg hjp] at ha
            have : j - pre.reverse.length = 0 := by simp at hjp ⊢; omega
            rw [this] at ha
            have : y = a := by simpa using ha
            rw [← this]; exact h2
        · intro j a ha hj
          rw [List.getElem?_append, if_neg (by simp; omega)] at ha
          have hne : j - pre.reverse.length = (j - pre.reverse.length - 1) + 1 := by simp; omega
          rw [hne, List.getElem?_cons_succ] at ha
          exact h3 a (List.mem_reverse.1 (List.mem_of_getElem? ha))

theorem ordered_insertByTime {endTime : Rat} {l l' : List GSlice} (h : Ordered endTime l) (x : GSlice) (hk : x.kind = .notes)
    (hu : x.time ≤ endTime) (hn : ∀ y ∈ l, y.kind = .notes → y.time ≠ x.time) (hr : insertByTime l x = .ok l') : Ordered endTime l' := by
  obtain ⟨i, hi, he, h1, h2⟩ := insertByTime_spec l x (ordered_sorted h)
  rw [he] at hr
  injection hr with hr
  subst hr
  apply ordered_insertAt h i x hi
  · intro a h0 ha
    refine ⟨h1 _ a ha (by omega), ?_⟩
    intro hka
    by_cases hil : i < l.length
    · have hb : l[i]? = some l[i] := List.getElem?_eq_getElem hil
      have hp := ordered_pair h (i - 1) a l[i] ha (by rw [show i - 1 + 1 = i by omega]; exact hb)
      have := hp.2 hka
      have h3 := h2 i _ hb (le_refl _)
      have h4 := h1 _ a ha (by omega)
      rw [← this] at h3
      exact absurd h3 (not_lt.2 h4)
    · have hlast : l.getLast? = some a := by
        rw [List.getLast?_eq_getElem?, show l.length - 1 = i - 1 by omega]; exact ha
      have := h.last a hlast hka
      rw [this]
      exact le_antisymm (by rw [← this]; exact h1 _ a ha (by omega)) hu
  · intro b hb
    exact ⟨le_of_lt (h2 i b hb (le_refl _)), fun hc => by rw [hk] at hc; cases hc⟩
  · exact hu
  · intro _ hc; rw [hk] at hc; cases hc
  · exact fun _ => hn

/-! ## Places for tokens -/

theorem laterThanLast_false {l : List GSlice} {t : Rat} (h : laterThanLast l t = false) : ∃ x, l.getLast? = some x ∧ t ≤ x.time := by
  unfold laterThanLast at h
  cases hl : l.getLast? with
  | none => rw [hl] at h; cases h
  | some x => 
    rw [hl] at h
    exact ⟨x, rfl, by simpa using h⟩

theorem layoutStart_spec (l : List GSlice) : ∀ (i : Nat), i ≤ l.length → layoutStart l i ≤ i ∧
    (∀ j x, layoutStart l i ≤ j → j < i → l[j]? = some x → x.kind = .layouts) ∧
    (∀ x, 0 < layoutStart l i → l[layoutStart l i - 1]? = some x → x.kind ≠ .layouts) := by
  intro i
  induction i with
  | zero => intro _; exact ⟨by simp [layoutStart], by intro j x _ hj; omega, by intro x hx; simp [layoutStart] at hx⟩
  | succ i ih =>
    intro hi
    have hx : l[i]? = some l[i] := List.getElem?_eq_getElem (by omega)
    rw [layoutStart, hx]
    dsimp only
    by_cases hk : l[i].kind = .layouts
    · rw [if_pos hk]
      obtain ⟨h1, h2, h3⟩ := ih (by omega)
      refine ⟨by omega, ?_, h3⟩
      intro j x hj hj' hjx
      by_cases hji : j = i
      · subst hji
        rw [hx] at hjx
        injection hjx with hjx
        rw [← hjx]; exact hk
      · exact h2 j x hj (by omega) hjx
    · rw [if_neg hk]
      refine ⟨by omega, by intro j x hj hj'; omega, ?_⟩
      intro x _ hxx
      rw [Nat.add_sub_cancel, hx] at hxx
      injection hxx with hxx
      rw [← hxx]; exact hk

/-- What the search of `addTokenOfSliceType` finds. -/
theorem typedSearch_spec (all : List GSlice) (k : SliceKind) (t : Rat) (b : Bool) : ∀ (l : List GSlice) (n : Nat) (pre : List GSlice),
    all = pre ++ l → n = pre.length → (∀ x ∈ pre, x.time ≤ t) →
    match typedSearch all k t b n l with
    | .use i => ∃ x, all[i]? = some x ∧ x.time = t ∧ x.kind = k
    | .before i => ∃ j x, i ≤ j ∧ all[j]? = some x ∧ (∀ m y, m < j → all[m]? = some y → y.time ≤ t) ∧
        ((i = j ∧ t < x.time) ∨ (x.time = t ∧ (i = j ∨ i = layoutStart all j)))
    | .atEnd => ∀ x ∈ all, x.time ≤ t := by
  intro l
  induction l with
  | nil =>
    intro n pre ha hn hp
    rw [typedSearch]
    rw [ha, List.append_nil]; exact hp
  | cons x l ih =>
    intro n pre ha hn hp
    have hx : all[n]? = some x := by rw [ha, hn]; simp
    have hpre : ∀ m y, m < n → all[m]? = some y → y.time ≤ t := by
      intro m y hm hy
      rw [ha, List.getElem?_append, if_pos (by omega)] at hy
      exact hp y (List.mem_of_getElem? hy)
    rw [typedSearch]
    by_cases h1 : x.time = t ∧ x.kind = k
    · rw [if_pos h1]
      exact ⟨x, hx, h1⟩
    · rw [if_neg h1]
      by_cases h2 : x.time = t ∧ x.kind.isData = true
      · rw [if_pos h2]
        have hnl : n ≤ all.length := by rw [ha, hn]; simp
        cases b with
        | true => exact ⟨n, x, (layoutStart_spec all n hnl).1, hx, hpre, Or.inr ⟨h2.1, Or.inr rfl⟩⟩
        | false => exact ⟨n, x, le_refl _, hx, hpre, Or.inr ⟨h2.1, Or.inl rfl⟩⟩
      · rw [if_neg h2]
        by_cases h3 : t < x.time
        · rw [if_pos h3]
          exact ⟨n, x, le_refl _, hx, hpre, Or.inl ⟨rfl, h3⟩⟩
        · rw [if_neg h3]
          refine ih (n + 1) (pre ++ [x]) (by rw [ha]; simp) (by rw [hn]; simp) ?_
          intro y hy
          rcases List.mem_append.1 hy with hy | hy
          · exact hp y hy
          · rw [List.mem_singleton.1 hy]; exact not_lt.1 h3

theorem tokenSlice_slot {t : Rat} {k : SliceKind} {counts : List Nat} {tok : Str} {p s v : Nat} {x : GSlice}
    (h : tokenSlice t k counts tok p s v = .ok x) : x.time = t ∧ x.kind = k ∧ x.cell p s v = some tok := by
  obtain ⟨h1, _, h2, h3, _⟩ := addToken_spec_partial (newSlice t k counts) x tok p s v h
  exact ⟨h3, h2, h1⟩

theorem changeAt_inv {l l' : List GSlice} {i : Nat} {f : GSlice → Except PyErr GSlice} (h : changeAt l i f = .ok l') :
    ∃ x y, l[i]? = some x ∧ f x = .ok y ∧ l' = l.set i y := by
  unfold changeAt at h
  cases hx : l[i]? with
  | none => rw [hx] at h; cases h
  | some x =>
    rw [hx] at h
    dsimp only at h
    cases hf : f x with
    | error e => rw [hf] at h; cases h
    | ok y =>
      rw [hf] at h
      have : l.set i y = l' := by injection h
      exact ⟨x, y, rfl, hf, this.symm⟩

/-- A line that is changed or added: what an operation does. -/
inductive Outcome (l : List GSlice) : List GSlice → Prop
  | same : Outcome l l
  | insert (i : Nat) (x : GSlice) : i ≤ l.length → Outcome l (insertAt l i x)
  | change (i : Nat) (x y : GSlice) : l[i]? = some x → SameSlot x y → Outcome l (l.set i y)

theorem map_ok {α β : Type} {e : Except PyErr α} {f : α → β} {b : β} (h : e.map f = .ok b) : ∃ a, e = .ok a ∧ f a = b := by
  cases e with
  | error x => cases h
  | ok a =>
    have : f a = b := by injection h
    exact ⟨a, rfl, this⟩

/-- `placeToken`: the slice found gets the token, or a new slice with it is put at the place found. -/
theorem placeToken_inv {l l' : List GSlice} {pl : Place} {fb : Nat} {k : SliceKind} {t : Rat} {counts : List Nat} {tok : Str} {p s v : Nat}
    (h : placeToken l pl fb k t counts tok p s v = .ok l') :
    (∃ i x y, pl = .use i ∧ l[i]? = some x ∧ x.addToken tok p s v = .ok y ∧ l' = l.set i y) ∨
    (∃ i x, (pl = .before i ∨ (pl = .atEnd ∧ i = fb)) ∧ tokenSlice t k counts tok p s v = .ok x ∧ l' = insertAt l i x) := by
  cases pl with
  | use i =>
    left
    obtain ⟨x, y, h1, h2, h3⟩ := changeAt_inv h
    exact ⟨i, x, y, rfl, h1, h2, h3⟩
  | before i =>
    right
    obtain ⟨x, h1, h2⟩ := map_ok h
    exact ⟨i, x, Or.inl rfl, h1, h2.symm⟩
  | atEnd =>
    right
    obtain ⟨x, h1, h2⟩ := map_ok h
    exact ⟨fb, x, Or.inr ⟨rfl, rfl⟩, h1, h2.symm⟩

theorem addToken_slot {x y : GSlice} {tok : Str} {p s v : Nat} (h : x.addToken tok p s v = .ok y) : SameSlot x y := by
  obtain ⟨_, _, h2, h3, _⟩ := addToken_spec_partial x y tok p s v h
  exact ⟨h3, h2⟩

theorem ordered_set {endTime : Rat} {l : List GSlice} (h : Ordered endTime l) {i : Nat} {x y : GSlice} (hx : l[i]? = some x)
    (hs : SameSlot x y) : Ordered endTime (l.set i y) :=
  ordered_sameSlot h (forall2_set sameSlot_refl l i x y hx hs)

/-- Appending at the end of a measure. -/
theorem ordered_append {endTime : Rat} {l : List GSlice} (h : Ordered endTime l) (x : GSlice) (hu : x.time ≤ endTime)
    (hk : x.kind = .layouts → x.time = endTime) (hn : x.kind ≠ .notes) (hl : ∀ y ∈ l, y.time ≤ x.time) :
    Ordered endTime (insertAt l l.length x) := by
  apply ordered_insertAt h l.length x (le_refl _)
  · intro a h0 ha
    have hlast : l.getLast? = some a := by rw [List.getLast?_eq_getElem?]; exact ha
    refine ⟨hl a (List.mem_of_getElem? ha), ?_⟩
    intro hka
    have h1 := h.last a hlast hka
    have h2 := hl a (List.mem_of_getElem? ha)
    rw [h1] at h2 ⊢
    exact le_antisymm h2 hu
  · intro b hb; simp at hb
  · exact hu
  · exact fun _ => hk
  · intro hc; exact absurd hc hn

/-- A line before a line that is later, after lines that are not. -/
theorem ordered_before_later {endTime : Rat} {l : List GSlice} (h : Ordered endTime l) (x : GSlice) (j : Nat) (y : GSlice)
    (hy : l[j]? = some y) (hlt : x.time < y.time) (hpre : ∀ m z, m < j → l[m]? = some z → z.time ≤ x.time)
    (hk : x.kind ≠ .layouts) (hn : x.kind ≠ .notes) : Ordered endTime (insertAt l j x) := by
  have hj : j < l.length := (List.getElem?_eq_some_iff.1 hy).1
  apply ordered_insertAt h j x (by omega)
  · intro a h0 ha
    refine ⟨hpre _ a (by omega) ha, ?_⟩
    intro hka
    have hp := (ordered_pair h (j - 1) a y ha (by rw [show j - 1 + 1 = j by omega]; exact hy)).2 hka
    have := hpre _ a (by omega) ha
    rw [hp] at this
    exact absurd hlt (not_lt.2 this)
  · intro b hb
    rw [hy] at hb
    injection hb with hb
    rw [← hb]
    exact ⟨le_of_lt hlt, fun hc => absurd hc hk⟩
  · exact le_trans (le_of_lt hlt) (h.upto y (List.mem_of_getElem? hy))
  · intro he; omega
  · intro hc; exact absurd hc hn

/-- A line before a line of the same time. -/
theorem ordered_before_same {endTime : Rat} {l : List GSlice} (h : Ordered endTime l) (x : GSlice) (j : Nat) (y : GSlice)
    (hy : l[j]? = some y) (he : x.time = y.time) (hn : x.kind ≠ .notes) : Ordered endTime (insertAt l j x) := by
  have hj : j < l.length := (List.getElem?_eq_some_iff.1 hy).1
  apply ordered_insertAt h j x (by omega)
  · intro a h0 ha
    have hp := ordered_pair h (j - 1) a y ha (by rw [show j - 1 + 1 = j by omega]; exact hy)
    unfold LineOrder
    rw [he]; exact hp
  · intro b hb
    rw [hy] at hb
    injection hb with hb
    rw [← hb]
    exact ⟨le_of_eq he, fun _ => he⟩
  · rw [he]; exact h.upto y (List.mem_of_getElem? hy)
  · intro hc; omega
  · intro hc; exact absurd hc hn

/-- Layout lines directly before a line have its time. -/
theorem layouts_time {endTime : Rat} {l : List GSlice} (h : Ordered endTime l) (j : Nat) (y : GSlice) (hy : l[j]? = some y) :
    ∀ (d i : Nat), i + d = j → (∀ m x, i ≤ m → m < j → l[m]? = some x → x.kind = .layouts) → ∃ z, l[i]? = some z ∧ z.time = y.time := by
  intro d
  induction d with
  | zero => intro i hi _; rw [Nat.add_zero] at hi; subst hi; exact ⟨y, hy, rfl⟩
  | succ d ih =>
    intro i hi hall
    obtain ⟨z, hz, ht⟩ := ih (i + 1) (by omega) (fun m x hm => hall m x (by omega))
    have hj : j < l.length := (List.getElem?_eq_some_iff.1 hy).1
    have hw : l[i]? = some l[i] := List.getElem?_eq_getElem (by omega)
    have hk := hall i _ (le_refl _) (by omega) hw
    exact ⟨_, hw, by rw [(ordered_pair h i _ z hw hz).2 hk, ht]⟩

theorem ordered_addTyped {endTime : Rat} {l l' : List GSlice} (h : Ordered endTime l) {k : SliceKind} {t : Rat} {b : Bool}
    {counts : List Nat} {tok : Str} {p s v : Nat} (hn : k ≠ .notes) (hk : k ≠ .layouts) (hu : t ≤ endTime)
    (hr : addTyped l k t b counts tok p s v = .ok l') : Ordered endTime l' := by
  rw [addTyped] at hr
  by_cases hlast : laterThanLast l t = true
  · rw [if_pos hlast] at hr
    rcases placeToken_inv hr with ⟨i, x, y, hc, _⟩ | ⟨i, x, hi, hx, rfl⟩
    · cases hc
    · rcases hi with hi | ⟨_, rfl⟩
      · cases hi
      · obtain ⟨h1, h2, _⟩ := tokenSlice_slot hx
        apply ordered_append h x (by rw [h1]; exact hu) (fun hc => absurd (h2 ▸ hc) hk) (by rw [h2]; exact hn)
        intro y hy
        rw [h1]
        unfold laterThanLast at hlast
        cases hg : l.getLast? with
        | none => rw [List.getLast?_eq_none_iff.1 hg] at hy; simp at hy
        | some z =>
          rw [hg] at hlast
          obtain ⟨j, hj⟩ := List.getElem?_of_mem hy
          have hjl : j < l.length := (List.getElem?_eq_some_iff.1 hj).1
          exact le_trans (ordered_le' h hj (getLast_index l z hg) (by omega)) (le_of_lt (by simpa using hlast))
  · rw [if_neg hlast] at hr
    have hsp := typedSearch_spec l k t b l 0 [] rfl rfl (by simp)
    rcases placeToken_inv hr with ⟨i, x, y, hc, hx, ha, rfl⟩ | ⟨i, x, hi, hx, rfl⟩
    · exact ordered_set h hx (addToken_slot ha)
    · obtain ⟨h1, h2, _⟩ := tokenSlice_slot hx
      have hxk : x.kind ≠ .layouts := by rw [h2]; exact hk
      have hxn : x.kind ≠ .notes := by rw [h2]; exact hn
      rcases hi with hi | ⟨hi, rfl⟩
      · rw [hi] at hsp
        obtain ⟨j, y, hij, hy, hpre, hcase⟩ := hsp
        have hj : j < l.length := (List.getElem?_eq_some_iff.1 hy).1
        rcases hcase with ⟨rfl, hlt⟩ | ⟨he, hcase⟩
        · exact ordered_before_later h x i y hy (by rw [h1]; exact hlt) (by rw [h1]; exact hpre) hxk hxn
        · rcases hcase with rfl | rfl
          · exact ordered_before_same h x i y hy (by rw [h1, he]) hxn
          · obtain ⟨_, hl2, _⟩ := layoutStart_spec l j (by omega)
            obtain ⟨z, hz, hzt⟩ := layouts_time h j y hy (j - layoutStart l j) (layoutStart l j) (by omega) hl2
            exact ordered_before_same h x _ z hz (by rw [h1, hzt, he]) hxn
      · rw [hi] at hsp
        exact ordered_append h x (by rw [h1]; exact hu) (fun hc => absurd hc hxk) hxn (by rw [h1]; exact hsp)

theorem labelSearch_spec (k : SliceKind) (t : Rat) (all : List GSlice) : ∀ (l : List GSlice) (n : Nat) (pre : List GSlice),
    all = pre ++ l → n = pre.length → 
    match labelSearch k t n l with
    | .use i => ∃ x, all[i]? = some x ∧ x.time = t ∧ x.kind = k
    | .before _ => False
    | .atEnd => True := by
  intro l
  induction l with
  | nil => intro n pre _ _; trivial
  | cons x l ih =>
    intro n pre ha hn
    rw [labelSearch]
    by_cases h1 : x.time = t ∧ x.kind = k
    · rw [if_pos h1]
      exact ⟨x, by rw [ha, hn]; simp, h1⟩
    · rw [if_neg h1]
      exact ih (n + 1) (pre ++ [x]) (by rw [ha]; simp) (by rw [hn]; simp)

theorem ordered_front {endTime : Rat} {l : List GSlice} (h : Ordered endTime l) (x : GSlice) (hu : x.time ≤ endTime)
    (hk : x.kind ≠ .layouts) (hn : x.kind ≠ .notes) (hl : ∀ y ∈ l, x.time ≤ y.time) : Ordered endTime (insertAt l 0 x) := by
  apply ordered_insertAt h 0 x (by omega)
  · intro a h0; omega
  · intro b hb
    exact ⟨hl b (List.mem_of_getElem? hb), fun hc => absurd hc hk⟩
  · exact hu
  · intro _ hc; exact absurd hc hk
  · intro hc; exact absurd hc hn

theorem ordered_addLabel {endTime : Rat} {l l' : List GSlice} (h : Ordered endTime l) {k : SliceKind} {t : Rat}
    {counts : List Nat} {tok : Str} {p s v : Nat} (hn : k ≠ .notes) (hk : k ≠ .layouts) (hu : t ≤ endTime) (hle : ∀ y ∈ l, t ≤ y.time)
    (hr : addLabel l k t counts tok p s v = .ok l') : Ordered endTime l' := by
  rw [addLabel] at hr
  by_cases hlast : laterThanLast l t = true
  · rw [if_pos hlast] at hr
    rcases placeToken_inv hr with ⟨i, x, y, hc, _⟩ | ⟨i, x, hi, hx, rfl⟩
    · cases hc
    · rcases hi with hi | ⟨_, rfl⟩
      · cases hi
      · obtain ⟨h1, h2, _⟩ := tokenSlice_slot hx
        apply ordered_append h x (by rw [h1]; exact hu) (fun hc => absurd (h2 ▸ hc) hk) (by rw [h2]; exact hn)
        intro y hy
        unfold laterThanLast at hlast
        cases hg : l.getLast? with
        | none => rw [List.getLast?_eq_none_iff.1 hg] at hy; simp at hy
        | some z =>
          rw [hg] at hlast
          have : z.time < t := by simpa using hlast
          exact absurd (hle z (List.mem_of_getLast? hg)) (not_le.2 this)
  · rw [if_neg hlast] at hr
    have hsp := labelSearch_spec k t l l 0 [] rfl rfl
    rcases placeToken_inv hr with ⟨i, x, y, hc, hx, ha, rfl⟩ | ⟨i, x, hi, hx, rfl⟩
    · exact ordered_set h hx (addToken_slot ha)
    · obtain ⟨h1, h2, _⟩ := tokenSlice_slot hx
      rcases hi with hi | ⟨hi, rfl⟩
      · rw [hi] at hsp; exact hsp.elim
      · exact ordered_front h x (by rw [h1]; exact hu) (by rw [h2]; exact hk) (by rw [h2]; exact hn) (by rw [h1]; exact hle)

theorem globalSearch_spec (k : SliceKind) (tok : Str) (t : Rat) (all : List GSlice) : ∀ (l : List GSlice) (n : Nat) (pre : List GSlice),
    all = pre ++ l → n = pre.length → (∀ x ∈ pre, x.time < t) →
    match globalSearch k tok t n l with
    | .use i => ∃ x, all[i]? = some x ∧ x.time = t ∧ x.kind = k ∧ x.firstText = some tok
    | .before i => ∃ x, all[i]? = some x ∧ t ≤ x.time ∧ (∀ m y, m < i → all[m]? = some y → y.time < t)
    | .atEnd => ∀ x ∈ all, x.time < t := by
  intro l
  induction l with
  | nil =>
    intro n pre ha hn hp
    rw [globalSearch]
    rw [ha, List.append_nil]; exact hp
  | cons x l ih =>
    intro n pre ha hn hp
    have hx : all[n]? = some x := by rw [ha, hn]; simp
    have hpre : ∀ m y, m < n → all[m]? = some y → y.time < t := by
      intro m y hm hy
      rw [ha, List.getElem?_append, if_pos (by omega)] at hy
      exact hp y (List.mem_of_getElem? hy)
    rw [globalSearch]
    by_cases h1 : x.time = t
    · rw [if_pos h1]
      by_cases h2 : x.kind = k ∧ x.firstText = some tok
      · rw [if_pos h2]; exact ⟨x, hx, h1, h2⟩
      · rw [if_neg h2]; exact ⟨x, hx, le_of_eq h1.symm, hpre⟩
    · rw [if_neg h1]
      by_cases h3 : t < x.time
      · rw [if_pos h3]
        exact ⟨x, hx, le_of_lt h3, hpre⟩
      · rw [if_neg h3]
        refine ih (n + 1) (pre ++ [x]) (by rw [ha]; simp) (by rw [hn]; simp) ?_
        intro y hy
        rcases List.mem_append.1 hy with hy | hy
        · exact hp y hy
        · rw [List.mem_singleton.1 hy]; exact lt_of_le_of_ne (not_lt.1 h3) h1

/-- What adding a global comment or reference record does: it puts a new line before the first line that is not earlier, or
at the end, unless there is an equal one there. It is never forgotten. -/
theorem addGlobal_spec {l l' : List GSlice} {k : SliceKind} {t : Rat} {tok : Str} (hr : addGlobal l k t tok = .ok l') :
    (∃ x ∈ l, l' = l ∧ x.time = t ∧ x.kind = k ∧ x.firstText = some tok) ∨
    (∃ i x, i ≤ l.length ∧ l' = insertAt l i x ∧ x.time = t ∧ x.kind = k ∧ x.cell 0 0 0 = some tok ∧
      ((i = l.length ∧ laterThanLast l t = true) ∨
        (∃ y, l[i]? = some y ∧ t ≤ y.time ∧ (∀ m z, m < i → l[m]? = some z → z.time < t)))) := by
  rw [addGlobal] at hr
  by_cases hlast : laterThanLast l t = true
  · rw [if_pos hlast] at hr
    obtain ⟨x, hx, rfl⟩ := map_ok hr
    obtain ⟨h1, h2, h3⟩ := tokenSlice_slot (p := 0) (s := 0) (v := 0) hx
    exact Or.inr ⟨l.length, x, le_refl _, (insertAt_end l x).symm, h1, h2, h3, Or.inl ⟨rfl, hlast⟩⟩
  · rw [if_neg hlast] at hr
    have hsp := globalSearch_spec k tok t l l 0 [] rfl rfl (by simp)
    cases hs : globalSearch k tok t 0 l with
    | use i =>
      rw [hs] at hsp hr
      obtain ⟨x, h1, h2⟩ := hsp
      have : l = l' := by injection hr
      exact Or.inl ⟨x, List.mem_of_getElem? h1, this.symm, h2⟩
    | before i =>
      rw [hs] at hsp hr
      obtain ⟨y, h1, h2, h3⟩ := hsp
      obtain ⟨x, hx, rfl⟩ := map_ok hr
      obtain ⟨g1, g2, g3⟩ := tokenSlice_slot (p := 0) (s := 0) (v := 0) hx
      have hi : i < l.length := (List.getElem?_eq_some_iff.1 h1).1
      exact Or.inr ⟨i, x, by omega, rfl, g1, g2, g3, Or.inr ⟨y, h1, h2, h3⟩⟩
    | atEnd =>
      rw [hs] at hsp
      obtain ⟨z, hz, hle⟩ := laterThanLast_false (by simpa using hlast)
      exact absurd (hsp z (List.mem_of_getLast? hz)) (not_lt.2 hle)

theorem ordered_addGlobal {endTime : Rat} {l l' : List GSlice} (h : Ordered endTime l) {k : SliceKind} {t : Rat} {tok : Str}
    (hn : k ≠ .notes) (hk : k ≠ .layouts) (hu : t ≤ endTime) (hr : addGlobal l k t tok = .ok l') : Ordered endTime l' := by
  rcases addGlobal_spec hr with ⟨x, _, rfl, _⟩ | ⟨i, x, hi, rfl, h1, h2, _, hcase⟩
  · exact h
  · have hxk : x.kind ≠ .layouts := by rw [h2]; exact hk
    have hxn : x.kind ≠ .notes := by rw [h2]; exact hn
    rcases hcase with ⟨rfl, hlast⟩ | ⟨y, hy, hle, hpre⟩
    · apply ordered_append h x (by rw [h1]; exact hu) (fun hc => absurd hc hxk) hxn
      intro y hy
      rw [h1]
      unfold laterThanLast at hlast
      cases hg : l.getLast? with
      | none => rw [List.getLast?_eq_none_iff.1 hg] at hy; simp at hy
      | some z =>
        rw [hg] at hlast
        obtain ⟨j, hj⟩ := List.getElem?_of_mem hy
        have hjl : j < l.length := (List.getElem?_eq_some_iff.1 hj).1
        exact le_trans (ordered_le' h hj (getLast_index l z hg) (by omega)) (le_of_lt (by simpa using hlast))
    · rcases lt_or_eq_of_le hle with hlt | heq
      · exact ordered_before_later h x i y hy (by rw [h1]; exact hlt) (by rw [h1]; exact fun m z hm hz => le_of_lt (hpre m z hm hz)) hxk hxn
      · exact ordered_before_same h x i y hy (by rw [h1]; exact heq) hxn

/-! ## Lines before a line -/

theorem setCell_inv {x y : GSlice} {p s v : Nat} {tok : Str} (h : x.setCell p s v tok = .ok y) : x.addToken tok p s v = .ok y := by
  rw [GSlice.setCell] at h
  cases hp : x.parts[p]? with
  | none => rw [hp] at h; cases h
  | some part =>
    rw [hp] at h
    dsimp only at h
    by_cases hs : s < part.staves.length
    · rw [if_pos hs] at h; exact h
    · rw [if_neg hs] at h; cases h

theorem setCell_slot {x y : GSlice} {p s v : Nat} {tok : Str} (h : x.setCell p s v tok = .ok y) : SameSlot x y :=
  addToken_slot (setCell_inv h)

theorem sliceLike_slot (t : Rat) (k : SliceKind) (x : GSlice) : (sliceLike t k x).time = t ∧ (sliceLike t k x).kind = k := ⟨rfl, rfl⟩

theorem lineBefore_inv {l l' : List GSlice} {endTime : Rat} {k : SliceKind} {idx : Option Nat} {f : GSlice → Except PyErr GSlice}
    (h : lineBefore l endTime k idx f = .ok l') :
    (∃ i x y, idx = some i ∧ l[i]? = some x ∧ f (sliceLike x.time k x) = .ok y ∧ l' = insertAt l i y) ∨
    (∃ x y, idx = none ∧ l.getLast? = some x ∧ f (sliceLike endTime k x) = .ok y ∧ l' = insertAt l l.length y) := by
  rw [lineBefore.eq_def] at h
  cases idx with
  | some i =>
    dsimp only at h
    cases hx : l[i]? with
    | none => rw [hx] at h; cases h
    | some x =>
      rw [hx] at h
      obtain ⟨y, h1, h2⟩ := map_ok h
      exact Or.inl ⟨i, x, y, rfl, hx, h1, h2.symm⟩
  | none =>
    dsimp only at h
    cases hx : l.getLast? with
    | none => rw [hx] at h; cases h
    | some x =>
      rw [hx] at h
      obtain ⟨y, h1, h2⟩ := map_ok h
      exact Or.inr ⟨x, y, rfl, rfl, h1, by rw [insertAt_end]; exact h2.symm⟩

theorem ordered_lineBefore {endTime : Rat} {l l' : List GSlice} (h : Ordered endTime l) {k : SliceKind} {idx : Option Nat}
    {f : GSlice → Except PyErr GSlice} (hf : ∀ x y, f x = .ok y → SameSlot x y) (hn : k ≠ .notes)
    (hr : lineBefore l endTime k idx f = .ok l') : Ordered endTime l' := by
  rcases lineBefore_inv hr with ⟨i, x, y, _, hx, hy, rfl⟩ | ⟨x, y, _, hx, hy, rfl⟩
  · have hs := hf _ _ hy
    exact ordered_before_same h y i x hx hs.1 (by rw [hs.2]; exact hn)
  · have hs := hf _ _ hy
    have ht : y.time = endTime := hs.1
    exact ordered_append h y (le_of_eq ht) (fun _ => ht) (by rw [hs.2]; exact hn) (by rw [ht]; exact h.upto)

theorem addLayout_inv {l l' : List GSlice} {endTime : Rat} {idx : Option Nat} {p s v : Nat} {text : Str} {b : Bool}
    (h : addLayout l endTime idx p s v text b = .ok l') (hl : l ≠ []) :
    (∃ i x y, l[i]? = some x ∧ i = prevIndex l (idx.getD l.length) ∧ b = false ∧ x.kind = .layouts ∧ layoutFree x p s v = true ∧
      x.setCell p s v text = .ok y ∧ l' = l.set i y) ∨
    (∃ i, layoutLineAt l endTime i p s v text = .ok l' ∧
      i = if b = true then nonTextStart l p s v (idx.getD l.length) else idx.getD l.length) := by
  cases l with
  | nil => exact absurd rfl hl
  | cons a rest =>
    rw [addLayout] at h
    generalize a :: rest = l at h hl ⊢
    cases b with
    | true =>
      rw [if_pos rfl] at h
      exact Or.inr ⟨_, h, by rw [if_pos rfl]⟩
    | false =>
      rw [if_neg (by simp)] at h
      cases hx : l[prevIndex l (idx.getD l.length)]? with
      | none => rw [hx] at h; cases h
      | some x =>
        rw [hx] at h
        dsimp only at h
        by_cases hc : x.kind = .layouts ∧ layoutFree x p s v = true
        · rw [if_pos hc] at h
          obtain ⟨x', y, h1, h2, h3⟩ := changeAt_inv h
          rw [hx] at h1
          injection h1 with h1
          subst h1
          exact Or.inl ⟨_, x, y, hx, rfl, rfl, hc.1, hc.2, h2, h3⟩
        · rw [if_neg hc] at h
          exact Or.inr ⟨_, h, by simp⟩

theorem ordered_addLayout {endTime : Rat} {l l' : List GSlice} (h : Ordered endTime l) {idx : Option Nat} {p s v : Nat} {text : Str}
    {b : Bool} (hr : addLayout l endTime idx p s v text b = .ok l') : Ordered endTime l' := by
  by_cases hl : l = []
  · subst hl
    have : [] = l' := by injection hr
    rw [← this]; exact h
  · rcases addLayout_inv hr hl with ⟨i, x, y, hx, _, _, _, _, hy, rfl⟩ | ⟨i, hi, _⟩
    · exact ordered_set h hx (setCell_slot hy)
    · exact ordered_lineBefore h (fun x y hy => setCell_slot hy) (by simp) hi

theorem addTuplet_inv {l l' : List GSlice} {endTime : Rat} {idx p s v : Nat} {tok : Str}
    (h : addTuplet l endTime idx p s v tok = .ok l') :
    (∃ i x y, l[i]? = some x ∧ i = prevIndex l idx ∧ x.kind = .tupletDisplay ∧ tupletFree x p s v = true ∧ x.setCell p s v tok = .ok y ∧ l' = l.set i y) ∨
    lineBefore l endTime .tupletDisplay (some idx) (fun x => x.addToken tok p s v) = .ok l' := by
  rw [addTuplet] at h
  cases hx : l[prevIndex l idx]? with
  | none => rw [hx] at h; cases h
  | some x =>
    rw [hx] at h
    dsimp only at h
    by_cases hc : x.kind = .tupletDisplay ∧ tupletFree x p s v = true
    · rw [if_pos hc] at h
      obtain ⟨x', y, h1, h2, h3⟩ := changeAt_inv h
      rw [hx] at h1
      injection h1 with h1
      subst h1
      exact Or.inl ⟨_, x, y, hx, rfl, hc.1, hc.2, h2, h3⟩
    · rw [if_neg hc] at h
      exact Or.inr h

theorem ordered_addTuplet {endTime : Rat} {l l' : List GSlice} (h : Ordered endTime l) {idx p s v : Nat} {tok : Str}
    (hr : addTuplet l endTime idx p s v tok = .ok l') : Ordered endTime l' := by
  rcases addTuplet_inv hr with ⟨i, x, y, hx, _, _, _, hy, rfl⟩ | hr
  · exact ordered_set h hx (setCell_slot hy)
  · exact ordered_lineBefore h (fun x y hy => addToken_slot hy) (by simp) hr

theorem ottavaKind_ne (tok : Str) : (if isPedal tok then SliceKind.pedals else SliceKind.ottavas) ≠ .notes ∧
    (if isPedal tok then SliceKind.pedals else SliceKind.ottavas) ≠ .layouts := by
  split <;> simp

theorem ottavaLine_slot {t : Rat} {like y : GSlice} {p s : Nat} {tok : Str} (h : ottavaLine t like p s tok = .ok y) :
    y.time = t ∧ y.kind ≠ .notes ∧ y.kind ≠ .layouts ∧ y.cell p s 0 = some tok := by
  rw [ottavaLine] at h
  have hs := setCell_slot h
  have hc := (addToken_spec_partial _ _ tok p s 0 (setCell_inv h)).1
  obtain ⟨k1, k2⟩ := ottavaKind_ne tok
  refine ⟨hs.1, ?_, ?_, hc⟩
  · rw [hs.2]; exact k1
  · rw [hs.2]; exact k2

theorem insertAt_get_self {α : Type} (l : List α) (i : Nat) (x : α) (hi : i ≤ l.length) : (insertAt l i x)[i]? = some x := by
  unfold insertAt
  rw [List.getElem?_append, if_neg (by simp), List.length_take, Nat.min_eq_left hi, Nat.sub_self]
  rfl

theorem ordered_ottavasAt {endTime : Rat} {i : Nat} {like : GSlice} {p s : Nat} (toks : List Str) : ∀ {l l' : List GSlice},
    Ordered endTime l → (∃ x, l[i]? = some x ∧ x.time = like.time) → ottavasAt l i like p s toks = .ok l' → Ordered endTime l' := by
  induction toks with
  | nil =>
    intro l l' h _ hr
    have : l = l' := by injection hr
    rw [← this]; exact h
  | cons tok toks ih =>
    intro l l' h hx hr
    rw [ottavasAt] at hr
    cases hy : ottavaLine like.time like p s tok with
    | error e => rw [hy] at hr; cases hr
    | ok y =>
      rw [hy] at hr
      obtain ⟨x, hx, ht⟩ := hx
      obtain ⟨h1, h2, _⟩ := ottavaLine_slot hy
      have hi : i < l.length := (List.getElem?_eq_some_iff.1 hx).1
      exact ih (ordered_before_same h y i x hx (by rw [h1, ht]) h2) ⟨y, insertAt_get_self l i y (by omega), h1⟩ hr

theorem ordered_ottavasEnd {endTime : Rat} {p s : Nat} (toks : List Str) : ∀ {l l' : List GSlice},
    Ordered endTime l → ottavasEnd l endTime p s toks = .ok l' → Ordered endTime l' := by
  induction toks with
  | nil =>
    intro l l' h hr
    have : l = l' := by injection hr
    rw [← this]; exact h
  | cons tok toks ih =>
    intro l l' h hr
    rw [ottavasEnd] at hr
    cases hg : l.getLast? with
    | none => rw [hg] at hr; cases hr
    | some like =>
      rw [hg] at hr
      dsimp only at hr
      cases hy : ottavaLine endTime like p s tok with
      | error e => rw [hy] at hr; cases hr
      | ok y =>
        rw [hy] at hr
        dsimp only at hr
        obtain ⟨h1, h2, _⟩ := ottavaLine_slot hy
        rw [← insertAt_end] at hr
        exact ih (ordered_append h y (le_of_eq h1) (fun _ => h1) h2 (by rw [h1]; exact h.upto)) hr

theorem ordered_addOttavas {endTime : Rat} {l l' : List GSlice} (h : Ordered endTime l) {idx : Option Nat} {p s : Nat} {toks : List Str}
    (hr : addOttavas l endTime idx p s toks = .ok l') : Ordered endTime l' := by
  rw [addOttavas.eq_def] at hr
  cases idx with
  | none => exact ordered_ottavasEnd toks h hr
  | some i =>
    dsimp only at hr
    cases hx : l[i]? with
    | none => rw [hx] at hr; cases hr
    | some x =>
      rw [hx] at hr
      exact ordered_ottavasAt toks h ⟨x, hx, rfl⟩ hr

theorem setLayer_inv {x y : GSlice} {p s layer : Nat} {tok : Str} (h : x.setLayer p s layer tok = .ok y) :
    ∃ part st st', x.parts[p]? = some part ∧ part.staves[s]? = some st ∧ st.setTokenLayer layer tok = .ok st' ∧
      y = { x with parts := x.parts.set p { part with staves := part.staves.set s st' } } := by
  rw [GSlice.setLayer] at h
  cases hp : x.parts[p]? with
  | none => rw [hp] at h; cases h
  | some part =>
    rw [hp] at h
    dsimp only at h
    cases hs : part.staves[s]? with
    | none => rw [hs] at h; cases h
    | some st =>
      rw [hs] at h
      obtain ⟨st', h1, h2⟩ := map_ok h
      exact ⟨part, st, st', rfl, hs, h1, h2.symm⟩

theorem setLayer_slot {x y : GSlice} {p s layer : Nat} {tok : Str} (h : x.setLayer p s layer tok = .ok y) : SameSlot x y := by
  obtain ⟨_, _, _, _, _, _, rfl⟩ := setLayer_inv h
  exact ⟨rfl, rfl⟩

/-- C34: every operation keeps the measure in order. -/
theorem step_keeps_order {start endTime : Rat} {l l' : List GSlice} {op : MOp} (h : Ordered endTime l) (ha : Admissible start endTime l op)
    (hr : op.run start endTime l = .ok l') : Ordered endTime l' := by
  cases op with
  | insert x => exact ordered_insertByTime h x ha.1 ha.2.1 ha.2.2 hr
  | append x =>
    have : l ++ [x] = l' := by injection hr
    rw [← this, ← insertAt_end]
    exact ordered_append h x ha.2.2.1 (fun hc => absurd hc ha.2.1) ha.1 ha.2.2.2
  | typed k t b counts tok p s v => exact ordered_addTyped h ha.1 ha.2.1 ha.2.2 hr
  | label k t counts tok p s v => exact ordered_addLabel h ha.1 ha.2.1 ha.2.2.1 ha.2.2.2 hr
  | «global» k t tok => exact ordered_addGlobal h ha.1 ha.2.1 ha.2.2 hr
  | startLayout tok =>
    have hr : addStartLayout l start tok = .ok l' := hr
    unfold addStartLayout at hr
    obtain ⟨x, hx, rfl⟩ := map_ok hr
    obtain ⟨h1, h2, _⟩ := tokenSlice_slot (p := 0) (s := 0) (v := 0) hx
    exact ordered_front h x (by rw [h1]; exact ha.1) (by rw [h2]; simp) (by rw [h2]; simp) (by rw [h1]; exact ha.2)
  | layout idx p s v text b => exact ordered_addLayout h hr
  | tuplet idx p s v tok => exact ordered_addTuplet h hr
  | ottavas idx p s toks => exact ordered_addOttavas h hr
  | set i p s layer tok =>
    obtain ⟨x, y, hx, hy, rfl⟩ := changeAt_inv hr
    exact ordered_set h hx (setLayer_slot hy)

/-- C34: after any history of operations the lines of a measure are in order of time, note lines have different times. -/
theorem measure_in_order_partial {start endTime : Rat} {l l' : List GSlice} {ops : List MOp} (h : Ordered endTime l)
    (hh : History start endTime (Admissible start endTime) l ops l') :
    Ordered endTime l' ∧ l'.Pairwise (fun a b => a.time ≤ b.time) := by
  have : Ordered endTime l' := by
    induction hh with
    | nil l => exact h
    | cons ha hr _ ih => exact ih (step_keeps_order h ha hr)
  exact ⟨this, ordered_sorted this⟩

/-- An empty measure is in order. -/
theorem ordered_nil (endTime : Rat) : Ordered endTime [] :=
  ⟨List.IsChain.nil, by simp, by simp, by simp⟩

/-! ## Tokens are kept -/

theorem keptLine_refl (l : List GSlice) (op : MOp) (x : GSlice) : KeptLine l op x x :=
  ⟨rfl, rfl, fun _ _ _ _ h _ _ => h, fun _ => rfl, fun _ _ => rfl⟩

theorem kept_insert (op : MOp) (l : List GSlice) (i : Nat) (x : GSlice) : KeptLines op l (insertAt l i x) :=
  ⟨l, insertAt_sublist l i x, List.forall₂_same.2 (fun x _ => keptLine_refl l op x)⟩

theorem kept_refl (op : MOp) (l : List GSlice) : KeptLines op l l :=
  ⟨l, List.Sublist.refl l, List.forall₂_same.2 (fun x _ => keptLine_refl l op x)⟩

theorem kept_set (op : MOp) (l : List GSlice) (i : Nat) (x y : GSlice) (hx : l[i]? = some x) (hk : KeptLine l op x y) :
    KeptLines op l (l.set i y) :=
  ⟨_, List.Sublist.refl _, forall2_set (keptLine_refl l op) l i x y hx hk⟩

/-- Changing a line by a token keeps it, if the token is meant for the cell or there was nothing of meaning. -/
theorem keptLine_addToken (l : List GSlice) (op : MOp) (x y : GSlice) (p s v : Nat) (tok : Str) (h : x.addToken tok p s v = .ok y)
    (hm : Meant l x p s v op ∨ ∀ text, x.cell p s v = some text → ¬ notNull text) : KeptLine l op x y := by
  obtain ⟨h1, h2, h3, h4, _, h5, h6⟩ := addToken_spec_partial x y tok p s v h
  refine ⟨h4, h3, ?_, h5, h6⟩
  intro p' s' v' text ht hn hnm
  by_cases he : (p', s', v') = (p, s, v)
  · simp only [Prod.mk.injEq] at he
    obtain ⟨rfl, rfl, rfl⟩ := he
    rcases hm with hm | hm
    · exact absurd hm hnm
    · exact absurd hn (hm text ht)
  · rw [h2 p' s' v' he]; exact ht

theorem tokenOrNone_cell (x : GSlice) (p s v : Nat) : x.tokenOrNone p s v = x.cell p s v := rfl

theorem ottavasAt_sublist {i : Nat} {like : GSlice} {p s : Nat} (toks : List Str) : ∀ {l l' : List GSlice},
    ottavasAt l i like p s toks = .ok l' → l.Sublist l' := by
  induction toks with
  | nil =>
    intro l l' hr
    have : l = l' := by injection hr
    rw [← this]
  | cons tok toks ih =>
    intro l l' hr
    rw [ottavasAt] at hr
    cases hy : ottavaLine like.time like p s tok with
    | error e => rw [hy] at hr; cases hr
    | ok y =>
      rw [hy] at hr
      exact (insertAt_sublist l i y).trans (ih hr)

theorem ottavasEnd_sublist {endTime : Rat} {p s : Nat} (toks : List Str) : ∀ {l l' : List GSlice},
    ottavasEnd l endTime p s toks = .ok l' → l.Sublist l' := by
  induction toks with
  | nil =>
    intro l l' hr
    have : l = l' := by injection hr
    rw [← this]
  | cons tok toks ih =>
    intro l l' hr
    rw [ottavasEnd] at hr
    cases hg : l.getLast? with
    | none => rw [hg] at hr; cases hr
    | some like =>
      rw [hg] at hr
      dsimp only at hr
      cases hy : ottavaLine endTime like p s tok with
      | error e => rw [hy] at hr; cases hr
      | ok y =>
        rw [hy] at hr
        exact (List.sublist_append_left l [y]).trans (ih hr)

theorem kept_of_sublist (op : MOp) {l l' : List GSlice} (h : l.Sublist l') : KeptLines op l l' :=
  ⟨l, h, List.forall₂_same.2 (fun x _ => keptLine_refl l op x)⟩

theorem kept_placeToken {op : MOp} {l l' : List GSlice} {pl : Place} {fb : Nat} {k : SliceKind} {t : Rat} {counts : List Nat} {tok : Str}
    {p s v : Nat} (h : placeToken l pl fb k t counts tok p s v = .ok l')
    (hm : ∀ i x, pl = .use i → l[i]? = some x → Meant l x p s v op) : KeptLines op l l' := by
  rcases placeToken_inv h with ⟨i, x, y, hi, hx, ha, rfl⟩ | ⟨i, x, _, _, rfl⟩
  · exact kept_set op l i x y hx (keptLine_addToken l op x y p s v tok ha (Or.inl (hm i x hi hx)))
  · exact kept_insert op l i x

/-- What a staff of a slice looks like after `setTokenLayer`. -/
theorem setLayer_spec {x y : GSlice} {p s layer : Nat} {tok : Str} (h : x.setLayer p s layer tok = .ok y) :
    y.cell p s layer = some tok ∧ (∀ p' s' v', (p', s', v') ≠ (p, s, layer) → y.cell p' s' v' = x.cell p' s' v') ∧
    (∀ p', y.partSide p' = x.partSide p') ∧ (∀ p' s', y.staffSide p' s' = x.staffSide p' s') := by
  obtain ⟨part, st, st', hp, hs, hst, rfl⟩ := setLayer_inv h
  obtain ⟨st2, e1, e2, e3, _, e5, e6⟩ := setTokenLayer_spec st layer tok
  rw [hst] at e1
  injection e1 with e1
  subst e1
  have htok : ∀ (w : GStaff) (v : Nat), w.tokenAt v = (w.voices[v]?).bind GCell.text? := by
    intro w v
    rw [GStaff.tokenAt, List.getD_eq_getElem?_getD]
    cases w.voices[v]? <;> rfl
  have hpl : p < x.parts.length := (List.getElem?_eq_some_iff.1 hp).1
  have hsl : s < part.staves.length := (List.getElem?_eq_some_iff.1 hs).1
  have hgp : ∀ p', (x.parts.set p { part with staves := part.staves.set s st' })[p']? =
      if p' = p then some { part with staves := part.staves.set s st' } else x.parts[p']? := by
    intro p'
    by_cases he : p' = p
    · subst he; rw [List.getElem?_set_self hpl, if_pos rfl]
    · rw [List.getElem?_set_ne (Ne.symm he), if_neg he]
  have hgs : ∀ s', (part.staves.set s st')[s']? = if s' = s then some st' else part.staves[s']? := by
    intro s'
    by_cases he : s' = s
    · subst he; rw [List.getElem?_set_self hsl, if_pos rfl]
    · rw [List.getElem?_set_ne (Ne.symm he), if_neg he]
  refine ⟨?_, ?_, ?_, ?_⟩
  · unfold GSlice.cell
    dsimp only
    rw [hgp, if_pos rfl, Option.bind_some]
    dsimp only
    rw [hgs, if_pos rfl, Option.bind_some, ← htok]
    exact e2
  · intro p' s' v' hne
    unfold GSlice.cell
    dsimp only
    rw [hgp]
    by_cases he : p' = p
    · subst he
      rw [if_pos rfl, Option.bind_some, hp, Option.bind_some]
      dsimp only
      rw [hgs]
      by_cases he' : s' = s
      · subst he'
        rw [if_pos rfl, Option.bind_some, hs, Option.bind_some, ← htok, ← htok]
        exact e3 v' (fun hv => hne (by rw [hv]))
      · rw [if_neg he']
    · rw [if_neg he]
  · intro p'
    unfold GSlice.partSide
    dsimp only
    rw [hgp]
    by_cases he : p' = p
    · subst he; rw [if_pos rfl, hp]; rfl
    · rw [if_neg he]
  · intro p' s'
    unfold GSlice.staffSide
    dsimp only
    rw [hgp]
    by_cases he : p' = p
    · subst he
      rw [if_pos rfl, Option.bind_some, hp, Option.bind_some]
      dsimp only
      rw [hgs]
      by_cases he' : s' = s
      · subst he'
        rw [if_pos rfl, hs]
        dsimp only
        rw [e5, e6]
      · rw [if_neg he']
    · rw [if_neg he]

/-- C34: no operation loses a line, changes its time or kind, or loses a token that is not a null token, but for the cell
the operation is meant for. -/
theorem step_keeps_tokens {start endTime : Rat} {l l' : List GSlice} {op : MOp} (hr : op.run start endTime l = .ok l') : KeptLines op l l' := by
  cases op with
  | insert x =>
    have hr : insertByTime l x = .ok l' := hr
    rw [insertByTime.eq_def] at hr
    cases l with
    | nil => exact kept_of_sublist _ (List.nil_sublist _)
    | cons first rest =>
      dsimp only at hr
      by_cases hf : x.time < first.time
      · rw [if_pos hf] at hr
        have : insertAt (first :: rest) 0 x = l' := by injection hr
        rw [← this]; exact kept_insert _ _ _ _
      · rw [if_neg hf] at hr
        cases hw : walkBack (first :: rest).reverse (first :: rest).length x.time with
        | none => rw [hw] at hr; cases hr
        | some i =>
          rw [hw] at hr
          have : insertAt (first :: rest) i x = l' := by injection hr
          rw [← this]; exact kept_insert _ _ _ _
  | append x =>
    have : l ++ [x] = l' := by injection hr
    rw [← this]; exact kept_of_sublist _ (List.sublist_append_left l [x])
  | typed k t b counts tok p s v =>
    have hr : addTyped l k t b counts tok p s v = .ok l' := hr
    rw [addTyped] at hr
    by_cases hlast : laterThanLast l t = true
    · rw [if_pos hlast] at hr
      exact kept_placeToken hr (fun i x hc => by cases hc)
    · rw [if_neg hlast] at hr
      apply kept_placeToken hr
      intro i x hi hx
      have hsp := typedSearch_spec l k t b l 0 [] rfl rfl (by simp)
      rw [hi] at hsp
      obtain ⟨x', h1, h2, h3⟩ := hsp
      rw [hx] at h1
      injection h1 with h1
      subst h1
      exact ⟨h3, h2, rfl⟩
  | label k t counts tok p s v =>
    have hr : addLabel l k t counts tok p s v = .ok l' := hr
    rw [addLabel] at hr
    by_cases hlast : laterThanLast l t = true
    · rw [if_pos hlast] at hr
      exact kept_placeToken hr (fun i x hc => by cases hc)
    · rw [if_neg hlast] at hr
      apply kept_placeToken hr
      intro i x hi hx
      have hsp := labelSearch_spec k t l l 0 [] rfl rfl
      rw [hi] at hsp
      obtain ⟨x', h1, h2, h3⟩ := hsp
      rw [hx] at h1
      injection h1 with h1
      subst h1
      exact ⟨h3, h2, rfl⟩
  | «global» k t tok =>
    rcases addGlobal_spec hr with ⟨x, _, rfl, _⟩ | ⟨i, x, hi, rfl, _⟩
    · exact kept_refl _ _
    · exact kept_insert _ _ _ _
  | startLayout tok =>
    have hr : addStartLayout l start tok = .ok l' := hr
    unfold addStartLayout at hr
    obtain ⟨x, hx, rfl⟩ := map_ok hr
    exact kept_insert _ _ _ _
  | layout idx p s v text b =>
    by_cases hl : l = []
    · subst hl; exact kept_of_sublist _ (List.nil_sublist _)
    · rcases addLayout_inv hr hl with ⟨i, x, y, hx, _, _, _, hfree, hy, rfl⟩ | ⟨i, hi, _⟩
      · refine kept_set _ l i x y hx (keptLine_addToken l _ x y p s v text (setCell_inv hy) (Or.inr ?_))
        intro tx ht hn
        rw [layoutFree, tokenOrNone_cell, ht] at hfree
        have : tx = "!".toList := by simpa using hfree
        exact hn.1 this
      · rcases lineBefore_inv hi with ⟨_, _, _, _, _, _, rfl⟩ | ⟨_, _, _, _, _, rfl⟩ <;> exact kept_insert _ _ _ _
  | tuplet idx p s v tok =>
    rcases addTuplet_inv hr with ⟨i, x, y, hx, _, _, hfree, hy, rfl⟩ | hr
    · refine kept_set _ l i x y hx (keptLine_addToken l _ x y p s v tok (setCell_inv hy) (Or.inr ?_))
      intro tx ht hn
      rw [tupletFree, tokenOrNone_cell, ht] at hfree
      have : tx = "*".toList := by simpa using hfree
      exact hn.2 this
    · rcases lineBefore_inv hr with ⟨_, _, _, _, _, _, rfl⟩ | ⟨_, _, _, _, _, rfl⟩ <;> exact kept_insert _ _ _ _
  | ottavas idx p s toks =>
    have hr : addOttavas l endTime idx p s toks = .ok l' := hr
    rw [addOttavas.eq_def] at hr
    cases idx with
    | none => exact kept_of_sublist _ (ottavasEnd_sublist toks hr)
    | some i =>
      dsimp only at hr
      cases hx : l[i]? with
      | none => rw [hx] at hr; cases hr
      | some x => rw [hx] at hr; exact kept_of_sublist _ (ottavasAt_sublist toks hr)
  | set i p s layer tok =>
    obtain ⟨x, y, hx, hy, rfl⟩ := changeAt_inv hr
    obtain ⟨h1, h2, h3, h4⟩ := setLayer_spec hy
    have hs := setLayer_slot hy
    refine kept_set _ l i x y hx ⟨hs.1, hs.2, ?_, h3, h4⟩
    intro p' s' v' text ht _ hm
    rw [h2 p' s' v' (fun he => hm ⟨hx, he⟩)]
    exact ht

/-- C34: a token stays in a line of its time and kind through any history of operations that are not meant for its cell. -/
theorem tokens_survive {start endTime : Rat} {l l' : List GSlice} {ops : List MOp} {t : Rat} {k : SliceKind} {p s v : Nat} {tok : Str}
    (hn : notNull tok) (hh : History start endTime (Spares t k p s v) l ops l') (h : HoldsToken l t k p s v tok) : HoldsToken l' t k p s v tok := by
  induction hh with
  | nil l => exact h
  | @cons l l1 l2 op ops ha hr _ ih =>
    apply ih
    obtain ⟨m, hm, hf⟩ := step_keeps_tokens hr
    obtain ⟨x, hx, h1, h2, h3⟩ := h
    have hsp := ha x hx h1 h2
    have : ∃ y ∈ m, KeptLine l op x y := by
      clear hm ih hr ha hsp
      have aux : ∀ (a b : List GSlice), List.Forall₂ (KeptLine l op) a b → x ∈ a → ∃ y ∈ b, KeptLine l op x y := by
        intro a b hab
        induction hab with
        | nil => intro hx; simp at hx
        | @cons a b c d hab hcd ih =>
          intro hx
          rcases List.mem_cons.1 hx with rfl | hx
          · exact ⟨b, List.mem_cons_self, hab⟩
          · obtain ⟨y, hy, hk⟩ := ih hx
            exact ⟨y, List.mem_cons_of_mem _ hy, hk⟩
      exact aux l m hf hx
    obtain ⟨y, hy, k1, k2, k3, _⟩ := this
    exact ⟨y, hm.subset hy, by rw [k1, h1], by rw [k2, h2], k3 p s v tok h3 hn hsp⟩

/-! ## The tokens arrive -/

/-- C34: `addTokenOfSliceType` puts the token in a line of its time and kind. -/
theorem typed_arrives {start endTime : Rat} {l l' : List GSlice} {k : SliceKind} {t : Rat} {b : Bool} {counts : List Nat} {tok : Str}
    {p s v : Nat} (hr : (MOp.typed k t b counts tok p s v).run start endTime l = .ok l') : HoldsToken l' t k p s v tok := by
  have hr : addTyped l k t b counts tok p s v = .ok l' := hr
  rw [addTyped] at hr
  have fin : ∀ pl, (∀ i, pl = Place.use i → ∃ x, l[i]? = some x ∧ x.time = t ∧ x.kind = k) →
      placeToken l pl l.length k t counts tok p s v = .ok l' → HoldsToken l' t k p s v tok := by
    intro pl hu hr
    rcases placeToken_inv hr with ⟨i, x, y, hi, hx, ha, rfl⟩ | ⟨i, x, _, hx, rfl⟩
    · obtain ⟨x', g1, g2, g3⟩ := hu i hi
      rw [hx] at g1
      injection g1 with g1
      subst g1
      obtain ⟨c1, _, c2, c3, _⟩ := addToken_spec_partial x y tok p s v ha
      have hil : i < l.length := (List.getElem?_eq_some_iff.1 hx).1
      exact ⟨y, List.mem_iff_getElem?.2 ⟨i, List.getElem?_set_self hil⟩, by rw [c3, g2], by rw [c2, g3], c1⟩
    · obtain ⟨h1, h2, h3⟩ := tokenSlice_slot hx
      exact ⟨x, (mem_insertAt l i x x).2 (Or.inl rfl), h1, h2, h3⟩
  by_cases hlast : laterThanLast l t = true
  · rw [if_pos hlast] at hr
    exact fin _ (fun i hc => by cases hc) hr
  · rw [if_neg hlast] at hr
    refine fin _ ?_ hr
    intro i hi
    have hsp := typedSearch_spec l k t b l 0 [] rfl rfl (by simp)
    rw [hi] at hsp
    exact hsp

/-- C34: a page or line break or a reference record is in the measure afterwards, at its time (it may be an equal one that was there before). -/
theorem global_arrives {start endTime : Rat} {l l' : List GSlice} {k : SliceKind} {t : Rat} {tok : Str}
    (hr : (MOp.global k t tok).run start endTime l = .ok l') : HoldsToken l' t k 0 0 0 tok := by
  rcases addGlobal_spec hr with ⟨x, hx, rfl, h1, h2, h3⟩ | ⟨i, x, _, rfl, h1, h2, h3, _⟩
  · refine ⟨x, hx, h1, h2, ?_⟩
    unfold GSlice.firstText at h3
    unfold GSlice.cell
    cases hp : x.parts with
    | nil => rw [hp] at h3; cases h3
    | cons part parts =>
      rw [hp] at h3
      dsimp only at h3
      cases hs : part.staves with
      | nil => rw [hs] at h3; cases h3
      | cons st sts =>
        rw [hs] at h3
        dsimp only at h3
        cases hv : st.voices with
        | nil => rw [hv] at h3; cases h3
        | cons c cs =>
          rw [hv] at h3
          simp only [List.getElem?_cons_zero, Option.bind_some, hs, hv]
          exact h3
  · exact ⟨x, (mem_insertAt l i x x).2 (Or.inl rfl), h1, h2, h3⟩

/-- C34: a layout comment for a line that is not the first of its measure ends up in a layout line of the same time. -/
theorem layout_arrives_partial {start endTime : Rat} {l l' : List GSlice} {i p s v : Nat} {x : GSlice} {text : Str} (h : Ordered endTime l)
    (hx : l[i]? = some x) (hi : 0 < i) (hr : (MOp.layout (some i) p s v text false).run start endTime l = .ok l') :
    HoldsToken l' x.time .layouts p s v text := by
  have hr : addLayout l endTime (some i) p s v text false = .ok l' := hr
  have hl : l ≠ [] := by intro hc; rw [hc] at hx; simp at hx
  rcases addLayout_inv hr hl with ⟨j, w, y, hw, hj, _, hk, _, hy, rfl⟩ | ⟨j, hj, he⟩
  · rw [Option.getD_some, prevIndex, if_neg (by omega)] at hj
    subst hj
    have hp := ordered_pair h (i - 1) w x hw (by rw [show i - 1 + 1 = i by omega]; exact hx)
    obtain ⟨c1, _, c2, c3, _⟩ := addToken_spec_partial w y text p s v (setCell_inv hy)
    have hil : i - 1 < l.length := (List.getElem?_eq_some_iff.1 hw).1
    exact ⟨y, List.mem_iff_getElem?.2 ⟨_, List.getElem?_set_self hil⟩, by rw [c3, hp.2 hk], by rw [c2, hk], c1⟩
  · rw [if_neg (by simp), Option.getD_some] at he
    subst he
    rw [layoutLineAt, if_pos (List.getElem?_eq_some_iff.1 hx).1] at hj
    rcases lineBefore_inv hj with ⟨j', w, y, hj', hw, hy, rfl⟩ | ⟨_, _, hc, _⟩
    · injection hj' with hj'
      subst hj'
      rw [hx] at hw
      injection hw with hw
      subst hw
      obtain ⟨c1, _, c2, c3, _⟩ := addToken_spec_partial _ y text p s v (setCell_inv hy)
      exact ⟨y, (mem_insertAt l _ y y).2 (Or.inl rfl), c3, c2, c1⟩
    · cases hc

/-- C34: a label arrives at its time. -/
theorem label_arrives {start endTime : Rat} {l l' : List GSlice} {k : SliceKind} {t : Rat} {counts : List Nat} {tok : Str}
    {p s v : Nat} (hr : (MOp.label k t counts tok p s v).run start endTime l = .ok l') : HoldsToken l' t k p s v tok := by
  have hr : addLabel l k t counts tok p s v = .ok l' := hr
  rw [addLabel] at hr
  have fin : ∀ pl fb, (∀ i, pl = Place.use i → ∃ x, l[i]? = some x ∧ x.time = t ∧ x.kind = k) →
      placeToken l pl fb k t counts tok p s v = .ok l' → HoldsToken l' t k p s v tok := by
    intro pl fb hu hr
    rcases placeToken_inv hr with ⟨i, x, y, hi, hx, ha, rfl⟩ | ⟨i, x, _, hx, rfl⟩
    · obtain ⟨x', g1, g2, g3⟩ := hu i hi
      rw [hx] at g1
      injection g1 with g1
      subst g1
      obtain ⟨c1, _, c2, c3, _⟩ := addToken_spec_partial x y tok p s v ha
      have hil : i < l.length := (List.getElem?_eq_some_iff.1 hx).1
      exact ⟨y, List.mem_iff_getElem?.2 ⟨i, List.getElem?_set_self hil⟩, by rw [c3, g2], by rw [c2, g3], c1⟩
    · obtain ⟨h1, h2, h3⟩ := tokenSlice_slot hx
      exact ⟨x, (mem_insertAt l i x x).2 (Or.inl rfl), h1, h2, h3⟩
  by_cases hlast : laterThanLast l t = true
  · rw [if_pos hlast] at hr
    exact fin _ _ (fun i hc => by cases hc) hr
  · rw [if_neg hlast] at hr
    refine fin _ _ ?_ hr
    intro i hi
    have hsp := labelSearch_spec k t l l 0 [] rfl rfl
    rw [hi] at hsp
    exact hsp

theorem nonTextStart_spec (l : List GSlice) (p s v : Nat) : ∀ (i : Nat), i ≤ l.length → nonTextStart l p s v i ≤ i ∧
    (∀ j x, nonTextStart l p s v i ≤ j → j < i → l[j]? = some x → x.kind = .layouts ∧
      ∀ tx, x.cell p s v = some tx → isTextLayout tx = false) := by
  intro i
  induction i with
  | zero => intro _; exact ⟨by simp [nonTextStart], by intro j x _ hj; omega⟩
  | succ i ih =>
    intro hi
    have hx : l[i]? = some l[i] := List.getElem?_eq_getElem (by omega)
    obtain ⟨h1, h2⟩ := ih (by omega)
    have step : l[i].kind = .layouts → (∀ tx, l[i].cell p s v = some tx → isTextLayout tx = false) →
        ∀ j x, nonTextStart l p s v i ≤ j → j < i + 1 → l[j]? = some x → x.kind = .layouts ∧
          ∀ tx, x.cell p s v = some tx → isTextLayout tx = false := by
      intro hk ht j x hj hj' hjx
      by_cases hji : j = i
      · subst hji
        rw [hx] at hjx
        injection hjx with hjx
        rw [← hjx]; exact ⟨hk, ht⟩
      · exact h2 j x hj (by omega) hjx
    rw [nonTextStart, hx]
    dsimp only
    by_cases hk : l[i].kind = .layouts
    · rw [if_pos hk]
      cases ht : l[i].tokenOrNone p s v with
      | none =>
        dsimp only
        rw [tokenOrNone_cell] at ht
        exact ⟨by omega, step hk (fun tx htx => by rw [ht] at htx; cases htx)⟩
      | some tx =>
        dsimp only
        rw [tokenOrNone_cell] at ht
        cases hb : isTextLayout tx with
        | true =>
          rw [if_pos rfl]
          exact ⟨by omega, by intro j x hj hj'; omega⟩
        | false =>
          rw [if_neg (by simp)]
          refine ⟨by omega, step hk (fun tx' htx => ?_)⟩
          rw [ht] at htx
          injection htx with htx
          rw [← htx]; exact hb
    · rw [if_neg hk]
      exact ⟨by omega, by intro j x hj hj'; omega⟩

/-- C34: a text direction for any line, the first one included, gets a layout line of its own at the time of the line; only
layout comments that are no text directions of the same voice are between them. -/
theorem text_layout_arrives {start endTime : Rat} {l l' : List GSlice} {i p s v : Nat} {x : GSlice} {text : Str} (h : Ordered endTime l)
    (hx : l[i]? = some x) (hr : (MOp.layout (some i) p s v text true).run start endTime l = .ok l') :
    ∃ j y, j ≤ i ∧ l' = insertAt l j y ∧ y.time = x.time ∧ y.kind = .layouts ∧ y.cell p s v = some text ∧
      ∀ m z, j ≤ m → m < i → l[m]? = some z → z.kind = .layouts ∧ ∀ tx, z.cell p s v = some tx → isTextLayout tx = false := by
  have hr : addLayout l endTime (some i) p s v text true = .ok l' := hr
  have hl : l ≠ [] := by intro hc; rw [hc] at hx; simp at hx
  have hil : i < l.length := (List.getElem?_eq_some_iff.1 hx).1
  rcases addLayout_inv hr hl with ⟨j, w, y, hw, hj, hc, _⟩ | ⟨j, hj, he⟩
  · cases hc
  · rw [if_pos rfl, Option.getD_some] at he
    subst he
    obtain ⟨h1, h2⟩ := nonTextStart_spec l p s v i (by omega)
    rw [layoutLineAt, if_pos (by omega)] at hj
    rcases lineBefore_inv hj with ⟨j', w, y, hj', hw, hy, rfl⟩ | ⟨_, _, hc, _⟩
    · injection hj' with hj'
      subst hj'
      obtain ⟨z, hz, hzt⟩ := layouts_time h i x hx (i - nonTextStart l p s v i) _ (by omega) (fun m x hm hm' hmx => (h2 m x hm hm' hmx).1)
      rw [hw] at hz
      injection hz with hz
      subst hz
      obtain ⟨c1, _, c2, c3, _⟩ := addToken_spec_partial _ y text p s v (setCell_inv hy)
      exact ⟨_, y, h1, rfl, by rw [c3]; exact hzt, c2, c1, h2⟩
    · cases hc

/-- C34: a comment for the end of a measure gets there, at the time of the end. -/
theorem layout_end_arrives {start endTime : Rat} {l l' : List GSlice} {p s v : Nat} {text : Str} (h : Ordered endTime l) (hl : l ≠ [])
    (hr : (MOp.layout none p s v text false).run start endTime l = .ok l') :
    ∃ y, l'.getLast? = some y ∧ y.time = endTime ∧ y.kind = .layouts ∧ y.cell p s v = some text := by
  have hr : addLayout l endTime none p s v text false = .ok l' := hr
  have hpos : 0 < l.length := List.length_pos_iff.2 hl
  rcases addLayout_inv hr hl with ⟨j, w, y, hw, hj, _, hk, _, hy, rfl⟩ | ⟨j, hj, he⟩
  · rw [Option.getD_none, prevIndex, if_neg (by omega)] at hj
    subst hj
    obtain ⟨c1, _, c2, c3, _⟩ := addToken_spec_partial w y text p s v (setCell_inv hy)
    have hlast : l.getLast? = some w := by rw [List.getLast?_eq_getElem?]; exact hw
    refine ⟨y, ?_, by rw [c3, h.last w hlast hk], by rw [c2, hk], c1⟩
    rw [List.getLast?_eq_getElem?, List.length_set, List.getElem?_set_self (by omega)]
  · rw [if_neg (by simp), Option.getD_none] at he
    subst he
    rw [layoutLineAt, if_neg (by omega)] at hj
    rcases lineBefore_inv hj with ⟨_, _, _, hc, _⟩ | ⟨w, y, _, hw, hy, rfl⟩
    · cases hc
    · obtain ⟨c1, _, c2, c3, _⟩ := addToken_spec_partial _ y text p s v (setCell_inv hy)
      exact ⟨y, by rw [insertAt_end]; simp, c3, c2, c1⟩

/-- C34: a tuplet display for a line that is not the first of its measure gets into the line before it. -/
theorem tuplet_arrives_partial {start endTime : Rat} {l l' : List GSlice} {i p s v : Nat} {x : GSlice} {tok : Str}
    (hx : l[i]? = some x) (hi : 0 < i) (hr : (MOp.tuplet i p s v tok).run start endTime l = .ok l') :
    ∃ j y, l'[j]? = some y ∧ l'[j + 1]? = some x ∧ y.kind = .tupletDisplay ∧ y.cell p s v = some tok := by
  have hr : addTuplet l endTime i p s v tok = .ok l' := hr
  have hil : i < l.length := (List.getElem?_eq_some_iff.1 hx).1
  rcases addTuplet_inv hr with ⟨j, w, y, hw, hj, hk, _, hy, rfl⟩ | hr
  · rw [prevIndex, if_neg (by omega)] at hj
    subst hj
    obtain ⟨c1, _, c2, _⟩ := addToken_spec_partial w y tok p s v (setCell_inv hy)
    refine ⟨i - 1, y, List.getElem?_set_self (by omega), ?_, by rw [c2, hk], c1⟩
    rw [show i - 1 + 1 = i by omega, List.getElem?_set_ne (by omega)]
    exact hx
  · rcases lineBefore_inv hr with ⟨j', w, y, hj', hw, hy, rfl⟩ | ⟨_, _, hc, _⟩
    · injection hj' with hj'
      subst hj'
      obtain ⟨c1, _, c2, _⟩ := addToken_spec_partial _ y tok p s v hy
      refine ⟨i, y, insertAt_get_self l i y (by omega), ?_, c2, c1⟩
      unfold insertAt
      rw [List.getElem?_append, if_neg (by simp), List.length_take, Nat.min_eq_left (by omega),
        show i + 1 - i = 0 + 1 by omega, List.getElem?_cons_succ, List.getElem?_drop, Nat.add_zero]
      exact hx
    · cases hc

/-- C34: at the end of a measure the pedal and ottava lines come in the order given. -/
theorem ottavasEnd_order {endTime : Rat} {p s : Nat} (toks : List Str) : ∀ {l l' : List GSlice},
    ottavasEnd l endTime p s toks = .ok l' →
    ∃ lines, List.Forall₂ (fun tok y => y.time = endTime ∧ y.cell p s 0 = some tok) toks lines ∧ l' = l ++ lines := by
  induction toks with
  | nil =>
    intro l l' hr
    have : l = l' := by injection hr
    exact ⟨[], List.Forall₂.nil, by rw [← this]; simp⟩
  | cons tok toks ih =>
    intro l l' hr
    rw [ottavasEnd] at hr
    cases hg : l.getLast? with
    | none => rw [hg] at hr; cases hr
    | some like =>
      rw [hg] at hr
      dsimp only at hr
      cases hy : ottavaLine endTime like p s tok with
      | error e => rw [hy] at hr; cases hr
      | ok y =>
        rw [hy] at hr
        obtain ⟨lines, h1, h2⟩ := ih hr
        obtain ⟨g1, _, _, g2⟩ := ottavaLine_slot hy
        exact ⟨y :: lines, List.Forall₂.cons ⟨g1, g2⟩ h1, by rw [h2]; simp⟩

/-- The order of the pedal and ottava lines: reversed before a line, kept at the end of a measure. -/
theorem ottavasAt_order {i : Nat} {like : GSlice} {p s : Nat} (toks : List Str) : ∀ {l l' : List GSlice}, i ≤ l.length →
    ottavasAt l i like p s toks = .ok l' →
    ∃ lines, List.Forall₂ (fun tok y => y.time = like.time ∧ y.cell p s 0 = some tok) toks lines ∧
      l' = l.take i ++ (lines.reverse ++ l.drop i) := by
  induction toks with
  | nil =>
    intro l l' _ hr
    have : l = l' := by injection hr
    exact ⟨[], List.Forall₂.nil, by rw [← this]; simp⟩
  | cons tok toks ih =>
    intro l l' hi hr
    rw [ottavasAt] at hr
    cases hy : ottavaLine like.time like p s tok with
    | error e => rw [hy] at hr; cases hr
    | ok y =>
      rw [hy] at hr
      obtain ⟨lines, h1, h2⟩ := ih (by unfold insertAt; simp; omega) hr
      obtain ⟨g1, _, _, g2⟩ := ottavaLine_slot hy
      refine ⟨y :: lines, List.Forall₂.cons ⟨g1, g2⟩ h1, ?_⟩
      rw [h2]
      unfold insertAt
      rw [List.take_append, List.drop_append]
      simp [Nat.min_eq_left hi]

/-- C34: a pedal bounce (up, then down), handed over in reverse because lines before a line come out reversed, comes out in
the wrong order at the end of a measure. -/
theorem bounce_at_measure_end_reversed :
    ∃ l : List GSlice,
      (∃ l', addOttavas l 4 (some 0) 0 0 ["*ped".toList, "*Xped".toList] = .ok l' ∧
        l'.map GSlice.firstText = [some "*Xped".toList, some "*ped".toList, some "1c".toList]) ∧
      (∃ l', addOttavas l 4 none 0 0 ["*ped".toList, "*Xped".toList] = .ok l' ∧
        l'.map GSlice.firstText = [some "1c".toList, some "*ped".toList, some "*Xped".toList]) := by
  refine ⟨[⟨0, .notes, [{ staves := [{ voices := [.tok "1c".toList] }] }]⟩], ⟨_, rfl, by decide +kernel⟩, ⟨_, rfl, by decide +kernel⟩⟩

/-- C34: a layout comment for the first line of a measure lands at the end of the measure if there is a layout line there. -/
theorem layout_of_first_line_misplaced :
    ∃ l : List GSlice, Ordered 4 l ∧ ∃ l', addLayout l 4 (some 0) 0 0 0 "!LO:N:vis=2".toList false = .ok l' ∧
      l'.map (fun x => (x.time, x.firstText)) =
        [(0, some "1c".toList), (4, some "!LO:N:vis=2".toList)] := by
  refine ⟨[⟨0, .notes, [{ staves := [{ voices := [.tok "1c".toList] }] }]⟩, ⟨4, .layouts, [{ staves := [{ voices := [.empty] }] }]⟩], ?_, ?_⟩
  · refine ⟨?_, ?_, ?_, ?_⟩
    · rw [List.isChain_cons_cons]
      refine ⟨⟨by decide +kernel, by decide⟩, List.IsChain.singleton _⟩
    · intro x hx
      simp at hx
      rcases hx with rfl | rfl <;> decide +kernel
    · intro x hx _
      simp at hx
      rw [← hx]
    · decide +kernel
  · exact ⟨_, rfl, by decide +kernel⟩

/-- C34: a comment for the end of a measure that ends with a global line fails, because the new line is made like the last
one. -/
theorem end_after_global_crashes :
    addLayout [⟨0, .notes, [{ staves := [{ voices := [.tok "1c".toList] }] }, { staves := [{ voices := [.tok "1e".toList] }] }]⟩,
      ⟨4, .globalComments, [{ staves := [{ voices := [.tok "!!LO:LB:g=z".toList] }] }]⟩] 4 none 1 0 0 "!LO:TX:t=a".toList false =
      .error .indexError := by decide +kernel

/-- C34: `addDataToken` (which nothing calls) looks at data lines only and so puts an early note after a later clef. -/
theorem addData_after_later_clef :
    ∃ l : List GSlice, l.Pairwise (fun a b => a.time ≤ b.time) ∧ ∃ l', addData l 1 [1] "4d".toList 0 0 0 = .ok l' ∧
      l'.map (fun x => x.time) = [0, 2, 1, 2] := by
  refine ⟨[⟨0, .notes, []⟩, ⟨2, .clefs, []⟩, ⟨2, .notes, []⟩], ?_, ⟨_, rfl, by decide +kernel⟩⟩
  simp [List.pairwise_cons]

/-! ## The hypotheses are met -/

/-- A measure with two notes, a clef between them, a tempo, a layout comment, a line break. -/
def exampleOps : List MOp :=
  [.insert ⟨0, .notes, [{ staves := [{ voices := [.empty] }] }]⟩, .set 0 0 0 0 "2c".toList,
   .append ⟨2, .clefs, [{ staves := [{ voices := [.tok "*clefF4".toList] }] }]⟩,
   .insert ⟨2, .notes, [{ staves := [{ voices := [.empty] }] }]⟩, .set 2 0 0 0 "2d".toList,
   .layout (some 2) 0 0 0 "!LO:TX:t=a".toList false, .typed .tempos 2 true [1] "*MM60".toList 0 0 0,
   .global .globalComments 2 "!!LO:LB:g=z".toList]

/-- What the example leads to. -/
def exampleRun : List MOp → List GSlice → Except PyErr (List GSlice)
  | [], l => .ok l
  | op :: ops, l =>
    match op.run 0 4 l with
    | .ok l' => exampleRun ops l'
    | .error e => .error e

example : ∃ l, exampleRun exampleOps [] = .ok l ∧ l.map (fun x => (x.time, x.firstText)) =
    [(0, some "2c".toList), (2, some "!!LO:LB:g=z".toList), (2, some "*clefF4".toList), (2, some "*MM60".toList),
     (2, some "!LO:TX:t=a".toList), (2, some "2d".toList)] := ⟨_, rfl, by decide +kernel⟩

/-- The first steps of the example as a history. -/
example : ∃ l', History 0 4 (Admissible 0 4) [] (exampleOps.take 2) l' ∧ Ordered 4 [] ∧ HoldsToken l' 0 .notes 0 0 0 "2c".toList := by
  refine ⟨_, History.cons ⟨rfl, by decide +kernel, by simp⟩ rfl (History.cons trivial rfl (History.nil _)), ordered_nil 4, ?_⟩
  exact ⟨_, List.mem_cons_self, rfl, rfl, by decide +kernel⟩

end C21
