import Verif.Spec.LinkedParams
import Verif.Props.Content
import Verif.Lemmas.Tac
import Mathlib.Data.List.Induction
/-
C56: the parameters linked to a token are in file order, without repetition. C67: each layout comment is linked to the next token below it.
-/
namespace C21

/-! ## C56: one list -/

theorem notBefore_false {t : LTok} {l : List LTok} (h : notBeforeLast t l = false) : ∃ x, l.getLast? = some x ∧ t.line < x.line := by
  unfold notBeforeLast at h
  cases hl : l.getLast? with
  | none => rw [hl] at h; exact absurd h (by simp)
  | some x => rw [hl] at h; exact ⟨x, rfl, by simpa using h⟩

theorem insertByLine_split (t : LTok) (l : List LTok) (hs : l.Pairwise (fun a b => a.line ≤ b.line)) (h : ∃ x ∈ l, t.line < x.line) :
    ∃ a b, l = a ++ b ∧ insertByLine t l = a ++ t :: b ∧ insertIndex t l = a.length ∧ (∀ x ∈ a, x.line ≤ t.line) ∧ (∀ x ∈ b, t.line < x.line) := by
  induction l with
  | nil => obtain ⟨x, hx, -⟩ := h; exact absurd hx (by simp)
  | cons y ys ih =>
    have hy : ∀ {x}, x ∈ ys → y.line ≤ x.line := fun hx => List.rel_of_pairwise_cons hs hx
    by_cases hlt : t.line < y.line
    · refine ⟨[], y :: ys, rfl, ?_, ?_, by simp, ?_⟩
      · show (if t.line < y.line then _ else _) = _
        rw [if_pos hlt]; rfl
      · show (if t.line < y.line then _ else _) = _
        rw [if_pos hlt]; rfl
      · intro x hx
        rcases List.mem_cons.1 hx with rfl | hx
        · exact hlt
        · exact lt_of_lt_of_le hlt (hy hx)
    · obtain ⟨x, hx, hxl⟩ := h
      have hx' : x ∈ ys := by
        rcases List.mem_cons.1 hx with rfl | hx
        · exact absurd hxl hlt
        · exact hx
      obtain ⟨a, b, h1, h2, h3, h4, h5⟩ := ih hs.of_cons ⟨x, hx', hxl⟩
      refine ⟨y :: a, b, by rw [h1]; rfl, ?_, ?_, ?_, h5⟩
      · show (if t.line < y.line then _ else _) = _
        rw [if_neg hlt, h2]; rfl
      · show (if t.line < y.line then _ else _) = _
        rw [if_neg hlt, h3, if_neg (by omega), List.length_cons]
        omega
      · intro z hz
        rcases List.mem_cons.1 hz with rfl | hz
        · omega
        · exact h4 z hz

/-- One call, in a list in file order: the token is put after those of the same or earlier lines and before those of later lines. -/
theorem addLinked_new (l : List LTok) (t : LTok) (hs : l.Pairwise (fun a b => a.line ≤ b.line)) (hi : notIgnored t = true)
    (hn : ∀ x ∈ l, x.id ≠ t.id) : ∃ a b, l = a ++ b ∧ addLinked l t = ((a.length : Int), a ++ t :: b) ∧ (∀ x ∈ a, x.line ≤ t.line) ∧ (∀ x ∈ b, t.line < x.line) := by
  have hi' : isInfix ":ignore".toList t.text = false := by unfold notIgnored at hi; simpa using hi
  have hany : l.any (fun x => x.id == t.id) = false := by
    rw [List.any_eq_false]; intro x hx; simpa using hn x hx
  unfold addLinked
  rw [hi', hany]
  simp only [Bool.false_eq_true, if_false]
  by_cases hb : notBeforeLast t l = true
  · rw [if_pos hb]
    refine ⟨l, [], by simp, rfl, ?_, by simp⟩
    intro x hx
    unfold notBeforeLast at hb
    cases hl : l.getLast? with
    | none => rw [List.getLast?_eq_none_iff.1 hl] at hx; exact absurd hx (by simp)
    | some y =>
      rw [hl] at hb
      have hy : y.line ≤ t.line := by simpa using hb
      obtain ⟨l', rfl⟩ := List.getLast?_eq_some_iff.1 hl
      rcases List.mem_append.1 hx with hx | hx
      · exact le_trans ((List.pairwise_append.1 hs).2.2 x hx y (by simp)) hy
      · rw [List.mem_singleton.1 hx]; exact hy
  · rw [if_neg hb]
    obtain ⟨y, hy, hlt⟩ := notBefore_false (by simpa using hb)
    obtain ⟨a, b, h1, h2, h3, h4, h5⟩ := insertByLine_split t l hs ⟨y, List.mem_of_getLast? hy, hlt⟩
    exact ⟨a, b, h1, by rw [h2, h3], h4, h5⟩

theorem addLinked_ignored (l : List LTok) (t : LTok) (h : notIgnored t = false) : addLinked l t = (-1, l) := by
  unfold addLinked
  rw [if_pos (by unfold notIgnored at h; simpa using h)]

theorem addLinked_old (l : List LTok) (t : LTok) (h : ∃ x ∈ l, x.id = t.id) : (addLinked l t).2 = l := by
  unfold addLinked
  split
  · rfl
  · rw [if_pos]
    obtain ⟨x, hx, he⟩ := h
    exact List.any_eq_true.2 ⟨x, hx, by simpa using he⟩

/-- C56, one call: file order and absence of repetition are kept. -/
theorem addLinked_order (l : List LTok) (t : LTok) (h : InFileOrder l) : InFileOrder (addLinked l t).2 := by
  cases hi : notIgnored t with
  | false => rw [addLinked_ignored l t hi]; exact h
  | true =>
    by_cases hx : ∃ x ∈ l, x.id = t.id
    · rw [addLinked_old l t hx]; exact h
    · have hn : ∀ x ∈ l, x.id ≠ t.id := fun x hx' e => hx ⟨x, hx', e⟩
      obtain ⟨a, b, h1, h2, h3, h4⟩ := addLinked_new l t h.sorted hi hn
      rw [h2]
      have hp : (a ++ t :: b).Perm (t :: l) := by rw [h1]; exact List.perm_middle
      constructor
      · have hs := h.sorted
        rw [h1] at hs
        rw [List.pairwise_append] at hs ⊢
        refine ⟨hs.1, List.pairwise_cons.2 ⟨fun x hx => le_of_lt (h4 x hx), hs.2.1⟩, ?_⟩
        intro x hxa y hy
        rcases List.mem_cons.1 hy with rfl | hy
        · exact h3 x hxa
        · exact hs.2.2 x hxa y hy
      · rw [(hp.map _).nodup_iff, List.map_cons, List.nodup_cons]
        refine ⟨?_, h.nodup⟩
        rw [List.mem_map]
        rintro ⟨x, hx, e⟩
        exact hn x hx e

theorem fold_order (ts : List LTok) : ∀ l, InFileOrder l → InFileOrder (ts.foldl (fun l t => (addLinked l t).2) l) := by
  induction ts with
  | nil => intro l h; exact h
  | cons t ts ih => intro l h; exact ih _ (addLinked_order l t h)

/-- C56: after linking any tokens in any order, the list is in file order and has no token twice. -/
theorem linked_in_order (ts : List LTok) : InFileOrder (linkSeq ts) := fold_order ts [] ⟨List.Pairwise.nil, List.nodup_nil⟩

theorem firstOnes_mem (ts : List LTok) : ∀ x ∈ firstOnes ts, x ∈ ts := by
  induction ts with
  | nil => intro x hx; exact hx
  | cons t ts ih =>
    intro x hx
    rcases List.mem_cons.1 hx with rfl | hx
    · exact List.mem_cons_self
    · exact List.mem_cons_of_mem _ (ih x (List.mem_filter.1 hx).1)

theorem addLinked_filter (l : List LTok) (t : LTok) (n : Nat) (h : InFileOrder l) :
    (addLinked l t).2.filter (fun x => x.line == n) =
      l.filter (fun x => x.line == n) ++ (if notIgnored t = true ∧ (∀ x ∈ l, x.id ≠ t.id) ∧ t.line = n then [t] else []) := by
  cases hi : notIgnored t with
  | false => rw [addLinked_ignored l t hi, if_neg (by simp), List.append_nil]
  | true =>
    by_cases hx : ∃ x ∈ l, x.id = t.id
    · rw [addLinked_old l t hx, if_neg, List.append_nil]
      rintro ⟨-, h2, -⟩
      obtain ⟨x, hx, e⟩ := hx
      exact h2 x hx e
    · have hn : ∀ x ∈ l, x.id ≠ t.id := fun x hx' e => hx ⟨x, hx', e⟩
      obtain ⟨a, b, h1, h2, h3, h4⟩ := addLinked_new l t h.sorted hi hn
      rw [h2, List.filter_append, List.filter_cons]
      by_cases hl : t.line = n
      · rw [if_pos (by simpa using hl), if_pos ⟨rfl, hn, hl⟩, h1, List.filter_append]
        have : b.filter (fun x => x.line == n) = [] := by
          rw [List.filter_eq_nil_iff]
          intro x hx'
          have := h4 x hx'
          have : x.line ≠ n := by omega
          simpa using this
        rw [this]
        simp
      · rw [if_neg (by simpa using hl), if_neg (fun h => hl h.2.2), h1, List.filter_append, List.append_nil]

theorem addLinked_mem (l : List LTok) (t : LTok) (h : InFileOrder l) (x : LTok) :
    x ∈ (addLinked l t).2 ↔ x ∈ l ∨ (x = t ∧ notIgnored t = true ∧ ∀ y ∈ l, y.id ≠ t.id) := by
  cases hi : notIgnored t with
  | false => rw [addLinked_ignored l t hi]; simp
  | true =>
    by_cases hx : ∃ x ∈ l, x.id = t.id
    · rw [addLinked_old l t hx]
      constructor
      · exact Or.inl
      · rintro (h | ⟨-, -, h3⟩)
        · exact h
        · obtain ⟨y, hy, e⟩ := hx
          exact absurd e (h3 y hy)
    · have hn : ∀ x ∈ l, x.id ≠ t.id := fun x hx' e => hx ⟨x, hx', e⟩
      obtain ⟨a, b, h1, h2, -, -⟩ := addLinked_new l t h.sorted hi hn
      rw [h2, h1]
      simp only [List.mem_append, List.mem_cons]
      constructor
      · rintro (h | h | h)
        · exact Or.inl (Or.inl h)
        · exact Or.inr ⟨h, trivial, by intro y hy; exact hn y (by rw [h1]; simpa using hy)⟩
        · exact Or.inl (Or.inr h)
      · rintro ((h | h) | h)
        · exact Or.inl h
        · exact Or.inr (Or.inr h)
        · exact Or.inr (Or.inl h.1)

theorem firstOnes_snoc (ts : List LTok) (t : LTok) : firstOnes (ts ++ [t]) = firstOnes ts ++ (if ∀ x ∈ ts, x.id ≠ t.id then [t] else []) := by
  induction ts with
  | nil => simp [firstOnes]
  | cons s ts ih =>
    rw [List.cons_append, firstOnes, ih, List.filter_append, firstOnes, List.cons_append]
    congr 2
    by_cases h : ∀ x ∈ ts, x.id ≠ t.id
    · rw [if_pos h]
      by_cases hs : s.id = t.id
      · rw [if_neg (fun h' => h' s List.mem_cons_self hs)]
        simp [hs]
      · rw [if_pos (by intro x hx; rcases List.mem_cons.1 hx with rfl | hx; exacts [hs, h x hx])]
        have : (t.id != s.id) = true := by simpa using fun e => hs (Eq.symm e)
        simp [this]
    · rw [if_neg h, if_neg (fun h' => h (fun x hx => h' x (List.mem_cons_of_mem _ hx)))]
      rfl

theorem linkSeq_snoc (ts : List LTok) (t : LTok) : linkSeq (ts ++ [t]) = (addLinked (linkSeq ts) t).2 := by
  unfold linkSeq; rw [List.foldl_append]; rfl

/-- The same token has the same text and line each time: identity. -/
def Coherent (ts : List LTok) : Prop := ∀ x ∈ ts, ∀ y ∈ ts, x.id = y.id → x = y

theorem coherent_init {ts : List LTok} {t : LTok} (h : Coherent (ts ++ [t])) : Coherent ts := fun x hx y hy =>
  h x (List.mem_append_left _ hx) y (List.mem_append_left _ hy)

theorem linkSeq_mem (ts : List LTok) (h : Coherent ts) (x : LTok) : x ∈ linkSeq ts ↔ x ∈ ts ∧ notIgnored x = true := by
  induction ts using List.reverseRecOn with
  | nil => simp [linkSeq]
  | append_singleton ts t ih =>
    rw [linkSeq_snoc, addLinked_mem _ _ (linked_in_order ts), ih (coherent_init h), List.mem_append, List.mem_singleton]
    have hall : ∀ y ∈ linkSeq ts, y ∈ ts := by
      clear ih h
      induction ts using List.reverseRecOn with
      | nil => intro y hy; exact hy
      | append_singleton ts s ih2 =>
        intro y hy
        rw [linkSeq_snoc, addLinked_mem _ _ (linked_in_order ts)] at hy
        rcases hy with hy | ⟨rfl, -⟩
        · exact List.mem_append_left _ (ih2 y hy)
        · simp
    constructor
    · rintro (⟨h1, h2⟩ | ⟨rfl, h2, -⟩)
      · exact ⟨Or.inl h1, h2⟩
      · exact ⟨Or.inr rfl, h2⟩
    · rintro ⟨h1 | rfl, h2⟩
      · exact Or.inl ⟨h1, h2⟩
      · by_cases hx : x ∈ ts
        · exact Or.inl ⟨hx, h2⟩
        · refine Or.inr ⟨rfl, h2, ?_⟩
          intro y hy e
          have := h y (List.mem_append_left _ (hall y hy)) x (by simp) e
          exact hx (this ▸ hall y hy)

/-- C56, in full: the tokens linked are those given that are not ignored, each once; and tokens of the same line stay in the order in which they were
given. With `linked_in_order`, this determines the list. -/
theorem linked_contents (ts : List LTok) (h : Coherent ts) (n : Nat) :
    (linkSeq ts).filter (fun x => x.line == n) = (firstOnes ts).filter (fun x => x.line == n && notIgnored x) := by
  induction ts using List.reverseRecOn with
  | nil => rfl
  | append_singleton ts t ih =>
    rw [linkSeq_snoc, addLinked_filter _ _ _ (linked_in_order ts), ih (coherent_init h), firstOnes_snoc, List.filter_append]
    congr 1
    by_cases hi : notIgnored t = true
    · have hiff : (∀ x ∈ linkSeq ts, x.id ≠ t.id) ↔ (∀ x ∈ ts, x.id ≠ t.id) := by
        constructor
        · intro h1 x hx e
          have hxt := h x (List.mem_append_left _ hx) t (by simp) e
          subst hxt
          exact h1 x ((linkSeq_mem ts (coherent_init h) x).2 ⟨hx, hi⟩) rfl
        · intro h1 x hx
          exact h1 x ((linkSeq_mem ts (coherent_init h) x).1 hx).1
      by_cases ha : ∀ x ∈ ts, x.id ≠ t.id
      · rw [if_pos ha]
        by_cases hl : t.line = n
        · rw [if_pos ⟨hi, hiff.2 ha, hl⟩]; simp [hl, hi]
        · rw [if_neg (fun h => hl h.2.2)]; simp [hl]
      · rw [if_neg ha, if_neg (fun h => ha (hiff.1 h.2.1))]
        rfl
    · rw [if_neg (fun h => hi h.1)]
      split
      · simp [hi]
      · rfl

/-- The value returned is the index of the token, or -1 if it is ignored. -/
theorem addLinked_index (l : List LTok) (t : LTok) (h : InFileOrder l) (hc : ∀ x ∈ l, x.id = t.id → x = t) :
    (notIgnored t = false → (addLinked l t).1 = -1) ∧
      (notIgnored t = true → ∃ i : Nat, (addLinked l t).1 = i ∧ (addLinked l t).2[i]? = some t) := by
  refine ⟨fun hi => by rw [addLinked_ignored l t hi], fun hi => ?_⟩
  by_cases hx : ∃ x ∈ l, x.id = t.id
  · have hi' : isInfix ":ignore".toList t.text = false := by unfold notIgnored at hi; simpa using hi
    obtain ⟨x, hx, he⟩ := hx
    have hany : l.any (fun x => x.id == t.id) = true := List.any_eq_true.2 ⟨x, hx, by simpa using he⟩
    have e : addLinked l t = (((l.findIdx (fun x => x.id == t.id) : Nat) : Int), l) := by
      unfold addLinked; rw [hi', hany]; rfl
    rw [e]
    refine ⟨_, rfl, ?_⟩
    have hlt : l.findIdx (fun x => x.id == t.id) < l.length := List.findIdx_lt_length_of_exists ⟨x, hx, by simpa using he⟩
    rw [List.getElem?_eq_getElem hlt]
    have := List.findIdx_getElem (w := hlt)
    rw [hc _ (List.getElem_mem hlt) (by simpa using this)]
  · obtain ⟨a, b, h1, h2, -, -⟩ := addLinked_new l t h.sorted hi (fun x hx' e => hx ⟨x, hx', e⟩)
    rw [h2]
    exact ⟨a.length, rfl, by simp⟩

example : linkSeq [⟨5, 9, "!LO:N".toList⟩, ⟨2, 4, "!LO:R".toList⟩, ⟨7, 9, "!!LO:S".toList⟩, ⟨3, 6, "!LO:N:ignore".toList⟩, ⟨2, 4, "!LO:R".toList⟩, ⟨1, 5, "!LO:T".toList⟩] =
    [⟨2, 4, "!LO:R".toList⟩, ⟨1, 5, "!LO:T".toList⟩, ⟨5, 9, "!LO:N".toList⟩, ⟨7, 9, "!!LO:S".toList⟩] := by decide +kernel

/-! ## C67: a strand -/

/-- The comments linked to the token `k` by the walk, in the order of the walk. -/
def walkAdds : List LTok → Option Nat → Nat → List LTok
  | [], _, _ => []
  | t :: ts, dtok, k =>
    if canHaveLayout t then walkAdds ts (some t.id) k
    else if isLocalLayout t then (if dtok = some k then [t] else []) ++ walkAdds ts dtok k
    else walkAdds ts dtok k

theorem strandWalk_eq (ts : List LTok) : ∀ dtok L k, strandWalk ts dtok L k = (walkAdds ts dtok k).foldl (fun l t => (addLinked l t).2) (L k) := by
  induction ts with
  | nil => intro dtok L k; rfl
  | cons t ts ih =>
    intro dtok L k
    unfold strandWalk walkAdds
    by_cases hc : canHaveLayout t = true
    · rw [if_pos hc, if_pos hc]; exact ih _ _ _
    · rw [if_neg hc, if_neg hc]
      by_cases hl : isLocalLayout t = true
      · rw [if_pos hl, if_pos hl]
        cases dtok with
        | none =>
          dsimp only
          rw [ih, if_neg (by simp), List.nil_append]
        | some j =>
          dsimp only
          rw [ih, List.foldl_append]
          by_cases hj : k = j
          · subst hj
            rw [if_pos rfl]
            unfold linkTo
            rw [if_pos rfl]
            rfl
          · rw [if_neg (by simpa using fun e => hj (Eq.symm e))]
            unfold linkTo
            rw [if_neg hj]
            rfl
      · rw [if_neg hl, if_neg hl]; exact ih _ _ _

theorem walkAdds_absent (ts : List LTok) : ∀ (dtok : Option Nat) (k : Nat), dtok ≠ some k → (∀ t ∈ ts, canHaveLayout t = true → t.id ≠ k) → walkAdds ts dtok k = [] := by
  induction ts with
  | nil => intro _ _ _ _; rfl
  | cons t ts ih =>
    intro dtok k hd h
    have h' : ∀ t ∈ ts, canHaveLayout t = true → t.id ≠ k := fun x hx => h x (List.mem_cons_of_mem _ hx)
    unfold walkAdds
    by_cases hc : canHaveLayout t = true
    · rw [if_pos hc]
      exact ih _ k (by simpa using h t List.mem_cons_self hc) h'
    · rw [if_neg hc, ih _ k hd h', if_neg hd]
      simp

theorem walkAdds_append_block (mid ts : List LTok) (k : Nat) (h : ∀ t ∈ mid, canHaveLayout t = false) :
    walkAdds (mid ++ ts) (some k) k = mid.filter isLocalLayout ++ walkAdds ts (some k) k := by
  induction mid with
  | nil => rfl
  | cons t mid ih =>
    have ih' := ih (fun x hx => h x (List.mem_cons_of_mem _ hx))
    rw [List.cons_append, walkAdds, h t List.mem_cons_self]
    simp only [Bool.false_eq_true, if_false, if_true]
    rw [ih', List.filter_cons]
    split <;> rfl

theorem walkAdds_skip (post ts : List LTok) (d : LTok) (hd : canHaveLayout d = true) (h : ∀ t ∈ post, t.id ≠ d.id) :
    ∀ dtok, dtok ≠ some d.id → walkAdds (post ++ d :: ts) dtok d.id = walkAdds ts (some d.id) d.id := by
  induction post with
  | nil => intro dtok _; rw [List.nil_append, walkAdds, if_pos hd]
  | cons t post ih =>
    intro dtok hdt
    have ih' := ih (fun x hx => h x (List.mem_cons_of_mem _ hx))
    rw [List.cons_append, walkAdds]
    by_cases hc : canHaveLayout t = true
    · rw [if_pos hc]; exact ih' _ (by simpa using h t List.mem_cons_self)
    · rw [if_neg hc, ih' _ hdt, if_neg hdt]
      simp

/-- The comments of a strand that go to the token `d`: those between `d` and the token before it that can have layout parameters. -/
theorem strand_adds (pre mid post : List LTok) (d : LTok) (hd : canHaveLayout d = true) (hmid : ∀ t ∈ mid, canHaveLayout t = false)
    (hpre : ∀ e, pre.getLast? = some e → canHaveLayout e = true) (hid : ((pre ++ mid ++ d :: post).map (·.id)).Nodup) :
    walkAdds (pre ++ mid ++ d :: post).reverse none d.id = (mid.filter isLocalLayout).reverse := by
  rw [List.map_append, List.nodup_append] at hid
  obtain ⟨hid1, hid2, hid3⟩ := hid
  have hpost : ∀ t ∈ post, t.id ≠ d.id := by
    intro t ht e
    rw [List.map_cons, List.nodup_cons] at hid2
    exact hid2.1 (List.mem_map.2 ⟨t, ht, e⟩)
  have hpre' : ∀ t ∈ pre, t.id ≠ d.id := by
    intro t ht
    exact hid3 _ (List.mem_map.2 ⟨t, List.mem_append_left _ ht, rfl⟩) _ (by simp)
  have e1 : (pre ++ mid ++ d :: post).reverse = post.reverse ++ d :: (mid.reverse ++ pre.reverse) := by simp
  rw [e1, walkAdds_skip _ _ d hd (fun t ht => hpost t (List.mem_reverse.1 ht)) none (by simp),
    walkAdds_append_block _ _ _ (fun t ht => hmid t (List.mem_reverse.1 ht)), List.filter_reverse]
  have : walkAdds pre.reverse (some d.id) d.id = [] := by
    rcases List.eq_nil_or_concat pre with rfl | ⟨p, e, rfl⟩
    · rfl
    · rw [List.concat_eq_append] at hpre hpre' ⊢
      rw [List.reverse_append, List.reverse_singleton, List.singleton_append, walkAdds, if_pos (hpre e (by simp))]
      refine walkAdds_absent _ _ _ ?_ ?_
      · simpa using hpre' e (by simp)
      · intro t ht _
        exact hpre' t (List.mem_append_left _ (List.mem_reverse.1 ht))
  rw [this, List.append_nil]


theorem fold_reverse (ts : List LTok) : ∀ l : List LTok, InFileOrder l → (l.map (·.id) ++ ts.map (·.id)).Nodup → (∀ x ∈ l, ∀ t ∈ ts, t.line < x.line) →
    ts.Pairwise (fun a b => b.line < a.line) → ts.foldl (fun l t => (addLinked l t).2) l = (ts.filter notIgnored).reverse ++ l := by
  induction ts with
  | nil => intro l _ _ _ _; rfl
  | cons t ts ih =>
    intro l h hn hl hs
    rw [List.pairwise_cons] at hs
    rw [List.foldl_cons]
    have hperm : (l.map (·.id) ++ (t :: ts).map (·.id)).Perm (t.id :: (l.map (·.id) ++ ts.map (·.id))) := by
      rw [List.map_cons]; exact List.perm_middle
    have hn' := hperm.nodup_iff.1 hn
    rw [List.nodup_cons] at hn'
    cases hi : notIgnored t with
    | false =>
      rw [addLinked_ignored l t hi, ih l h hn'.2 (fun x hx s hs' => hl x hx s (List.mem_cons_of_mem _ hs')) hs.2, List.filter_cons, if_neg (by simp [hi])]
    | true =>
      have hne : ∀ x ∈ l, x.id ≠ t.id := fun x hx e => hn'.1 (List.mem_append_left _ (List.mem_map.2 ⟨x, hx, e⟩))
      obtain ⟨a, b, h1, h2, h3, h4⟩ := addLinked_new l t h.sorted hi hne
      have ha : a = [] := by
        cases a with
        | nil => rfl
        | cons x a =>
          have := h3 x List.mem_cons_self
          have := hl x (by rw [h1]; simp) t List.mem_cons_self
          omega
      subst ha
      have hb : b = l := by rw [h1]; rfl
      subst hb
      have h2' : (addLinked b t).2 = t :: b := by rw [h2]; rfl
      have ho := addLinked_order b t h
      rw [h2'] at ho ⊢
      rw [ih (t :: b) ho ?_ ?_ hs.2, List.filter_cons, if_pos hi, List.reverse_cons, List.append_assoc]
      · rfl
      · rw [List.map_cons, List.cons_append]
        exact List.nodup_cons.2 hn'
      · intro x hx s hs'
        rcases List.mem_cons.1 hx with rfl | hx
        · exact hs.1 s hs'
        · exact hl x hx s (List.mem_cons_of_mem _ hs')

/-- C67: in a strand, the layout comments between two tokens that can have layout parameters (or before the first) are linked to the second of them, in
file order, without those marked `:ignore`; no other comment of the strand is. -/
theorem comments_link_next (pre mid post : List LTok) (d : LTok) (hd : canHaveLayout d = true) (hmid : ∀ t ∈ mid, canHaveLayout t = false)
    (hpre : ∀ e, pre.getLast? = some e → canHaveLayout e = true) (hid : ((pre ++ mid ++ d :: post).map (·.id)).Nodup)
    (hline : (pre ++ mid ++ d :: post).Pairwise (fun a b => a.line < b.line)) :
    processStrand (pre ++ mid ++ d :: post) (fun _ => []) d.id = mid.filter (fun t => isLocalLayout t && notIgnored t) := by
  unfold processStrand
  rw [strandWalk_eq, strand_adds pre mid post d hd hmid hpre hid]
  have hm : mid.Pairwise (fun a b => a.line < b.line) := (List.pairwise_append.1 (List.pairwise_append.1 hline).1).2.1
  have hmi : (mid.map (·.id)).Nodup := by
    rw [List.map_append, List.nodup_append, List.map_append, List.nodup_append] at hid
    exact hid.1.2.1
  have hsub : (mid.filter isLocalLayout).Sublist mid := List.filter_sublist
  rw [fold_reverse _ [] ⟨List.Pairwise.nil, List.nodup_nil⟩, List.append_nil, ← List.filter_reverse, List.reverse_reverse, List.filter_filter]
  · congr 1
    funext t
    rw [Bool.and_comm]
  · rw [List.map_nil, List.nil_append, List.map_reverse, List.nodup_reverse]
    exact (hsub.map _).nodup hmi
  · simp
  · rw [List.pairwise_reverse]
    exact hm.sublist hsub

/-- C67: a strand changes nothing for tokens outside of it, nor for tokens that cannot have layout parameters. -/
theorem strand_elsewhere (toks : List LTok) (L : ParamLinks) (k : Nat) (h : ∀ t ∈ toks, canHaveLayout t = true → t.id ≠ k) : processStrand toks L k = L k := by
  unfold processStrand
  rw [strandWalk_eq, walkAdds_absent _ none k (by simp) (fun t ht => h t (List.mem_reverse.1 ht))]
  rfl

/-- Whatever was linked before (by global comments, or by an earlier run), the lists stay in file order and without repetition. -/
theorem strand_keeps_order (toks : List LTok) (L : ParamLinks) (h : ∀ k, InFileOrder (L k)) (k : Nat) : InFileOrder (processStrand toks L k) := by
  unfold processStrand
  rw [strandWalk_eq]
  exact fold_order _ _ (h k)

theorem fold_mem_ids (ts : List LTok) : ∀ l, InFileOrder l → ∀ t, (t ∈ ts ∧ notIgnored t = true) ∨ (∃ x ∈ l, x.id = t.id) →
    ∃ x ∈ ts.foldl (fun l t => (addLinked l t).2) l, x.id = t.id := by
  induction ts with
  | nil =>
    intro l _ t h
    rcases h with h | h
    · exact absurd h.1 (by simp)
    · exact h
  | cons s ts ih =>
    intro l hl t h
    refine ih _ (addLinked_order l s hl) t ?_
    rcases h with ⟨h1, h2⟩ | ⟨x, hx, e⟩
    · rcases List.mem_cons.1 h1 with rfl | h1
      · refine Or.inr ?_
        by_cases hh : ∃ x ∈ l, x.id = t.id
        · obtain ⟨x, hx, e⟩ := hh
          exact ⟨x, (addLinked_mem l t hl x).2 (Or.inl hx), e⟩
        · exact ⟨t, (addLinked_mem l t hl t).2 (Or.inr ⟨rfl, h2, fun y hy e => hh ⟨y, hy, e⟩⟩), rfl⟩
      · exact Or.inl ⟨h1, h2⟩
    · exact Or.inr ⟨x, (addLinked_mem l s hl x).2 (Or.inl hx), e⟩

theorem fold_stable (ts : List LTok) : ∀ l, (∀ t ∈ ts, notIgnored t = true → ∃ x ∈ l, x.id = t.id) → ts.foldl (fun l t => (addLinked l t).2) l = l := by
  induction ts with
  | nil => intro l _; rfl
  | cons t ts ih =>
    intro l h
    have h1 : (addLinked l t).2 = l := by
      cases hi : notIgnored t with
      | false => rw [addLinked_ignored l t hi]
      | true => exact addLinked_old l t (h t List.mem_cons_self hi)
    rw [List.foldl_cons, h1]
    exact ih l (fun x hx => h x (List.mem_cons_of_mem _ hx))

/-- C67: the analysis is run twice (once by itself, once as part of the strand analysis): the second run changes nothing. -/
theorem strand_twice (toks : List LTok) (L : ParamLinks) (h : ∀ k, InFileOrder (L k)) (k : Nat) :
    processStrand toks (processStrand toks L) k = processStrand toks L k := by
  unfold processStrand
  rw [strandWalk_eq toks.reverse none (strandWalk toks.reverse none L) k, strandWalk_eq]
  exact fold_stable _ _ (fun t ht hi => fold_mem_ids _ _ (h k) t (Or.inl ⟨ht, hi⟩))

example : (processStrand [⟨0, 0, "**kern".toList⟩, ⟨1, 1, "!LO:N:vis=2".toList⟩, ⟨2, 2, "*".toList⟩, ⟨3, 3, "!LO:N:ignore".toList⟩, ⟨4, 4, "!LO:TX:t=a".toList⟩,
    ⟨5, 5, "4c".toList⟩, ⟨6, 6, "!LO:B:r".toList⟩, ⟨7, 7, "=1".toList⟩, ⟨8, 8, "!LO:N".toList⟩, ⟨9, 9, "*-".toList⟩] (fun _ => [])) 5 =
    [⟨1, 1, "!LO:N:vis=2".toList⟩, ⟨4, 4, "!LO:TX:t=a".toList⟩] := by decide +kernel

/-! ## C67: global comments -/

theorem linkTo_fold (p : List LTok) (k : Nat) : ∀ (L : ParamLinks) (j : Nat), (p.foldl (fun L t => linkTo L k t) L) j =
    if j = k then p.foldl (fun l t => (addLinked l t).2) (L j) else L j := by
  induction p with
  | nil => intro L j; simp
  | cons t p ih =>
    intro L j
    rw [List.foldl_cons, ih]
    unfold linkTo
    by_cases h : j = k
    · subst h; simp
    · simp [h]

theorem linkAll_eq (p : List LTok) (ks : List Nat) (hks : ks.Nodup) : ∀ (L : ParamLinks) (j : Nat), linkAll p ks L j =
    if j ∈ ks then p.foldl (fun l t => (addLinked l t).2) (L j) else L j := by
  induction ks with
  | nil => intro L j; simp [linkAll]
  | cons k ks ih =>
    intro L j
    rw [List.nodup_cons] at hks
    rw [linkAll, ih hks.2, linkTo_fold]
    by_cases h : j = k
    · subst h; simp [hks.1]
    · simp [h]

/-- The comment of a line, if it is a global layout comment. -/
def GLine.comment : GLine → Option LTok
  | .layout t => some t
  | _ => none

/-- The tokens of the line that can have layout parameters. -/
def GLine.ids : GLine → List Nat
  | .target ids => ids
  | _ => []

theorem globalWalk_block (mid ls : List GLine) (h : ∀ l ∈ mid, ∀ ids, l ≠ .target ids) : ∀ p L, globalWalk (mid ++ ls) p L =
    globalWalk ls (p ++ mid.filterMap GLine.comment) L := by
  induction mid with
  | nil => intro p L; simp
  | cons l mid ih =>
    intro p L
    have ih' := ih (fun x hx => h x (List.mem_cons_of_mem _ hx))
    cases l with
    | layout t =>
      show globalWalk (mid ++ ls) (p ++ [t]) L = _
      rw [ih', List.append_assoc]
      rfl
    | target ids => exact absurd rfl (h _ List.mem_cons_self ids)
    | other =>
      show globalWalk (mid ++ ls) p L = _
      rw [ih']
      rfl

theorem globalWalk_elsewhere (ls : List GLine) (k : Nat) (h : ∀ l ∈ ls, k ∉ l.ids) (hn : ∀ l ∈ ls, l.ids.Nodup) : ∀ p L, globalWalk ls p L k = L k := by
  induction ls with
  | nil => intro p L; rfl
  | cons l ls ih =>
    intro p L
    have ih' := ih (fun x hx => h x (List.mem_cons_of_mem _ hx)) (fun x hx => hn x (List.mem_cons_of_mem _ hx))
    cases l with
    | layout t => exact ih' _ _
    | target ids =>
      unfold globalWalk
      split
      · exact ih' _ _
      · rw [ih', linkAll_eq _ ids (hn (.target ids) List.mem_cons_self), if_neg (show k ∉ ids from h (.target ids) List.mem_cons_self)]
    | other => exact ih' _ _

theorem globalWalk_pre (pre ls : List GLine) (k : Nat) (h : ∀ l ∈ pre, k ∉ l.ids) (hn : ∀ l ∈ pre, l.ids.Nodup) : ∀ p L, ∃ p' L',
    globalWalk (pre ++ ls) p L = globalWalk ls p' L' ∧ L' k = L k ∧ ((∃ ids, pre.getLast? = some (.target ids)) → p' = []) ∧ (pre = [] → p' = p) := by
  induction pre with
  | nil => intro p L; exact ⟨p, L, rfl, rfl, by rintro ⟨ids, h⟩; exact absurd h (by simp), fun _ => rfl⟩
  | cons l pre ih =>
    intro p L
    have ih' := ih (fun x hx => h x (List.mem_cons_of_mem _ hx)) (fun x hx => hn x (List.mem_cons_of_mem _ hx))
    have last : ∀ {q : GLine}, pre ≠ [] → ((l :: pre).getLast? = some q ↔ pre.getLast? = some q) := by
      intro q hne
      cases pre with
      | nil => exact absurd rfl hne
      | cons a b => rw [List.getLast?_cons_cons]
    have fin : ∀ (p2 : List LTok) (L2 : ParamLinks), globalWalk (l :: pre ++ ls) p L = globalWalk (pre ++ ls) p2 L2 → L2 k = L k →
        (pre = [] → (∃ ids, l = .target ids) → p2 = []) →
        ∃ p' L', globalWalk (l :: pre ++ ls) p L = globalWalk ls p' L' ∧ L' k = L k ∧ ((∃ ids, (l :: pre).getLast? = some (.target ids)) → p' = []) ∧ ((l :: pre) = [] → p' = p) := by
      intro p2 L2 h1 h2 h3
      obtain ⟨p', L', e1, e2, e3, e4⟩ := ih' p2 L2
      refine ⟨p', L', h1.trans e1, e2.trans h2, ?_, by simp⟩
      rintro ⟨ids, hids⟩
      by_cases hp : pre = []
      · rw [e4 hp]
        subst hp
        exact h3 rfl ⟨ids, by simpa using hids⟩
      · exact e3 ⟨ids, (last hp).1 hids⟩
    cases l with
    | layout t => exact fin (p ++ [t]) L rfl rfl (by rintro _ ⟨ids, h⟩; exact absurd h (by simp))
    | target ids =>
      by_cases hp : p = []
      · refine fin p L ?_ rfl (fun _ _ => hp)
        show (if p = [] then globalWalk (pre ++ ls) p L else _) = _
        rw [if_pos hp]
      · refine fin [] (linkAll p ids L) ?_ ?_ (fun _ _ => rfl)
        · show (if p = [] then _ else globalWalk (pre ++ ls) [] (linkAll p ids L)) = _
          rw [if_neg hp]
        · rw [linkAll_eq _ ids (hn (.target ids) List.mem_cons_self), if_neg (show k ∉ ids from h (.target ids) List.mem_cons_self)]
    | other => exact fin p L rfl rfl (by rintro _ ⟨ids, h⟩; exact absurd h (by simp))

theorem fold_increasing (ts : List LTok) : ∀ l : List LTok, InFileOrder l → (l.map (·.id) ++ ts.map (·.id)).Nodup → (∀ x ∈ l, ∀ t ∈ ts, x.line < t.line) →
    ts.Pairwise (fun a b => a.line < b.line) → ts.foldl (fun l t => (addLinked l t).2) l = l ++ ts.filter notIgnored := by
  induction ts with
  | nil => intro l _ _ _ _; simp
  | cons t ts ih =>
    intro l h hn hl hs
    rw [List.pairwise_cons] at hs
    rw [List.foldl_cons]
    have hperm : (l.map (·.id) ++ (t :: ts).map (·.id)).Perm (t.id :: (l.map (·.id) ++ ts.map (·.id))) := by
      rw [List.map_cons]; exact List.perm_middle
    have hn' := hperm.nodup_iff.1 hn
    rw [List.nodup_cons] at hn'
    cases hi : notIgnored t with
    | false =>
      rw [addLinked_ignored l t hi, ih l h hn'.2 (fun x hx s hs' => hl x hx s (List.mem_cons_of_mem _ hs')) hs.2, List.filter_cons, if_neg (by simp [hi])]
    | true =>
      have hne : ∀ x ∈ l, x.id ≠ t.id := fun x hx e => hn'.1 (List.mem_append_left _ (List.mem_map.2 ⟨x, hx, e⟩))
      obtain ⟨a, b, h1, h2, h3, h4⟩ := addLinked_new l t h.sorted hi hne
      have hb : b = [] := by
        cases b with
        | nil => rfl
        | cons x b =>
          have := h4 x List.mem_cons_self
          have := hl x (by rw [h1]; simp) t List.mem_cons_self
          omega
      subst hb
      have ha : a = l := by rw [h1]; simp
      subst ha
      have h2' : (addLinked a t).2 = a ++ [t] := by rw [h2]
      have ho := addLinked_order a t h
      rw [h2'] at ho ⊢
      rw [ih (a ++ [t]) ho ?_ ?_ hs.2, List.filter_cons, if_pos hi, List.append_assoc]
      · rfl
      · rw [List.map_append, List.append_assoc]
        exact hn
      · intro x hx s hs'
        rcases List.mem_append.1 hx with hx | hx
        · exact hl x hx s (List.mem_cons_of_mem _ hs')
        · rw [List.mem_singleton.1 hx]; exact hs.1 s hs'

/-- C67: every token of a line that can have layout parameters gets the global layout comments between the line before it that can have layout parameters
(or the start of the file) and its own line, in file order, without those marked `:ignore`. -/
theorem global_comments_link_next (pre mid post : List GLine) (ids : List Nat) (k : Nat) (hk : k ∈ ids)
    (hmid : ∀ l ∈ mid, ∀ ids, l ≠ .target ids) (hpre : pre = [] ∨ ∃ ids, pre.getLast? = some (.target ids))
    (hother : ∀ l ∈ pre ++ post, k ∉ l.ids) (hn : ∀ l ∈ pre ++ .target ids :: post, l.ids.Nodup)
    (hid : ((mid.filterMap GLine.comment).map (·.id)).Nodup) (hline : (mid.filterMap GLine.comment).Pairwise (fun a b => a.line < b.line)) :
    globalWalk (pre ++ mid ++ .target ids :: post) [] (fun _ => []) k = (mid.filterMap GLine.comment).filter notIgnored := by
  rw [List.append_assoc]
  obtain ⟨p', L', h1, h2, h3, h4⟩ := globalWalk_pre pre (mid ++ .target ids :: post) k (fun l hl => hother l (List.mem_append_left _ hl))
    (fun l hl => hn l (List.mem_append_left _ hl)) [] (fun _ => [])
  have hp' : p' = [] := by
    rcases hpre with h | h
    · exact h4 h
    · exact h3 h
  rw [h1, hp', globalWalk_block _ _ hmid, List.nil_append]
  have hpost := globalWalk_elsewhere post k (fun l hl => hother l (List.mem_append_right _ hl))
    (fun l hl => hn l (List.mem_append_right _ (List.mem_cons_of_mem _ hl)))
  unfold globalWalk
  split
  · rename_i he
    rw [hpost, h2, he]
    rfl
  · rw [hpost, linkAll_eq _ ids (hn (.target ids) (by simp)), if_pos hk, h2,
      fold_increasing _ [] ⟨List.Pairwise.nil, List.nodup_nil⟩ (by simpa using hid) (by simp) hline, List.nil_append]

example : (globalWalk [.layout ⟨0, 0, "!!LO:TX:t=a".toList⟩, .other, .layout ⟨1, 2, "!!LO:LB:g=z".toList⟩, .target [10, 11], .target [12, 13]] [] (fun _ => [])) 11 =
    [⟨0, 0, "!!LO:TX:t=a".toList⟩, ⟨1, 2, "!!LO:LB:g=z".toList⟩] := by decide +kernel

/-- Which tokens can have layout parameters: all but comments, `*`, and spine manipulators. -/
theorem canHaveLayout_iff (t : LTok) : canHaveLayout t = true ↔ tokIsComment t.text = false ∧ t.text ≠ ['*'] ∧ tokIsManipulator t.text = false := by
  have hbang : tokIsComment t.text = true → tokIsBarline t.text = false ∧ tokIsInterpretation t.text = false := by
    intro h
    obtain ⟨r, hr⟩ := (startsWith_prefix _ _).1 h
    rw [← hr]
    exact ⟨rfl, rfl⟩
  have hstar : tokIsInterpretation t.text = false → t.text ≠ ['*'] ∧ tokIsManipulator t.text = false := by
    intro h
    refine ⟨fun e => absurd h (by rw [e]; decide), ?_⟩
    cases hm : tokIsManipulator t.text with
    | false => rfl
    | true =>
      exfalso
      unfold tokIsManipulator at hm
      simp only [Bool.or_eq_true, beq_iff_eq] at hm
      rcases hm with ((((e | e) | e) | e) | e) | e
      · exact absurd h (by rw [e]; decide)
      · exact absurd h (by rw [e]; decide)
      · exact absurd h (by rw [e]; decide)
      · exact absurd h (by rw [e]; decide)
      · exact absurd h (by rw [e]; decide)
      · obtain ⟨r, hr⟩ := (startsWith_prefix _ _).1 e
        rw [← hr] at h
        exact absurd h (by simp [tokIsInterpretation, startsWith])
  have heq : tokIsBarline t.text = true → tokIsInterpretation t.text = false ∧ tokIsComment t.text = false := by
    intro h
    obtain ⟨r, hr⟩ := (startsWith_prefix _ _).1 h
    rw [← hr]
    exact ⟨rfl, rfl⟩
  unfold canHaveLayout tokIsData
  cases hc : tokIsComment t.text with
  | true => obtain ⟨h1, h2⟩ := hbang hc; simp [h1, h2]
  | false =>
    cases hi : tokIsInterpretation t.text with
    | false =>
      obtain ⟨h1, h2⟩ := hstar hi
      cases hb : tokIsBarline t.text <;> simp [h1, h2]
    | true =>
      have hb : tokIsBarline t.text = false := by
        cases hb : tokIsBarline t.text with
        | false => rfl
        | true => exact absurd (heq hb).1 (by rw [hi]; simp)
      simp [hb]

/-- Which lines take global layout comments: all lines of tokens but local comments and those with only null tokens. -/
theorem glineOf_target (l : Line) (z : LTok) (ids : List Nat) : glineOf l z ids = .target ids ↔
    l.text ≠ [] ∧ l.isGlobalComment = false ∧ l.isLocalComment = false ∧ ¬ (∀ t ∈ l.tokens, tokIsNull t = true) := by
  unfold glineOf Line.isAllNull Line.hasSpines Line.isGlobal Line.isEmpty
  cases hg : l.isGlobalComment with
  | true => simp; split <;> simp
  | false =>
    by_cases he : l.text = []
    · simp [he]
    · have he' : (l.text == []) = false := by simpa using he
      rw [he']
      cases ha : l.tokens.all tokIsNull with
      | true => simp at ha; simp; intro _ _; exact ha
      | false =>
        have ha' : ¬ (∀ t ∈ l.tokens, tokIsNull t = true) := by
          intro h; rw [List.all_eq_true.2 h] at ha; exact absurd ha (by simp)
        cases hl : l.isLocalComment <;> simp [ha', he]

end C21
