import Verif.Model.MeiNesting
import Verif.Lemmas.Tac
/-
C85: beams, tuplets and tremolos are written as properly nested elements that can be read back.
-/
namespace C21

/-! ## Specification -/

/-- `a` is inside `b`. -/
def Inside (a b : NSpan) : Prop := b.first ≤ a.first ∧ a.last ≤ b.last

/-- Two spanners do not cross: they are disjoint, or one is inside the other. -/
def NoCross (a b : NSpan) : Prop := a.last < b.first ∨ b.last < a.first ∨ Inside a b ∨ Inside b a

/-- Spanners that can be nested elements: none crosses another, two over the same objects are of different kinds, and one inside
another takes less time unless it is over the same objects. -/
structure Nestable (t : ObjTimes) (sps : List NSpan) : Prop where
  nodup : sps.Nodup
  order : ∀ a ∈ sps, a.first ≤ a.last
  noCross : ∀ a ∈ sps, ∀ b ∈ sps, NoCross a b
  kinds : ∀ a ∈ sps, ∀ b ∈ sps, a.first = b.first → a.last = b.last → a.kind = b.kind → a = b
  longer : ∀ a ∈ sps, ∀ b ∈ sps, Inside a b → ¬ Inside b a → spanLen t a < spanLen t b

/-- Reading the events with a stack: every closing closes the element that was opened last. -/
inductive LayerNested : List NSpan → List LayerEv → List NSpan → Prop where
  | done (st) : LayerNested st [] st
  | opened {st s r st'} : LayerNested (s :: st) r st' → LayerNested st (.opened s :: r) st'
  | obj {st i r st'} : LayerNested st r st' → LayerNested st (.obj i :: r) st'
  | closed {st s r st'} : LayerNested st r st' → LayerNested (s :: st) (.closed s :: r) st'

/-! ## Stable sorting -/

theorem stable_orderedInsert {α : Type} (r R : α → α → Prop) [DecidableRel r] (htot : ∀ a b, r a b ∨ r b a)
    (htrans : ∀ a b c, r a b → r b c → r a c) (a : α) : ∀ l : List α,
    l.Pairwise (fun x y => r x y ∧ (r y x → R x y)) → (∀ b ∈ l, R a b) →
    (l.orderedInsert r a).Pairwise (fun x y => r x y ∧ (r y x → R x y)) := by
  intro l
  induction l with
  | nil => intro _ _; simp
  | cons b l ih =>
    intro h hR
    rw [List.orderedInsert_cons]
    by_cases hab : r a b
    · rw [if_pos hab]
      refine List.pairwise_cons.2 ⟨?_, h⟩
      intro c hc
      refine ⟨?_, fun _ => hR c hc⟩
      rcases List.mem_cons.1 hc with rfl | hc
      · exact hab
      · exact htrans _ _ _ hab ((List.pairwise_cons.1 h).1 c hc).1
    · rw [if_neg hab]
      have hba : r b a := (htot a b).resolve_left hab
      refine List.pairwise_cons.2 ⟨?_, ih (List.pairwise_cons.1 h).2 (fun c hc => hR c (List.mem_cons_of_mem _ hc))⟩
      intro c hc
      rcases (List.mem_orderedInsert r).1 hc with rfl | hc
      · exact ⟨hba, fun h => absurd h hab⟩
      · exact (List.pairwise_cons.1 h).1 c hc

theorem stable_insertionSort {α : Type} (r R : α → α → Prop) [DecidableRel r] (htot : ∀ a b, r a b ∨ r b a)
    (htrans : ∀ a b c, r a b → r b c → r a c) : ∀ l : List α, l.Pairwise R →
    (l.insertionSort r).Pairwise (fun x y => r x y ∧ (r y x → R x y)) := by
  intro l
  induction l with
  | nil => intro _; simp
  | cons a l ih =>
    intro h
    rw [List.insertionSort_cons]
    refine stable_orderedInsert r R htot htrans a _ (ih (List.pairwise_cons.1 h).2) ?_
    intro b hb
    exact (List.pairwise_cons.1 h).1 b ((List.mem_insertionSort r).1 hb)

/-! ## The order of the stack -/

/-- `a` is to be inside `b`: shorter, or equally long and of a kind that goes inside. -/
def LexLe (t : ObjTimes) (a b : NSpan) : Prop :=
  spanLen t a < spanLen t b ∨ (spanLen t a = spanLen t b ∧ kindNo a.kind ≤ kindNo b.kind)

theorem endsAt_perm (t : ObjTimes) (sps : List NSpan) (i : Nat) : (endsAt t sps i).Perm (sps.filter (fun s => s.last = i)) :=
  (List.perm_insertionSort _ _).trans (List.perm_insertionSort _ _)

theorem startsAt_perm (t : ObjTimes) (sps : List NSpan) (i : Nat) : (startsAt t sps i).Perm (sps.filter (fun s => s.first = i)) :=
  (List.perm_insertionSort _ _).trans (List.perm_insertionSort _ _)

theorem endsAt_sorted (t : ObjTimes) (sps : List NSpan) (i : Nat) : (endsAt t sps i).Pairwise (LexLe t) := by
  have h1 : ((sps.filter (fun s => s.last = i)).insertionSort (fun a b => kindNo a.kind ≤ kindNo b.kind)).Pairwise
      (fun a b => kindNo a.kind ≤ kindNo b.kind) :=
    (stable_insertionSort (fun a b : NSpan => kindNo a.kind ≤ kindNo b.kind) (fun _ _ => True) (fun a b => le_total _ _)
      (fun a b c h h' => le_trans h h') _ (List.pairwise_of_forall (fun _ _ => trivial))).imp (fun h => h.1)
  have h2 := stable_insertionSort (fun a b : NSpan => spanLen t a ≤ spanLen t b) _ (fun a b => le_total _ _)
      (fun a b c h h' => le_trans h h') _ h1
  refine h2.imp ?_
  rintro a b ⟨h, h'⟩
  rcases lt_or_eq_of_le h with h | h
  · exact Or.inl h
  · exact Or.inr ⟨h, h' (le_of_eq h.symm)⟩

theorem startsAt_sorted (t : ObjTimes) (sps : List NSpan) (i : Nat) : (startsAt t sps i).reverse.Pairwise (LexLe t) := by
  rw [List.pairwise_reverse]
  have h1 : ((sps.filter (fun s => s.first = i)).insertionSort (fun a b => kindNo b.kind ≤ kindNo a.kind)).Pairwise
      (fun a b => kindNo b.kind ≤ kindNo a.kind) :=
    (stable_insertionSort (fun a b : NSpan => kindNo b.kind ≤ kindNo a.kind) (fun _ _ => True) (fun a b => le_total _ _)
      (fun a b c h h' => le_trans h' h) _ (List.pairwise_of_forall (fun _ _ => trivial))).imp (fun h => h.1)
  have h2 := stable_insertionSort (fun a b : NSpan => spanLen t b ≤ spanLen t a) _ (fun a b => le_total _ _)
      (fun a b c h h' => le_trans h' h) _ h1
  refine h2.imp ?_
  rintro a b ⟨h, h'⟩
  rcases lt_or_eq_of_le h with h | h
  · exact Or.inl h
  · exact Or.inr ⟨h, h' (le_of_eq h.symm)⟩

/-- Two spanners that share an object and are equal in the order are the same. -/
theorem lexLe_antisymm {t : ObjTimes} {sps : List NSpan} (h : Nestable t sps) {a b : NSpan} (ha : a ∈ sps) (hb : b ∈ sps) {i : Nat}
    (hai : a.first ≤ i ∧ i ≤ a.last) (hbi : b.first ≤ i ∧ i ≤ b.last) (h1 : LexLe t a b) (h2 : LexLe t b a) : a = b := by
  have hlen : spanLen t a = spanLen t b := by
    rcases h1 with h1 | h1 <;> rcases h2 with h2 | h2
    · linarith
    · linarith [h2.1]
    · linarith [h1.1]
    · exact h1.1
  have hkind : kindNo a.kind = kindNo b.kind := by
    rcases h1 with h1 | h1
    · linarith
    · rcases h2 with h2 | h2
      · linarith
      · omega
  have hk : a.kind = b.kind := by
    cases hka : a.kind <;> cases hkb : b.kind <;> simp [hka, hkb, kindNo] at hkind ⊢
  have hin : Inside a b ∨ Inside b a := by
    rcases h.noCross a ha b hb with h | h | h | h
    · omega
    · omega
    · exact Or.inl h
    · exact Or.inr h
  have hboth : Inside a b ∧ Inside b a := by
    rcases hin with hi | hi
    · refine ⟨hi, ?_⟩
      by_contra hn
      have := h.longer a ha b hb hi hn
      linarith
    · refine ⟨?_, hi⟩
      by_contra hn
      have := h.longer b hb a ha hi hn
      linarith
  exact h.kinds a ha b hb (by unfold Inside at hboth; omega) (by unfold Inside at hboth; omega) hk

/-- Sorted lists of spanners over a common object are determined by their elements. -/
theorem sorted_unique {t : ObjTimes} {sps : List NSpan} (h : Nestable t sps) {i : Nat} {l₁ l₂ : List NSpan} (hp : l₁.Perm l₂)
    (hm : ∀ a ∈ l₁, a ∈ sps ∧ a.first ≤ i ∧ i ≤ a.last) (h1 : l₁.Pairwise (LexLe t)) (h2 : l₂.Pairwise (LexLe t)) : l₁ = l₂ := by
  refine hp.eq_of_pairwise ?_ h1 h2
  intro a b ha hb hab hba
  have hb' := hm b (hp.mem_iff.2 hb)
  exact lexLe_antisymm h (hm a ha).1 hb'.1 (hm a ha).2 hb'.2 hab hba

/-- The spanners that are open before object `i`. -/
def openBefore (sps : List NSpan) (i : Nat) : List NSpan := sps.filter (fun s => s.first < i ∧ i ≤ s.last)

theorem filter_perm_split {α : Type} (p q r : α → Bool) (l : List α) (h : ∀ x ∈ l, p x = (q x || r x) ∧ (q x && r x) = false) :
    (l.filter p).Perm (l.filter q ++ l.filter r) := by
  induction l with
  | nil => simp
  | cons a l ih =>
    have ih := ih (fun x hx => h x (List.mem_cons_of_mem _ hx))
    obtain ⟨h1, h2⟩ := h a List.mem_cons_self
    cases hq : q a <;> cases hr : r a
    · rw [hq, hr] at h1
      rw [List.filter_cons_of_neg (by simp [h1]), List.filter_cons_of_neg (by simp [hq]), List.filter_cons_of_neg (by simp [hr])]
      exact ih
    · rw [hq, hr] at h1
      rw [List.filter_cons_of_pos (by simp [h1]), List.filter_cons_of_neg (by simp [hq]), List.filter_cons_of_pos (by simp [hr])]
      exact (List.Perm.cons a ih).trans List.perm_middle.symm
    · rw [hq, hr] at h1
      rw [List.filter_cons_of_pos (by simp [h1]), List.filter_cons_of_pos (by simp [hq]), List.filter_cons_of_neg (by simp [hr])]
      exact List.Perm.cons a ih
    · rw [hq, hr] at h2; cases h2

theorem nested_opens (l : List NSpan) (st : List NSpan) (r : List LayerEv) (st' : List NSpan)
    (h : LayerNested (l.reverse ++ st) r st') : LayerNested st (l.map .opened ++ r) st' := by
  induction l generalizing st with
  | nil => exact h
  | cons a l ih =>
    rw [List.map_cons, List.cons_append]
    refine .opened (ih (a :: st) ?_)
    rwa [List.reverse_cons, List.append_assoc] at h

theorem nested_closes (l : List NSpan) (st : List NSpan) (r : List LayerEv) (st' : List NSpan)
    (h : LayerNested st r st') : LayerNested (l ++ st) (l.map .closed ++ r) st' := by
  induction l with
  | nil => exact h
  | cons a l ih => exact .closed ih

theorem layer_nested {t : ObjTimes} {sps : List NSpan} (h : Nestable t sps) : ∀ (n i : Nat) (st : List NSpan),
    st.Perm (openBefore sps i) → st.Pairwise (LexLe t) → (∀ s ∈ sps, s.last < i + n) → LayerNested st (layerEvents t sps i n) [] := by
  intro n
  induction n with
  | zero =>
    intro i st hp _ hl
    have : openBefore sps i = [] := by
      unfold openBefore
      rw [List.filter_eq_nil_iff]
      intro s hs
      have := hl s hs
      simp only [decide_eq_true_eq, not_and]; omega
    rw [this] at hp
    rw [hp.eq_nil]
    exact .done []
  | succ n ih =>
    intro i st hp hs hl
    -- the stack with the new elements
    have hmem : ∀ a ∈ st, a ∈ sps ∧ a.first < i ∧ i ≤ a.last := by
      intro a ha
      have := hp.mem_iff.1 ha
      unfold openBefore at this
      rw [List.mem_filter] at this
      simpa using this
    have hmemS : ∀ a ∈ startsAt t sps i, a ∈ sps ∧ a.first = i ∧ i ≤ a.last := by
      intro a ha
      have := (startsAt_perm t sps i).mem_iff.1 ha
      rw [List.mem_filter] at this
      have h1 := h.order a this.1
      have h2 : a.first = i := by simpa using this.2
      exact ⟨this.1, h2, by omega⟩
    have hmemE : ∀ a ∈ endsAt t sps i, a ∈ sps ∧ a.first ≤ i ∧ a.last = i := by
      intro a ha
      have := (endsAt_perm t sps i).mem_iff.1 ha
      rw [List.mem_filter] at this
      have h1 := h.order a this.1
      have h2 : a.last = i := by simpa using this.2
      exact ⟨this.1, by omega, h2⟩
    have hsorted : ((startsAt t sps i).reverse ++ st).Pairwise (LexLe t) := by
      rw [List.pairwise_append]
      refine ⟨startsAt_sorted t sps i, hs, ?_⟩
      intro a ha b hb
      obtain ⟨a1, a2, a3⟩ := hmemS a (List.mem_reverse.1 ha)
      obtain ⟨b1, b2, b3⟩ := hmem b hb
      left
      have hin : Inside a b := by
        rcases h.noCross a a1 b b1 with h | h | h | h
        · omega
        · omega
        · exact h
        · unfold Inside at h; omega
      exact h.longer a a1 b b1 hin (by unfold Inside; omega)
    -- the stack without those that end
    let st' := (sps.filter (fun s => s.first < i + 1 ∧ i + 1 ≤ s.last)).insertionSort (fun a b => kindNo a.kind ≤ kindNo b.kind)
    let st'' := st'.insertionSort (fun a b => spanLen t a ≤ spanLen t b)
    have hp'' : st''.Perm (openBefore sps (i + 1)) := (List.perm_insertionSort _ _).trans (List.perm_insertionSort _ _)
    have hs'' : st''.Pairwise (LexLe t) := by
      have h1 : st'.Pairwise (fun a b => kindNo a.kind ≤ kindNo b.kind) :=
        (stable_insertionSort (fun a b : NSpan => kindNo a.kind ≤ kindNo b.kind) (fun _ _ => True) (fun a b => le_total _ _)
          (fun a b c h h' => le_trans h h') _ (List.pairwise_of_forall (fun _ _ => trivial))).imp (fun h => h.1)
      have h2 := stable_insertionSort (fun a b : NSpan => spanLen t a ≤ spanLen t b) _ (fun a b => le_total _ _)
          (fun a b c h h' => le_trans h h') _ h1
      refine h2.imp ?_
      rintro a b ⟨h, h'⟩
      rcases lt_or_eq_of_le h with h | h
      · exact Or.inl h
      · exact Or.inr ⟨h, h' (le_of_eq h.symm)⟩
    have hmem'' : ∀ a ∈ st'', a ∈ sps ∧ a.first ≤ i ∧ i + 1 ≤ a.last := by
      intro a ha
      have := hp''.mem_iff.1 ha
      unfold openBefore at this
      rw [List.mem_filter] at this
      simp only [decide_eq_true_eq] at this
      exact ⟨this.1, by omega, this.2.2⟩
    have hsortedE : (endsAt t sps i ++ st'').Pairwise (LexLe t) := by
      rw [List.pairwise_append]
      refine ⟨endsAt_sorted t sps i, hs'', ?_⟩
      intro a ha b hb
      obtain ⟨a1, a2, a3⟩ := hmemE a ha
      obtain ⟨b1, b2, b3⟩ := hmem'' b hb
      left
      have hin : Inside a b := by
        rcases h.noCross a a1 b b1 with h | h | h | h
        · omega
        · omega
        · exact h
        · unfold Inside at h; omega
      exact h.longer a a1 b b1 hin (by unfold Inside; omega)
    -- both are the elements open at object i
    have hperm : ((startsAt t sps i).reverse ++ st).Perm (endsAt t sps i ++ st'') := by
      have e1 : ((startsAt t sps i).reverse ++ st).Perm (sps.filter (fun s => s.first ≤ i ∧ i ≤ s.last)) := by
        refine (((List.reverse_perm _).trans (startsAt_perm t sps i)).append hp).trans (filter_perm_split _ _ _ _ ?_).symm
        intro x hx
        have := h.order x hx
        constructor
        · rw [Bool.eq_iff_iff]; simp only [Bool.or_eq_true, decide_eq_true_eq]; omega
        · rw [Bool.and_eq_false_iff]
          by_cases hxi : x.first = i
          · right; simp only [decide_eq_false_iff_not]; omega
          · left; simpa using hxi
      have e2 : (endsAt t sps i ++ st'').Perm (sps.filter (fun s => s.first ≤ i ∧ i ≤ s.last)) := by
        refine ((endsAt_perm t sps i).append hp'').trans (filter_perm_split _ _ _ _ ?_).symm
        intro x hx
        have := h.order x hx
        constructor
        · rw [Bool.eq_iff_iff]; simp only [Bool.or_eq_true, decide_eq_true_eq]; omega
        · rw [Bool.and_eq_false_iff]
          by_cases hxi : x.last = i
          · right; simp only [decide_eq_false_iff_not]; omega
          · left; simpa using hxi
      exact e1.trans e2.symm
    have heq : (startsAt t sps i).reverse ++ st = endsAt t sps i ++ st'' := by
      refine sorted_unique h (i := i) hperm ?_ hsorted hsortedE
      intro a ha
      rcases List.mem_append.1 ha with ha | ha
      · obtain ⟨a1, a2, a3⟩ := hmemS a (List.mem_reverse.1 ha)
        exact ⟨a1, by omega, a3⟩
      · obtain ⟨a1, a2, a3⟩ := hmem a ha
        exact ⟨a1, by omega, a3⟩
    show LayerNested st (objEvents t sps i ++ layerEvents t sps (i + 1) n) []
    unfold objEvents
    rw [List.append_assoc]
    refine nested_opens _ _ _ _ ?_
    rw [heq, List.cons_append]
    refine .obj (nested_closes _ _ _ _ (ih (i + 1) st'' hp'' hs'' ?_))
    intro s hs
    have := hl s hs
    omega

/-- C85, the part that holds: for a layer of any length, spanners that can be nested are written nested: every element that is closed is
the one opened last, and all are closed at the end. It is false when an inner spanner takes as long as the outer one (grace notes):
`grace_nesting_wrong`. -/
theorem layer_nested_partial (t : ObjTimes) (sps : List NSpan) (n : Nat) (h : Nestable t sps) (hn : ∀ s ∈ sps, s.last < n) :
    LayerNested [] (layerEvents t sps 0 n) [] := by
  refine layer_nested h n 0 [] ?_ List.Pairwise.nil (by simpa using hn)
  have : openBefore sps 0 = [] := by
    unfold openBefore
    rw [List.filter_eq_nil_iff]
    intro s _
    simp
  rw [this]

/-- When every object lasts some time and starts after the ones before it, inner spanners are shorter. -/
theorem longer_of_durations (t : ObjTimes) (hd : ∀ i, t.off i < t.stop i) (hn : ∀ i, t.stop i ≤ t.off (i + 1)) (a b : NSpan)
    (h1 : Inside a b) (h2 : ¬ Inside b a) : spanLen t a < spanLen t b := by
  have hoff : ∀ i j, t.off i ≤ t.off (i + j) := by
    intro i j
    induction j with
    | zero => exact le_refl _
    | succ j ih => exact le_trans ih (le_trans (le_of_lt (hd (i + j))) (hn (i + j)))
  have hstop : ∀ i j, t.stop i ≤ t.stop (i + j) := by
    intro i j
    induction j with
    | zero => exact le_refl _
    | succ j ih => exact le_trans ih (le_trans (hn (i + j)) (le_of_lt (hd (i + j + 1))))
  unfold Inside at h1 h2
  unfold spanLen
  by_cases hf : b.first < a.first
  · have e1 : t.off b.first < t.off a.first := by
      have := hoff (b.first + 1) (a.first - (b.first + 1))
      rw [show b.first + 1 + (a.first - (b.first + 1)) = a.first by omega] at this
      exact lt_of_lt_of_le (hd b.first) (le_trans (hn b.first) this)
    have e2 : t.stop a.last ≤ t.stop b.last := by
      have := hstop a.last (b.last - a.last)
      rwa [show a.last + (b.last - a.last) = b.last by omega] at this
    linarith
  · have e1 : t.off b.first ≤ t.off a.first := le_of_eq (by rw [show b.first = a.first by omega])
    have e2 : t.stop a.last < t.stop b.last := by
      have := hstop (a.last + 1) (b.last - (a.last + 1))
      rw [show a.last + 1 + (b.last - (a.last + 1)) = b.last by omega] at this
      exact lt_of_lt_of_le (lt_of_le_of_lt (hn a.last) (hd (a.last + 1))) this
    linarith

/-- Quarter notes one after the other. -/
def quarters : ObjTimes := ⟨fun i => i, fun i => i + 1⟩

/-- A beam of six notes over two triplets, with a tremolo in the second; then a beam that is a triplet. -/
def sampleSpans : List NSpan :=
  [⟨.tuplet, 0, 2⟩, ⟨.beam, 0, 5⟩, ⟨.tuplet, 3, 5⟩, ⟨.ftrem, 4, 5⟩, ⟨.beam, 6, 8⟩, ⟨.tuplet, 6, 8⟩]

theorem sampleSpans_nestable : Nestable quarters sampleSpans := by
  refine ⟨by decide, by decide, ?_, ?_, ?_⟩
  · unfold NoCross Inside; decide
  · decide
  · intro a ha b hb h1 h2
    refine longer_of_durations quarters ?_ ?_ a b h1 h2
    · intro i; simp [quarters]
    · intro i; simp [quarters]
example : LayerNested [] (layerEvents quarters sampleSpans 0 9) [] :=
  layer_nested_partial _ _ 9 sampleSpans_nestable (by decide)
example : layerEvents quarters [⟨.beam, 0, 2⟩, ⟨.tuplet, 0, 2⟩, ⟨.ftrem, 0, 1⟩] 0 3 =
    [.opened ⟨.tuplet, 0, 2⟩, .opened ⟨.beam, 0, 2⟩, .opened ⟨.ftrem, 0, 1⟩, .obj 0, .obj 1, .closed ⟨.ftrem, 0, 1⟩, .obj 2,
     .closed ⟨.beam, 0, 2⟩, .closed ⟨.tuplet, 0, 2⟩] := by decide +kernel

/-- Events that are properly nested never close an element by the end of another. -/
theorem nested_head_closed {st : List NSpan} {s : NSpan} {r : List LayerEv} {st' : List NSpan} (h : LayerNested st (.closed s :: r) st') :
    st.head? = some s := by
  cases h; rfl

/-- C85 is false: a beam that ends with a grace note takes as long as the triplet inside it, so the triplet is opened first and
closed while the beam is open. -/
theorem grace_nesting_wrong :
    let t : ObjTimes := ⟨fun i => i, fun i => if i = 2 then 2 else i + 1⟩
    layerEvents t [⟨.beam, 0, 2⟩, ⟨.tuplet, 0, 1⟩] 0 3 =
      [.opened ⟨.tuplet, 0, 1⟩, .opened ⟨.beam, 0, 2⟩, .obj 0, .obj 1, .closed ⟨.tuplet, 0, 1⟩, .obj 2, .closed ⟨.beam, 0, 2⟩] ∧
    ¬ LayerNested [] (layerEvents t [⟨.beam, 0, 2⟩, ⟨.tuplet, 0, 1⟩] 0 3) [] := by
  intro t
  have e : layerEvents t [⟨.beam, 0, 2⟩, ⟨.tuplet, 0, 1⟩] 0 3 =
      [.opened ⟨.tuplet, 0, 1⟩, .opened ⟨.beam, 0, 2⟩, .obj 0, .obj 1, .closed ⟨.tuplet, 0, 1⟩, .obj 2, .closed ⟨.beam, 0, 2⟩] := by
    decide +kernel
  refine ⟨e, ?_⟩
  rw [e]
  intro h
  cases h with
  | opened h => cases h with
    | opened h => cases h with
      | obj h => cases h with
        | obj h => have := nested_head_closed h; simp at this

/-- C85 is false: when a tremolo between two notes is also a beam of its own, the tremolo is written around the beam, and the reader
refuses the tremolo (it finds no note in it). -/
theorem beamed_tremolo_unreadable :
    layerEvents quarters [⟨.beam, 0, 1⟩, ⟨.ftrem, 0, 1⟩] 0 2 =
      [.opened ⟨.ftrem, 0, 1⟩, .opened ⟨.beam, 0, 1⟩, .obj 0, .obj 1, .closed ⟨.beam, 0, 1⟩, .closed ⟨.ftrem, 0, 1⟩] ∧
    ftremReadable ⟨.ftrem, 0, 1⟩ (layerEvents quarters [⟨.beam, 0, 1⟩, ⟨.ftrem, 0, 1⟩] 0 2) = false := by decide +kernel

/-! ## Tremolos that are read back -/

theorem layerEvents_add (t : ObjTimes) (sps : List NSpan) : ∀ (a i b : Nat),
    layerEvents t sps i (a + b) = layerEvents t sps i a ++ layerEvents t sps (i + a) b := by
  intro a
  induction a with
  | zero => intro i b; simp [layerEvents]
  | succ a ih =>
    intro i b
    rw [show a + 1 + b = (a + b) + 1 by omega]
    show objEvents t sps i ++ layerEvents t sps (i + 1) (a + b) = (objEvents t sps i ++ layerEvents t sps (i + 1) a) ++ _
    rw [ih, List.append_assoc, show i + 1 + a = i + (a + 1) by omega]

theorem opened_mem_layer (t : ObjTimes) (sps : List NSpan) (s : NSpan) : ∀ (n i : Nat),
    LayerEv.opened s ∈ layerEvents t sps i n → i ≤ s.first ∧ s.first < i + n := by
  intro n
  induction n with
  | zero => intro i h; simp [layerEvents] at h
  | succ n ih =>
    intro i h
    rcases List.mem_append.1 h with h | h
    · unfold objEvents at h
      rcases List.mem_append.1 h with h | h
      · rw [List.mem_map] at h
        obtain ⟨a, ha, he⟩ := h
        have := (startsAt_perm t sps i).mem_iff.1 ha
        rw [List.mem_filter] at this
        have h2 : a.first = i := by simpa using this.2
        cases he
        omega
      · rw [List.mem_cons] at h
        rcases h with h | h
        · cases h
        · rw [List.mem_map] at h
          obtain ⟨a, _, he⟩ := h
          cases he
    · have := ih (i + 1) h
      omega

theorem afterOpening_append (s : NSpan) : ∀ (A B : List LayerEv), LayerEv.opened s ∉ A → afterOpening s (A ++ B) = afterOpening s B := by
  intro A
  induction A with
  | nil => intro B _; rfl
  | cons e A ih =>
    intro B h
    have h' : LayerEv.opened s ∉ A := fun hh => h (List.mem_cons_of_mem _ hh)
    cases e with
    | opened s' =>
      have : s' ≠ s := by rintro rfl; exact h List.mem_cons_self
      show (if s' = s then A ++ B else afterOpening s (A ++ B)) = _
      rw [if_neg this, ih B h']
    | obj i => exact ih B h'
    | closed s' => exact ih B h'

/-- C85, the part that holds: a tremolo between two neighbouring notes is read back with its two notes when no other spanner is
inside it or over the same two notes. With a beam or tuplet over just these notes it is false (`beamed_tremolo_unreadable`). -/
theorem tremolo_readable_partial (t : ObjTimes) (sps : List NSpan) (n : Nat) (h : Nestable t sps) (s : NSpan) (hs : s ∈ sps)
    (htwo : s.last = s.first + 1) (hlast : s.last < n) (hin : ∀ a ∈ sps, Inside a s → a = s) :
    ftremNotes 0 (afterOpening s (layerEvents t sps 0 n)) = [s.first, s.last] ∧ ftremReadable s (layerEvents t sps 0 n) = true := by
  have key : ftremNotes 0 (afterOpening s (layerEvents t sps 0 n)) = [s.first, s.last] := by
    obtain ⟨m, hm⟩ : ∃ m, n = s.first + (m + 2) := ⟨n - s.first - 2, by omega⟩
    rw [hm, layerEvents_add, afterOpening_append _ _ _ (by
      intro hh
      have := opened_mem_layer t sps s _ _ hh
      omega), Nat.zero_add]
    show ftremNotes 0 (afterOpening s (objEvents t sps s.first ++ (objEvents t sps (s.first + 1) ++ layerEvents t sps (s.first + 1 + 1) m))) = _
    -- what is opened after the tremolo
    have hsm : s ∈ startsAt t sps s.first := by
      rw [(startsAt_perm t sps s.first).mem_iff, List.mem_filter]
      exact ⟨hs, by simp⟩
    obtain ⟨A, B, hAB⟩ := List.append_of_mem hsm
    have hnd : (startsAt t sps s.first).Nodup := (startsAt_perm t sps s.first).nodup_iff.2 (h.nodup.filter _)
    have hA : s ∉ A := by
      rw [hAB, List.nodup_append] at hnd
      intro hh
      exact hnd.2.2 s hh s List.mem_cons_self rfl
    have hBs : ∀ b ∈ B, b ∈ sps ∧ b.first = s.first := by
      intro b hb
      have : b ∈ startsAt t sps s.first := by rw [hAB]; exact List.mem_append_right _ (List.mem_cons_of_mem _ hb)
      rw [(startsAt_perm t sps s.first).mem_iff, List.mem_filter] at this
      exact ⟨this.1, by simpa using this.2⟩
    have hB : B = [] := by
      rw [List.eq_nil_iff_forall_not_mem]
      intro b hb
      obtain ⟨b1, b2⟩ := hBs b hb
      have hle : LexLe t b s := by
        have := startsAt_sorted t sps s.first
        rw [List.pairwise_reverse, hAB, List.pairwise_append] at this
        exact (List.pairwise_cons.1 this.2.1).1 b hb
      have hbo := h.order b b1
      have hins : Inside b s := by
        rcases h.noCross b b1 s hs with hc | hc | hc | hc
        · omega
        · omega
        · exact hc
        · by_contra hn
          have := h.longer s hs b b1 hc hn
          rcases hle with hle | hle
          · linarith
          · linarith [hle.1]
      have := hin b b1 hins
      rw [hAB, this.symm] at hnd
      rw [List.nodup_append] at hnd
      exact (List.nodup_cons.1 hnd.2.1).1 hb
    have hE : endsAt t sps s.first = [] := by
      rw [List.eq_nil_iff_forall_not_mem]
      intro b hb
      rw [(endsAt_perm t sps s.first).mem_iff, List.mem_filter] at hb
      have b2 : b.last = s.first := by simpa using hb.2
      have hbo := h.order b hb.1
      rcases h.noCross b hb.1 s hs with hc | hc | hc | hc
      · omega
      · omega
      · have := hin b hb.1 hc; rw [this] at b2; omega
      · unfold Inside at hc; omega
    have hS : startsAt t sps (s.first + 1) = [] := by
      rw [List.eq_nil_iff_forall_not_mem]
      intro b hb
      rw [(startsAt_perm t sps (s.first + 1)).mem_iff, List.mem_filter] at hb
      have b2 : b.first = s.first + 1 := by simpa using hb.2
      have hbo := h.order b hb.1
      rcases h.noCross b hb.1 s hs with hc | hc | hc | hc
      · omega
      · omega
      · have := hin b hb.1 hc; rw [this] at b2; omega
      · unfold Inside at hc; omega
    have hE2 : ∃ e l, endsAt t sps (s.first + 1) = e :: l := by
      have : s ∈ endsAt t sps (s.first + 1) := by
        rw [(endsAt_perm t sps (s.first + 1)).mem_iff, List.mem_filter]
        exact ⟨hs, by simpa using htwo⟩
      cases hh : endsAt t sps (s.first + 1) with
      | nil => rw [hh] at this; cases this
      | cons e l => exact ⟨e, l, rfl⟩
    obtain ⟨e, l, hel⟩ := hE2
    unfold objEvents
    rw [hAB, hB, hE, hS, hel]
    rw [List.map_append, List.append_assoc, List.append_assoc, afterOpening_append _ _ _ (by
      intro hh
      rw [List.mem_map] at hh
      obtain ⟨a, ha, he⟩ := hh
      cases he
      exact hA ha)]
    simp only [List.map_cons, List.map_nil, List.cons_append, List.nil_append, afterOpening, if_true, ftremNotes]
    rw [htwo]
  refine ⟨key, ?_⟩
  unfold ftremReadable
  rw [key]
  rfl

example : ftremReadable ⟨.ftrem, 4, 5⟩ (layerEvents quarters sampleSpans 0 9) = true :=
  (tremolo_readable_partial _ _ 9 sampleSpans_nestable ⟨.ftrem, 4, 5⟩ (by decide) rfl (by decide) (by unfold Inside; decide)).2

/-! ## Which tuplets are written as elements -/

/-- C85, tuplets and beams: when beams have no notes in common, a tuplet is written as an element exactly if it crosses no beam:
each beam has no note of the tuplet, or all of them, or is wholly inside it. -/
theorem nestsReasonably_iff (tuplet : List Nat) (beams : List (List Nat))
    (hd : ∀ a ∈ beams, ∀ b ∈ beams, (∃ x, x ∈ a ∧ x ∈ b) → a = b) (hne : ∀ b ∈ beams, b ≠ []) :
    nestsReasonably tuplet beams = true ↔
      ∀ b ∈ beams, (∀ x ∈ tuplet, x ∉ b) ∨ (∀ x ∈ tuplet, x ∈ b) ∨ (∀ x ∈ b, x ∈ tuplet) := by
  unfold nestsReasonably
  rw [List.all_eq_true]
  constructor
  · intro h b hb
    have := h b hb
    by_cases h1 : tuplet.all (fun x => decide (x ∉ b)) = true
    · left; simpa using h1
    · rw [if_neg h1] at this
      by_cases h2 : tuplet.all (fun x => decide (x ∈ b)) = true
      · right; left; simpa using h2
      · rw [if_neg h2] at this
        by_cases h3 : b.all (fun x => decide (x ∈ tuplet)) = true
        · right; right; simpa using h3
        · rw [if_pos (by simp [h3])] at this; cases this
  · intro h b hb
    by_cases h1 : tuplet.all (fun x => decide (x ∉ b)) = true
    · rw [if_pos h1]
    · rw [if_neg h1]
      by_cases h2 : tuplet.all (fun x => decide (x ∈ b)) = true
      · rw [if_pos h2]
      · rw [if_neg h2]
        have h3 : b.all (fun x => decide (x ∈ tuplet)) = true := by
          rcases h b hb with h | h | h
          · exact absurd (by simpa using h) h1
          · exact absurd (by simpa using h) h2
          · simpa using h
        rw [if_neg (by simp [h3])]
        rw [List.all_eq_true]
        intro c hc
        by_cases hcb : c = b
        · rw [if_pos hcb]
        · rw [if_neg hcb]
          by_cases h4 : c.all (fun x => decide (x ∉ tuplet)) = true
          · rw [if_pos h4]
          · rw [if_neg h4]
            rcases h c hc with h | h | h
            · exfalso
              apply h4
              rw [List.all_eq_true]
              intro x hx
              simp only [decide_eq_true_eq]
              exact fun hxt => h x hxt hx
            · exfalso
              obtain ⟨x, hx⟩ := List.exists_mem_of_ne_nil b (hne b hb)
              have hxt : x ∈ tuplet := by
                have := (List.all_eq_true.1 h3) x hx
                simpa using this
              exact hcb (hd c hc b hb ⟨x, h x hxt, hx⟩)
            · simpa using h

/-- A triplet over the last note of one beam and the first two of the next is not written as an element. -/
example : nestsReasonably [2, 3, 4] [[0, 1, 2], [3, 4, 5]] = false ∧ nestsReasonably [0, 1, 2] [[0, 1, 2], [3, 4, 5]] = true ∧
    nestsReasonably [0, 1, 2, 3] [[0, 1], [2, 3]] = true := by decide

end C21
