import Verif.Model.MeiSection
import Verif.Lemmas.Tac
/-
C88: measures, page and system breaks and repeat endings survive MEI export and import.
-/
namespace C21

/-! ## Specification -/

/-- Brackets that can be endings: each over at least one measure, and any two the same (in different parts) or disjoint. -/
structure BracketsApart (bs : List (Nat × Nat)) : Prop where
  order : ∀ b ∈ bs, b.1 ≤ b.2
  apart : ∀ a ∈ bs, ∀ b ∈ bs, a = b ∨ a.2 < b.1 ∨ b.2 < a.1

/-- Measure `i` is in a bracket, but not its first measure. -/
def WithinBracket (bs : List (Nat × Nat)) (i : Nat) : Prop := ∃ b ∈ bs, b.1 < i ∧ i ≤ b.2

/-- Measure `j` is in no bracket. -/
def InNoBracket (bs : List (Nat × Nat)) (j : Nat) : Prop := ∀ b ∈ bs, ¬ (b.1 ≤ j ∧ j ≤ b.2)

/-- The break a measure had. -/
def breakOf (page system : Nat → Bool) (i : Nat) : Option SecBreak :=
  if page i then some .page else if system i then some .system else none

/-- The measures of a bracket. -/
def bracketMeasures (b : Nat × Nat) : List Nat := List.range' b.1 (b.2 + 1 - b.1)

instance (bs : List (Nat × Nat)) (i : Nat) : Decidable (WithinBracket bs i) := by unfold WithinBracket; infer_instance
instance (bs : List (Nat × Nat)) (i : Nat) : Decidable (InNoBracket bs i) := by unfold InNoBracket; infer_instance

/-- A break survives where a measure before it is in the same ending, or some earlier measure is in none. -/
def BreakKept (bs : List (Nat × Nat)) (i : Nat) : Prop := WithinBracket bs i ∨ ∃ j, j < i ∧ InNoBracket bs j

instance (bs : List (Nat × Nat)) (i : Nat) : Decidable (BreakKept bs i) := by unfold BreakKept; infer_instance

/-! ## Proofs -/

theorem secRun_append (a b : List SecEv) : ∀ st, secRun st (a ++ b) = (secRun st a).bind fun st' => secRun st' b := by
  induction a with
  | nil => intro st; rfl
  | cons e a ih =>
    intro st
    simp only [List.cons_append, secRun]
    cases secStep st e with
    | none => rfl
    | some st' => exact ih st'

/-- The brackets that end before measure `i`, in order of their ends. -/
def bracketsBefore (bs : List (Nat × Nat)) (i : Nat) : List (List Nat) :=
  (List.range i).filterMap fun j => (bs.find? (fun b => b.2 == j)).map bracketMeasures

/-- The measures before `i` with the breaks that are read. -/
def breaksBefore (page system : Nat → Bool) (bs : List (Nat × Nat)) (i : Nat) : List (Nat × Option SecBreak) :=
  (List.range i).map fun j => (j, if BreakKept bs j then breakOf page system j else none)

theorem breaksBefore_succ (page system : Nat → Bool) (bs : List (Nat × Nat)) (i : Nat) :
    breaksBefore page system bs (i + 1) = breaksBefore page system bs i ++ [(i, if BreakKept bs i then breakOf page system i else none)] := by
  unfold breaksBefore
  rw [List.range_succ, List.map_append]
  rfl

theorem bracketsBefore_succ (bs : List (Nat × Nat)) (i : Nat) :
    bracketsBefore bs (i + 1) = bracketsBefore bs i ++ ((bs.find? (fun b => b.2 == i)).map bracketMeasures).toList := by
  unfold bracketsBefore
  rw [List.range_succ, List.filterMap_append]
  cases h : bs.find? (fun b => b.2 == i) <;> simp [h]

/-- The state before measure `i`. -/
structure SecInv (page system : Nat → Bool) (bs : List (Nat × Nat)) (i : Nat) (st : SecState) : Prop where
  next : st.next = none
  out : st.out = breaksBefore page system bs i
  brackets : st.brackets = bracketsBefore bs i
  seen : st.section_.seen = true ↔ ∃ j, j < i ∧ InNoBracket bs j
  inside : ∀ b ∈ bs, b.1 < i → i ≤ b.2 → st.endings = [⟨true, List.range' b.1 (i - b.1)⟩]
  outside : ¬ WithinBracket bs i → st.endings = []

theorem find_last {bs : List (Nat × Nat)} (h : BracketsApart bs) {b : Nat × Nat} (hb : b ∈ bs) : bs.find? (fun x => x.2 == b.2) = some b := by
  cases hf : bs.find? (fun x => x.2 == b.2) with
  | none => have := List.find?_eq_none.1 hf b hb; simp at this
  | some c =>
    have hc := List.mem_of_find?_eq_some hf
    have he : c.2 = b.2 := by simpa using List.find?_some hf
    have h1 := h.order c hc
    have h2 := h.order b hb
    rcases h.apart c hc b hb with e | e | e
    · rw [e]
    · omega
    · omega

theorem section_step (page system : Nat → Bool) (bs : List (Nat × Nat)) (h : BracketsApart bs) (i : Nat) (st : SecState)
    (hi : SecInv page system bs i st) : ∃ st', secRun st (measureEvents page system bs i) = some st' ∧ SecInv page system bs (i + 1) st' := by
  unfold measureEvents
  rw [secRun_append, secRun_append, secRun_append]
  -- the break
  have hbrk : secRun st (if page i = true then [SecEv.brk .page] else if system i = true then [SecEv.brk .system] else []) =
      some { st with next := if BreakKept bs i then breakOf page system i else none } := by
    have hseen : ∀ b : SecBreak, secStep st (.brk b) = some { st with next := if BreakKept bs i then some b else none } := by
      intro b
      have hst : st = { st with next := none } := by rw [← hi.next]
      by_cases hw : WithinBracket bs i
      · obtain ⟨c, hc, hc1, hc2⟩ := hw
        have he := hi.inside c hc hc1 hc2
        have hk : BreakKept bs i := Or.inl ⟨c, hc, hc1, hc2⟩
        simp only [secStep, he, if_true, hi.next, if_pos hk]
        rw [if_neg (fun hh => by cases hh.2)]
      · have he := hi.outside hw
        simp only [secStep, he]
        by_cases hs : st.section_.seen = true
        · rw [if_pos hs, hi.next, if_neg (fun hh => by cases hh.2), if_pos (show BreakKept bs i from Or.inr (hi.seen.1 hs))]
        · have hk : ¬ BreakKept bs i := fun hk => hk.elim hw (fun hk => hs (hi.seen.2 hk))
          rw [if_neg hs, if_neg hk]
          rw [he] at hst
          exact congrArg some hst
    by_cases hp : page i = true
    · rw [if_pos hp]
      simp only [secRun, hseen, breakOf, if_pos hp]
    · rw [if_neg hp]
      by_cases hs : system i = true
      · rw [if_pos hs]
        simp only [secRun, hseen, breakOf, if_neg hp, if_pos hs]
      · rw [if_neg hs]
        simp only [secRun, breakOf, if_neg hp, if_neg hs]
        have : (if BreakKept bs i then (none : Option SecBreak) else none) = none := by split <;> rfl
        rw [this, ← hi.next]
  rw [hbrk]
  simp only [Option.bind_some]
  -- the measure and the ending
  have hout : ∀ x : Option SecBreak, x = (if BreakKept bs i then breakOf page system i else none) →
      st.out ++ [(i, x)] = breaksBefore page system bs (i + 1) := by
    intro x hx
    rw [breaksBefore_succ, hi.out, hx]
  by_cases hin : ∃ b ∈ bs, b.1 ≤ i ∧ i ≤ b.2
  · obtain ⟨b, hb, hb1, hb2⟩ := hin
    have hbo := h.order b hb
    -- the only bracket here
    have huniq : ∀ c ∈ bs, c.1 ≤ i → i ≤ c.2 → c = b := by
      intro c hc h1 h2
      rcases h.apart c hc b hb with e | e | e
      · exact e
      · omega
      · omega
    have hend0 : ∃ frame : List SecFrame, frame = [⟨true, List.range' b.1 (i + 1 - b.1)⟩] ∧
        ((secRun { st with next := if BreakKept bs i then breakOf page system i else none }
          (if (bs.any fun b => b.1 == i) = true then [SecEv.start] else [])).bind fun st' => secRun st' [SecEv.measure i]) =
        some { st with next := none, out := breaksBefore page system bs (i + 1), endings := frame } := by
      refine ⟨_, rfl, ?_⟩
      by_cases hf : b.1 = i
      · have hnw : ¬ WithinBracket bs i := by
          rintro ⟨c, hc, h1, h2⟩
          have := huniq c hc (by omega) h2
          rw [this] at h1; omega
        have he := hi.outside hnw
        have hany : (bs.any fun b => b.1 == i) = true := by
          rw [List.any_eq_true]; exact ⟨b, hb, by simpa using hf⟩
        rw [if_pos hany]
        simp only [secRun, secStep, Option.bind_some, he, hout _ rfl, List.nil_append]
        rw [show i + 1 - b.1 = 1 by omega, List.range'_one, hf]
      · have he := hi.inside b hb (by omega) hb2
        have hany : ¬ (bs.any fun b => b.1 == i) = true := by
          rw [List.any_eq_true]
          rintro ⟨c, hc, hci⟩
          have hci : c.1 = i := by simpa using hci
          have hco := h.order c hc
          have := huniq c hc (by omega) (by omega)
          rw [this] at hci; exact hf hci
        rw [if_neg hany]
        simp only [secRun, secStep, Option.bind_some, he, hout _ rfl]
        rw [show i + 1 - b.1 = (i - b.1) + 1 by omega, List.range'_concat, show b.1 + 1 * (i - b.1) = i by omega]
    obtain ⟨frame, hframe, hrun⟩ := hend0
    have hnob : ¬ InNoBracket bs i := fun hno => hno b hb ⟨hb1, hb2⟩
    have hseen' : (st.section_.seen = true) ↔ ∃ j, j < i + 1 ∧ InNoBracket bs j := by
      rw [hi.seen]
      constructor
      · rintro ⟨j, hj, hjn⟩; exact ⟨j, by omega, hjn⟩
      · rintro ⟨j, hj, hjn⟩
        rcases Nat.lt_succ_iff_lt_or_eq.1 hj with hj | rfl
        · exact ⟨j, hj, hjn⟩
        · exact absurd hjn hnob
    rw [hrun]
    simp only [Option.bind_some]
    by_cases hl : b.2 = i
    · have hany : (bs.any fun b => b.2 == i) = true := by
        rw [List.any_eq_true]; exact ⟨b, hb, by simpa using hl⟩
      rw [if_pos hany, hframe]
      refine ⟨_, rfl, ⟨rfl, rfl, ?_, hseen', ?_, ?_⟩⟩
      · show st.brackets ++ [List.range' b.1 (i + 1 - b.1)] = _
        have hfl := find_last h hb
        rw [hl] at hfl
        rw [bracketsBefore_succ, hi.brackets, hfl]
        simp [bracketMeasures, hl]
      · intro c hc h1 h2
        exfalso
        have := huniq c hc (by omega) (by omega)
        rw [this] at h2; omega
      · intro _; rfl
    · have hany : ¬ (bs.any fun b => b.2 == i) = true := by
        rw [List.any_eq_true]
        rintro ⟨c, hc, hci⟩
        have hci : c.2 = i := by simpa using hci
        have hco := h.order c hc
        have := huniq c hc (by omega) (by omega)
        rw [this] at hci; exact hl hci
      rw [if_neg hany]
      refine ⟨_, rfl, ⟨rfl, rfl, ?_, hseen', ?_, ?_⟩⟩
      · show st.brackets = _
        have hnone : bs.find? (fun b => b.2 == i) = none := by
          rw [List.find?_eq_none]
          intro c hc hci
          exact hany (List.any_eq_true.2 ⟨c, hc, hci⟩)
        rw [bracketsBefore_succ, hi.brackets, hnone]
        simp
      · intro c hc h1 h2
        have := huniq c hc (by omega) (by omega)
        show frame = _
        rw [this, hframe]
      · intro hw
        exact absurd ⟨b, hb, by omega, by omega⟩ hw
  · have hno : InNoBracket bs i := fun b hb hh => hin ⟨b, hb, hh⟩
    have hnw : ¬ WithinBracket bs i := by
      rintro ⟨c, hc, h1, h2⟩
      exact hno c hc ⟨by omega, h2⟩
    have he := hi.outside hnw
    have hany1 : ¬ (bs.any fun b => b.1 == i) = true := by
      rw [List.any_eq_true]
      rintro ⟨c, hc, hci⟩
      have hci : c.1 = i := by simpa using hci
      have := h.order c hc
      exact hno c hc ⟨by omega, by omega⟩
    have hany2 : ¬ (bs.any fun b => b.2 == i) = true := by
      rw [List.any_eq_true]
      rintro ⟨c, hc, hci⟩
      have hci : c.2 = i := by simpa using hci
      have := h.order c hc
      exact hno c hc ⟨by omega, by omega⟩
    rw [if_neg hany1, if_neg hany2]
    simp only [secRun, secStep, Option.bind_some, he, hout _ rfl]
    refine ⟨_, rfl, ⟨rfl, rfl, ?_, ?_, ?_, ?_⟩⟩
    · show st.brackets = _
      have hnone : bs.find? (fun b => b.2 == i) = none := by
        rw [List.find?_eq_none]
        intro c hc hci
        exact hany2 (List.any_eq_true.2 ⟨c, hc, hci⟩)
      rw [bracketsBefore_succ, hi.brackets, hnone]
      simp
    · exact ⟨fun _ => ⟨i, by omega, hno⟩, fun _ => rfl⟩
    · intro c hc h1 h2
      exact absurd ⟨by omega, by omega⟩ (hno c hc)
    · intro _; rfl

theorem section_run (page system : Nat → Bool) (bs : List (Nat × Nat)) (h : BracketsApart bs) : ∀ (n i : Nat) (st : SecState),
    SecInv page system bs i st → ∃ st', secRun st (sectionEvents page system bs i n) = some st' ∧ SecInv page system bs (i + n) st' := by
  intro n
  induction n with
  | zero => intro i st hi; exact ⟨st, rfl, hi⟩
  | succ n ih =>
    intro i st hi
    obtain ⟨st1, h1, hi1⟩ := section_step page system bs h i st hi
    obtain ⟨st2, h2, hi2⟩ := ih (i + 1) st1 hi1
    refine ⟨st2, ?_, by rw [show i + (n + 1) = i + 1 + n by omega]; exact hi2⟩
    show secRun st (measureEvents page system bs i ++ sectionEvents page system bs (i + 1) n) = _
    rw [secRun_append, h1]
    exact h2

/-- C88, the part that holds: for a section of any number of measures and any brackets that do not overlap, export succeeds and reading
gives all measures in order, each with its break where `BreakKept`, and for each bracket, in order, its measures. It is false for overlapping
brackets (`overlapping_endings_fail`), and a break before an ending with no earlier measure outside endings is lost
(`break_between_endings_lost`). -/
theorem section_round_trip_partial (page system : Nat → Bool) (bs : List (Nat × Nat)) (n : Nat) (h : BracketsApart bs) (hn : ∀ b ∈ bs, b.2 < n) :
    rereadSection page system bs n =
      some ((List.range n).map (fun i => (i, if BreakKept bs i then breakOf page system i else none)),
            (List.range n).filterMap fun j => (bs.find? (fun b => b.2 == j)).map bracketMeasures) := by
  obtain ⟨st, h1, hi⟩ := section_run page system bs h n 0 ⟨[], ⟨false, []⟩, none, [], []⟩ (by
    refine ⟨rfl, rfl, rfl, ?_, ?_, ?_⟩
    · constructor
      · intro hh; cases hh
      · rintro ⟨j, hj, _⟩; omega
    · intro b _ hb _; omega
    · intro _; rfl)
  rw [Nat.zero_add] at hi
  unfold rereadSection
  rw [h1]
  have he : st.endings = [] := hi.outside (by
    rintro ⟨b, hb, h1, h2⟩
    have := hn b hb
    omega)
  simp only [he, List.isEmpty_nil, if_true, hi.out, hi.brackets]
  rfl

/-- When the first measure is in no bracket, all later breaks survive. -/
theorem breaks_kept (bs : List (Nat × Nat)) (h : InNoBracket bs 0) (i : Nat) (hi : 0 < i) : BreakKept bs i := Or.inr ⟨0, hi, h⟩

/-- Six measures with two endings (in two parts), a system break in the first ending and a page break at the second. -/
example : rereadSection (fun i => i == 5) (fun i => i == 3 || i == 5) [(2, 4), (5, 5), (2, 4), (5, 5)] 7 =
    some ([(0, none), (1, none), (2, none), (3, some .system), (4, none), (5, some .page), (6, none)], [[2, 3, 4], [5]]) := by decide
example : BracketsApart [(2, 4), (5, 5), (2, 4), (5, 5)] := ⟨by decide, by decide⟩

/-- C88 is false: two brackets that start in the same measure make the export fail. -/
theorem overlapping_endings_fail : rereadSection (fun _ => false) (fun _ => false) [(1, 1), (1, 2)] 3 = none := by decide

/-- C88 is false: crossing brackets are exchanged for nested ones. -/
theorem crossing_endings_wrong :
    rereadSection (fun _ => false) (fun _ => false) [(0, 1), (1, 2)] 3 = some ([(0, none), (1, none), (2, none)], [[1], [0, 1, 2]]) := by decide

/-- C88 is false: a system break between two endings is lost when all measures before are in endings. -/
theorem break_between_endings_lost :
    rereadSection (fun _ => false) (fun i => i == 1) [(0, 0), (1, 1)] 3 = some ([(0, none), (1, none), (2, none)], [[0], [1]]) := by decide

/-! ## Measures of all parts -/

theorem foldl_min_le (l : List Nat) (a : Nat) : l.foldl min a ≤ a ∧ ∀ x ∈ l, l.foldl min a ≤ x := by
  induction l generalizing a with
  | nil => exact ⟨le_refl _, fun x h => by cases h⟩
  | cons b l ih =>
    obtain ⟨h1, h2⟩ := ih (min a b)
    refine ⟨le_trans h1 (min_le_left _ _), ?_⟩
    intro x hx
    rcases List.mem_cons.1 hx with rfl | hx
    · exact le_trans h1 (min_le_right _ _)
    · exact h2 x hx

theorem foldl_min_eq (l : List Nat) (a n : Nat) (ha : a = n) (hl : ∀ x ∈ l, x = n) : l.foldl min a = n := by
  induction l generalizing a with
  | nil => exact ha
  | cons b l ih =>
    have hb := hl b List.mem_cons_self
    refine ih (min a b) ?_ (fun x hx => hl x (List.mem_cons_of_mem _ hx))
    rw [ha, hb, min_self]

/-- C88, measures: the `i`-th measure that is written consists of the `i`-th measures of all parts; and there are as many as in each part
if all parts have the same number. -/
theorem measure_stacks_partial {α : Type} (parts : List (List α)) (hp : parts ≠ []) (n : Nat) (hn : ∀ p ∈ parts, p.length = n) :
    (measureStacks parts).length = n ∧ ∀ (k : Nat) (p : List α), parts[k]? = some p → ∀ i, i < n →
      ∃ stack, (measureStacks parts)[i]? = some stack ∧ stack[k]? = p[i]? := by
  cases parts with
  | nil => exact absurd rfl hp
  | cons q ps =>
    have hm : (ps.map List.length).foldl min q.length = n := by
      refine foldl_min_eq _ _ n (hn q List.mem_cons_self) ?_
      intro x hx
      rw [List.mem_map] at hx
      obtain ⟨p, hp, rfl⟩ := hx
      exact hn p (List.mem_cons_of_mem _ hp)
    refine ⟨by simp [measureStacks, hm], ?_⟩
    intro k p hk i hi
    refine ⟨(q :: ps).filterMap (·[i]?), ?_, ?_⟩
    · unfold measureStacks
      simp only [hm]
      rw [List.getElem?_map, List.getElem?_range hi]
      rfl
    · have hall : ∀ l : List (List α), (∀ p ∈ l, p.length = n) → ∀ (k : Nat) (p : List α), l[k]? = some p →
          (l.filterMap (·[i]?))[k]? = p[i]? := by
        intro l
        induction l with
        | nil => intro _ k p h; simp at h
        | cons a l ih =>
          intro hl k p h
          have ha : i < a.length := by rw [hl a List.mem_cons_self]; exact hi
          rw [List.filterMap_cons_some (f := fun x : List α => x[i]?) (List.getElem?_eq_getElem ha)]
          cases k with
          | zero =>
            simp only [List.getElem?_cons_zero, Option.some.injEq] at h
            rw [← h, List.getElem?_cons_zero, List.getElem?_eq_getElem ha]
          | succ k =>
            rw [List.getElem?_cons_succ] at h ⊢
            exact ih (fun p hp => hl p (List.mem_cons_of_mem _ hp)) k p h
      exact hall (q :: ps) hn k p hk

example : measureStacks [["a1", "a2"], ["b1", "b2"]] = [["a1", "b1"], ["a2", "b2"]] := by decide

/-- C88 is false: the last measures of a part are dropped when another part has fewer. -/
theorem trailing_measures_lost : measureStacks [["a1", "a2", "a3"], ["b1", "b2"]] = [["a1", "b1"], ["a2", "b2"]] := by decide

end C21
