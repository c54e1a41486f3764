import Verif.Props.Rhythm
/-
C19, C20: the passes over the lines that give them start times, durations and positions in the measure.
-/
namespace C21

/-! ## Missing start times -/

theorem fillBack_length (l : List Rat) : (fillBack l).2.length = l.length := by
  induction l with
  | nil => rfl
  | cons s ss ih => simp [fillBack, ih]

theorem known_cons (s : Rat) (ss : List Rat) : known (s :: ss) = if 0 ≤ s then s :: known ss else known ss := by
  simp [known, List.filter_cons]

theorem fillBack_fst (l : List Rat) : (fillBack l).1 = ((known l).head?).getD (-1) := by
  induction l with
  | nil => rfl
  | cons s ss ih =>
    rw [known_cons]
    by_cases h : 0 ≤ s
    · have : ¬ s < 0 := not_lt.2 h
      simp [fillBack, h, this]
    · have hs : s < 0 := not_le.1 h
      simp only [fillBack, h, if_false]
      rw [← ih]
      by_cases hl : (fillBack ss).1 ≥ 0
      · simp [hs, hl]
      · simp [hs, hl]

theorem fillBack_get (l : List Rat) (i : Nat) (x : Rat) (hx : l[i]? = some x) :
    (fillBack l).2[i]? = some (match known (l.drop i) with | t :: _ => t | [] => x) := by
  induction l generalizing i with
  | nil => simp at hx
  | cons s ss ih =>
    cases i with
    | succ i => simpa [fillBack] using ih i (by simpa using hx)
    | zero =>
      simp only [List.getElem?_cons_zero, Option.some.injEq] at hx
      subst hx
      have h1 := fillBack_fst ss
      simp only [fillBack, List.getElem?_cons_zero, List.drop_zero, Option.some.injEq]
      rw [known_cons]
      by_cases h : 0 ≤ s
      · have : ¬ s < 0 := not_lt.2 h
        simp [h, this]
      · have hs : s < 0 := not_le.1 h
        simp only [h, if_false, hs, true_and]
        rw [h1]
        cases hk : known ss with
        | nil => simp
        | cons t ts =>
          have : t ∈ known ss := by rw [hk]; simp
          have h0 : 0 ≤ t := by simpa [known] using (List.mem_filter.1 this).2
          simp [h0]

theorem fillForward_get (l : List Rat) (last : Rat) (i : Nat) (x : Rat) (hx : l[i]? = some x) :
    (fillForward last l)[i]? = some (((known (l.take (i + 1))).getLast?).getD last) := by
  induction l generalizing i last with
  | nil => simp at hx
  | cons s ss ih =>
    cases i with
    | zero =>
      simp only [fillForward]
      by_cases h : 0 ≤ s
      · simp [h, known]
      · have : ¬ s ≥ 0 := h
        simp [h, known]
    | succ i =>
      have hx' : ss[i]? = some x := by simpa using hx
      simp only [fillForward, List.take_succ_cons, known_cons]
      by_cases h : 0 ≤ s
      · rw [if_pos h, if_pos h, List.getElem?_cons_succ, ih s i hx']
        cases hk : known (ss.take (i + 1)) with
        | nil => simp
        | cons t ts => simp [List.getLast?_cons_cons, List.getLast?_eq_some_getLast]
      · rw [if_neg h, if_neg h, List.getElem?_cons_succ, ih last i hx']

theorem fillForward_length (l : List Rat) (last : Rat) : (fillForward last l).length = l.length := by
  induction l generalizing last with
  | nil => rfl
  | cons s ss ih => simp only [fillForward]; split <;> simp [ih]

theorem fillIn_length (l : List Rat) : (fillInMissingStartTimes l).length = l.length := by
  simp [fillInMissingStartTimes, fillForward_length, fillBack_length]

theorem known_append (a b : List Rat) : known (a ++ b) = known a ++ known b := by simp [known]

theorem known_nil_iff (l : List Rat) : known l = [] ↔ ∀ x ∈ l, x < 0 := by
  simp [known]

theorem mem_known {l : List Rat} {x : Rat} : x ∈ known l ↔ x ∈ l ∧ 0 ≤ x := by simp [known]

/-- C19. Every line gets the first known time from it on; after the last known time, the last known time. -/
theorem fillIn_spec (l : List Rat) (hk : known l ≠ []) (i : Nat) (hi : i < l.length) :
    (fillInMissingStartTimes l)[i]? = filled l i := by
  unfold fillInMissingStartTimes
  have hb := fillBack_get l i l[i] (List.getElem?_eq_getElem hi)
  rw [fillForward_get _ _ i _ hb]
  cases hd : known (l.drop i) with
  | cons t ts =>
    rw [hd] at hb
    simp only [filled, hd]
    have ht : 0 ≤ t := (mem_known.1 (by rw [hd]; simp : t ∈ known (l.drop i))).2
    have : (fillBack l).2.take (i + 1) = (fillBack l).2.take i ++ [t] := by
      rw [List.take_add_one, hb]; rfl
    rw [this, known_append]
    simp [known, ht]
  | nil =>
    simp only [filled, hd]
    -- all lines from `i` on are unknown; the lines before them as filled
    have hneg : ∀ x ∈ l.drop i, x < 0 := (known_nil_iff _).1 hd
    have hpre : known (l.take i) = known l := by
      conv_rhs => rw [← List.take_append_drop i l, known_append, hd, List.append_nil]
    -- the last known line
    obtain ⟨m, y, hm, hy, hy0, hlast⟩ : ∃ (m : Nat) (y : Rat), m < i ∧ l[m]? = some y ∧ 0 ≤ y ∧
        ∀ (k : Nat) (z : Rat), m < k → l[k]? = some z → z < 0 := by
      clear hb
      have : ∀ (l : List Rat), known l ≠ [] → ∃ (m : Nat) (y : Rat), l[m]? = some y ∧ 0 ≤ y ∧ ∀ (k : Nat) (z : Rat), m < k → l[k]? = some z → z < 0 := by
        intro l
        induction l with
        | nil => intro h; exact absurd rfl h
        | cons s ss ih =>
          intro h
          by_cases hks : known ss = []
          · refine ⟨0, s, rfl, ?_, ?_⟩
            · rw [known_cons, hks] at h
              by_contra hc; simp [hc] at h
            · intro k z hk hz
              cases k with
              | zero => omega
              | succ k =>
                exact (known_nil_iff _).1 hks z (List.mem_of_getElem? (by simpa using hz))
          · obtain ⟨m, y, a, b, c⟩ := ih hks
            refine ⟨m + 1, y, by simpa using a, b, ?_⟩
            intro k z hk hz
            cases k with
            | zero => omega
            | succ k => exact c k z (by omega) (by simpa using hz)
      obtain ⟨m, y, a, b, c⟩ := this l hk
      refine ⟨m, y, ?_, a, b, c⟩
      by_contra hc
      have : y ∈ l.drop i := by
        rw [List.mem_iff_getElem?]
        refine ⟨m - i, ?_⟩
        rw [List.getElem?_drop]
        rw [show i + (m - i) = m by omega]; exact a
      have := hneg y this
      linarith
    have hkl : (known l).getLast? = some y := by
      have e : l = l.take m ++ y :: l.drop (m + 1) := by
        have h1 := List.take_append_drop m l
        have h2 : l.drop m = y :: l.drop (m + 1) := by
          obtain ⟨hmlt, he⟩ := List.getElem?_eq_some_iff.1 hy
          rw [List.drop_eq_getElem_cons hmlt, he]
        rw [h2] at h1; exact h1.symm
      have hz : known (l.drop (m + 1)) = [] := by
        rw [known_nil_iff]
        intro x hx
        obtain ⟨k, hk⟩ := List.mem_iff_getElem?.1 hx
        rw [List.getElem?_drop] at hk
        exact hlast _ _ (by omega) hk
      rw [e, known_append, known_cons, if_pos hy0, hz]
      simp
    rw [hkl]
    -- the same holds of the filled list
    have hbm : (fillBack l).2[m]? = some y := by
      have := fillBack_get l m y hy
      have e : l.drop m = y :: l.drop (m + 1) := by
        obtain ⟨hmlt, he⟩ := List.getElem?_eq_some_iff.1 hy
        rw [List.drop_eq_getElem_cons hmlt, he]
      rw [e, known_cons, if_pos hy0] at this
      exact this
    have hbk : ∀ (k : Nat) (z : Rat), m < k → (fillBack l).2[k]? = some z → z < 0 := by
      intro k z hk hz
      obtain ⟨hlt, _⟩ := List.getElem?_eq_some_iff.1 hz
      rw [fillBack_length] at hlt
      have := fillBack_get l k l[k] (List.getElem?_eq_getElem hlt)
      have e : known (l.drop k) = [] := by
        rw [known_nil_iff]
        intro x hx
        obtain ⟨j, hj⟩ := List.mem_iff_getElem?.1 hx
        rw [List.getElem?_drop] at hj
        exact hlast _ _ (by omega) hj
      rw [e] at this
      rw [this] at hz
      cases hz
      exact hlast k l[k] hk (List.getElem?_eq_getElem hlt)
    have e : (fillBack l).2.take (i + 1) = (fillBack l).2.take m ++ y :: ((fillBack l).2.take (i + 1)).drop (m + 1) := by
      have h1 := (List.take_append_drop m ((fillBack l).2.take (i + 1))).symm
      have hm1 : ((fillBack l).2.take (i + 1))[m]? = some y := by
        rw [List.getElem?_take_of_lt (by omega)]; exact hbm
      have h2 : ((fillBack l).2.take (i + 1)).drop m = y :: ((fillBack l).2.take (i + 1)).drop (m + 1) := by
        obtain ⟨hmlt, he⟩ := List.getElem?_eq_some_iff.1 hm1
        rw [List.drop_eq_getElem_cons hmlt, he]
      rw [h2, List.take_take, Nat.min_eq_left (by omega)] at h1
      exact h1
    have hz : known (((fillBack l).2.take (i + 1)).drop (m + 1)) = [] := by
      rw [known_nil_iff]
      intro x hx
      obtain ⟨k, hk⟩ := List.mem_iff_getElem?.1 hx
      rw [List.getElem?_drop, List.getElem?_take] at hk
      split at hk
      · exact hbk _ _ (by omega) hk
      · cases hk
    rw [e, known_append, known_cons, if_pos hy0, hz]
    simp

/-- With no known time at all every line keeps an unknown time, which is no start time: -1. -/
theorem fillIn_unknown (l : List Rat) (hk : known l = []) : ∀ x ∈ fillInMissingStartTimes l, x = -1 := by
  intro x hx
  obtain ⟨i, hi⟩ := List.mem_iff_getElem?.1 hx
  have hlt : i < l.length := by
    obtain ⟨h, _⟩ := List.getElem?_eq_some_iff.1 hi; rwa [fillIn_length] at h
  unfold fillInMissingStartTimes at hi
  rw [fillForward_get _ _ i _ (fillBack_get l i l[i] (List.getElem?_eq_getElem hlt))] at hi
  have : known ((fillBack l).2.take (i + 1)) = [] := by
    rw [known_nil_iff]
    intro y hy
    obtain ⟨k, hk'⟩ := List.mem_iff_getElem?.1 (List.mem_of_mem_take hy)
    obtain ⟨h, _⟩ := List.getElem?_eq_some_iff.1 hk'
    rw [fillBack_length] at h
    rw [fillBack_get l k l[k] (List.getElem?_eq_getElem h)] at hk'
    have e : known (l.drop k) = [] := by
      rw [known_nil_iff] at hk ⊢
      exact fun z hz => hk z (List.mem_of_mem_drop hz)
    rw [e] at hk'
    cases hk'
    exact (known_nil_iff _).1 hk _ (List.getElem_mem h)
  rw [this, fillBack_fst, hk] at hi
  simpa using hi.symm

/-- C19. If the known times are in order, so are the times of all lines, and none is negative. -/
theorem fillIn_sorted (l : List Rat) (hk : known l ≠ []) (h : NonDecreasing (known l)) :
    NonDecreasing (fillInMissingStartTimes l) ∧ ∀ x ∈ fillInMissingStartTimes l, 0 ≤ x := by
  have sub : ∀ i, known (l.drop i) <:+ known l := by
    intro i
    refine ⟨known (l.take i), ?_⟩
    rw [← known_append, List.take_append_drop]
  have memf : ∀ i x, filled l i = some x → x ∈ known l := by
    intro i x hx
    unfold filled at hx
    split at hx
    · rename_i t ts e
      cases hx
      exact (sub i).subset (by rw [e]; simp)
    · exact List.mem_of_getLast? hx
  constructor
  · unfold NonDecreasing
    rw [List.pairwise_iff_getElem]
    intro i j hi hj hij
    rw [fillIn_length] at hi hj
    have hi' := fillIn_spec l hk i hi
    have hj' := fillIn_spec l hk j hj
    rw [List.getElem?_eq_getElem (by rw [fillIn_length]; exact hi)] at hi'
    rw [List.getElem?_eq_getElem (by rw [fillIn_length]; exact hj)] at hj'
    generalize (fillInMissingStartTimes l)[i]'(by rw [fillIn_length]; exact hi) = a at *
    generalize (fillInMissingStartTimes l)[j]'(by rw [fillIn_length]; exact hj) = b at *
    -- known (drop j) is a suffix of known (drop i)
    have hsuf : known (l.drop j) <:+ known (l.drop i) := by
      refine ⟨known ((l.drop i).take (j - i)), ?_⟩
      rw [← known_append]
      congr 1
      have : l.drop j = (l.drop i).drop (j - i) := by rw [List.drop_drop]; congr 1; omega
      rw [this, List.take_append_drop]
    have hlast : ∀ x ∈ known l, ∀ y, (known l).getLast? = some y → x ≤ y := by
      intro x hx y hy
      obtain ⟨ys, e⟩ : ∃ ys, known l = ys ++ [y] := by
        rw [List.getLast?_eq_some_iff] at hy; exact hy
      rw [e] at hx h
      rcases List.mem_append.1 hx with hx | hx
      · exact (List.pairwise_append.1 h).2.2 x hx y (by simp)
      · simp at hx; rw [hx]
    unfold filled at hi' hj'
    cases ei : known (l.drop i) with
    | nil =>
      rw [ei] at hi' hsuf
      have : known (l.drop j) = [] := List.eq_nil_of_suffix_nil hsuf
      rw [this] at hj'
      simp only at hi' hj'
      rw [← hi'] at hj'
      cases hj'; exact le_rfl
    | cons t ts =>
      rw [ei] at hi'
      cases hi'
      have ht : a ∈ known l := (sub i).subset (by rw [ei]; simp)
      cases ej : known (l.drop j) with
      | nil =>
        rw [ej] at hj'
        exact hlast a ht b hj'.symm
      | cons u us =>
        rw [ej] at hj' hsuf
        cases hj'
        have hb : b ∈ known (l.drop i) := hsuf.subset (by simp)
        have hp : (known (l.drop i)).Pairwise (· ≤ ·) := List.Pairwise.sublist (sub i).sublist h
        rw [ei] at hb hp
        rcases List.mem_cons.1 hb with e | hb
        · rw [e]
        · exact (List.pairwise_cons.1 hp).1 b hb
  · intro x hx
    obtain ⟨i, hi⟩ := List.mem_iff_getElem?.1 hx
    have hlt : i < l.length := by
      obtain ⟨h, _⟩ := List.getElem?_eq_some_iff.1 hi; rwa [fillIn_length] at h
    rw [fillIn_spec l hk i hlt] at hi
    exact (mem_known.1 (memf i x hi)).2

/-! ## Durations of lines -/

theorem clamp_eq (d : Rat) : clampDuration d = max 0 d := by
  unfold clampDuration
  split
  · rename_i h; rw [max_eq_right h]
  · rename_i h; rw [max_eq_left (not_le.1 h).le]

theorem lineDurations_length (l : List Rat) : (assignLineDurations l).length = l.length := by
  induction l with
  | nil => rfl
  | cons s ss ih =>
    cases ss with
    | nil => rfl
    | cons s' ss => simp [assignLineDurations, ih]

/-- C19. The duration of a line is the time to the next line (0 if that is negative); the last line has
duration 0. -/
theorem lineDurations_get (l : List Rat) (i : Nat) (s : Rat) (hs : l[i]? = some s) :
    (assignLineDurations l)[i]? = some (match l[i + 1]? with | some s' => max 0 (s' - s) | none => 0) := by
  induction l generalizing i with
  | nil => simp at hs
  | cons a as ih =>
    cases as with
    | nil =>
      cases i with
      | zero => simp [assignLineDurations, clamp_eq]
      | succ i => simp at hs
    | cons b bs =>
      cases i with
      | zero =>
        simp at hs
        subst hs
        simp [assignLineDurations, clamp_eq]
      | succ i =>
        simp only [assignLineDurations, List.getElem?_cons_succ]
        exact ih i (by simpa using hs)

/-- C19. When the start times are in order: start plus duration is the start of the next line, no duration is
negative, the durations sum to the time from the first line to the last, and the score duration is the time of
the last line. -/
theorem times_telescope_partial (l : List Rat) (h : NonDecreasing l) :
    (∀ (i : Nat) (s d s' : Rat), l[i]? = some s → (assignLineDurations l)[i]? = some d → l[i + 1]? = some s' → s + d = s') ∧
    (∀ d ∈ assignLineDurations l, 0 ≤ d) ∧
    (∀ a b, l.head? = some a → l.getLast? = some b →
      (assignLineDurations l).sum = b - a ∧ scoreDuration l (assignLineDurations l) = b) := by
  refine ⟨?_, ?_, ?_⟩
  · intro i s d s' hs hd hs'
    rw [lineDurations_get l i s hs, hs'] at hd
    have : s ≤ s' := by
      have := List.pairwise_iff_getElem.1 h
      obtain ⟨h1, e1⟩ := List.getElem?_eq_some_iff.1 hs
      obtain ⟨h2, e2⟩ := List.getElem?_eq_some_iff.1 hs'
      rw [← e1, ← e2]
      exact this i (i + 1) h1 h2 (by omega)
    simp only [Option.some.injEq] at hd
    rw [max_eq_right (by linarith)] at hd
    linarith
  · intro d hd
    obtain ⟨i, hi⟩ := List.mem_iff_getElem?.1 hd
    obtain ⟨hlt, _⟩ := List.getElem?_eq_some_iff.1 hi
    rw [lineDurations_length] at hlt
    rw [lineDurations_get l i _ (List.getElem?_eq_getElem hlt)] at hi
    cases e : l[i + 1]? with
    | none => rw [e] at hi; cases hi; exact le_rfl
    | some s' => rw [e] at hi; cases hi; exact le_max_left _ _
  · intro a b ha hb
    have h1 : (assignLineDurations l).sum = b - a := by
      clear * - h ha hb
      induction l generalizing a with
      | nil => simp at ha
      | cons s ss ih =>
        simp at ha
        subst ha
        cases ss with
        | nil => simp at hb; simp [assignLineDurations, clamp_eq, hb]
        | cons s' ss =>
          have hp := List.pairwise_cons.1 h
          have := ih (List.Pairwise.of_cons h) s' rfl (by simpa using hb)
          simp only [assignLineDurations, List.sum_cons, this, clamp_eq]
          have : s ≤ s' := hp.1 s' (by simp)
          rw [max_eq_right (by linarith)]
          ring
    refine ⟨h1, ?_⟩
    have h2 : (assignLineDurations l).getLast? = some 0 := by
      have hne : l ≠ [] := by rintro rfl; simp at ha
      rw [List.getLast?_eq_getElem?, lineDurations_length,
        lineDurations_get l (l.length - 1) b (by rw [← List.getLast?_eq_getElem?]; exact hb)]
      have : 0 < l.length := List.length_pos_of_ne_nil hne
      rw [List.getElem?_eq_none (by omega)]
    simp [scoreDuration, hb, h2]

example : NonDecreasing [0, 0, 1, 3/2, 3/2, 4] := by unfold NonDecreasing; decide +kernel

/-- **recip files: start times are the running sums of the durations. -/
theorem running_telescope (ds : List Rat) (total : Rat) (i : Nat) (d : Rat) (h : ds[i]? = some d) :
    (runningStarts total ds).1[i]? = some (total + ((ds.take i).map (max 0)).sum) ∧
    (runningStarts total ds).2[i]? = some (max 0 d) := by
  induction ds generalizing total i with
  | nil => simp at h
  | cons x xs ih =>
    have hx : (if x < 0 then clampDuration 0 else x) = max 0 x := by
      rw [clamp_eq]
      split
      · rename_i h; rw [max_eq_left h.le]; simp
      · rename_i h; rw [max_eq_right (not_lt.1 h)]
    cases i with
    | zero =>
      simp at h; subst h
      simp only [runningStarts, hx]
      simp
    | succ i =>
      have := ih (total + max 0 x) i (by simpa using h)
      simp only [runningStarts, hx]
      simp only [List.getElem?_cons_succ, this, List.take_succ_cons, List.map_cons, List.sum_cons, and_true]
      rw [add_assoc]

/-! ## C20: position in the measure -/

theorem sumBetween_self (l : List Rat) (a : Nat) : sumBetween l a a = 0 := by
  simp [sumBetween, List.drop_take]

theorem sumBetween_cons_succ (x : Rat) (l : List Rat) (a b : Nat) :
    sumBetween (x :: l) (a + 1) (b + 1) = sumBetween l a b := by simp [sumBetween]

theorem sumBetween_cons_zero (x : Rat) (l : List Rat) (b : Nat) :
    sumBetween (x :: l) 0 (b + 1) = x + sumBetween l 0 b := by simp [sumBetween]

/-- C20. `durationFromBarline` is the sum of the durations of the lines since the last barline (not counting
the barline's own, which the code resets). -/
theorem fromBarline_spec (durs : List Rat) (bars : List Bool) (hlen : durs.length = bars.length) (i a : Nat)
    (hi : i < durs.length) (ha : MeasureStart bars i a) :
    (fromBarline 0 (durs.zip bars))[i]? = some (sumBetween durs a i) := by
  have key : ∀ (durs : List Rat) (bars : List Bool) (sum : Rat) (i : Nat), durs.length = bars.length →
      i < durs.length →
      (∀ a, MeasureStart bars i a → (fromBarline sum (durs.zip bars))[i]? =
        some ((if a = 0 then sum else 0) + sumBetween durs a i)) := by
    intro durs
    induction durs with
    | nil => intro bars sum i _ hi; simp at hi
    | cons d ds ih =>
      intro bars sum i hlen hi a ha
      cases bars with
      | nil => simp at hlen
      | cons b bs =>
        cases i with
        | zero =>
          have : a = 0 := by have := ha.1; omega
          subst this
          simp [fromBarline, sumBetween_self]
        | succ i =>
          simp only [List.zip_cons_cons, fromBarline, List.getElem?_cons_succ]
          have hlen' : ds.length = bs.length := by simpa using hlen
          have hi' : i < ds.length := by simpa using hi
          cases a with
          | zero =>
            have hb : b = false := by simpa using ha.2.2 0 (by omega) (by omega)
            subst hb
            have hm : MeasureStart bs i 0 := by
              refine ⟨by omega, .inl rfl, ?_⟩
              intro k _ hk
              simpa using ha.2.2 (k + 1) (by omega) (by omega)
            rw [ih bs _ i hlen' hi' 0 hm]
            simp [sumBetween_cons_zero]
            ring
          | succ a =>
            have hm : MeasureStart bs i a := by
              refine ⟨by have := ha.1; omega, ?_, ?_⟩
              · cases a with
                | zero => exact .inl rfl
                | succ a => right; simpa using ha.2.1
              · intro k hk1 hk2
                simpa using ha.2.2 (k + 1) (by omega) (by omega)
            rw [ih bs _ i hlen' hi' a hm]
            rw [sumBetween_cons_succ]
            cases a with
            | zero =>
              have hb : b = true := by simpa using ha.2.1
              simp [hb]
            | succ a => simp
  rw [key durs bars 0 i hlen hi a ha]
  simp

/-- C20. `durationToBarline` is the sum of the durations of the lines from this one up to the next barline. -/
theorem toBarline_spec (durs : List Rat) (bars : List Bool) (hlen : durs.length = bars.length) (i b : Nat)
    (hi : i < durs.length) (hb : MeasureEnd bars i b) :
    (toBarline (durs.zip bars))[i]? = some (sumBetween durs i b) := by
  have sumKey : ∀ (durs : List Rat) (bars : List Bool), durs.length = bars.length →
      ∀ b, (b = bars.length ∨ bars[b]? = some true) → (∀ k, k < b → bars[k]? = some false) →
      b ≤ durs.length →
      (toBarlineLoop (durs.zip bars)).1 = sumBetween durs 0 b := by
    intro durs
    induction durs with
    | nil => intro bars h b _ _ hb; simp at hb; subst hb; rfl
    | cons d ds ih =>
      intro bars hlen b h1 h2 h3
      cases bars with
      | nil => simp at hlen
      | cons c bs =>
        cases b with
        | zero =>
          have : c = true := by simpa using h1
          simp [toBarlineLoop, this, sumBetween_self]
        | succ b =>
          have hc : c = false := by simpa using h2 0 (by omega)
          subst hc
          simp only [List.zip_cons_cons, toBarlineLoop]
          rw [ih bs (by simpa using hlen) b (by simpa using h1) (fun k hk => by simpa using h2 (k + 1) (by omega)) (by simpa using h3)]
          rw [sumBetween_cons_zero]
          simp
          ring
  unfold toBarline
  have hble : b ≤ durs.length := by
    rcases hb.2.1 with h | h
    · omega
    · obtain ⟨h, _⟩ := List.getElem?_eq_some_iff.1 h; omega
  clear hi
  induction durs generalizing bars i b with
  | nil => have := hb.1; simp at hble; omega
  | cons d ds ih =>
    cases bars with
    | nil => simp at hlen
    | cons c bs =>
      obtain ⟨h1, h2, h3⟩ := hb
      have hlen' : ds.length = bs.length := by simpa using hlen
      cases b with
      | zero => omega
      | succ b =>
        cases i with
        | zero =>
          simp only [List.zip_cons_cons, toBarlineLoop, List.getElem?_cons_zero]
          rw [sumKey ds bs hlen' b (by simpa using h2) (fun k hk => by simpa using h3 (k + 1) (by omega) (by omega)) (by simpa using hble)]
          rw [sumBetween_cons_zero, add_comm]
        | succ i =>
          simp only [List.zip_cons_cons, toBarlineLoop, List.getElem?_cons_succ]
          rw [sumBetween_cons_succ]
          refine ih bs hlen' i b ⟨by omega, by simpa using h2, ?_⟩ (by simpa using hble)
          intro k hk1 hk2
          simpa using h3 (k + 1) (by omega) (by omega)

/-- Between two lines in order, the sum of the durations is the difference of the times. -/
theorem sumBetween_times (l : List Rat) (h : NonDecreasing l) (a b : Nat) (s t : Rat) (hab : a ≤ b)
    (hs : l[a]? = some s) (ht : l[b]? = some t) : sumBetween (assignLineDurations l) a b = t - s := by
  induction b generalizing t with
  | zero =>
    have : a = 0 := by omega
    subst this
    rw [hs] at ht; cases ht
    simp [sumBetween_self]
  | succ b ih =>
    rcases Nat.lt_or_ge b a with hlt | hge
    · have : a = b + 1 := by omega
      subst this
      rw [hs] at ht; cases ht
      simp [sumBetween_self]
    · obtain ⟨hlt, e⟩ := List.getElem?_eq_some_iff.1 ht
      have hb : l[b]? = some l[b] := List.getElem?_eq_getElem (by omega)
      have := ih l[b] hge hb
      have hd := lineDurations_get l b _ hb
      rw [ht] at hd
      have tele := (times_telescope_partial l h).1 b _ _ t hb hd ht
      have split : sumBetween (assignLineDurations l) a (b + 1) =
          sumBetween (assignLineDurations l) a b + max 0 (t - l[b]) := by
        unfold sumBetween
        rw [List.take_add_one, hd, List.drop_append_of_le_length]
        · simp
        · rw [List.length_take, lineDurations_length]; omega
      rw [split, this]
      linarith

/-- C20. In terms of times: the position of a line in its measure is its time minus the time of the first line
of the measure, the distance to the end of the measure the time of the next barline minus its own, and the sum of
the two (`barlineDuration`) the duration of the measure. -/
theorem measure_times (l : List Rat) (h : NonDecreasing l) (bars : List Bool) (hlen : l.length = bars.length)
    (i a b : Nat) (ha : MeasureStart bars i a) (hb : MeasureEnd bars i b) (s t u : Rat)
    (hs : l[a]? = some s) (ht : l[i]? = some t) (hu : l[min b (l.length - 1)]? = some u) :
    (fromBarline 0 ((assignLineDurations l).zip bars))[i]? = some (t - s) ∧
    (toBarline ((assignLineDurations l).zip bars))[i]? = some (u - t) ∧
    ∀ c, bars[i]? = some c → barlineDuration c (t - s) (u - t) = if c then u - t else u - s := by
  have hi : i < l.length := (List.getElem?_eq_some_iff.1 ht).1
  have hL := lineDurations_length l
  refine ⟨?_, ?_, ?_⟩
  · rw [fromBarline_spec _ _ (by omega) i a (by omega) ha, sumBetween_times l h a i s t ha.1 hs ht]
  · rw [toBarline_spec _ _ (by omega) i b (by omega) hb]
    rcases Nat.lt_or_ge b l.length with hlt | hge
    · rw [show min b (l.length - 1) = b by omega] at hu
      rw [sumBetween_times l h i b t u (by have := hb.1; omega) ht hu]
    · have hbl : b = l.length := by
        rcases hb.2.1 with h | h
        · omega
        · obtain ⟨h, _⟩ := List.getElem?_eq_some_iff.1 h; omega
      rw [show min b (l.length - 1) = l.length - 1 by omega] at hu
      have := sumBetween_times l h i (l.length - 1) t u (by omega) ht hu
      rw [← this]
      congr 1
      unfold sumBetween
      have hlast := lineDurations_get l (l.length - 1) u hu
      rw [show l.length - 1 + 1 = l.length by omega, List.getElem?_eq_none (le_refl _)] at hlast
      have e : (assignLineDurations l).take b = (assignLineDurations l).take (l.length - 1) ++ [0] := by
        rw [show b = l.length - 1 + 1 by omega, List.take_add_one, hlast]; rfl
      rw [e, List.drop_append_of_le_length]
      · simp
      · rw [List.length_take, hL]; omega
  · intro c _
    unfold barlineDuration
    cases c with
    | true => simp
    | false => simp

example : MeasureStart [false, true, false, false, true, false] 3 2 ∧
    MeasureEnd [false, true, false, false, true, false] 3 4 := by
  refine ⟨⟨by omega, .inr rfl, ?_⟩, ⟨by omega, .inr rfl, ?_⟩⟩
  · intro k h1 h2
    have : k = 2 := by omega
    subst this; rfl
  · intro k h1 h2; omega

end C21
