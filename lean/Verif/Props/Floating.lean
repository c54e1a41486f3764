import Verif.Props.RhythmFile
/-
C62: spines that begin later. Also the barline table and the length of a score timed by its **recip spine.
-/
namespace C21

theorem findKnown_leads (F : RFile) (start : Nat → Rat) (fuel : Nat) : ∀ (t : TokId) (sum : Rat) (T d : Rat),
    findKnown F start fuel t sum = some (T, d) →
    ∃ last, LeadsTo F.dur F.next start t (d - sum) last ∧ start last.1 = T := by
  induction fuel with
  | zero => intro t sum T d h; simp [findKnown] at h
  | succ fuel ih =>
    intro t sum T d h
    unfold findKnown at h
    by_cases hk : start t.1 ≥ 0
    · rw [if_pos hk] at h
      cases h
      exact ⟨t, by rw [sub_self]; exact .here hk, rfl⟩
    · rw [if_neg hk] at h
      cases hn : F.next t with
      | nil => rw [hn] at h; cases h
      | cons b bs =>
        rw [hn] at h
        obtain ⟨last, h1, h2⟩ := ih b _ T d h
        refine ⟨last, ?_, h2⟩
        have := LeadsTo.later (not_le.1 hk) hn h1
        rw [endTime_eq] at this
        convert this using 1
        ring

/-- The search finds what is there, if it is given the length of the way. -/
theorem leads_unique {dur : TokId → Rat} {next : TokId → List TokId} {start : Nat → Rat} {t : TokId} {d d' : Rat} {l l' : TokId}
    (h : LeadsTo dur next start t d l) (h' : LeadsTo dur next start t d' l') : d = d' ∧ l = l' := by
  induction h generalizing d' l' with
  | here hk =>
    cases h' with
    | here _ => exact ⟨rfl, rfl⟩
    | later hk' _ _ => exact absurd hk (not_le.2 hk')
  | later hk hn _ ih =>
    cases h' with
    | here hk' => exact absurd hk' (not_le.2 hk)
    | later _ hn' h2 =>
      rw [hn] at hn'
      cases hn'
      obtain ⟨a, b⟩ := ih h2
      exact ⟨by rw [a], b⟩

/-- C62. A spine that begins after the start of the file is timed so that it reaches the first line whose time is
already known (following first links) at that time; its tokens then follow each other as in any spine. `arr`
extends the times the tokens visited before had. Missing: the line found must not be at time 0
(`floating_at_zero_rejected`), and the spine may not begin before time 0. -/
theorem floating_sound_partial (F : RFile) (hF : StopsApart F) (fuel : Nat) (t : TokId) (S S' : RState)
    (arr : TokId → Rat) (hS : SInv F arr S) (h : visitFloating F fuel t S = .ok S') :
    ∃ d last, LeadsTo F.dur F.next S.start t d last ∧ S.start last.1 ≠ 0 ∧
      (0 ≤ S.start last.1 - d → ∃ arr', Grown F [t] (S.start last.1 - d) arr S arr' S') := by
  unfold visitFloating at h
  cases hk : findKnown F S.start fuel t 0 with
  | none => rw [hk] at h; cases h
  | some r =>
    obtain ⟨T, d⟩ := r
    rw [hk] at h
    simp only at h
    obtain ⟨last, h1, h2⟩ := findKnown_leads F S.start fuel t 0 T d hk
    rw [sub_zero] at h1
    by_cases h0 : T = 0
    · rw [if_pos h0] at h; cases h
    · rw [if_neg h0] at h
      refine ⟨d, last, h1, by rw [h2]; exact h0, ?_⟩
      intro hp
      rw [h2] at hp ⊢
      exact visit_sound F hF fuel t (T - d) S S' arr hp hS h

/-- With no line of known time on the way there is an error. -/
theorem floating_unlinked (F : RFile) (fuel : Nat) (t : TokId) (S : RState)
    (h : ∀ d last, ¬ LeadsTo F.dur F.next S.start t d last) : visitFloating F fuel t S = .error .humdrumSyntax := by
  unfold visitFloating
  cases hk : findKnown F S.start fuel t 0 with
  | none => rfl
  | some r =>
    obtain ⟨last, h1, _⟩ := findKnown_leads F S.start fuel t 0 r.1 r.2 hk
    exact absurd h1 (h _ _)

/-- A way through lines without known time is found, if the search is given enough steps. -/
theorem findKnown_of_leads (F : RFile) (start : Nat → Rat) (t : TokId) (d : Rat) (last : TokId)
    (h : LeadsTo F.dur F.next start t d last) : ∃ n, ∀ fuel, n ≤ fuel → ∀ sum,
      findKnown F start fuel t sum = some (start last.1, sum + d) := by
  induction h with
  | here hk =>
    refine ⟨1, ?_⟩
    intro fuel hf sum
    obtain ⟨f, rfl⟩ : ∃ f, fuel = f + 1 := ⟨fuel - 1, by omega⟩
    unfold findKnown
    rw [if_pos hk, add_zero]
  | later hk hn _ ih =>
    obtain ⟨n, ih⟩ := ih
    refine ⟨n + 1, ?_⟩
    intro fuel hf sum
    obtain ⟨f, rfl⟩ : ∃ f, fuel = f + 1 := ⟨fuel - 1, by omega⟩
    unfold findKnown
    rw [if_neg (not_le.2 hk), hn]
    simp only
    rw [ih f (by omega), endTime_eq, add_assoc]

/-- A spine added in the second measure: its half note starts at the time of that measure. -/
theorem floating_example :
    (analyzeRhythm (fileOf ["**kern", "4c", "*+", "*\t**kern", "4d\t2e", "4f\t.", "*-\t*-"])).toOption.map (fun R => R.start)
      = some [0, 0, 1, 1, 1, 2, 3] := by decide +kernel

/-- A spine added before the first note is rejected, although its start is known: the code takes time 0 for
"not found". -/
theorem floating_at_zero_rejected :
    (analyzeRhythm (fileOf ["**kern", "*+", "*\t**kern", "4d\t4e", "*-\t*-"])).toOption = none := by decide +kernel

/-! ### The barline table -/

/-- The lines of barlines, counted from `i`. -/
def barIndices (i : Nat) (facts : List LineFacts) : List Nat :=
  (facts.zipIdx i).filterMap (fun p => if p.1.isBarline then some p.2 else none)

theorem barlineTable_found (facts : List LineFacts) : ∀ i, barlineTable i true facts = barIndices i facts := by
  induction facts with
  | nil => intro i; rfl
  | cons l ls ih =>
    intro i
    unfold barlineTable barIndices
    simp only [List.zipIdx_cons, List.filterMap_cons]
    by_cases hb : l.isBarline = true
    · rw [if_pos hb]; simp only [hb, if_true]; rw [ih]; rfl
    · rw [if_neg hb]; simp only [Bool.not_true, Bool.and_false, Bool.false_eq_true, if_false, hb]; rw [ih]; rfl

/-- C20. The measures of a file start at its barlines, in order, and at line 0 if data comes before the first of them. -/
theorem barlineTable_spec (facts : List LineFacts) :
    barlineTable 0 false facts =
      (if (facts.takeWhile (fun l => !l.isBarline)).any (·.isData) then 0 :: barIndices 0 facts else barIndices 0 facts) := by
  suffices H : ∀ i, barlineTable i false facts =
      (if (facts.takeWhile (fun l => !l.isBarline)).any (·.isData) then 0 :: barIndices i facts else barIndices i facts) from H 0
  induction facts with
  | nil => intro i; rfl
  | cons l ls ih =>
    intro i
    unfold barlineTable
    by_cases hb : l.isBarline = true
    · rw [if_pos hb, barlineTable_found]
      simp [List.takeWhile_cons, hb, barIndices, List.zipIdx_cons]
    · have hbi : barIndices i (l :: ls) = barIndices (i + 1) ls := by
        simp [barIndices, List.zipIdx_cons, hb]
      rw [if_neg hb, hbi]
      by_cases hd : l.isData = true
      · simp [hd, hb, barlineTable_found]
      · simp only [hd, Bool.false_and, Bool.false_eq_true, if_false]
        rw [ih]
        simp [hb, hd]

example : barlineTable 0 false [⟨true, false, true, false⟩, ⟨true, true, false, false⟩, ⟨true, false, true, false⟩] = [0, 1] := by
  decide

/-- C19. The length of a score timed by running sums is the sum of its line durations. -/
theorem running_score (ds : List Rat) (hne : ds ≠ []) :
    scoreDuration (runningStarts 0 ds).1 (runningStarts 0 ds).2 = (runningStarts 0 ds).2.sum := by
  suffices H : ∀ (ds : List Rat), ds ≠ [] → ∀ t, ∃ s d, (runningStarts t ds).1.getLast? = some s ∧
      (runningStarts t ds).2.getLast? = some d ∧ s + d = t + (runningStarts t ds).2.sum by
    obtain ⟨s, d, h1, h2, h3⟩ := H ds hne 0
    unfold scoreDuration
    rw [h1, h2]
    simpa using h3
  intro ds
  induction ds with
  | nil => intro h; exact absurd rfl h
  | cons d ds ih =>
    intro _ t
    cases ds with
    | nil => exact ⟨t, _, rfl, rfl, by simp [runningStarts]⟩
    | cons e es =>
      obtain ⟨s, x, h1, h2, h3⟩ := ih (by simp) (t + (if d < 0 then clampDuration 0 else d))
      refine ⟨s, x, ?_, ?_, ?_⟩
      · conv_lhs => unfold runningStarts
        simp only
        rw [List.getLast?_cons, h1]; rfl
      · conv_lhs => unfold runningStarts
        simp only
        rw [List.getLast?_cons, h2]; rfl
      · rw [h3]
        conv_rhs => unfold runningStarts
        simp only [List.sum_cons]
        ring

example : scoreDuration (runningStarts 0 [0, 1, 1/2, -1]).1 (runningStarts 0 [0, 1, 1/2, 2]).2 = 7/2 := by decide +kernel

/-- A line counts as empty when it has spines and every token of a type with rhythm on it is null. -/
theorem lineFacts_allNull (types : Nat → Nat → Str) (i : Nat) (l : Line) :
    (lineFacts types i l).allNull = true ↔ l.hasSpines = true ∧
      ∀ (j : Nat) tok, l.tokens[j]? = some tok →
        types i j ∈ ["**kern".toList, "**recip".toList, "**mens".toList] →
        tok ∈ [".".toList, "*".toList, "!".toList] := by
  unfold lineFacts
  simp only [Bool.and_eq_true, List.all_eq_true, and_congr_right_iff]
  intro _
  constructor
  · intro h j tok hj hty
    have := h (tok, j) (by
      rw [List.mem_zipIdx_iff_getElem?]; exact hj)
    simp only [hasRhythm, tokIsNull] at this
    simp only [List.mem_cons, List.not_mem_nil, or_false] at hty ⊢
    simp only [Bool.or_eq_true, Bool.not_eq_true', Bool.or_eq_false_iff, beq_iff_eq, beq_eq_false_iff_ne] at this
    tauto
  · rintro h ⟨tok, j⟩ hp
    rw [List.mem_zipIdx_iff_getElem?] at hp
    have := h j tok hp
    simp only [hasRhythm, tokIsNull]
    simp only [List.mem_cons, List.not_mem_nil, or_false] at this
    by_cases hty : types i j = "**kern".toList ∨ types i j = "**recip".toList ∨ types i j = "**mens".toList
    · have h2 := this hty
      rcases h2 with h2 | h2 | h2 <;> simp [h2]
    · push Not at hty
      simp only [Bool.or_eq_true, Bool.not_eq_true', Bool.or_eq_false_iff, beq_iff_eq, beq_eq_false_iff_ne]
      tauto

/-- A line with words only is empty for the rhythm. -/
example : (lineFacts (fun _ j => if j = 0 then "**kern".toList else "**text".toList) 3
    (createTokensFromLine ".\tword".toList)).allNull = true := by decide

end C21
