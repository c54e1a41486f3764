import Verif.Model.Pitch
import Verif.Spec.Pitch
import Verif.Lemmas.Recip
/-
Property theorems for pitch conversion (C08, C09, C10, C58).
-/
namespace C21

/-! ### Helper lemmas -/

theorem inert_facts {c : Char} (h : c ∉ "abcdefgABCDEFGr#- ".toList) :
    c ≠ ' ' ∧ c ≠ 'r' ∧ c ≠ '#' ∧ c ≠ '-' ∧ diatonicOf c = none ∧ c ∉ "ABCDEFG".toList ∧
      c ∉ "abcdefg".toList := by
  simp only [show ("abcdefgABCDEFGr#- ".toList) = ['a','b','c','d','e','f','g','A','B','C','D','E','F','G','r','#','-',' '] from rfl] at h
  simp only [List.mem_cons, not_or] at h
  refine ⟨by tauto, by tauto, by tauto, by tauto, ?_, ?_, ?_⟩
  · unfold diatonicOf
    simp [h]
  · show c ∉ ['A','B','C','D','E','F','G']
    simp [h]
  · show c ∉ ['a','b','c','d','e','f','g']
    simp [h]

theorem acc_skip (pre s : Str) (h : PitchInert pre) :
    kernToAccidentalCount (pre ++ s) = kernToAccidentalCount s := by
  induction pre with
  | nil => rfl
  | cons c cs ih =>
    obtain ⟨h1, _, h3, h4, _⟩ := inert_facts (h c (by simp))
    simp only [List.cons_append, kernToAccidentalCount, h1, h3, h4, if_false]
    exact ih (fun x hx => h x (by simp [hx]))

theorem acc_tail (suf chord : Str) (h : PitchInert suf) (hc : MoreNotes chord) :
    kernToAccidentalCount (suf ++ chord) = 0 := by
  rw [acc_skip _ _ h]
  rcases hc with rfl | ⟨t, rfl⟩
  · rfl
  · simp [kernToAccidentalCount]

theorem acc_sharps (n : Nat) (s : Str) :
    kernToAccidentalCount (List.replicate n '#' ++ s) = n + kernToAccidentalCount s := by
  induction n with
  | zero => simp
  | succ k ih =>
    simp only [List.replicate_succ, List.cons_append, kernToAccidentalCount]
    rw [ih]; simp; omega

theorem acc_flats (n : Nat) (s : Str) :
    kernToAccidentalCount (List.replicate n '-' ++ s) = -(n : Int) + kernToAccidentalCount s := by
  induction n with
  | zero => simp
  | succ k ih =>
    simp only [List.replicate_succ, List.cons_append, kernToAccidentalCount]
    rw [ih]; simp; omega

theorem acc_letters (n : Nat) (c : Char) (s : Str) (h : c ≠ ' ' ∧ c ≠ '-' ∧ c ≠ '#') :
    kernToAccidentalCount (List.replicate n c ++ s) = kernToAccidentalCount s := by
  induction n with
  | zero => rfl
  | succ k ih => simp [List.replicate_succ, kernToAccidentalCount, h.1, h.2.1, h.2.2, ih]

theorem dia_skip (pre s : Str) (h : PitchInert pre) :
    kernToDiatonicPC (pre ++ s) = kernToDiatonicPC s := by
  induction pre with
  | nil => rfl
  | cons c cs ih =>
    obtain ⟨h1, h2, _, _, h5, _⟩ := inert_facts (h c (by simp))
    simp only [List.cons_append, kernToDiatonicPC, h1, h2, h5, if_false]
    exact ih (fun x hx => h x (by simp [hx]))

theorem oct_skip (pre s : Str) (uc lc : Nat) (h : PitchInert pre) :
    octaveLoop uc lc (pre ++ s) = octaveLoop uc lc s := by
  induction pre with
  | nil => rfl
  | cons c cs ih =>
    obtain ⟨h1, h2, _, _, _, h6, h7⟩ := inert_facts (h c (by simp))
    simp only [List.cons_append, octaveLoop, h1, h2, h6, h7, if_false]
    exact ih (fun x hx => h x (by simp [hx]))

theorem oct_tail (suf chord : Str) (uc lc : Nat) (h : PitchInert suf) (hc : MoreNotes chord) :
    octaveLoop uc lc (suf ++ chord) = some (uc, lc) := by
  rw [oct_skip _ _ _ _ h]
  rcases hc with rfl | ⟨t, rfl⟩
  · rfl
  · simp [octaveLoop]

theorem oct_accs (n : Nat) (c : Char) (s : Str) (uc lc : Nat) (h : c = '#' ∨ c = '-') :
    octaveLoop uc lc (List.replicate n c ++ s) = octaveLoop uc lc s := by
  induction n with
  | zero => rfl
  | succ k ih =>
    simp only [List.replicate_succ, List.cons_append, octaveLoop]
    rcases h with rfl | rfl <;> simp [ih]

theorem oct_lower (n : Nat) (i : Fin 7) (s : Str) (uc lc : Nat) :
    octaveLoop uc lc (List.replicate n (stepLower i) ++ s) = octaveLoop uc (lc + n) s := by
  have hc : ∀ i : Fin 7, stepLower i ≠ ' ' ∧ stepLower i ≠ 'r' ∧ stepLower i ∉ "ABCDEFG".toList ∧
      stepLower i ∈ "abcdefg".toList := by decide
  obtain ⟨h1, h2, h3, h4⟩ := hc i
  induction n generalizing lc with
  | zero => rfl
  | succ k ih =>
    simp only [List.replicate_succ, List.cons_append, octaveLoop, h1, h2, h3, h4, if_false, if_true]
    rw [ih, Nat.add_assoc, Nat.add_comm 1 k]

theorem oct_upper (n : Nat) (i : Fin 7) (s : Str) (uc lc : Nat) :
    octaveLoop uc lc (List.replicate n (stepUpper i) ++ s) = octaveLoop (uc + n) lc s := by
  have hc : ∀ i : Fin 7, stepUpper i ≠ ' ' ∧ stepUpper i ≠ 'r' ∧ stepUpper i ∈ "ABCDEFG".toList ∧
      stepUpper i ∉ "abcdefg".toList := by decide
  obtain ⟨h1, h2, h3, h4⟩ := hc i
  induction n generalizing uc with
  | zero => rfl
  | succ k ih =>
    simp only [List.replicate_succ, List.cons_append, octaveLoop, h1, h2, h3, h4, if_false, if_true]
    rw [ih, Nat.add_assoc, Nat.add_comm 1 k]

/-- The three readings of a token holding one pitch (or a chord with that pitch first). -/
theorem kern_readings (p : Pitch) (pre suf chord : Str) (hp : PitchInert pre) (hs : PitchInert suf)
    (hc : MoreNotes chord) :
    kernToDiatonicPC (pre ++ p.kern ++ suf ++ chord) = p.step.val ∧
    kernToAccidentalCount (pre ++ p.kern ++ suf ++ chord) = p.alter ∧
    kernToOctaveNumber (pre ++ p.kern ++ suf ++ chord) = p.octave := by
  obtain ⟨i, o, a⟩ := p
  have hL : ∀ i : Fin 7, diatonicOf (stepLower i) = some (i.val : Int) ∧ diatonicOf (stepUpper i) = some (i.val : Int) ∧
      stepLower i ≠ ' ' ∧ stepLower i ≠ '-' ∧ stepLower i ≠ '#' ∧ stepLower i ≠ 'r' ∧ stepLower i ≠ '.' ∧
      stepUpper i ≠ ' ' ∧ stepUpper i ≠ '-' ∧ stepUpper i ≠ '#' ∧ stepUpper i ≠ 'r' ∧ stepUpper i ≠ '.' := by
    decide
  obtain ⟨d1, d2, l1, l2, l3, l4, l5, u1, u2, u3, u4, u5⟩ := hL i
  -- the letters
  obtain ⟨L, n, hn, hLd, hL1, hL2, hL3, hL4, hL5, hkern, hoct⟩ : ∃ (L : Char) (n : Nat), n > 0 ∧
      diatonicOf L = some (i.val : Int) ∧ L ≠ ' ' ∧ L ≠ '-' ∧ L ≠ '#' ∧ L ≠ 'r' ∧ L ≠ '.' ∧
      (Pitch.kern ⟨i, o, a⟩ = List.replicate n L ++
        (if a ≥ 0 then List.replicate a.toNat '#' else List.replicate (-a).toNat '-')) ∧
      (∀ s uc lc, octaveLoop uc lc (List.replicate n L ++ s) =
        if o ≥ 4 then octaveLoop uc (lc + (o - 3).toNat) s else octaveLoop (uc + (4 - o).toNat) lc s) := by
    by_cases ho : o ≥ 4
    · refine ⟨stepLower i, (o - 3).toNat, by omega, d1, l1, l2, l3, l4, l5, by simp [Pitch.kern, ho], ?_⟩
      intro s uc lc; rw [oct_lower, if_pos ho]
    · refine ⟨stepUpper i, (4 - o).toNat, by omega, d2, u1, u2, u3, u4, u5, by simp [Pitch.kern, ho], ?_⟩
      intro s uc lc; rw [oct_upper, if_neg ho]
  rw [hkern]
  obtain ⟨k, rfl⟩ : ∃ k, n = k + 1 := ⟨n - 1, by omega⟩
  refine ⟨?_, ?_, ?_⟩
  · simp only [List.append_assoc]
    rw [dia_skip _ _ hp]
    simp [List.replicate_succ, kernToDiatonicPC, hL1, hL4, hLd]
  · simp only [List.append_assoc]
    rw [acc_skip _ _ hp, acc_letters _ _ _ ⟨hL1, hL2, hL3⟩]
    by_cases ha : a ≥ 0
    · rw [if_pos ha, acc_sharps, acc_tail _ _ hs hc]; simp; omega
    · rw [if_neg ha, acc_flats, acc_tail _ _ hs hc]; simp; omega
  · unfold kernToOctaveNumber
    have hne : ¬ (pre ++ (List.replicate (k + 1) L ++
        (if a ≥ 0 then List.replicate a.toNat '#' else List.replicate (-a).toNat '-')) ++ suf ++ chord = ".".toList) := by
      intro e
      have : L ∈ ".".toList := by rw [← e]; simp [List.replicate_succ]
      have : L = '.' := by simpa using this
      exact hL5 this
    rw [if_neg hne]
    simp only [List.append_assoc]
    rw [oct_skip _ _ _ _ hp, hoct]
    have hacc : ∀ uc lc, octaveLoop uc lc ((if a ≥ 0 then List.replicate a.toNat '#' else List.replicate (-a).toNat '-')
        ++ (suf ++ chord)) = some (uc, lc) := by
      intro uc lc
      by_cases ha : a ≥ 0
      · rw [if_pos ha, oct_accs _ _ _ _ _ (Or.inl rfl), oct_tail _ _ _ _ hs hc]
      · rw [if_neg ha, oct_accs _ _ _ _ _ (Or.inr rfl), oct_tail _ _ _ _ hs hc]
    simp only [hacc]
    show (match (if o ≥ 4 then some (0, 0 + (o - 3).toNat) else some (0 + (4 - o).toNat, 0) : Option (Nat × Nat)) with
      | none => (-1000 : Int)
      | some (uc, lc) =>
        if uc > 0 ∧ lc > 0 then -1000
        else if uc > 0 then 4 - uc
        else if lc > 0 then 3 + lc
        else -1000) = o
    by_cases ho : o ≥ 4
    · have : (o - 3).toNat > 0 := by omega
      rw [if_pos ho]
      dsimp only
      rw [if_neg (by omega), if_neg (by omega), if_pos (by omega)]; omega
    · have : (4 - o).toNat > 0 := by omega
      rw [if_neg ho]
      dsimp only
      rw [if_neg (by omega), if_pos (by omega)]; omega

/-! ## C09 -/

/-- C09. Diatonic number: for every spelling, octave and surrounding text. -/
theorem kern_base7 (p : Pitch) (pre suf chord : Str) (hp : PitchInert pre) (hs : PitchInert suf)
    (hc : MoreNotes chord) : kernToBase7 (pre ++ p.kern ++ suf ++ chord) = p.base7 := by
  obtain ⟨h1, _, h3⟩ := kern_readings p pre suf chord hp hs hc
  unfold kernToBase7
  rw [h1, h3]
  simp only [Pitch.base7]
  rw [if_neg (by omega)]; omega

/-- C09. MIDI number: for every spelling, octave and surrounding text. -/
theorem kern_midi (p : Pitch) (pre suf chord : Str) (hp : PitchInert pre) (hs : PitchInert suf)
    (hc : MoreNotes chord) : kernToMidiNoteNumber (pre ++ p.kern ++ suf ++ chord) = p.midi := by
  obtain ⟨h1, h2, h3⟩ := kern_readings p pre suf chord hp hs hc
  unfold kernToMidiNoteNumber kernToBase12PC
  rw [h1, h2, h3]
  obtain ⟨i, o, a⟩ := p
  have : ∀ i : Fin 7, (if ((i.val : Nat) : Int) < 0 then ((i.val : Nat) : Int) else
      ((if ((i.val : Nat) : Int) = 0 then 0 else if ((i.val : Nat) : Int) = 1 then 2
        else if ((i.val : Nat) : Int) = 2 then 4 else if ((i.val : Nat) : Int) = 3 then 5
        else if ((i.val : Nat) : Int) = 4 then 7 else if ((i.val : Nat) : Int) = 5 then 9
        else if ((i.val : Nat) : Int) = 6 then 11 else -1000))) = stepSemitones i := by decide
  have hi := this i
  have hnn : ¬ ((i.val : Nat) : Int) < 0 := by omega
  simp only [hnn, if_false] at hi ⊢
  simp only [Pitch.midi, hi]
  omega

/-- C09. Pitch class in semitones: step semitones plus alteration. -/
theorem kern_base12 (p : Pitch) (pre suf chord : Str) (hp : PitchInert pre) (hs : PitchInert suf)
    (hc : MoreNotes chord) :
    kernToBase12PC (pre ++ p.kern ++ suf ++ chord) = stepSemitones p.step + p.alter := by
  have h1 := kern_midi p pre suf chord hp hs hc
  obtain ⟨_, _, h3⟩ := kern_readings p pre suf chord hp hs hc
  unfold kernToMidiNoteNumber at h1
  rw [h3] at h1
  simp only [Pitch.midi] at h1
  omega

-- "(4ee-L 4gg" is E flat 5
example : kernToMidiNoteNumber "(4ee-L 4gg".toList = 75 ∧ (⟨2, 5, -1⟩ : Pitch).midi = 75 ∧
    "(4ee-L 4gg".toList = "(4".toList ++ (⟨2, 5, -1⟩ : Pitch).kern ++ "L".toList ++ " 4gg".toList := by decide
example : PitchInert "(4".toList ∧ PitchInert "L".toList ∧ MoreNotes " 4gg".toList :=
  ⟨by unfold PitchInert; decide, by unfold PitchInert; decide, Or.inr ⟨_, rfl⟩⟩

/-- C09. A rest token (an 'r' and no note letter) has no pitch number. -/
theorem kern_rest (pre suf : Str) (hp : PitchInert pre) : kernToBase7 (pre ++ 'r' :: suf) = -1000 := by
  unfold kernToBase7
  rw [dia_skip _ _ hp]
  simp [kernToDiatonicPC]

/-! ## C08 -/

/-- C08. The base-40 number of a spelling with at most two accidentals. -/
theorem kern_base40 (p : Pitch) (ha : -2 ≤ p.alter ∧ p.alter ≤ 2) (pre suf chord : Str)
    (hp : PitchInert pre) (hs : PitchInert suf) (hc : MoreNotes chord) :
    kernToBase40 (pre ++ p.kern ++ suf ++ chord) = p.base40 := by
  obtain ⟨h1, h2, h3⟩ := kern_readings p pre suf chord hp hs hc
  unfold kernToBase40 kernToBase40PC
  rw [h1, h2, h3]
  obtain ⟨i, o, a⟩ := p
  have : ∀ i : Fin 7, ((if ((i.val : Nat) : Int) = 0 then (0 : Int) else if ((i.val : Nat) : Int) = 1 then 6
        else if ((i.val : Nat) : Int) = 2 then 12 else if ((i.val : Nat) : Int) = 3 then 17
        else if ((i.val : Nat) : Int) = 4 then 23 else if ((i.val : Nat) : Int) = 5 then 29
        else if ((i.val : Nat) : Int) = 6 then 35 else -1000)) = stepBase40 i - 2 ∧ stepBase40 i ≥ 2 := by decide
  obtain ⟨hi, hi2⟩ := this i
  have hnn : ¬ ((i.val : Nat) : Int) < 0 := by omega
  simp only [hnn, if_false, hi, Pitch.base40]
  simp only at ha
  rw [if_neg (by omega)]; omega

/-- C08. Different spellings with at most two accidentals have different base-40 numbers. -/
theorem base40_injective (p q : Pitch) (hp : -2 ≤ p.alter ∧ p.alter ≤ 2) (hq : -2 ≤ q.alter ∧ q.alter ≤ 2)
    (h : p.base40 = q.base40) : p = q := by
  obtain ⟨i, o, a⟩ := p
  obtain ⟨j, o', a'⟩ := q
  simp only [Pitch.base40] at h hp hq
  have rng : ∀ i : Fin 7, 2 ≤ stepBase40 i ∧ stepBase40 i ≤ 37 := by decide
  have ri := rng i
  have rj := rng j
  have ho : o = o' := by omega
  subst ho
  have hs : stepBase40 i + a = stepBase40 j + a' := by omega
  have sep : ∀ i j : Fin 7, stepBase40 i - stepBase40 j ≤ 4 → stepBase40 j - stepBase40 i ≤ 4 → i = j := by decide
  have hij := sep i j (by omega) (by omega)
  subst hij
  have : a = a' := by omega
  subst this; rfl

/-- C08 (proved part). For spellings with at most two accidentals in octaves 0 to 16, the base-40 number
converts back to the spelling.
Missing: octaves below 0 (the code answers a wrong pitch, `base40_negative_wrong`); octaves above 16, which
are reported as errors (`base40_high_octave`). -/
theorem base40_roundtrip_partial (p : Pitch) (ha : -2 ≤ p.alter ∧ p.alter ≤ 2)
    (ho : 0 ≤ p.octave ∧ p.octave ≤ 16) : base40ToKern p.base40 = .ok p.kern := by
  obtain ⟨i, o, a⟩ := p
  simp only at ha ho
  have rng : ∀ i : Fin 7, 2 ≤ stepBase40 i ∧ stepBase40 i ≤ 37 := by decide
  have ri := rng i
  have hdiv : Pitch.base40 ⟨i, o, a⟩ / 40 = o := by simp only [Pitch.base40]; omega
  have hmod : Pitch.base40 ⟨i, o, a⟩ % 40 = stepBase40 i + a := by simp only [Pitch.base40]; omega
  have hnn : ¬ Pitch.base40 ⟨i, o, a⟩ < 0 := by simp only [Pitch.base40]; omega
  -- the 35 pitch classes
  obtain ⟨n, hn, rfl⟩ : ∃ n : Nat, n < 5 ∧ a = (n : Int) - 2 := ⟨(a + 2).toNat, by omega, by omega⟩
  have tab : ∀ (i : Fin 7) (n : Fin 5),
      accidentalTable[(stepBase40 i + ((n.val : Int) - 2)).toNat]? = some ((n.val : Int) - 2) := by decide
  have hacc : base40ToAccidental (Pitch.base40 ⟨i, o, (n : Int) - 2⟩) = (n : Int) - 2 := by
    unfold base40ToAccidental
    rw [if_neg hnn, hmod, tab i ⟨n, hn⟩]
  have tab2 : ∀ (i : Fin 7) (n : Fin 5),
      (let ch := stepBase40 i + ((n.val : Int) - 2)
       if 0 ≤ ch ∧ ch ≤ 4 then 0
       else if 6 ≤ ch ∧ ch ≤ 10 then 1
       else if 12 ≤ ch ∧ ch ≤ 16 then 2
       else if 17 ≤ ch ∧ ch ≤ 21 then 3
       else if 23 ≤ ch ∧ ch ≤ 27 then 4
       else if 29 ≤ ch ∧ ch ≤ 33 then 5
       else if 35 ≤ ch ∧ ch ≤ 39 then 6 else (-1 : Int)) = i.val := by decide
  have hdia : base40ToDiatonic (Pitch.base40 ⟨i, o, (n : Int) - 2⟩) % 7 = i.val := by
    unfold base40ToDiatonic
    rw [if_neg hnn]
    simp only [hmod, hdiv]
    have t := tab2 i ⟨n, hn⟩
    simp only at t
    have hi := i.isLt
    split
    · rename_i h; rw [if_pos h] at t; omega
    rename_i h; rw [if_neg h] at t
    split
    · rename_i h; rw [if_pos h] at t; omega
    rename_i h; rw [if_neg h] at t
    split
    · rename_i h; rw [if_pos h] at t; omega
    rename_i h; rw [if_neg h] at t
    split
    · rename_i h; rw [if_pos h] at t; omega
    rename_i h; rw [if_neg h] at t
    split
    · rename_i h; rw [if_pos h] at t; omega
    rename_i h; rw [if_neg h] at t
    split
    · rename_i h; rw [if_pos h] at t; omega
    rename_i h; rw [if_neg h] at t
    split
    · rename_i h; rw [if_pos h] at t; omega
    rename_i h; rw [if_neg h] at t
    omega
  have hlet : ∀ i : Fin 7, letterOf (i.val : Int) true = stepUpper i ∧ letterOf (i.val : Int) false = stepLower i := by
    decide
  obtain ⟨lu, ll⟩ := hlet i
  unfold base40ToKern
  simp only [hacc, hdia, hdiv]
  have hrep : ¬ ((if o > 4 then o - 4 else if o < 3 then 3 - o else (0 : Int)) > 12) := by
    split
    · omega
    · split <;> omega
  rw [if_neg hrep]
  have hbase : List.replicate (1 + (if o > 4 then o - 4 else if o < 3 then 3 - o else (0 : Int))).toNat
      (letterOf (i.val : Int) (decide (o < 4))) =
      (if o ≥ 4 then List.replicate (o - 3).toNat (stepLower i) else List.replicate (4 - o).toNat (stepUpper i)) := by
    by_cases h4 : o ≥ 4
    · have : decide (o < 4) = false := by simp; omega
      rw [this, ll, if_pos h4]
      congr 1
      split <;> [skip; split] <;> omega
    · have : decide (o < 4) = true := by simp; omega
      rw [this, lu, if_neg h4]
      congr 1
      split <;> [skip; split] <;> omega
  rw [hbase]
  simp only [Pitch.kern]
  by_cases h0 : (n : Int) - 2 > 0
  · rw [if_pos h0, if_pos (show (n : Int) - 2 ≥ 0 by omega)]
  · rw [if_neg h0]
    by_cases h1 : (n : Int) - 2 < 0
    · rw [if_pos h1, if_neg (show ¬ (n : Int) - 2 ≥ 0 by omega)]
    · rw [if_neg h1, if_pos (show (n : Int) - 2 ≥ 0 by omega)]
      have : ((n : Int) - 2).toNat = 0 := by omega
      rw [this]; simp

example : base40ToKern (Pitch.base40 ⟨0, 4, 1⟩) = .ok "c#".toList ∧
    kernToBase40 "8.c#L".toList = 163 := by decide

/-- C08. Kern to base-40 and back, in one statement. -/
theorem kern_base40_kern_partial (p : Pitch) (ha : -2 ≤ p.alter ∧ p.alter ≤ 2)
    (ho : 0 ≤ p.octave ∧ p.octave ≤ 16) (pre suf chord : Str)
    (hp : PitchInert pre) (hs : PitchInert suf) (hc : MoreNotes chord) :
    base40ToKern (kernToBase40 (pre ++ p.kern ++ suf ++ chord)) = .ok p.kern := by
  rw [kern_base40 p ha pre suf chord hp hs hc, base40_roundtrip_partial p ha ho]

/-- C08. Octaves above 16 are errors. -/
theorem base40_high_octave (b : Int) (h : b ≥ 40 * 17) : base40ToKern b = .error .humdrumInternal := by
  have h1 : b / 40 > 16 := by omega
  unfold base40ToKern
  simp only
  rw [if_pos]
  rw [if_pos (by omega)]; omega

/-- C08, the part that is false: a pitch below octave 0 comes back as a different pitch. -/
theorem base40_negative_wrong :
    kernToBase40 "CCCCC".toList = -38 ∧ base40ToKern (-38) = .ok "BBBBB".toList := by decide

/-- C08, the part that is false: the empty slots of the base-40 system are not reported as errors; they
become a B with a thousand sharps. -/
theorem base40_empty_slot_wrong (o : Int) (ho : 0 ≤ o ∧ o ≤ 16) (slot : Int)
    (hs : slot ∈ [5, 11, 22, 28, 34]) :
    ∃ letters, base40ToKern (40 * o + slot) = .ok (letters ++ List.replicate 1000 '#') ∧
      (∀ c ∈ letters, c = 'b' ∨ c = 'B') := by
  have hr : ∀ s ∈ ([5, 11, 22, 28, 34] : List Int), 0 ≤ s ∧ s < 40 ∧ accidentalTable[s.toNat]? = some 1000 ∧
      ¬ (0 ≤ s ∧ s ≤ 4) ∧ ¬ (6 ≤ s ∧ s ≤ 10) ∧ ¬ (12 ≤ s ∧ s ≤ 16) ∧ ¬ (17 ≤ s ∧ s ≤ 21) ∧
      ¬ (23 ≤ s ∧ s ≤ 27) ∧ ¬ (29 ≤ s ∧ s ≤ 33) ∧ ¬ (35 ≤ s ∧ s ≤ 39) := by decide
  obtain ⟨h0, h1, hA, a1, a2, a3, a4, a5, a6, a7⟩ := hr slot hs
  have hdiv : (40 * o + slot) / 40 = o := by omega
  have hmod : (40 * o + slot) % 40 = slot := by omega
  have hnn : ¬ (40 * o + slot) < 0 := by omega
  have hacc : base40ToAccidental (40 * o + slot) = 1000 := by
    unfold base40ToAccidental; rw [if_neg hnn, hmod, hA]
  have hdia : base40ToDiatonic (40 * o + slot) % 7 = 6 := by
    unfold base40ToDiatonic
    rw [if_neg hnn]
    simp only [hmod, a1, a2, a3, a4, a5, a6, a7, if_false]; decide
  unfold base40ToKern
  simp only [hacc, hdia, hdiv]
  have hrep : ¬ ((if o > 4 then o - 4 else if o < 3 then 3 - o else (0 : Int)) > 12) := by
    split
    · omega
    · split <;> omega
  rw [if_neg hrep, if_pos (by decide)]
  refine ⟨_, rfl, ?_⟩
  intro c hc
  have := List.eq_of_mem_replicate hc
  cases hd : decide (o < 4) <;> rw [hd] at this <;> simp [letterOf] at this <;> simp [this]

/-- C09. Diatonic numbers and **kern spellings are inverse in octaves 0 to 16. -/
theorem base7_roundtrip (i : Fin 7) (o : Int) (ho : 0 ≤ o ∧ o ≤ 16) :
    base7ToKern (Pitch.base7 ⟨i, o, 0⟩) = .ok (Pitch.kern ⟨i, o, 0⟩) := by
  have h1 : base7ToBase40 (Pitch.base7 ⟨i, o, 0⟩) = Pitch.base40 ⟨i, o, 0⟩ := by
    have hi := i.isLt
    have hdiv : Pitch.base7 ⟨i, o, 0⟩ / 7 = o := by simp only [Pitch.base7]; omega
    have hmod : Pitch.base7 ⟨i, o, 0⟩ % 7 = i.val := by simp only [Pitch.base7]; omega
    have tab : ∀ i : Fin 7, (if ((i.val : Nat) : Int) = 0 then (0 : Int) else if ((i.val : Nat) : Int) = 1 then 6
        else if ((i.val : Nat) : Int) = 2 then 12 else if ((i.val : Nat) : Int) = 3 then 17
        else if ((i.val : Nat) : Int) = 4 then 23 else if ((i.val : Nat) : Int) = 5 then 29
        else if ((i.val : Nat) : Int) = 6 then 35 else 0) = stepBase40 i - 2 := by decide
    unfold base7ToBase40
    simp only [hdiv, hmod, tab i]
    simp only [Pitch.base40]; omega
  unfold base7ToKern
  rw [h1]
  exact base40_roundtrip_partial ⟨i, o, 0⟩ (by simp) ho

/-! ## C10 -/

theorem signedInt_intStr (i : Int) (rest : Str) (hr : ∀ c, rest.head? = some c → isDig c = false) :
    signedInt (intStr i ++ rest) = some (i, rest) := by
  have key : ∀ n : Nat, (natStr n ++ rest).takeWhile isDig = natStr n ∧
      (natStr n ++ rest).dropWhile isDig = rest := fun n =>
    ⟨takeWhile_all_append _ _ (natStr_isDig n) hr, dropWhile_all_append _ _ (natStr_isDig n) hr⟩
  unfold intStr
  by_cases h : i < 0
  · rw [if_pos h]
    obtain ⟨x, xs, hx⟩ := List.exists_cons_of_ne_nil (natStr_ne_nil i.natAbs)
    have hk := key i.natAbs
    have hp := parse_natStr i.natAbs
    rw [hx] at hk hp
    simp only [hx, List.cons_append] at hk ⊢
    unfold signedInt
    simp only [hk.1, hk.2, hp]
    congr 2; omega
  · rw [if_neg h]
    obtain ⟨x, xs, hx⟩ := List.exists_cons_of_ne_nil (natStr_ne_nil i.natAbs)
    have hd : isDig x = true := natStr_isDig i.natAbs x (by rw [hx]; simp)
    have hk := key i.natAbs
    have hp := parse_natStr i.natAbs
    rw [hx] at hk hp
    have n1 : x ≠ '+' := by rintro rfl; revert hd; decide
    have n2 : x ≠ '-' := by rintro rfl; revert hd; decide
    simp only [hx, List.cons_append] at hk ⊢
    unfold signedInt
    split
    · next e => simp at e; exact absurd e.1 n1
    · next e => simp at e; exact absurd e.1 n2
    · simp only [hk.1, hk.2, hp]
      congr 2; omega

/-- C10. Reading a transposition string gives back both numbers, for every pair of integers, after any
prefix without a 'd' (such as "*Tr" and "*ITr") and before any text that does not start with a digit. -/
theorem trans_roundtrip (d c : Int) (pre suf : Str) (hp : 'd' ∉ pre)
    (hs : ∀ x, suf.head? = some x → isDig x = false) :
    transToDiatonicChromatic (pre ++ diatonicChromaticToTrans d c ++ suf) = some (d, c) := by
  induction pre with
  | nil =>
    have h1 : transHere (diatonicChromaticToTrans d c ++ suf) = some (d, c) := by
      simp only [diatonicChromaticToTrans, List.cons_append, List.append_assoc, transHere]
      rw [signedInt_intStr d ('c' :: (intStr c ++ suf)) (by intro x hx; simp at hx; subst hx; decide)]
      simp only
      rw [signedInt_intStr c suf hs]
      rfl
    simp only [List.nil_append]
    simp only [diatonicChromaticToTrans, List.cons_append] at h1 ⊢
    simp only [transToDiatonicChromatic, h1]
  | cons x xs ih =>
    have hx : x ≠ 'd' := by rintro rfl; simp at hp
    have : transHere (x :: (xs ++ diatonicChromaticToTrans d c ++ suf)) = none := by
      unfold transHere
      split
      · next e => simp at e; exact absurd e.1 hx
      · rfl
    simp only [List.cons_append, transToDiatonicChromatic, this]
    exact ih (by simp at hp; simp [hp])

example : transToDiatonicChromatic "*ITrd-1c-2".toList = some (-1, -2) := by decide

/-! ## C58: clefs -/

/-- The letter pitches that clefs mark: G4 on a G clef's line, F3 on an F clef's, C4 on a C clef's. -/
def clefPitch : List (Char × Pitch) := [('G', ⟨4, 4, 0⟩), ('F', ⟨3, 3, 0⟩), ('C', ⟨0, 4, 0⟩)]

/-- Octave displacement marks: none, v, vv, ^, ^^. -/
def clefShift : List (Str × Int) :=
  [([], 0), ("v".toList, -1), ("vv".toList, -2), ("^".toList, 1), ("^^".toList, 2)]

/-- C58. For every G, F and C clef on each of the five lines, displaced by up to two octaves either way, the
bottom line of the staff is two steps per line below the clef's own pitch. -/
theorem clef_baseline : ∀ sh ∈ clefPitch, ∀ oc ∈ clefShift, ∀ line : Fin 5,
    kernClefToBaseline ("*clef".toList ++ sh.1 :: (oc.1 ++ natStr (line.val + 1))) =
      sh.2.base7 + 7 * oc.2 - 2 * line.val := by decide +kernel

/-- C58. Any other clef name is treated as a treble clef. -/
theorem clef_unknown (name : Str) (h : clefLookup name = none) :
    kernClefToBaseline ("*clef".toList ++ name) = kernClefToBaseline "*clefG2".toList := by
  have e : kernClefToBaseline "*clefG2".toList = kernToBase7 "e".toList := by decide +kernel
  rw [e]
  unfold kernClefToBaseline
  have h1 : startsWith ("*clef".toList ++ name) "*clef".toList = true := by rfl
  have h2 : ("*clef".toList ++ name).drop 5 = name := rfl
  simp only [h1, if_true, h2, h]

example : clefLookup "X".toList = none := by decide

end C21
