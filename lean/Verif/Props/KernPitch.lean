import Verif.Model.KernPitch
import Verif.Lemmas.Tac
import Mathlib.Algebra.Order.Ring.Unbundled.Rat
/-
C99: the pitch written into a note's token is the pitch read from it.
-/
namespace C21

/-! ### Specification -/

/-- The name music21 gives a pitch: its step letter and one sign per semitone of alteration. -/
def spelledName (step : PStep) (alter : Int) : Str :=
  (match step with | .C => 'C' | .D => 'D' | .E => 'E' | .F => 'F' | .G => 'G' | .A => 'A' | .B => 'B') ::
    (if 0 ≤ alter then List.replicate alter.natAbs '#' else List.replicate alter.natAbs '-')

/-- Text that is no part of a pitch: no note letter, no accidental, no rest, no space. -/
def QuietText (s : Str) : Prop := ∀ c ∈ s, c ∉ "abcdefgABCDEFGr#- ".toList

/-- The alteration, when the accidental (if any) is a whole number of semitones. -/
def alteredBy (accid : Option PAccid) (z : Int) : Prop :=
  match accid with
  | none => z = 0
  | some a => a.alter = (z : Rat)

/-! ### Proofs -/

/-- Text without letters, rests and spaces. -/
def QuietLetters (s : Str) : Prop := ∀ c ∈ s, c ∉ "abcdefgABCDEFGr ".toList

theorem quiet_letters {s : Str} (h : QuietText s) : QuietLetters s := by
  intro c hc hm
  apply h c hc
  revert hm
  simp only [String.toList]
  intro hm
  have : c ∈ ['a','b','c','d','e','f','g','A','B','C','D','E','F','G','r',' '] := hm
  simp only [List.mem_cons, List.not_mem_nil, or_false] at this
  rcases this with h | h | h | h | h | h | h | h | h | h | h | h | h | h | h | h <;> subst h <;> decide

theorem quiet_char {c : Char} (h : c ∉ "abcdefgABCDEFGr ".toList) :
    c ≠ ' ' ∧ c ≠ 'r' ∧ c ∉ "ABCDEFG".toList ∧ c ∉ "abcdefg".toList ∧ diatonicOf c = none := by
  have h' : c ∉ ['a','b','c','d','e','f','g','A','B','C','D','E','F','G','r',' '] := h
  simp only [List.mem_cons, List.not_mem_nil, or_false, not_or] at h'
  obtain ⟨h1, h2, h3, h4, h5, h6, h7, h8, h9, h10, h11, h12, h13, h14, h15, h16⟩ := h'
  refine ⟨h16, h15, ?_, ?_, ?_⟩
  · show c ∉ ['A','B','C','D','E','F','G']
    simp [h8, h9, h10, h11, h12, h13, h14]
  · show c ∉ ['a','b','c','d','e','f','g']
    simp [h1, h2, h3, h4, h5, h6, h7]
  · simp [diatonicOf, h1, h2, h3, h4, h5, h6, h7, h8, h9, h10, h11, h12, h13, h14]

theorem octaveLoop_quiet (s t : Str) (h : QuietLetters s) (uc lc : Nat) :
    octaveLoop uc lc (s ++ t) = octaveLoop uc lc t := by
  induction s with
  | nil => rfl
  | cons c s ih =>
    obtain ⟨h1, h2, h3, h4, _⟩ := quiet_char (h c List.mem_cons_self)
    rw [List.cons_append, octaveLoop, if_neg h1, if_neg h2, if_neg h3, if_neg h4]
    exact ih fun d hd => h d (by simp [hd])

theorem diatonic_quiet (s t : Str) (h : QuietLetters s) :
    kernToDiatonicPC (s ++ t) = kernToDiatonicPC t := by
  induction s with
  | nil => rfl
  | cons c s ih =>
    obtain ⟨h1, h2, _, _, h5⟩ := quiet_char (h c List.mem_cons_self)
    rw [List.cons_append, kernToDiatonicPC, if_neg h1, if_neg h2, h5]
    exact ih fun d hd => h d (by simp [hd])

theorem octaveLoop_lower (st : PStep) (k : Nat) (t : Str) (uc lc : Nat) :
    octaveLoop uc lc (List.replicate k st.lower ++ t) = octaveLoop uc (lc + k) t := by
  induction k generalizing lc with
  | zero => rfl
  | succ k ih =>
    rw [List.replicate_succ, List.cons_append, octaveLoop]
    have h1 : st.lower ≠ ' ' := by cases st <;> decide
    have h2 : st.lower ≠ 'r' := by cases st <;> decide
    have h3 : st.lower ∉ "ABCDEFG".toList := by cases st <;> decide
    have h4 : st.lower ∈ "abcdefg".toList := by cases st <;> decide
    rw [if_neg h1, if_neg h2, if_neg h3, if_pos h4]
    show octaveLoop uc (lc + 1) _ = _
    rw [ih]
    congr 1
    omega

theorem octaveLoop_upper (st : PStep) (k : Nat) (t : Str) (uc lc : Nat) :
    octaveLoop uc lc (List.replicate k st.upper ++ t) = octaveLoop (uc + k) lc t := by
  induction k generalizing uc with
  | zero => rfl
  | succ k ih =>
    rw [List.replicate_succ, List.cons_append, octaveLoop]
    have h1 : st.upper ≠ ' ' := by cases st <;> decide
    have h2 : st.upper ≠ 'r' := by cases st <;> decide
    have h3 : st.upper ∈ "ABCDEFG".toList := by cases st <;> decide
    have h4 : st.upper ∉ "abcdefg".toList := by cases st <;> decide
    rw [if_neg h1, if_neg h2, if_pos h3, if_neg h4]
    show octaveLoop (uc + 1) lc _ = _
    rw [ih]
    congr 1
    omega

theorem not_dot (pre rest : Str) (st : PStep) (o : Int) :
    pre ++ (kernOctaveAndStep o st ++ rest) ≠ ".".toList := by
  intro h
  have hm : ∀ c ∈ kernOctaveAndStep o st, c = '.' := by
    intro c hc
    have : c ∈ ".".toList := by
      rw [← h]
      exact List.mem_append_right _ (List.mem_append_left _ hc)
    simpa using this
  unfold kernOctaveAndStep at hm
  split at hm
  · have : st.lower = '.' := hm _ (List.mem_replicate.mpr ⟨by omega, rfl⟩)
    cases st <;> exact absurd this (by decide)
  · have : st.upper = '.' := hm _ (List.mem_replicate.mpr ⟨by omega, rfl⟩)
    cases st <;> exact absurd this (by decide)

/-- The octave of a token with one pitch. -/
theorem octave_read (pre rest : Str) (st : PStep) (o : Int) (hpre : QuietLetters pre)
    (hrest : QuietLetters rest) :
    kernToOctaveNumber (pre ++ (kernOctaveAndStep o st ++ rest)) = o := by
  have hr : ∀ uc lc, octaveLoop uc lc rest = some (uc, lc) := by
    intro uc lc
    have := octaveLoop_quiet rest [] hrest uc lc
    rw [List.append_nil] at this
    rw [this]
    rfl
  unfold kernToOctaveNumber
  rw [if_neg (not_dot _ _ _ _), octaveLoop_quiet _ _ hpre]
  unfold kernOctaveAndStep
  by_cases ho : o > 3
  · rw [if_pos ho, octaveLoop_lower, hr]
    simp only
    rw [if_neg (by omega), if_neg (by omega), if_pos (by omega)]
    omega
  · rw [if_neg ho, octaveLoop_upper, hr]
    simp only
    rw [if_neg (by omega), if_pos (by omega)]
    omega

/-- 0 for C to 6 for B. -/
def PStep.num : PStep → Int
  | .C => 0 | .D => 1 | .E => 2 | .F => 3 | .G => 4 | .A => 5 | .B => 6

theorem diatonic_lower (st : PStep) (t : Str) : kernToDiatonicPC (st.lower :: t) = st.num := by
  cases st <;> rfl

theorem diatonic_upper (st : PStep) (t : Str) : kernToDiatonicPC (st.upper :: t) = st.num := by
  cases st <;> rfl

theorem num_name (st : PStep) : ¬ st.num < 0 ∧ diatonicName st.num = st.upper := by
  cases st <;> decide

/-- The step of a token with one pitch. -/
theorem step_read (pre rest : Str) (st : PStep) (o : Int) (hpre : QuietLetters pre) :
    ¬ kernToDiatonicPC (pre ++ (kernOctaveAndStep o st ++ rest)) < 0 ∧
    diatonicName (kernToDiatonicPC (pre ++ (kernOctaveAndStep o st ++ rest))) = st.upper := by
  rw [diatonic_quiet _ _ hpre]
  unfold kernOctaveAndStep
  by_cases ho : o > 3
  · rw [if_pos ho]
    obtain ⟨k, hk⟩ : ∃ k, (o - 3).toNat = k + 1 := ⟨(o - 3).toNat - 1, by omega⟩
    rw [hk, List.replicate_succ, List.cons_append, diatonic_lower]
    exact num_name st
  · rw [if_neg ho]
    obtain ⟨k, hk⟩ : ∃ k, (4 - o).toNat = k + 1 := ⟨(4 - o).toNat - 1, by omega⟩
    rw [hk, List.replicate_succ, List.cons_append, diatonic_upper]
    exact num_name st

theorem countChar_app (c : Char) (a b : Str) : countChar c (a ++ b) = countChar c a + countChar c b := by
  simp [countChar]

theorem countChar_absent (c : Char) (s : Str) (h : c ∉ s) : countChar c s = 0 := by
  simp only [countChar, List.length_eq_zero_iff, List.filter_eq_nil_iff, beq_iff_eq]
  rintro x hx rfl
  exact h hx

theorem countChar_rep (c d : Char) (n : Nat) :
    countChar c (List.replicate n d) = if d = c then n else 0 := by
  by_cases h : d = c
  · subst h; simp [countChar]
  · rw [if_neg h]
    apply countChar_absent
    intro hm
    exact h (List.mem_replicate.mp hm).2.symm

theorem truncInt_int (z : Int) : truncInt (z : Rat) = z := by
  unfold truncInt
  split
  · rw [show -(z : Rat) = ((-z : Int) : Rat) by push_cast; ring, Int.floor_intCast]; omega
  · exact Int.floor_intCast z

theorem accidentalInfo_int (accid : Option PAccid) (z : Int) (h : alteredBy accid z) :
    (accidentalInfo accid).1 = z := by
  cases accid with
  | none => exact h.symm
  | some a =>
    have h : a.alter = (z : Rat) := h
    simp [accidentalInfo, h, truncInt_int]

/-- The written pitch: letters, accidentals, display marks. -/
theorem kernPitch_parts (suffix : Str) (st : PStep) (o : Int) (accid : Option PAccid) (z : Int)
    (h : alteredBy accid z) :
    ∃ marks, kernPitch suffix st o accid = kernOctaveAndStep o st ++
        ((if 0 ≤ z then List.replicate z.natAbs '#' else List.replicate z.natAbs '-') ++ marks) ∧
      ∀ c ∈ marks, c = 'n' ∨ c = 'X' ∨ c ∈ suffix := by
  unfold kernPitch
  simp only [accidentalInfo_int accid z h]
  have hacc : (if accid = none then []
      else if z > 0 then List.replicate z.toNat '#'
      else if z < 0 then List.replicate (-z).toNat '-' else ([] : Str)) =
      (if 0 ≤ z then List.replicate z.natAbs '#' else List.replicate z.natAbs '-') := by
    by_cases hn : accid = none
    · subst hn
      have : z = 0 := h
      subst this
      rfl
    · rw [if_neg hn]
      rcases lt_trichotomy z 0 with hz | hz | hz
      · rw [if_neg (by omega), if_pos hz, if_neg (by omega)]
        congr 1; omega
      · subst hz; rfl
      · rw [if_pos (by omega), if_pos (by omega)]
        congr 1; omega
  rw [hacc, List.append_assoc]
  refine ⟨_, rfl, ?_⟩
  intro c hc
  split at hc
  · split at hc
    · rcases List.mem_cons.mp hc with h | h
      · exact Or.inl h
      · exact Or.inr (Or.inr h)
    · exact Or.inr (Or.inr hc)
  · split at hc
    · split at hc
      · exact Or.inl (by simpa using hc)
      · exact Or.inr (Or.inl (by simpa using hc))
    · simp at hc

theorem letters_not_accid (st : PStep) (o : Int) :
    '#' ∉ kernOctaveAndStep o st ∧ '-' ∉ kernOctaveAndStep o st := by
  unfold kernOctaveAndStep
  split
  · constructor <;> (intro hm; have := (List.mem_replicate.mp hm).2; cases st <;> exact absurd this (by decide))
  · constructor <;> (intro hm; have := (List.mem_replicate.mp hm).2; cases st <;> exact absurd this (by decide))

theorem quiet_not_accid {s : Str} (h : QuietText s) : '#' ∉ s ∧ '-' ∉ s :=
  ⟨fun hm => h _ hm (by decide), fun hm => h _ hm (by decide)⟩

/-- **C99 (restricted)** A pitch with a whole number of semitones of alteration and an octave from 0 up
is read back: same step, same alteration, same octave, whatever display marks are written and whatever
text surrounds it in the token. -/
theorem kern_pitch_round_trip_partial (suffix pre post : Str) (st : PStep) (o : Int)
    (accid : Option PAccid) (z : Int) (hz : alteredBy accid z) (ho : 0 ≤ o)
    (hs : QuietText suffix) (hpre : QuietText pre) (hpost : QuietText post) :
    readKernPitch (pre ++ kernPitch suffix st o accid ++ post) = some (spelledName st z, o) := by
  obtain ⟨marks, hm, hmq⟩ := kernPitch_parts suffix st o accid z hz
  have hmarks : QuietText marks := by
    intro c hc
    rcases hmq c hc with rfl | rfl | h
    · decide
    · decide
    · exact hs c h
  set acc := (if 0 ≤ z then List.replicate z.natAbs '#' else List.replicate z.natAbs '-' : Str) with hacc
  have haccq : QuietLetters acc := by
    intro c hc
    rw [hacc] at hc
    split at hc
    · rw [(List.mem_replicate.mp hc).2]; decide
    · rw [(List.mem_replicate.mp hc).2]; decide
  have e : pre ++ kernPitch suffix st o accid ++ post =
      pre ++ (kernOctaveAndStep o st ++ (acc ++ (marks ++ post))) := by
    rw [hm]; simp [List.append_assoc]
  have hrest : QuietLetters (acc ++ (marks ++ post)) := by
    intro c hc
    rcases List.mem_append.mp hc with h | h
    · exact haccq c h
    rcases List.mem_append.mp h with h | h
    · exact quiet_letters hmarks c h
    · exact quiet_letters hpost c h
  have hoct := octave_read pre (acc ++ (marks ++ post)) st o (quiet_letters hpre) hrest
  obtain ⟨hd, hn⟩ := step_read pre (acc ++ (marks ++ post)) st o (quiet_letters hpre)
  have hcount : m21AccidText (pre ++ (kernOctaveAndStep o st ++ (acc ++ (marks ++ post)))) = acc := by
    obtain ⟨a1, a2⟩ := quiet_not_accid hpre
    obtain ⟨b1, b2⟩ := letters_not_accid st o
    obtain ⟨c1, c2⟩ := quiet_not_accid hmarks
    obtain ⟨d1, d2⟩ := quiet_not_accid hpost
    unfold m21AccidText
    simp only [countChar_app, countChar_absent _ _ a1, countChar_absent _ _ a2, countChar_absent _ _ b1,
      countChar_absent _ _ b2, countChar_absent _ _ c1, countChar_absent _ _ c2, countChar_absent _ _ d1,
      countChar_absent _ _ d2]
    by_cases h0 : 0 ≤ z
    · have hh : acc = List.replicate z.natAbs '#' := by rw [hacc, if_pos h0]
      have k1 : countChar '#' (List.replicate z.natAbs '#') = z.natAbs := by
        rw [countChar_rep, if_pos rfl]
      have k2 : countChar '-' (List.replicate z.natAbs '#') = 0 := by
        rw [countChar_rep, if_neg (by decide)]
      rw [hh, k1, k2, if_neg (by omega)]
      congr 1; omega
    · have hh : acc = List.replicate z.natAbs '-' := by rw [hacc, if_neg h0]
      have k1 : countChar '-' (List.replicate z.natAbs '-') = z.natAbs := by
        rw [countChar_rep, if_pos rfl]
      have k2 : countChar '#' (List.replicate z.natAbs '-') = 0 := by
        rw [countChar_rep, if_neg (by decide)]
      rw [hh, k1, k2, if_pos (by omega)]
      congr 1; omega
  rw [e]
  unfold readKernPitch m21PitchName
  simp only [hoct]
  rw [if_neg (by omega), if_neg hd, hn, hcount, hacc]
  unfold spelledName
  cases st <;> rfl

/-- An editorial double flat in a token with a slur, a duration, an accent and a beam. -/
example : readKernPitch ("(8.".toList ++
      kernPitch "i".toList .E 2 (some ⟨-2, true, true⟩) ++ "^\\LJk]".toList) =
      some (spelledName .E (-2), 2) ∧
    kernPitch "i".toList .E 2 (some ⟨-2, true, true⟩) = "EE--i".toList ∧
    QuietText "(8.".toList ∧ QuietText "^\\LJk]".toList := by
  refine ⟨by decide +kernel, by decide +kernel, ?_, ?_⟩
  · unfold QuietText; decide
  · unfold QuietText; decide

/-- The position of an unpitched note survives. -/
theorem unpitched_position_round_trip (pre post : Str) (st : PStep) (o : Int) (ho : 0 ≤ o)
    (hpre : QuietText pre) (hpost : QuietText post) :
    readKernUnpitched (pre ++ kernUnpitched st o ++ post) =
      ((spelledName st 0).headD ' ', o) := by
  unfold kernUnpitched
  by_cases hd : o = 4 ∧ st = .B
  · rw [if_pos hd]
    obtain ⟨rfl, rfl⟩ := hd
    have hq : QuietLetters (pre ++ ['R'] ++ post) := by
      intro c hc
      rcases List.mem_append.mp hc with h | h
      · rcases List.mem_append.mp h with h | h
        · exact quiet_letters hpre c h
        · rw [List.mem_singleton.mp h]; decide
      · exact quiet_letters hpost c h
    have hpc : kernToDiatonicPC (pre ++ ['R'] ++ post) = -2000 := by
      have := diatonic_quiet _ [] hq
      rw [List.append_nil] at this
      rw [this]; rfl
    unfold readKernUnpitched
    simp only [hpc]
    rw [if_neg (by intro h; exact h.2 (by decide))]
    rfl
  · rw [if_neg hd]
    have hq : QuietLetters (pre ++ ['R']) := by
      intro c hc
      rcases List.mem_append.mp hc with h | h
      · exact quiet_letters hpre c h
      · rw [List.mem_singleton.mp h]; decide
    have e : pre ++ 'R' :: kernOctaveAndStep o st ++ post =
        (pre ++ ['R']) ++ (kernOctaveAndStep o st ++ post) := by simp
    rw [e]
    obtain ⟨h1, h2⟩ := step_read (pre ++ ['R']) post st o hq
    unfold readKernUnpitched
    simp only [octave_read (pre ++ ['R']) post st o hq (quiet_letters hpost)]
    rw [if_pos ⟨ho, h1⟩, h2]
    cases st <;> rfl

example : readKernUnpitched ("4".toList ++ kernUnpitched .F 5 ++ "/L".toList) = ('F', 5) := by decide

/-! ### Where it fails -/

/-- Every note below octave 0 is dropped by the importer, although the exporter writes it. -/
theorem note_below_octave_zero_lost (suffix pre post : Str) (st : PStep) (o : Int)
    (accid : Option PAccid) (z : Int) (hz : alteredBy accid z) (ho : o < 0)
    (hs : QuietText suffix) (hpre : QuietText pre) (hpost : QuietText post) :
    readKernPitch (pre ++ kernPitch suffix st o accid ++ post) = none := by
  obtain ⟨marks, hm, hmq⟩ := kernPitch_parts suffix st o accid z hz
  have hrest : QuietLetters ((if 0 ≤ z then List.replicate z.natAbs '#'
      else List.replicate z.natAbs '-') ++ (marks ++ post)) := by
    intro c hc
    rcases List.mem_append.mp hc with h | h
    · split at h
      · rw [(List.mem_replicate.mp h).2]; decide
      · rw [(List.mem_replicate.mp h).2]; decide
    rcases List.mem_append.mp h with h | h
    · rcases hmq c h with rfl | rfl | h
      · decide
      · decide
      · exact quiet_letters hs c h
    · exact quiet_letters hpost c h
  have e : pre ++ kernPitch suffix st o accid ++ post = pre ++ (kernOctaveAndStep o st ++
      ((if 0 ≤ z then List.replicate z.natAbs '#' else List.replicate z.natAbs '-') ++ (marks ++ post))) := by
    rw [hm]; simp [List.append_assoc]
  unfold readKernPitch
  rw [e]
  simp only [octave_read pre _ st o (quiet_letters hpre) hrest]
  rw [if_pos ho]

/-- C-1 (MIDI note 0) is written as `CCCCC` and lost. -/
example : kernPitch [] .C (-1) none = "CCCCC".toList ∧ readKernPitch "4CCCCC".toList = none := by decide +kernel

/-- A quarter tone sharp becomes a natural with its sign. -/
theorem microtone_becomes_natural :
    kernPitch [] .A 4 (some ⟨1/2, false, false⟩) = "an".toList ∧
    readKernPitch "an".toList = some (spelledName .A 0, 4) := by decide +kernel

end C21
