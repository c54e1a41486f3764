import Verif.Model.ClefMeter
import Verif.Lemmas.PyNum
import Verif.Lemmas.Tac
import Verif.Props.KernPitch
/-
C100: clefs and meters survive in their tokens.
-/
namespace C21

/-! ### Specification -/

/-- The letter of a clef that has a staff position and an octave. -/
def HClefSign.letter : HClefSign → Option Char
  | .G => some 'G'
  | .F => some 'F'
  | .C => some 'C'
  | _ => Option.none

/-- `clefFromString`'s description of a clef: its letter and line. -/
def clefName (letter : Char) (line : Option Nat) : Str :=
  letter :: (line.map natStr).getD []

/-! ### Proofs -/

theorem clefLine_digits (line : Option Nat) : ∀ c ∈ clefLineText line, isDig c = true := by
  cases line with
  | none => simp [clefLineText]
  | some n => exact natStr_isDig n

theorem dig_ne {c d : Char} (h : isDig c = true) (hd : isDig d = false) : c ≠ d := by
  rintro rfl
  rw [hd] at h
  exact Bool.noConfusion h

theorem clefOctave_cases (oc : Option Int) :
    ∃ z : Int, oc.getD 0 = z ∧
      ((0 < z ∧ clefOctaveText oc = List.replicate z.natAbs '^') ∨
       (z ≤ 0 ∧ clefOctaveText oc = List.replicate z.natAbs 'v')) := by
  cases oc with
  | none => exact ⟨0, rfl, Or.inr ⟨le_refl _, rfl⟩⟩
  | some z =>
    refine ⟨z, rfl, ?_⟩
    unfold clefOctaveText
    rcases lt_trichotomy z 0 with h | h | h
    · right
      refine ⟨by omega, ?_⟩
      simp only [h, if_true]
      congr 1; omega
    · subst h; right; exact ⟨le_refl _, rfl⟩
    · left
      refine ⟨h, ?_⟩
      simp only [show ¬ z < 0 by omega, if_false, h, if_true]
      congr 1; omega

theorem filter_keep {p : Char → Bool} (s : Str) (h : ∀ c ∈ s, p c = true) : s.filter p = s :=
  List.filter_eq_self.mpr h

theorem readClef_letter (letter : Char) (hl : letter ∈ ['G', 'F', 'C']) (oc : Option Int)
    (line : Option Nat) :
    readClefToken ("*clef".toList ++ letter :: (clefOctaveText oc ++ clefLineText line)) =
      .ok (.fromString (clefName letter line) (oc.getD 0)) := by
  have hdig := clefLine_digits line
  obtain ⟨z, hz, hoc⟩ := clefOctave_cases oc
  set oct := clefOctaveText oc with hoct
  set lin := clefLineText line with hlin
  have hlet : letter ≠ '-' ∧ letter ≠ 'X' ∧ letter ≠ '^' ∧ letter ≠ 'v' := by
    simp only [List.mem_cons, List.not_mem_nil, or_false] at hl
    rcases hl with rfl | rfl | rfl <;> decide
  have hnodash : ∀ c ∈ letter :: (oct ++ lin), (c != '-') = true := by
    intro c hc
    rcases List.mem_cons.mp hc with rfl | hc
    · simp [hlet.1]
    rcases List.mem_append.mp hc with hc | hc
    · rcases hoc with ⟨_, h⟩ | ⟨_, h⟩
      · rw [h] at hc; rw [(List.mem_replicate.mp hc).2]; decide
      · rw [h] at hc; rw [(List.mem_replicate.mp hc).2]; decide
    · have := dig_ne (hdig c hc) (show isDig '-' = false by decide)
      simp [this]
  have hclean : (letter :: (oct ++ lin)).filter (fun c => c != '^' && c != 'v') = letter :: lin := by
    rw [List.filter_cons_of_pos (by simp [hlet]), List.filter_append]
    have h1 : oct.filter (fun c => c != '^' && c != 'v') = [] := by
      rw [List.filter_eq_nil_iff]
      intro c hc
      rcases hoc with ⟨_, h⟩ | ⟨_, h⟩
      · rw [h] at hc; rw [(List.mem_replicate.mp hc).2]; decide
      · rw [h] at hc; rw [(List.mem_replicate.mp hc).2]; decide
    have h2 : lin.filter (fun c => c != '^' && c != 'v') = lin := by
      apply filter_keep
      intro c hc
      have a := dig_ne (hdig c hc) (show isDig '^' = false by decide)
      have b := dig_ne (hdig c hc) (show isDig 'v' = false by decide)
      simp [a, b]
    rw [h1, h2, List.nil_append]
  have hlinno : ∀ d, isDig d = false → d ∉ lin := by
    intro d hd hm
    exact dig_ne (hdig d hm) hd rfl
  have hshift : kernClefShift (letter :: (oct ++ lin)) = oc.getD 0 := by
    have hcnt : ∀ d, isDig d = false → d ≠ letter →
        countChar d (letter :: (oct ++ lin)) = countChar d oct := by
      intro d hd hdl
      rw [show letter :: (oct ++ lin) = [letter] ++ (oct ++ lin) from rfl, countChar_app, countChar_app,
        countChar_absent d lin (hlinno d hd), countChar_absent d [letter] (by simpa using hdl)]
      omega
    unfold kernClefShift
    rw [hcnt '^' (by decide) (Ne.symm hlet.2.2.1), hcnt 'v' (by decide) (Ne.symm hlet.2.2.2), hz]
    rcases hoc with ⟨h0, h⟩ | ⟨h0, h⟩
    · have : countChar '^' (List.replicate z.natAbs '^') = z.natAbs := by rw [countChar_rep, if_pos rfl]
      rw [h, this, if_neg (by omega)]
      omega
    · have k1 : countChar '^' (List.replicate z.natAbs 'v') = 0 := by
        rw [countChar_rep, if_neg (by decide)]
      have k2 : countChar 'v' (List.replicate z.natAbs 'v') = z.natAbs := by rw [countChar_rep, if_pos rfl]
      rw [h, k1, k2, if_pos rfl]
      omega
  have hdrop : ("*clef".toList ++ letter :: (oct ++ lin)).drop 5 = letter :: (oct ++ lin) := rfl
  have hname : clefName letter line = letter :: lin := by
    rw [hlin]
    cases line <;> rfl
  have hmain : readClefToken ("*clef".toList ++ letter :: (oct ++ lin)) =
      .ok (.fromString (((letter :: (oct ++ lin)).filter fun c => c != '-').filter
        fun c => c != '^' && c != 'v') (kernClefShift ((letter :: (oct ++ lin)).filter fun c => c != '-'))) := by
    unfold readClefToken
    rw [hdrop]
    simp only [List.mem_cons, List.not_mem_nil, or_false] at hl
    rcases hl with rfl | rfl | rfl <;> rfl
  rw [hmain, filter_keep _ hnodash, hclean, hshift, hname]

/-- **C100** Every G, F and C clef, on any line or none and with any octave change, is read back as the
same sign on the same line with the same octave change. -/
theorem kern_clef_round_trip_partial (c : HClef) (letter : Char) (h : c.sign.letter = some letter) :
    ∃ tok, clefToken c = some tok ∧
      readClefToken tok = .ok (.fromString (clefName letter c.line) (c.octaveChange.getD 0)) := by
  obtain ⟨sign, oc, line⟩ := c
  cases sign with
  | G =>
    have : 'G' = letter := by simpa [HClefSign.letter] using h
    subst this
    exact ⟨_, rfl, readClef_letter 'G' (by decide) oc line⟩
  | F =>
    have : 'F' = letter := by simpa [HClefSign.letter] using h
    subst this
    exact ⟨_, rfl, readClef_letter 'F' (by decide) oc line⟩
  | C =>
    have : 'C' = letter := by simpa [HClefSign.letter] using h
    subst this
    exact ⟨_, rfl, readClef_letter 'C' (by decide) oc line⟩
  | percussion => simp [HClefSign.letter] at h
  | none => simp [HClefSign.letter] at h
  | other n => simp [HClefSign.letter] at h

example : clefToken ⟨.G, some (-2), some 2⟩ = some "*clefGvv2".toList ∧
    readClefToken "*clefGvv2".toList = .ok (.fromString "G2".toList (-2)) := ⟨rfl, rfl⟩

/-- A percussion clef, in the middle or on one of the lines 0 to 9. -/
theorem percussion_clef_round_trip (oc : Option Int) (line : Option Nat)
    (h : ∀ n, line = some n → n < 10) :
    ∃ tok, clefToken ⟨.percussion, oc, line⟩ = some tok ∧
      readClefToken tok = .ok (.percussion line) := by
  cases line with
  | none => exact ⟨_, rfl, rfl⟩
  | some n =>
    refine ⟨_, rfl, ?_⟩
    have hn := h n rfl
    match n, hn with
    | 0, _ => rfl
    | 1, _ => rfl
    | 2, _ => rfl
    | 3, _ => rfl
    | 4, _ => rfl
    | 5, _ => rfl
    | 6, _ => rfl
    | 7, _ => rfl
    | 8, _ => rfl
    | 9, _ => rfl
    | _ + 10, h => omega

/-- "No clef" can be read but is never written; neither is a tablature clef. -/
theorem no_clef_not_written (oc : Option Int) (line : Option Nat) (name : Str) :
    clefToken ⟨.none, oc, line⟩ = none ∧ clefToken ⟨.other name, oc, line⟩ = none ∧
    readClefToken "*clef-".toList = .ok .noClef := ⟨rfl, rfl, rfl⟩

theorem natStr_zeros (d : Nat) (hd : d ≠ 0) (k : Nat) : natStr d ≠ List.replicate (k + 1) '0' := by
  intro h
  have := natStr_head d hd
  rw [h] at this
  exact this rfl

theorem takeWhile_dig (a : Str) (ha : ∀ c ∈ a, isDig c = true) (r : Str)
    (hr : ∀ c, r.head? = some c → isDig c = false) :
    (a ++ r).takeWhile isDig = a ∧ (a ++ r).dropWhile isDig = r := by
  induction a with
  | nil =>
    cases r with
    | nil => exact ⟨rfl, rfl⟩
    | cons c r => simp [hr c rfl]
  | cons x a ih =>
    have := ih fun c hc => ha c (by simp [hc])
    simp [ha x List.mem_cons_self, this]

/-- What is read of a token that begins with one fraction. -/
theorem timeSig_first (n d : Nat) (hd : d ≠ 0) (rest : Str)
    (hr : ∀ c, rest.head? = some c → isDig c = false) :
    timeSigOf ("*M".toList ++ (natStr n ++ '/' :: (natStr d ++ rest))) = some (n, d) := by
  have hn := natStr_ne_nil n
  have hdn := natStr_ne_nil d
  obtain ⟨x, xs, hx⟩ : ∃ x xs, natStr n = x :: xs := by
    cases h : natStr n with
    | nil => exact absurd h hn
    | cons x xs => exact ⟨x, xs, rfl⟩
  have hxd : isDig x = true := natStr_isDig n x (by rw [hx]; exact List.mem_cons_self)
  have hok : isTimeSigText ("*M".toList ++ (natStr n ++ '/' :: (natStr d ++ rest))) = true := by
    unfold isTimeSigText
    rw [hx]
    simp [startsWith, List.isPrefixOf, hxd]
  have hdrop : ("*M".toList ++ (natStr n ++ '/' :: (natStr d ++ rest))).drop 2 =
      natStr n ++ '/' :: (natStr d ++ rest) := rfl
  obtain ⟨t1, t2⟩ := takeWhile_dig (natStr n) (natStr_isDig n) ('/' :: (natStr d ++ rest)) (by
    intro c hc
    simp only [List.head?_cons, Option.some.injEq] at hc
    subst hc; rfl)
  obtain ⟨b1, _⟩ := takeWhile_dig (natStr d) (natStr_isDig d) rest hr
  unfold timeSigOf
  rw [hok, hdrop]
  simp only [Bool.not_true, Bool.false_eq_true, if_false, t1, t2, b1]
  have z1 : natStr d ≠ "0".toList := natStr_zeros d hd 0
  have z2 : natStr d ≠ "00".toList := natStr_zeros d hd 1
  have z3 : natStr d ≠ "000".toList := natStr_zeros d hd 2
  have z4 : natStr d ≠ "0000".toList := natStr_zeros d hd 3
  rw [if_neg (by simp [hn, hdn]), if_neg z1, if_neg z2, if_neg z3, if_neg z4, parse_natStr, parse_natStr]

/-- **C100** Every simple time signature is read back. -/
theorem time_signature_round_trip_partial (n d : Nat) (hd : d ≠ 0) :
    timeSigOf (timeSigToken [(n, d)]) = some (n, d) := by
  have := timeSig_first n d hd [] (by simp)
  rw [List.append_nil] at this
  exact this

example : timeSigToken [(12, 8)] = "*M12/8".toList ∧ timeSigOf "*M12/8".toList = some (12, 8) := by
  decide +kernel

/-- Of a time signature made of several fractions only the first is read back: its measures get the
wrong length. -/
theorem compound_meter_cut (n d : Nat) (hd : d ≠ 0) (r : List (Nat × Nat)) (hr : r ≠ []) :
    timeSigOf (timeSigToken ((n, d) :: r)) = some (n, d) := by
  cases r with
  | nil => exact absurd rfl hr
  | cons q r =>
    have := timeSig_first n d hd ('+' :: ratioString (q :: r)) (by
      intro c hc
      simp only [List.head?_cons, Option.some.injEq] at hc
      subst hc; rfl)
    have e : timeSigToken ((n, d) :: q :: r) =
        "*M".toList ++ (natStr n ++ '/' :: (natStr d ++ '+' :: ratioString (q :: r))) := by
      simp [timeSigToken, ratioString]
    rw [e]
    exact this

example : timeSigToken [(2, 4), (3, 8)] = "*M2/4+3/8".toList ∧
    timeSigOf "*M2/4+3/8".toList = some (2, 4) := by decide +kernel

/-- A denominator of `k` zeros stands for a note of `2 ^ k` whole notes. -/
theorem zero_denominators (n k : Nat) (hk : 1 ≤ k ∧ k ≤ 4) :
    timeSigOf ("*M".toList ++ (natStr n ++ '/' :: List.replicate k '0')) = some (n * 2 ^ k, 1) := by
  have hn := natStr_ne_nil n
  obtain ⟨x, xs, hx⟩ : ∃ x xs, natStr n = x :: xs := by
    cases h : natStr n with
    | nil => exact absurd h hn
    | cons x xs => exact ⟨x, xs, rfl⟩
  have hxd : isDig x = true := natStr_isDig n x (by rw [hx]; exact List.mem_cons_self)
  have hok : isTimeSigText ("*M".toList ++ (natStr n ++ '/' :: List.replicate k '0')) = true := by
    unfold isTimeSigText
    rw [hx]
    simp [startsWith, List.isPrefixOf, hxd]
  have hdrop : ("*M".toList ++ (natStr n ++ '/' :: List.replicate k '0')).drop 2 =
      natStr n ++ '/' :: List.replicate k '0' := rfl
  obtain ⟨t1, t2⟩ := takeWhile_dig (natStr n) (natStr_isDig n) ('/' :: List.replicate k '0') (by
    intro c hc
    simp only [List.head?_cons, Option.some.injEq] at hc
    subst hc; rfl)
  unfold timeSigOf
  rw [hok, hdrop]
  simp only [Bool.not_true, Bool.false_eq_true, if_false, t1, t2]
  obtain ⟨h1, h4⟩ := hk
  have : k = 1 ∨ k = 2 ∨ k = 3 ∨ k = 4 := by omega
  rcases this with rfl | rfl | rfl | rfl
  · rw [show (List.replicate 1 '0').takeWhile isDig = "0".toList from rfl, if_neg (by simp [hn]),
      if_pos rfl, parse_natStr]
    rfl
  · rw [show (List.replicate 2 '0').takeWhile isDig = "00".toList from rfl, if_neg (by simp [hn]),
      if_neg (by decide), if_pos rfl, parse_natStr]
    rfl
  · rw [show (List.replicate 3 '0').takeWhile isDig = "000".toList from rfl, if_neg (by simp [hn]),
      if_neg (by decide), if_neg (by decide), if_pos rfl, parse_natStr]
    rfl
  · rw [show (List.replicate 4 '0').takeWhile isDig = "0000".toList from rfl, if_neg (by simp [hn]),
      if_neg (by decide), if_neg (by decide), if_neg (by decide), if_pos rfl, parse_natStr]
    rfl

example : timeSigOf "*M3/0".toList = some (6, 1) := by decide +kernel

/-- Common and cut time keep their symbol. -/
theorem meter_symbol_round_trip (m : MeterSym) : readMeterSym (meterSigToken m) = m := by
  cases m <;> decide

end C21
