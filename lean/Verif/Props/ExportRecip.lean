import Verif.Model.ExportRecip
import Verif.Props.Recip
import Verif.Props.DurSplit
namespace C21

/-! ## C52: exported rhythm values -/

/-- A rhythm text with its value: an undotted rhythm followed by dots. -/
def Written (s : Str) (base : Rat) (dots : Nat) : Prop :=
  ∃ b : RBase, b.Valid ∧ s = b.text ++ List.replicate dots '.' ∧ 4 * b.wholes = base

theorem Written.value {s : Str} {base : Rat} {dots : Nat} (h : Written s base dots) :
    recipToDuration s = .ok (base * (2 - 1 / 2 ^ dots)) := by
  obtain ⟨b, hv, rfl, rfl⟩ := h
  have := dotted_duration [] b dots [] [] hv (by simp [Inert]) (by simp [Inert]) (Or.inl rfl)
  simpa using this

theorem Written.noDots {s : Str} {base : Rat} {dots : Nat} (h : Written s base dots) : recipToDurationNoDots s = .ok base := by
  obtain ⟨b, hv, rfl, rfl⟩ := h
  have := noDots_duration [] b dots [] [] hv (by simp [Inert]) (by simp [Inert]) (Or.inl rfl)
  simpa using this

theorem Written.base {s : Str} {base : Rat} {dots : Nat} (h : Written s base dots) :
    recipToDuration (s.takeWhile (· != '.')) = .ok base ∧ countChar '.' s = dots := by
  obtain ⟨b, hv, rfl, rfl⟩ := h
  have hd := (base_text_chars b).1
  constructor
  · have : (b.text ++ List.replicate dots '.').takeWhile (· != '.') = b.text := by
      rw [List.takeWhile_append_of_pos (by
        intro c hc
        have : c ≠ '.' := by rintro rfl; exact hd hc
        simpa using this)]
      cases dots with
      | zero => simp
      | succ n => simp [List.replicate_succ]
    rw [this]
    have := dotted_duration [] b 0 [] [] hv (by simp [Inert]) (by simp [Inert]) (Or.inl rfl)
    simp only [List.nil_append, List.replicate_zero, List.append_nil, pow_zero] at this
    rw [this]; norm_num
  · rw [countChar_append, countChar_zero _ _ hd, countChar_replicate]; simp

/-- The plain text of a fraction. -/
theorem plain_written (f : Rat) (hf : 0 ≤ f) (dots : Nat) :
    Written (natStr f.den ++ (if f.num = 1 then [] else '%' :: intStr f.num) ++ List.replicate dots '.') (4 * f) dots := by
  have hn : 0 ≤ f.num := Rat.num_nonneg.2 hf
  have hd : 0 < f.den := f.den_pos
  by_cases h1 : f.num = 1
  · refine ⟨.div f.den, hd, ?_, ?_⟩
    · rw [if_pos h1]; simp [RBase.text]
    · simp only [RBase.wholes]
      conv_rhs => rw [← Rat.num_div_den f, h1]
      simp
  · refine ⟨.ratio f.den f.num.natAbs, hd, ?_, ?_⟩
    · rw [if_neg h1]
      unfold intStr
      rw [if_neg (by omega)]
      simp [RBase.text]
    · simp only [RBase.wholes]
      conv_rhs => rw [← Rat.num_div_den f]
      have : ((f.num.natAbs : Nat) : Rat) = (f.num : Rat) := by
        have : (f.num.natAbs : Int) = f.num := by omega
        rw [← this]; simp
      rw [this]

theorem int_frac (f : Rat) (n : Int) (hd : f.den = 1) (hn : f.num = n) : f = n := by
  rw [← Rat.num_div_den f, hd, hn]; simp

theorem breve_written (z dots : Nat) (hz : 0 < z) : Written (List.replicate z '0' ++ List.replicate dots '.') (4 * 2 ^ z) dots :=
  ⟨.breve z, hz, rfl, rfl⟩

/-- The text written for a fraction and dots. Outside tuplets a dot may have been added, for the same value. -/
theorem exportText_written (f : Rat) (hf : 0 ≤ f) (dots : Nat) (inTuplet : Bool) :
    Written (exportText f dots inTuplet) (4 * f) dots ∨
    (inTuplet = false ∧ dots = 0 ∧ Written (exportText f dots inTuplet) (4 * f * (2 / 3)) 1) := by
  have hp := plain_written f hf dots
  unfold exportText
  dsimp only
  by_cases hc : f.num ≠ 1 ∧ f.den = 1
  swap
  · rw [if_neg hc]; exact Or.inl hp
  rw [if_pos hc]
  have hint := fun n hn => int_frac f n hc.2 hn
  have key : ∀ (z : Nat) (n : Int), f.num = n → 0 < z → (n : Rat) = 2 ^ z →
      Written (List.replicate z '0' ++ List.replicate dots '.') (4 * f) dots := by
    intro z n h1 h2 h3
    have := breve_written z dots h2
    rwa [hint n h1, h3]
  by_cases hd : dots = 0
  · rw [if_pos hd]
    subst hd
    have k2 := fun h => key 1 2 h (by omega) (by norm_num)
    have k4 := fun h => key 2 4 h (by omega) (by norm_num)
    have k8 := fun h => key 3 8 h (by omega) (by norm_num)
    have k16 := fun h => key 4 16 h (by omega) (by norm_num)
    by_cases h2 : f.num = 2
    · rw [if_pos h2]; exact Or.inl (k2 h2)
    rw [if_neg h2]
    by_cases h4 : f.num = 4
    · rw [if_pos h4]; exact Or.inl (k4 h4)
    rw [if_neg h4]
    by_cases h8 : f.num = 8
    · rw [if_pos h8]; exact Or.inl (k8 h8)
    rw [if_neg h8]
    by_cases h16 : f.num = 16
    · rw [if_pos h16]; exact Or.inl (k16 h16)
    rw [if_neg h16]
    have dot : ∀ (z : Nat) (n : Int), f.num = n → 0 < z → (n : Rat) * (2 / 3) = 2 ^ z →
        Written (List.replicate z '0' ++ List.replicate 1 '.') (4 * f * (2 / 3)) 1 := by
      intro z n h1 h2 h3
      have := breve_written z 1 h2
      rwa [hint n h1, mul_assoc, h3]
    by_cases h3 : f.num = 3 ∧ inTuplet = false
    · rw [if_pos h3]; exact Or.inr ⟨h3.2, rfl, dot 1 3 h3.1 (by omega) (by norm_num)⟩
    rw [if_neg h3]
    by_cases h6 : f.num = 6 ∧ inTuplet = false
    · rw [if_pos h6]; exact Or.inr ⟨h6.2, rfl, dot 2 6 h6.1 (by omega) (by norm_num)⟩
    rw [if_neg h6]
    by_cases h12 : f.num = 12 ∧ inTuplet = false
    · rw [if_pos h12]; exact Or.inr ⟨h12.2, rfl, dot 3 12 h12.1 (by omega) (by norm_num)⟩
    rw [if_neg h12]
    by_cases h24 : f.num = 24 ∧ inTuplet = false
    · rw [if_pos h24]; exact Or.inr ⟨h24.2, rfl, dot 4 24 h24.1 (by omega) (by norm_num)⟩
    rw [if_neg h24]; exact Or.inl hp
  · rw [if_neg hd]
    left
    by_cases h2 : f.num = 2
    · rw [if_pos h2]; exact key 1 2 h2 (by omega) (by norm_num)
    rw [if_neg h2]
    by_cases h4 : f.num = 4
    · rw [if_pos h4]; exact key 2 4 h4 (by omega) (by norm_num)
    rw [if_neg h4]
    by_cases h8 : f.num = 8
    · rw [if_pos h8]; exact key 3 8 h8 (by omega) (by norm_num)
    rw [if_neg h8]
    by_cases h16 : f.num = 16
    · rw [if_pos h16]; exact key 4 16 h16 (by omega) (by norm_num)
    rw [if_neg h16]; exact hp

/-- Outside tuplets the rhythm written denotes the duration. -/
theorem exportRecip_plain (ql : Rat) (h : 0 ≤ ql) : ∃ s, exportRecip ql none false = .ok s ∧ recipToDuration s = .ok ql := by
  unfold exportRecip
  simp only [Bool.false_eq_true, if_false]
  refine ⟨_, rfl, ?_⟩
  have h4 : 0 ≤ ql / 4 := by positivity
  have fin : ∀ (f : Rat) (n : Nat), 0 ≤ f → 4 * f * (2 - 1 / 2 ^ n) = ql → recipToDuration (exportText f n false) = .ok ql := by
    intro f n hf he
    rcases exportText_written f hf n false with hw | ⟨_, hn, hw⟩
    · rw [hw.value, he]
    · rw [hw.value]
      subst hn
      congr 1
      rw [← he]; norm_num; ring
  unfold exportDots
  simp only [Bool.false_eq_true, if_false]
  split
  · exact fin _ 0 h4 (by norm_num; ring)
  split
  · exact fin _ 1 (by positivity) (by norm_num; ring)
  split
  · exact fin _ 2 (by positivity) (by norm_num; ring)
  split
  · exact fin _ 3 (by positivity) (by norm_num; ring)
  · exact fin _ 0 h4 (by norm_num; ring)

theorem two_pow_mod3 (n : Nat) : 2 ^ n % 3 ≠ 0 := by
  induction n with
  | zero => decide
  | succ n ih => rw [pow_succ]; omega

/-- Dividing a power of two by 3/2 gives a rhythm that needs no dots. -/
theorem third_written (k : Int) : Written (durationToRecip (2 ^ k / (3 / 2))) (2 ^ k / (3 / 2)) 0 := by
  set x : Rat := 2 ^ k / (3 / 2) with hx
  have hx0 : 0 < x := by rw [hx]; exact div_pos (zpow_pos (by norm_num) _) (by norm_num)
  have hd0 : 0 < x / 4 := by positivity
  have hval : x / 4 * 3 = 2 ^ (k - 1) := by
    rw [hx, zpow_sub₀ (by norm_num)]; norm_num; ring
  -- x/4 is not an integer
  have hni : ∀ m : Nat, x / 4 ≠ m := by
    intro m hm
    rw [hm] at hval
    have hm0 : m ≠ 0 := by rintro rfl; rw [hm] at hd0; simp at hd0
    -- 3m = 2^(k-1)
    by_cases hk : 0 ≤ k - 1
    · obtain ⟨n, hn⟩ := Int.eq_ofNat_of_zero_le hk
      rw [hn, zpow_natCast] at hval
      have h2 : m * 3 = 2 ^ n := by exact_mod_cast hval
      have := two_pow_mod3 n
      omega
    · have h1 : (2 : Rat) ^ (k - 1) < 1 := zpow_lt_one_of_neg₀ (by norm_num) (by omega)
      have h2 : (1 : Rat) ≤ m := by exact_mod_cast Nat.one_le_iff_ne_zero.2 hm0
      linarith
  have hplain := plain_written (x / 4) (le_of_lt hd0) 0
  have h4 : 4 * (x / 4) = x := by ring
  rw [h4] at hplain
  simp only [List.replicate_zero, List.append_nil] at hplain
  unfold durationToRecip
  dsimp only
  by_cases h1 : (x / 4).num = 1
  · rw [if_pos h1]; rw [if_pos h1] at hplain; simpa using hplain
  rw [if_neg h1]
  rw [if_neg h1] at hplain
  have hk1 : 1 ≤ k - 1 := by
    by_contra hc
    apply h1
    -- x/4 = 1/(3*2^n)
    obtain ⟨n, hn⟩ := Int.eq_ofNat_of_zero_le (show 0 ≤ -(k - 1) by omega)
    have hk' : k - 1 = -(n : Int) := by omega
    rw [hk', zpow_neg, zpow_natCast] at hval
    have e : x / 4 = ((3 * 2 ^ n : Nat) : Rat)⁻¹ := by
      push_cast
      have : (2 : Rat) ^ n ≠ 0 := by positivity
      field_simp at hval ⊢
      linarith
    rw [e, Rat.inv_natCast_num]
    have : 0 < 3 * 2 ^ n := by positivity
    exact Int.sign_eq_one_of_pos (by exact_mod_cast this)
  obtain ⟨n, hn⟩ := Int.eq_ofNat_of_zero_le (show 0 ≤ k - 1 by omega)
  have hn1 : 1 ≤ n := by omega
  rw [hn, zpow_natCast] at hval
  rw [if_neg (by exact_mod_cast hni 2), if_neg (by exact_mod_cast hni 3), if_neg (by exact_mod_cast hni 4),
    if_neg (by exact_mod_cast hni 6), if_neg (by exact_mod_cast hni 8), if_neg (by exact_mod_cast hni 12),
    if_neg (by have := Rat.num_pos.2 hd0; omega)]
  have nod : ∀ (a b : Nat), b % 2 = 1 → 0 < a → 0 < b → (x / 4 * ((a : Rat) / b)).num ≠ 1 := by
    intro a b hb ha hb0 he
    have h := rat_num_one he
    set m := (x / 4 * ((a : Rat) / b)).den with hm
    have hm0 : (m : Rat) ≠ 0 := by
      have : m ≠ 0 := Rat.den_nz _
      exact_mod_cast this
    have hbq : (b : Rat) ≠ 0 := by exact_mod_cast (by omega : b ≠ 0)
    have hx3 : x / 4 = 2 ^ n / 3 := by linarith
    rw [hx3] at h
    field_simp at h
    have h' : 2 ^ n * a * m = 3 * b := by exact_mod_cast h
    obtain ⟨n', rfl⟩ : ∃ n', n = n' + 1 := ⟨n - 1, by omega⟩
    rw [pow_succ] at h'
    have h2 : 2 ^ n' * 2 * a * m = 2 * (2 ^ n' * a * m) := by ring
    rw [h2] at h'
    omega
  have n1 := nod 2 3 rfl (by omega) (by omega)
  have n2 := nod 4 7 rfl (by omega) (by omega)
  have n3 := nod 8 15 rfl (by omega) (by omega)
  push_cast at n1 n2 n3
  rw [if_neg n1, if_neg n2, if_neg n3]
  exact hplain

/-- In a tuplet: the text after the last step, with its value and whether a dot was added. -/
theorem exportTuplet_written (s : Str) (base : Rat) (dots : Nat) (h : Written s base dots) (hb : 0 ≤ base) :
    ∃ s', exportTuplet s = .ok s' ∧
      ((isPow2 base = false ∧ s' = s) ∨ (isPow2 base = true ∧ Written s' (base / (3 / 2)) (dots + 1))) := by
  obtain ⟨h1, h2⟩ := h.base
  unfold exportTuplet
  rw [h1]
  dsimp only
  by_cases hp : isPow2 base = true
  · rw [if_pos hp, h2]
    refine ⟨_, rfl, Or.inr ⟨hp, ?_⟩⟩
    have hpos : 0 < base := by
      rcases lt_or_eq_of_le hb with h | h
      · exact h
      · rw [← h] at hp; exact absurd hp (by decide +kernel)
    obtain ⟨k, hk⟩ := (isPow2_iff base hpos).1 hp
    obtain ⟨b, hv, ht, hw⟩ := third_written k
    rw [hk]
    refine ⟨b, hv, ?_, hw⟩
    rw [ht]; simp
  · rw [if_neg hp]
    exact ⟨_, rfl, Or.inl ⟨by simpa using hp, rfl⟩⟩

theorem exportText_tuplet (f : Rat) (hf : 0 ≤ f) (dots : Nat) : Written (exportText f dots true) (4 * f) dots := by
  rcases exportText_written f hf dots true with h | ⟨h, _⟩
  · exact h
  · exact absurd h (by simp)

/-- C52. For a linked duration without a tuplet (or with nested tuplets), the rhythm exported denotes the duration. -/
theorem export_value (d : M21Dur) (hg : d.isGrace = false) (hl : d.linked = true) (ht : d.tuplets.length ≠ 1) (hq : 0 ≤ d.quarterLength) :
    ∃ s, kernRecip d = .ok (s, []) ∧ recipToDuration s = .ok d.quarterLength := by
  obtain ⟨s, h1, h2⟩ := exportRecip_plain d.quarterLength hq
  refine ⟨s, ?_, h2⟩
  unfold kernRecip
  rw [hg, hl]
  simp only [Bool.false_eq_true, if_false, reduceCtorEq, false_and]
  match h : d.tuplets with
  | [] => simp only [h1]; rfl
  | [m] => rw [h] at ht; simp at ht
  | a :: b :: l => simp only [h1]; rfl

/-- C52. A grace note is exported with the value of its type. -/
theorem export_grace (d : M21Dur) (hg : d.isGrace = true) (hq : 0 ≤ d.typeQL) :
    ∃ s, kernRecip d = .ok (s, []) ∧ recipToDuration s = .ok d.typeQL := by
  have h4 : 0 ≤ d.typeQL / 4 := by positivity
  refine ⟨exportText (d.typeQL / 4) 0 false, ?_, ?_⟩
  · unfold kernRecip
    rw [hg]
    simp only [if_true]
    rfl
  · rcases exportText_written _ h4 0 false with hw | ⟨_, _, hw⟩
    · rw [hw.value]; congr 1; norm_num; ring
    · rw [hw.value]; congr 1; norm_num; ring

/-- What music21 guarantees of a linked duration in one tuplet: the quarter length is the dotted type
times the multiplier of the tuplet. -/
structure TupletDur (d : M21Dur) (m : Rat) : Prop where
  linked : d.linked = true
  grace : d.isGrace = false
  tuplet : d.tuplets = [m]
  pos : 0 < m
  type : 0 < d.typeQL
  ql : d.quarterLength = d.typeQL * (2 - 1 / 2 ^ d.dots) * m

theorem export_tuplet_form (d : M21Dur) (m : Rat) (h : TupletDur d m) :
    ∃ s, kernRecip d = .ok (s, []) ∧
      ((isPow2 (d.typeQL * m) = false ∧ Written s (d.typeQL * m) d.dots) ∨
       (isPow2 (d.typeQL * m) = true ∧ Written s (d.typeQL * m / (3 / 2)) (d.dots + 1))) := by
  have h4 : 0 ≤ d.typeQL * m / 4 := by have := h.pos; have := h.type; positivity
  have hw := exportText_tuplet (d.typeQL * m / 4) h4 d.dots
  have e : 4 * (d.typeQL * m / 4) = d.typeQL * m := by ring
  rw [e] at hw
  obtain ⟨s', h1, h2⟩ := exportTuplet_written _ _ _ hw (le_of_lt (mul_pos h.type h.pos))
  refine ⟨s', ?_, ?_⟩
  · unfold kernRecip
    rw [h.grace, h.linked]
    simp only [Bool.false_eq_true, if_false, reduceCtorEq, false_and, h.tuplet]
    have : exportRecip (d.typeQL * m) (some d.dots) true = .ok s' := h1
    rw [this]; rfl
  · rcases h2 with ⟨a, b⟩ | h
    · left; exact ⟨a, by rw [b]; exact hw⟩
    · exact Or.inr h

/-- C52. In a tuplet the rhythm denotes the duration if there are no dots, or if the undotted value is not a power of two. The full
claim fails otherwise: `export_tuplet_wrong`. -/
theorem export_tuplet_partial (d : M21Dur) (m : Rat) (h : TupletDur d m) (hc : d.dots = 0 ∨ ∀ k : Int, d.typeQL * m ≠ 2 ^ k) :
    ∃ s, kernRecip d = .ok (s, []) ∧ recipToDuration s = .ok d.quarterLength := by
  obtain ⟨s, h1, h2⟩ := export_tuplet_form d m h
  refine ⟨s, h1, ?_⟩
  rcases h2 with ⟨_, hw⟩ | ⟨hp, hw⟩
  · rw [hw.value, h.ql]; congr 1; ring
  · rcases hc with hc | hc
    · rw [hw.value, h.ql, hc]; congr 1; norm_num
    · obtain ⟨k, hk⟩ := (isPow2_iff _ (mul_pos h.type h.pos)).1 hp
      exact absurd hk (hc k)

/-- C52, where it fails: a dotted note in a tuplet whose undotted value is a power of two is always exported with another duration. -/
theorem export_tuplet_wrong (d : M21Dur) (m : Rat) (h : TupletDur d m) (hd : d.dots ≠ 0) (hc : ∃ k : Int, d.typeQL * m = 2 ^ k) :
    ∃ s v, kernRecip d = .ok (s, []) ∧ recipToDuration s = .ok v ∧ v ≠ d.quarterLength := by
  obtain ⟨s, h1, h2⟩ := export_tuplet_form d m h
  have hp := (isPow2_iff _ (mul_pos h.type h.pos)).2 hc
  rcases h2 with ⟨hn, _⟩ | ⟨_, hw⟩
  · rw [hp] at hn; exact absurd hn (by simp)
  refine ⟨s, _, h1, hw.value, ?_⟩
  rw [h.ql]
  intro e
  have hb : d.typeQL * m ≠ 0 := ne_of_gt (mul_pos h.type h.pos)
  have e2 : (2 - 1 / 2 ^ (d.dots + 1)) / (3 / 2) = (2 - 1 / (2 : Rat) ^ d.dots) := by
    apply mul_left_cancel₀ hb
    have e' : d.typeQL * m * ((2 - 1 / 2 ^ (d.dots + 1)) / (3 / 2)) = d.typeQL * m / (3 / 2) * (2 - 1 / 2 ^ (d.dots + 1)) := by ring
    rw [e', e]; ring
  rw [pow_succ] at e2
  have hp2 : (2 : Rat) ^ d.dots ≠ 0 := by positivity
  field_simp at e2
  have h1 : (2 : Rat) ^ d.dots = 1 := by linarith
  have h2 : (2 : Rat) ^ d.dots ≠ 1 := by
    have : (1 : Rat) < 2 ^ d.dots := one_lt_pow₀ (by norm_num) hd
    exact ne_of_gt this
  exact h2 h1

/-- C52. In a tuplet the rhythm without its dots is never a power of two, which is how a reader tells the tuplet. -/
theorem export_tuplet_visible (d : M21Dur) (m : Rat) (h : TupletDur d m) :
    ∃ s v, kernRecip d = .ok (s, []) ∧ recipToDurationNoDots s = .ok v ∧ 0 < v ∧ ∀ k : Int, v ≠ 2 ^ k := by
  obtain ⟨s, h1, h2⟩ := export_tuplet_form d m h
  have hpos := mul_pos h.type h.pos
  rcases h2 with ⟨hn, hw⟩ | ⟨hp, hw⟩
  · refine ⟨s, _, h1, hw.noDots, hpos, ?_⟩
    intro k hk
    rw [(isPow2_iff _ hpos).2 ⟨k, hk⟩] at hn
    exact absurd hn (by simp)
  · refine ⟨s, _, h1, hw.noDots, by positivity, ?_⟩
    intro k hk
    obtain ⟨j, hj⟩ := (isPow2_iff _ hpos).1 hp
    rw [hj] at hk
    have : ((1 : Nat) : Rat) * 2 ^ (j + 1) = ((3 : Nat) : Rat) * 2 ^ k := by
      rw [← hk, zpow_add₀ (by norm_num)]; push_cast; ring
    have := (odd_part_unique 1 3 rfl rfl _ _ this).1
    omega

/-- C52. A duration whose sounding and visual lengths differ, in a tuplet: the sounding length is exported faithfully. -/
theorem export_unlinked_tuplet (d : M21Dur) (hg : d.isGrace = false) (hl : d.linked = false) (ht : d.tuplets.length = 1)
    (hq : 0 ≤ d.quarterLength) (hy : 0 ≤ d.typeQL) :
    ∃ s v, kernRecip d = .ok (s, v) ∧ recipToDuration s = .ok d.quarterLength := by
  have h4 : 0 ≤ d.quarterLength / 4 := by positivity
  have hw := exportText_tuplet _ h4 0
  have e : 4 * (d.quarterLength / 4) = d.quarterLength := by ring
  rw [e] at hw
  obtain ⟨s', h1, h2⟩ := exportTuplet_written _ _ _ hw hq
  have hv : ∃ v, exportVisual (some (if d.dots > 0 then d.typeQL * ((3 / 2) * d.dots) else d.typeQL)) = .ok v := by
    unfold exportVisual
    dsimp only
    generalize (if d.dots > 0 then d.typeQL * ((3 / 2) * d.dots) else d.typeQL) = w
    by_cases hw : w = 0
    · exact ⟨_, if_pos hw⟩
    · exact ⟨_, if_neg hw⟩
  obtain ⟨v, hv⟩ := hv
  refine ⟨s', v, ?_, ?_⟩
  · unfold kernRecip
    rw [hg, hl]
    simp only [Bool.false_eq_true, if_false, ht, and_self, if_true]
    have : exportRecip d.quarterLength none true = .ok s' := h1
    rw [this, hv]
  · rcases h2 with ⟨_, b⟩ | ⟨_, b⟩
    · rw [b, hw.value]; congr 1; norm_num
    · rw [b.value]; congr 1; norm_num

/-- C52. Without a tuplet both lengths are exported faithfully. -/
theorem export_unlinked (d : M21Dur) (hg : d.isGrace = false) (hl : d.linked = false) (ht : d.tuplets.length ≠ 1)
    (hq : 0 ≤ d.quarterLength) (c : Rat) (hc : d.components = [c]) (hc0 : 0 < c) :
    ∃ s v, kernRecip d = .ok (s, v) ∧ recipToDuration s = .ok d.quarterLength ∧ recipToDuration v = .ok c := by
  obtain ⟨s, h1, h2⟩ := exportRecip_plain d.quarterLength hq
  obtain ⟨v, h3, h4⟩ := exportRecip_plain c (le_of_lt hc0)
  refine ⟨s, v, ?_, h2, h4⟩
  unfold kernRecip
  rw [hg, hl]
  simp only [Bool.false_eq_true, if_false, ht, and_false, hc, if_true]
  unfold exportVisual
  dsimp only
  rw [if_neg (ne_of_gt hc0), h1, h3]

/-- C52. The visual length of a note in a tuplet with two dots is exported as three times its type, not 7/4 of it. -/
theorem export_visual_two_dots_wrong (d : M21Dur) (hg : d.isGrace = false) (hl : d.linked = false) (ht : d.tuplets.length = 1)
    (hd : d.dots = 2) (hq : 0 ≤ d.quarterLength) (hy : 0 < d.typeQL) :
    ∃ s v, kernRecip d = .ok (s, v) ∧ recipToDuration v = .ok (d.typeQL * 3) := by
  have h4 : 0 ≤ d.quarterLength / 4 := by positivity
  have hw := exportText_tuplet _ h4 0
  have e : 4 * (d.quarterLength / 4) = d.quarterLength := by ring
  rw [e] at hw
  obtain ⟨s', h1, h2⟩ := exportTuplet_written _ _ _ hw hq
  obtain ⟨v, h3, h5⟩ := exportRecip_plain (d.typeQL * 3) (by positivity)
  refine ⟨s', v, ?_, h5⟩
  unfold kernRecip
  rw [hg, hl]
  simp only [Bool.false_eq_true, if_false, ht, and_self, if_true]
  have : exportRecip d.quarterLength none true = .ok s' := h1
  rw [this]
  unfold exportVisual
  dsimp only
  have e3 : d.typeQL * (3 / 2 * (d.dots : Rat)) = d.typeQL * 3 := by rw [hd]; push_cast; ring
  have hne : d.typeQL * 3 ≠ 0 := by positivity
  simp only [hd, show (2 : Nat) > 0 by omega, if_true] at e3 ⊢
  rw [e3, if_neg hne, h3]

example : kernRecip { quarterLength := 3 / 2, typeQL := 1, dots := 1 } = .ok ("4.".toList, []) := by decide +kernel
example : TupletDur { quarterLength := 1 / 2, typeQL := 1 / 2, dots := 1, tuplets := [2 / 3] } (2 / 3) :=
  ⟨rfl, rfl, rfl, by norm_num, by norm_num, by norm_num⟩
example : kernRecip { quarterLength := 3 / 4, typeQL := 1, dots := 1, tuplets := [1 / 2] } = .ok ("12..".toList, []) := by decide +kernel

end C21
