import Verif.Model.MeiTstamp
import Verif.Lemmas.Tac
import Mathlib.Tactic.Positivity
import Mathlib.Algebra.Order.Field.Basic
import Mathlib.Algebra.Order.AbsoluteValue.Basic
import Mathlib.Tactic.NormNum
/-
C78: MEI time stamps are read as the nearest simple fraction, and a written time stamp is read back.
-/
namespace C21

/-- What the loop keeps: the original fraction is a combination of the two convergents. -/
structure LDInv (N D n d : Int) (s : LDState) : Prop where
  num : N = s.p1 * n + s.p0 * d
  den : D = s.q1 * n + s.q0 * d
  det : (s.p1 * s.q0 - s.p0 * s.q1) * (s.p1 * s.q0 - s.p0 * s.q1) = 1
  d0 : 0 ≤ d
  q0 : 0 ≤ s.q0
  q1 : 0 ≤ s.q1
  q0l : s.q0 ≤ denomLimit
  q1l : s.q1 ≤ denomLimit
  pos : s.q1 = 0 ∧ s.q0 = 1 ∨ 1 ≤ s.q1 ∧ d < n

/-- What holds when the loop is left. -/
structure LDEnd (N D n d : Int) (s : LDState) : Prop extends LDInv N D n d s where
  dpos : 0 < d
  over : s.q0 + n / d * s.q1 > denomLimit
  q1pos : 1 ≤ s.q1

theorem ldInv_step {N D n d : Int} {s : LDState} (h : LDInv N D n d s) (hd : d ≠ 0)
    (hq : ¬ s.q0 + n / d * s.q1 > denomLimit) :
    LDInv N D d (n - n / d * d) ⟨s.p1, s.q1, s.p0 + n / d * s.p1, s.q0 + n / d * s.q1⟩ := by
  have hdp : 0 < d := lt_of_le_of_ne h.d0 (Ne.symm hd)
  have hr0 : 0 ≤ n - n / d * d := by
    have := Int.emod_nonneg n hd
    rw [Int.emod_def] at this
    linarith [mul_comm d (n / d)]
  have hr1 : n - n / d * d < d := by
    have := Int.emod_lt_of_pos n hdp
    rw [Int.emod_def] at this
    linarith [mul_comm d (n / d)]
  have hnew : 1 ≤ s.q0 + n / d * s.q1 := by
    rcases h.pos with ⟨h1, h2⟩ | ⟨h1, h2⟩
    · rw [h1, h2]; simp
    · have : 1 ≤ n / d := by
        rw [Int.le_ediv_iff_mul_le hdp]; omega
      have h3 : 1 * s.q1 ≤ n / d * s.q1 := Int.mul_le_mul_of_nonneg_right this h.q1
      have := h.q0
      omega
  refine ⟨?_, ?_, ?_, hr0, h.q1, le_trans (by omega) hnew, h.q1l, not_lt.1 hq, Or.inr ⟨hnew, hr1⟩⟩
  · rw [h.num]; ring
  · rw [h.den]; ring
  · have := h.det
    simp only
    have e : (s.p0 + n / d * s.p1) * s.q1 - s.p1 * (s.q0 + n / d * s.q1) = -(s.p1 * s.q0 - s.p0 * s.q1) := by ring
    rw [e]; linarith [this]

/-- The loop ends, without an error, when the fraction is in lowest terms and its denominator is over the limit. -/
theorem ldLoop_end (N D : Int) (hcop : ∀ m : Int, m ∣ N → m ∣ D → m = 1 ∨ m = -1) (hD : D > denomLimit) :
    ∀ (fuel : Nat) (n d : Int) (s : LDState), LDInv N D n d s → d < fuel →
      ∃ n' d' s', ldLoop fuel n d s = .ok s' ∧ LDEnd N D n' d' s' := by
  intro fuel
  induction fuel with
  | zero => intro n d s h hf; exact absurd h.d0 (by simpa using hf)
  | succ f ih =>
    intro n d s h hf
    have hd : d ≠ 0 := by
      intro h0
      subst h0
      rcases h.pos with ⟨h1, h2⟩ | ⟨h1, h2⟩
      · have := h.den; rw [h1, h2] at this
        simp at this; rw [this] at hD; exact absurd hD (by decide)
      · have hn : n = 1 ∨ n = -1 := hcop n ⟨s.p1, by rw [h.num]; ring⟩ ⟨s.q1, by rw [h.den]; ring⟩
        have hn1 : n = 1 := by omega
        have := h.den; rw [hn1] at this
        have := h.q1l
        omega
    have hdp : 0 < d := lt_of_le_of_ne h.d0 (Ne.symm hd)
    rw [ldLoop, if_neg hd]
    simp only
    by_cases hq : s.q0 + n / d * s.q1 > denomLimit
    · rw [if_pos hq]
      refine ⟨n, d, s, rfl, ⟨h, hdp, hq, ?_⟩⟩
      rcases h.pos with ⟨h1, h2⟩ | ⟨h1, _⟩
      · rw [h1, h2, mul_zero] at hq; exact absurd hq (by decide)
      · exact h1
    · rw [if_neg hq]
      apply ih _ _ _ (ldInv_step h hd hq)
      have hr1 : n - n / d * d < d := by
        have := Int.emod_lt_of_pos n hdp
        rw [Int.emod_def] at this
        linarith [mul_comm d (n / d)]
      push_cast at hf
      omega

/-- The choice after the loop. -/
theorem ldChoose_best {N D n d : Int} {s : LDState} (h : LDEnd N D n d s) (hD : 0 < D) :
    ∃ p q, ldChoose N D s = .ok (p, q) ∧ 1 ≤ q ∧ q ≤ denomLimit ∧
      ∀ u v : Int, 1 ≤ v → v ≤ denomLimit → |p * D - N * q| * v ≤ |u * D - N * v| * q := by
  have hq1 := h.q1pos
  have hq1' : s.q1 ≠ 0 := by omega
  set k := (denomLimit - s.q0) / s.q1 with hk
  have hk1 : k * s.q1 ≤ denomLimit - s.q0 := Int.ediv_mul_le _ hq1'
  have hk2 : denomLimit - s.q0 < (k + 1) * s.q1 := Int.lt_ediv_add_one_mul_self _ (by omega)
  have hk2' : denomLimit - s.q0 < k * s.q1 + s.q1 := by linarith [add_mul k 1 s.q1]
  have hka : k < n / d := by
    have := h.over
    by_contra hc
    have h3 : n / d * s.q1 ≤ k * s.q1 := Int.mul_le_mul_of_nonneg_right (by omega) h.q1
    omega
  have hA : 0 < n - k * d := by
    have h1 : n / d * d ≤ n := Int.ediv_mul_le _ (by have := h.dpos; omega)
    have h2 : (k + 1) * d ≤ n / d * d := Int.mul_le_mul_of_nonneg_right (by omega) h.d0
    have := h.dpos
    linarith [add_mul k 1 d]
  have hB := h.dpos
  set σ := s.p1 * s.q0 - s.p0 * s.q1 with hσ
  have hσ2 : σ * σ = 1 := h.det
  have hb1 : (s.p0 + k * s.p1) * D - N * (s.q0 + k * s.q1) = -σ * (n - k * d) := by
    rw [h.num, h.den, hσ]; ring
  have hb2 : s.p1 * D - N * s.q1 = σ * d := by
    rw [h.num, h.den, hσ]; ring
  have habs : |σ| = 1 := by
    have : |σ| * |σ| = 1 := by rw [← abs_mul, hσ2]; rfl
    have h0 := abs_nonneg σ
    nlinarith
  have ha1 : |(s.p0 + k * s.p1) * D - N * (s.q0 + k * s.q1)| = n - k * d := by
    rw [hb1, abs_mul, abs_neg, habs, one_mul, abs_of_pos hA]
  have ha2 : |s.p1 * D - N * s.q1| = d := by
    rw [hb2, abs_mul, habs, one_mul, abs_of_pos hB]
  have hd1 : 1 ≤ s.q0 + k * s.q1 := by have := h.q1l; omega
  -- one of the two bounds is at least as close
  have key : ∀ u v : Int, 1 ≤ v → v ≤ denomLimit →
      d * v ≤ |u * D - N * v| * s.q1 ∨ (n - k * d) * v ≤ |u * D - N * v| * (s.q0 + k * s.q1) := by
    intro u v hv hvl
    obtain ⟨x1, hx1⟩ : ∃ x1, x1 = σ * (s.p1 * v - u * s.q1) := ⟨_, rfl⟩
    obtain ⟨x2, hx2⟩ : ∃ x2, x2 = σ * (u * (s.q0 + k * s.q1) - (s.p0 + k * s.p1) * v) := ⟨_, rfl⟩
    have hv' : v = x1 * (s.q0 + k * s.q1) + x2 * s.q1 := by
      rw [hx1, hx2]
      have : σ * (s.p1 * v - u * s.q1) * (s.q0 + k * s.q1) + σ * (u * (s.q0 + k * s.q1) - (s.p0 + k * s.p1) * v) * s.q1
          = σ * σ * v := by rw [hσ]; ring
      rw [this, hσ2, one_mul]
    have hu' : u = x1 * (s.p0 + k * s.p1) + x2 * s.p1 := by
      rw [hx1, hx2]
      have : σ * (s.p1 * v - u * s.q1) * (s.p0 + k * s.p1) + σ * (u * (s.q0 + k * s.q1) - (s.p0 + k * s.p1) * v) * s.p1
          = σ * σ * u := by rw [hσ]; ring
      rw [this, hσ2, one_mul]
    have he : |u * D - N * v| = |x2 * d - x1 * (n - k * d)| := by
      have e : u * D - N * v = σ * (x2 * d - x1 * (n - k * d)) := by
        have e1 : u * D - N * v = x1 * ((s.p0 + k * s.p1) * D - N * (s.q0 + k * s.q1)) + x2 * (s.p1 * D - N * s.q1) := by
          rw [hv', hu']; ring
        rw [e1, hb1, hb2]; ring
      rw [e, abs_mul, habs, one_mul]
    rw [he]
    have hor : x1 ≤ 0 ∨ x2 ≤ 0 := by
      by_contra hc
      push Not at hc
      obtain ⟨c1, c2⟩ := hc
      have e1 : 1 * (s.q0 + k * s.q1) ≤ x1 * (s.q0 + k * s.q1) := Int.mul_le_mul_of_nonneg_right (by omega) (by omega)
      have e2 : 1 * s.q1 ≤ x2 * s.q1 := Int.mul_le_mul_of_nonneg_right (by omega) (by omega)
      omega
    rcases hor with hx | hx
    · left
      have e1 : x1 * (s.q0 + k * s.q1) ≤ 0 := Int.mul_nonpos_of_nonpos_of_nonneg hx (by omega)
      have e2 : v ≤ x2 * s.q1 := by omega
      have e3 : x1 * (n - k * d) ≤ 0 := Int.mul_nonpos_of_nonpos_of_nonneg hx (by omega)
      have e4 : x2 * d ≤ |x2 * d - x1 * (n - k * d)| := le_trans (by linarith) (le_abs_self _)
      calc d * v ≤ d * (x2 * s.q1) := Int.mul_le_mul_of_nonneg_left e2 (by omega)
        _ = x2 * d * s.q1 := by ring
        _ ≤ _ := Int.mul_le_mul_of_nonneg_right e4 (by omega)
    · right
      have e1 : x2 * s.q1 ≤ 0 := Int.mul_nonpos_of_nonpos_of_nonneg hx (by omega)
      have e2 : v ≤ x1 * (s.q0 + k * s.q1) := by omega
      have e3 : x2 * d ≤ 0 := Int.mul_nonpos_of_nonpos_of_nonneg hx (by omega)
      have e4 : x1 * (n - k * d) ≤ |x2 * d - x1 * (n - k * d)| := by
        rw [abs_sub_comm]; exact le_trans (by linarith) (le_abs_self _)
      calc (n - k * d) * v ≤ (n - k * d) * (x1 * (s.q0 + k * s.q1)) := Int.mul_le_mul_of_nonneg_left e2 (by omega)
        _ = x1 * (n - k * d) * (s.q0 + k * s.q1) := by ring
        _ ≤ _ := Int.mul_le_mul_of_nonneg_right e4 (by omega)
  unfold ldChoose
  rw [if_neg hq1']
  simp only [← hk, ha1, ha2]
  by_cases hdiff : (n - k * d) * (D * s.q1) - d * (D * (s.q0 + k * s.q1)) ≥ 0
  · rw [if_pos hdiff]
    refine ⟨_, _, rfl, hq1, h.q1l, ?_⟩
    intro u v hv hvl
    rw [ha2]
    rcases key u v hv hvl with h1 | h1
    · exact h1
    · have h2 : d * (s.q0 + k * s.q1) ≤ (n - k * d) * s.q1 := by
        have : 0 ≤ ((n - k * d) * s.q1 - d * (s.q0 + k * s.q1)) * D := by linarith [hdiff]
        have := nonneg_of_mul_nonneg_left this hD
        linarith
      have h3 : d * v * (s.q0 + k * s.q1) ≤ |u * D - N * v| * s.q1 * (s.q0 + k * s.q1) := by
        calc d * v * (s.q0 + k * s.q1) = d * (s.q0 + k * s.q1) * v := by ring
          _ ≤ (n - k * d) * s.q1 * v := Int.mul_le_mul_of_nonneg_right h2 (by omega)
          _ = (n - k * d) * v * s.q1 := by ring
          _ ≤ |u * D - N * v| * (s.q0 + k * s.q1) * s.q1 := Int.mul_le_mul_of_nonneg_right h1 (by omega)
          _ = _ := by ring
      exact le_of_mul_le_mul_right h3 (by omega)
  · rw [if_neg hdiff]
    refine ⟨_, _, rfl, hd1, by omega, ?_⟩
    intro u v hv hvl
    rw [ha1]
    rcases key u v hv hvl with h1 | h1
    · have h2 : (n - k * d) * s.q1 ≤ d * (s.q0 + k * s.q1) := by
        have : 0 ≤ (d * (s.q0 + k * s.q1) - (n - k * d) * s.q1) * D := by linarith [hdiff]
        have := nonneg_of_mul_nonneg_left this hD
        linarith
      have h3 : (n - k * d) * v * s.q1 ≤ |u * D - N * v| * (s.q0 + k * s.q1) * s.q1 := by
        calc (n - k * d) * v * s.q1 = (n - k * d) * s.q1 * v := by ring
          _ ≤ d * (s.q0 + k * s.q1) * v := Int.mul_le_mul_of_nonneg_right h2 (by omega)
          _ = d * v * (s.q0 + k * s.q1) := by ring
          _ ≤ |u * D - N * v| * s.q1 * (s.q0 + k * s.q1) := Int.mul_le_mul_of_nonneg_right h1 (by omega)
          _ = _ := by ring
      exact le_of_mul_le_mul_right h3 (by omega)
    · exact h1

theorem rat_coprime (x : Rat) (m : Int) (h1 : m ∣ x.num) (h2 : m ∣ (x.den : Int)) : m = 1 ∨ m = -1 := by
  have hc : x.num.natAbs.Coprime x.den := x.reduced
  have h3 : m.natAbs ∣ x.num.natAbs := Int.natAbs_dvd_natAbs.2 h1
  have h4 : m.natAbs ∣ x.den := by
    have := Int.natAbs_dvd_natAbs.2 h2; simpa using this
  have h5 : m.natAbs ∣ 1 := by
    have := Nat.dvd_gcd h3 h4
    rwa [Nat.Coprime.gcd_eq_one hc] at this
  have := Nat.dvd_one.1 h5
  omega

theorem close_iff {p q u v N D : Int} (hq : 1 ≤ q) (hv : 1 ≤ v) (hD : 0 < D)
    (h : |p * D - N * q| * v ≤ |u * D - N * v| * q) :
    |(p : Rat) / q - (N : Rat) / D| ≤ |(u : Rat) / v - (N : Rat) / D| := by
  have hq' : (0 : Rat) < q := by exact_mod_cast (by omega : (0 : Int) < q)
  have hv' : (0 : Rat) < v := by exact_mod_cast (by omega : (0 : Int) < v)
  have hD' : (0 : Rat) < D := by exact_mod_cast hD
  have e1 : (p : Rat) / q - (N : Rat) / D = ((p * D - N * q : Int) : Rat) / (q * D) := by
    push_cast; field_simp
  have e2 : (u : Rat) / v - (N : Rat) / D = ((u * D - N * v : Int) : Rat) / (v * D) := by
    push_cast; field_simp
  rw [e1, e2, abs_div, abs_div, abs_of_pos (mul_pos hq' hD'), abs_of_pos (mul_pos hv' hD'), div_le_div_iff₀ (mul_pos hq' hD') (mul_pos hv' hD')]
  have h' : ((|p * D - N * q| * v : Int) : Rat) ≤ ((|u * D - N * v| * q : Int) : Rat) := by exact_mod_cast h
  rw [Int.cast_mul, Int.cast_mul, Int.cast_abs, Int.cast_abs] at h'
  calc |((p * D - N * q : Int) : Rat)| * (v * D) = |((p * D - N * q : Int) : Rat)| * v * D := by ring
    _ ≤ |((u * D - N * v : Int) : Rat)| * q * D := mul_le_mul_of_nonneg_right h' (le_of_lt hD')
    _ = _ := by ring

/-- C78: reading a decimal never fails and never hangs, and gives a nearest one of all the fractions with a denominator of at most
768. -/
theorem tstampToBeat_nearest (x : Rat) :
    ∃ r : Rat, tstampToBeat x = .ok r ∧ r.den ≤ 768 ∧ ∀ y : Rat, y.den ≤ 768 → |r - x| ≤ |y - x| := by
  unfold tstampToBeat limitDenominator
  have hxd : (0 : Int) < x.den := by exact_mod_cast x.pos
  by_cases hl : (x.den : Int) ≤ denomLimit
  · rw [if_pos hl]
    refine ⟨x, ?_, ?_, ?_⟩
    · simp only [Except.bind, toFraction]
      rw [if_neg (by omega)]
      congr 1
      exact_mod_cast Rat.num_div_den x
    · have : (x.den : Int) ≤ 768 := hl
      omega
    · intro y _; simp
  · rw [if_neg hl]
    have hinv : LDInv x.num x.den x.num x.den ⟨0, 1, 1, 0⟩ :=
      ⟨by simp, by simp, by simp, by omega, by simp, by simp, by decide, by decide, Or.inl ⟨rfl, rfl⟩⟩
    obtain ⟨n', d', s', h1, h2⟩ := ldLoop_end x.num x.den (rat_coprime x) (by omega) ((x.den : Int).toNat + 2) x.num x.den
      _ hinv (by push_cast; omega)
    obtain ⟨p, q, h3, h4, h5, h6⟩ := ldChoose_best h2 hxd
    rw [h1]
    simp only [Except.bind, h3, toFraction]
    rw [if_neg (by omega)]
    have hq' : (q : Rat) ≠ 0 := by exact_mod_cast (by omega : q ≠ 0)
    refine ⟨(p : Rat) / q, rfl, ?_, ?_⟩
    · have hdvd : (((p : Rat) / q).den : Int) ∣ q := by
        rw [← Rat.divInt_eq_div]; exact Rat.den_dvd p q
      have := Int.le_of_dvd (by omega) hdvd
      have h5' : q ≤ 768 := h5
      omega
    · intro y hy
      have hyd : (0 : Int) < y.den := by exact_mod_cast y.pos
      have := close_iff h4 (by omega) hxd (h6 y.num y.den (by omega) (by show (y.den : Int) ≤ 768; omega))
      have ex : (x.num : Rat) / ((x.den : Int) : Rat) = x := by exact_mod_cast Rat.num_div_den x
      have ey : (y.num : Rat) / ((y.den : Int) : Rat) = y := by exact_mod_cast Rat.num_div_den y
      rw [ex, ey] at this
      exact this

/-- Two different fractions are at least 1 over the product of their denominators apart. -/
theorem rat_apart (r y : Rat) (h : r ≠ y) : 1 / ((r.den : Rat) * y.den) ≤ |r - y| := by
  have hr : (0 : Rat) < r.den := by exact_mod_cast r.pos
  have hy : (0 : Rat) < y.den := by exact_mod_cast y.pos
  have e : r - y = ((r.num * y.den - y.num * r.den : Int) : Rat) / ((r.den : Rat) * y.den) := by
    have e1 : (r.num : Rat) / r.den = r := Rat.num_div_den r
    have e2 : (y.num : Rat) / y.den = y := Rat.num_div_den y
    conv_lhs => rw [← e1, ← e2]
    push_cast
    field_simp
  rw [e, abs_div, abs_of_pos (mul_pos hr hy)]
  apply div_le_div_of_nonneg_right _ (le_of_lt (mul_pos hr hy))
  have hne : r.num * y.den - y.num * r.den ≠ 0 := by
    intro h0
    apply h
    rw [h0] at e
    simp at e
    linarith
  have : (1 : Int) ≤ |r.num * y.den - y.num * r.den| := Int.one_le_abs hne
  have h2 : ((1 : Int) : Rat) ≤ ((|r.num * y.den - y.num * r.den| : Int) : Rat) := by exact_mod_cast this
  rw [Int.cast_abs] at h2
  simpa using h2

/-- C78: a decimal close enough to a simple fraction is read as that fraction. -/
theorem tstampToBeat_recovers (x y : Rat) (hy : y.den ≤ 768) (h : |x - y| < 1 / (2 * 768 * y.den)) :
    tstampToBeat x = .ok y := by
  obtain ⟨r, h1, h2, h3⟩ := tstampToBeat_nearest x
  rw [h1]
  congr 1
  by_contra hne
  have ha := rat_apart r y hne
  have hr : (0 : Rat) < r.den := by exact_mod_cast r.pos
  have hyp : (0 : Rat) < y.den := by exact_mod_cast y.pos
  have hb : |r - y| ≤ |r - x| + |x - y| := abs_sub_le r x y
  have hc := h3 y hy
  rw [abs_sub_comm y x] at hc
  have hd : |r - y| < 1 / (768 * y.den) := by
    have e : (1 : Rat) / (768 * y.den) = 2 * (1 / (2 * 768 * y.den)) := by field_simp
    rw [e]; linarith
  have he : (1 : Rat) / (768 * y.den) ≤ 1 / ((r.den : Rat) * y.den) := by
    apply one_div_le_one_div_of_le (mul_pos hr hyp)
    apply mul_le_mul_of_nonneg_right _ (le_of_lt hyp)
    exact_mod_cast h2
  linarith

theorem tstampDecimal_error (x : Rat) : |tstampDecimal x - x| ≤ 1 / 2 / 10 ^ decimals6 x := by
  unfold tstampDecimal
  have hp : (0 : Rat) < 10 ^ decimals6 x := by positivity
  split
  · rw [sub_self, abs_zero]; positivity
  · have h1 := Int.floor_le (x * 10 ^ decimals6 x + 1 / 2)
    have h2 := Int.lt_floor_add_one (x * 10 ^ decimals6 x + 1 / 2)
    have e : (⌊x * 10 ^ decimals6 x + 1 / 2⌋ : Rat) / 10 ^ decimals6 x - x =
        ((⌊x * 10 ^ decimals6 x + 1 / 2⌋ : Rat) - x * 10 ^ decimals6 x) / 10 ^ decimals6 x := by
      field_simp
    rw [e, abs_div, abs_of_pos hp]
    apply div_le_div_of_nonneg_right _ (le_of_lt hp)
    rw [abs_le]
    constructor <;> linarith

/-- C78, the part that holds: a position in a measure is read back from the time stamp written for it, under the same meter and
even when the reading of the decimal is off by a billionth, if the denominator of the beat is at most 130 (beats below 10) or
at most 13 (beats below 100). Beyond, it is false (`tstamp_not_read_back`). -/
theorem tstamp_round_trip_partial (offset x : Rat) (denom : Option Nat) (hden : denom ≠ some 0)
    (hx : |x - makeTstamp offset denom| ≤ 1 / 10 ^ 9)
    (h : offsetToBeat offset denom < 10 ∧ (offsetToBeat offset denom).den ≤ 130 ∨
      offsetToBeat offset denom < 100 ∧ (offsetToBeat offset denom).den ≤ 13) :
    tstampToOffset x denom = .ok offset := by
  have hd : ((denom.getD 4 : Nat) : Rat) ≠ 0 := by
    cases denom with
    | none => simp
    | some d => simpa using hden
  have hback : beatToOffset (offsetToBeat offset denom) denom = offset := by
    unfold beatToOffset offsetToBeat
    field_simp
    ring
  set b := offsetToBeat offset denom with hb
  have herr := tstampDecimal_error b
  have htri : |x - b| ≤ |x - tstampDecimal b| + |tstampDecimal b - b| := abs_sub_le _ _ _
  have hx' : |x - tstampDecimal b| ≤ 1 / 10 ^ 9 := hx
  have hpos : (0 : Rat) < b.den := by exact_mod_cast b.pos
  have hread : tstampToBeat x = .ok b := by
    apply tstampToBeat_recovers
    · rcases h with ⟨_, h⟩ | ⟨_, h⟩ <;> omega
    · rcases h with ⟨h1, h2⟩ | ⟨h1, h2⟩
      · have e5 : decimals6 b = 5 := by unfold decimals6; rw [if_pos h1]
        rw [e5] at herr
        have h2' : (b.den : Rat) ≤ 130 := by exact_mod_cast h2
        have : (1 : Rat) / (2 * 768 * 130) ≤ 1 / (2 * 768 * b.den) := by
          apply one_div_le_one_div_of_le (by positivity); linarith
        norm_num at this herr hx' ⊢
        linarith
      · have h2' : (b.den : Rat) ≤ 13 := by exact_mod_cast h2
        have hl : (1 : Rat) / (2 * 768 * 13) ≤ 1 / (2 * 768 * b.den) := by
          apply one_div_le_one_div_of_le (by positivity); linarith
        have e5 : (1 : Rat) / 2 / 10 ^ decimals6 b ≤ 1 / 2 / 10 ^ 4 := by
          unfold decimals6
          by_cases h10 : b < 10
          · rw [if_pos h10]; norm_num
          · rw [if_neg h10, if_pos h1]
        norm_num at hl e5 hx' ⊢
        norm_num at herr
        linarith
  unfold tstampToOffset
  rw [hread]
  simp only [Except.map, hback]

/-- A dotted-eighth triplet position in 6/8 and the second note of a quintuplet in 4/4 meet the hypotheses. -/
example : makeTstamp (5 / 3) (some 8) = 433333 / 100000 ∧ tstampToOffset (433333 / 100000) (some 8) = .ok (5 / 3) := by
  decide +kernel

/-- C78 is false: in 12/4, 1/24 of a quarter note after beat 10 is written 10.0417, which is read as 10 + 32/767. -/
theorem tstamp_not_read_back :
    makeTstamp (9 + 1 / 24) (some 4) = 100417 / 10000 ∧
    tstampToOffset (100417 / 10000) (some 4) ≠ .ok (9 + 1 / 24) := by
  decide +kernel

end C21
