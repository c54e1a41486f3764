import Verif.Model.DurSplit
import Verif.Spec.DurSplit
import Verif.Lemmas.Tac
import Mathlib.Tactic.Positivity
import Mathlib.Tactic.NormNum
import Mathlib.Algebra.Order.Field.Basic
import Mathlib.Algebra.Order.Floor.Ring
import Mathlib.Data.Rat.Floor
import Mathlib.Algebra.BigOperators.Group.List.Basic
import Mathlib.Data.Rat.Lemmas
namespace C21

/-! ## C41: dots -/

theorem pow2_nat (n : Nat) (h : n ≠ 0) : (n &&& (n - 1) == 0) = true ↔ ∃ k, n = 2 ^ k := by
  rw [beq_iff_eq, Nat.and_sub_one_eq_zero_iff_isPowerOfTwo h]
  rfl

theorem isPow2_iff (q : Rat) (hq : 0 < q) : isPow2 q = true ↔ ∃ k : Int, q = 2 ^ k := by
  have hn : 0 < q.num := Rat.num_pos.2 hq
  unfold isPow2
  rw [if_neg (by omega)]
  have hnd : q = (q.num.natAbs : Rat) / q.den := by
    conv_lhs => rw [← Rat.num_div_den q]
    congr 1
    have : (q.num.natAbs : Int) = q.num := by omega
    rw [← this]; simp
  constructor
  · intro h
    by_cases hd : q.den = 1
    · rw [if_pos hd, pow2_nat _ (by omega)] at h
      obtain ⟨k, hk⟩ := h
      refine ⟨k, ?_⟩
      rw [hnd, hk, hd]; simp
    · rw [if_neg hd] at h
      by_cases h1 : q.num.natAbs = 1
      · rw [if_pos h1, pow2_nat _ q.den_nz] at h
        obtain ⟨k, hk⟩ := h
        refine ⟨-k, ?_⟩
        rw [hnd, h1, hk]; simp
      · rw [if_neg h1] at h; exact absurd h (by simp)
  · rintro ⟨k, hk⟩
    rcases Int.eq_nat_or_neg k with ⟨n, rfl | rfl⟩
    · have e : q = ((2 ^ n : Nat) : Rat) := by rw [hk]; simp
      have hden : q.den = 1 := by rw [e]; exact Rat.den_natCast _
      have hnum : q.num.natAbs = 2 ^ n := by rw [e, Rat.num_natCast]; simp
      rw [if_pos hden, pow2_nat _ (by omega)]
      exact ⟨n, hnum⟩
    · have e : q = ((2 ^ n : Nat) : Rat)⁻¹ := by rw [hk]; simp
      have hden : q.den = 2 ^ n := by
        rw [e, Rat.inv_natCast_den]
        rw [if_neg (by positivity)]
      have hnum : q.num = 1 := by
        rw [e, Rat.inv_natCast_num]
        simp
      by_cases hd : q.den = 1
      · rw [if_pos hd, hnum]; rfl
      · rw [if_neg hd, if_pos (by rw [hnum]; rfl), pow2_nat _ q.den_nz]
        exact ⟨n, hden⟩

/-- Odd part and power of two of a rational are determined. -/
theorem odd_part_unique (a b : Nat) (ha : a % 2 = 1) (hb : b % 2 = 1) (j k : Int) (h : (a : Rat) * 2 ^ j = b * 2 ^ k) : a = b ∧ j = k := by
  have key : ∀ (a b : Nat) (j k : Int), a % 2 = 1 → j ≤ k → (a : Rat) * 2 ^ j = b * 2 ^ k → a = b ∧ j = k := by
    intro a b j k ha hjk h
    obtain ⟨n, hn⟩ := Int.eq_ofNat_of_zero_le (show 0 ≤ k - j by omega)
    have hk : k = j + n := by omega
    have h2 : (2 : Rat) ^ j ≠ 0 := zpow_ne_zero _ (by norm_num)
    rw [hk, zpow_add₀ (by norm_num), zpow_natCast] at h
    have h3 : (a : Rat) = b * 2 ^ n := by
      apply mul_right_cancel₀ h2
      rw [h]; ring
    have h4 : a = b * 2 ^ n := by exact_mod_cast h3
    cases n with
    | zero => exact ⟨by simpa using h4, by omega⟩
    | succ n =>
      rw [pow_succ, ← mul_assoc] at h4
      omega
  rcases le_total j k with hjk | hjk
  · exact key a b j k ha hjk h
  · obtain ⟨x, y⟩ := key b a k j hb hjk h.symm
    exact ⟨x.symm, y.symm⟩

theorem dotted_odd (k : Int) (n : Nat) : (2 : Rat) ^ k * (2 - 1 / 2 ^ n) = ((2 ^ (n + 1) - 1 : Nat) : Rat) * 2 ^ (k - n) := by
  have h1 : 1 ≤ 2 ^ (n + 1) := Nat.one_le_two_pow
  rw [Nat.cast_sub h1, zpow_sub₀ (by norm_num), zpow_natCast]
  push_cast
  have : (2 : Rat) ^ n ≠ 0 := by positivity
  field_simp
  ring

/-- C41. A dotted power of two has one base and one number of dots. -/
theorem dotted_unique (k k' : Int) (n n' : Nat) (h : (2 : Rat) ^ k * (2 - 1 / 2 ^ n) = 2 ^ k' * (2 - 1 / 2 ^ n')) : k = k' ∧ n = n' := by
  rw [dotted_odd, dotted_odd] at h
  have ho : ∀ n : Nat, (2 ^ (n + 1) - 1) % 2 = 1 := by
    intro n
    have : 1 ≤ 2 ^ n := Nat.one_le_two_pow
    rw [pow_succ]; omega
  obtain ⟨h1, h2⟩ := odd_part_unique _ _ (ho n) (ho n') _ _ h
  have e : 2 ^ (n + 1) = 2 ^ (n' + 1) := by
    have a : 1 ≤ 2 ^ (n + 1) := Nat.one_le_two_pow
    have b : 1 ≤ 2 ^ (n' + 1) := Nat.one_le_two_pow
    omega
  have := Nat.pow_right_injective (le_refl 2) e
  omega

/-- The test for each number of dots. -/
theorem dot_test (d : Rat) (hd : 0 < d) (n : Nat) (f : Rat) (hf : f * (2 - 1 / 2 ^ n) = 1) (hf0 : 0 < f) :
    isPow2 (d * f) = true ↔ ∃ k : Int, d = 2 ^ k * (2 - 1 / 2 ^ n) := by
  rw [isPow2_iff _ (mul_pos hd hf0)]
  constructor
  · rintro ⟨k, hk⟩
    refine ⟨k, ?_⟩
    rw [← hk, mul_assoc, hf, mul_one]
  · rintro ⟨k, hk⟩
    refine ⟨k, ?_⟩
    rw [hk, mul_assoc, mul_comm _ f, hf, mul_one]

theorem dot_tests (d : Rat) (hd : 0 < d) :
    (isPow2 d = true ↔ ∃ k : Int, d = 2 ^ k * (2 - 1 / 2 ^ 0)) ∧
    (isPow2 (d * (2 / 3)) = true ↔ ∃ k : Int, d = 2 ^ k * (2 - 1 / 2 ^ 1)) ∧
    (isPow2 (d * (4 / 7)) = true ↔ ∃ k : Int, d = 2 ^ k * (2 - 1 / 2 ^ 2)) ∧
    (isPow2 (d * (8 / 15)) = true ↔ ∃ k : Int, d = 2 ^ k * (2 - 1 / 2 ^ 3)) := by
  refine ⟨?_, dot_test d hd 1 _ (by norm_num) (by norm_num), dot_test d hd 2 _ (by norm_num) (by norm_num),
    dot_test d hd 3 _ (by norm_num) (by norm_num)⟩
  have := dot_test d hd 0 1 (by norm_num) (by norm_num)
  rwa [mul_one] at this

theorem isPow2Dots_iff (d : Rat) (hd : 0 < d) : isPow2Dots d = true ↔ Notatable d := by
  obtain ⟨t0, t1, t2, t3⟩ := dot_tests d hd
  unfold isPow2Dots Notatable
  constructor
  · intro h
    by_cases h0 : isPow2 d = true
    · obtain ⟨k, hk⟩ := t0.1 h0; exact ⟨k, 0, by omega, hk⟩
    rw [if_neg h0] at h
    by_cases h1 : isPow2 (d * (2 / 3)) = true
    · obtain ⟨k, hk⟩ := t1.1 h1; exact ⟨k, 1, by omega, hk⟩
    rw [if_neg h1] at h
    by_cases h2 : isPow2 (d * (4 / 7)) = true
    · obtain ⟨k, hk⟩ := t2.1 h2; exact ⟨k, 2, by omega, hk⟩
    rw [if_neg h2] at h
    by_cases h3 : isPow2 (d * (8 / 15)) = true
    · obtain ⟨k, hk⟩ := t3.1 h3; exact ⟨k, 3, by omega, hk⟩
    rw [if_neg h3] at h; exact absurd h (by simp)
  · rintro ⟨k, n, hn, hk⟩
    have : n = 0 ∨ n = 1 ∨ n = 2 ∨ n = 3 := by omega
    rcases this with rfl | rfl | rfl | rfl
    · rw [if_pos (t0.2 ⟨k, hk⟩)]
    · rw [if_pos (t1.2 ⟨k, hk⟩)]; split <;> rfl
    · rw [if_pos (t2.2 ⟨k, hk⟩)]; split <;> first | rfl | (split <;> rfl)
    · rw [if_pos (t3.2 ⟨k, hk⟩)]; split <;> first | rfl | (split <;> first | rfl | (split <;> rfl))

/-- C41. `computeDurationNoDotsAndNumDots(d)` is `(b, n)` exactly if `b` is a power of two and `d` is `b` with `n` dots, `n` at most 3. -/
theorem dots_recognised (d : Rat) (hd : 0 < d) (b : Rat) (n : Nat) :
    computeDots d = (b, some n) ↔ n ≤ 3 ∧ (∃ k : Int, b = 2 ^ k) ∧ d = b * (2 - 1 / 2 ^ n) := by
  obtain ⟨t0, t1, t2, t3⟩ := dot_tests d hd
  constructor
  · intro h
    unfold computeDots at h
    have fin : ∀ (f : Rat) (m : Nat), 0 < f → f * (2 - 1 / 2 ^ m) = 1 → m ≤ 3 → isPow2 (d * f) = true → (d * f, some m) = (b, some n) →
        n ≤ 3 ∧ (∃ k : Int, b = 2 ^ k) ∧ d = b * (2 - 1 / 2 ^ n) := by
      intro f m hf hfm hm hp he
      simp only [Prod.mk.injEq, Option.some.injEq] at he
      obtain ⟨rfl, rfl⟩ := he
      refine ⟨hm, (isPow2_iff _ (mul_pos hd hf)).1 hp, ?_⟩
      rw [mul_assoc, hfm, mul_one]
    by_cases h0 : isPow2 d = true
    · rw [if_pos h0] at h
      exact fin 1 0 (by norm_num) (by norm_num) (by omega) (by rwa [mul_one]) (by rwa [mul_one])
    rw [if_neg h0] at h
    by_cases h1 : isPow2 (d * (2 / 3)) = true
    · rw [if_pos h1] at h
      exact fin _ 1 (by norm_num) (by norm_num) (by omega) h1 h
    rw [if_neg h1] at h
    by_cases h2 : isPow2 (d * (4 / 7)) = true
    · rw [if_pos h2] at h
      exact fin _ 2 (by norm_num) (by norm_num) (by omega) h2 h
    rw [if_neg h2] at h
    by_cases h3 : isPow2 (d * (8 / 15)) = true
    · rw [if_pos h3] at h
      exact fin _ 3 (by norm_num) (by norm_num) (by omega) h3 h
    rw [if_neg h3] at h
    simp at h
  · rintro ⟨hn, ⟨k, rfl⟩, hk⟩
    have no : ∀ m, m ≠ n → ¬ ∃ k' : Int, d = 2 ^ k' * (2 - 1 / 2 ^ m) := by
      rintro m hm ⟨k', hk'⟩
      exact hm (dotted_unique k' k m n (by rw [← hk', ← hk])).2
    unfold computeDots
    have : n = 0 ∨ n = 1 ∨ n = 2 ∨ n = 3 := by omega
    rcases this with rfl | rfl | rfl | rfl
    · rw [if_pos (t0.2 ⟨k, hk⟩), hk]; norm_num
    · rw [if_neg (fun h => no 0 (by omega) (t0.1 h)), if_pos (t1.2 ⟨k, hk⟩), hk]
      norm_num [mul_assoc]
    · rw [if_neg (fun h => no 0 (by omega) (t0.1 h)), if_neg (fun h => no 1 (by omega) (t1.1 h)), if_pos (t2.2 ⟨k, hk⟩), hk]
      norm_num [mul_assoc]
    · rw [if_neg (fun h => no 0 (by omega) (t0.1 h)), if_neg (fun h => no 1 (by omega) (t1.1 h)),
        if_neg (fun h => no 2 (by omega) (t2.1 h)), if_pos (t3.2 ⟨k, hk⟩), hk]
      norm_num [mul_assoc]

/-- C41. It gives no dots exactly when the duration is not a power of two with up to three dots. -/
theorem dots_not_recognised (d : Rat) (hd : 0 < d) : (computeDots d).2 = none ↔ ¬ Notatable d := by
  cases h : computeDots d with
  | mk b o =>
    cases o with
    | none =>
      simp only [true_iff]
      rintro ⟨k, n, hn, hk⟩
      have := (dots_recognised d hd (2 ^ k) n).2 ⟨hn, ⟨k, rfl⟩, hk⟩
      rw [h] at this
      simp at this
    | some n =>
      have := (dots_recognised d hd b n).1 h
      simp only [reduceCtorEq, false_iff, not_not]
      obtain ⟨h1, ⟨k, rfl⟩, h3⟩ := this
      exact ⟨k, n, h1, h3⟩

/-- C41. The two functions agree. -/
theorem dots_agree (d : Rat) (hd : 0 < d) : isPow2Dots d = (computeDots d).2.isSome := by
  rw [Bool.eq_iff_iff, isPow2Dots_iff d hd, Option.isSome_iff_ne_none, ne_eq, dots_not_recognised d hd, not_not]

example : computeDots (7 / 4) = (1, some 2) := by decide +kernel
example : computeDots (5 / 4) = (5 / 4, none) := by decide +kernel

/-! ## C40: splitting -/

theorem notatable_pow2 (k : Int) : Notatable (2 ^ k) := ⟨k, 0, by omega, by norm_num⟩

theorem splitLoop_found (fuel : Nat) (attempt ql : Rat) (out l : List Rat) (h : splitLoop fuel attempt ql out = .found l)
    (hk : ∃ k : Int, attempt = 2 ^ k) (hq : 0 < ql) (hnp : isPow2Dots ql = false) (ho : ∀ p ∈ out, Notatable p) :
    l.sum = out.sum + ql ∧ ∀ p ∈ l, Notatable p := by
  induction fuel generalizing attempt ql out with
  | zero => simp [splitLoop] at h
  | succ fuel ih =>
    have hat : 0 < attempt := by obtain ⟨k, rfl⟩ := hk; exact zpow_pos (by norm_num) _
    have hna : Notatable attempt := by obtain ⟨k, rfl⟩ := hk; exact notatable_pow2 k
    rw [splitLoop] at h
    split at h
    swap
    · exact absurd h (by simp)
    by_cases hge : ql ≥ attempt
    · rw [if_pos hge] at h
      have hne : ql ≠ attempt := by
        rintro rfl
        have := (isPow2Dots_iff ql hq).2 hna
        rw [hnp] at this; exact absurd this (by simp)
      have hpos : 0 < ql - attempt := by
        have : attempt < ql := lt_of_le_of_ne hge (Ne.symm hne)
        linarith
      by_cases hp : isPow2Dots (ql - attempt) = true
      · rw [if_pos hp] at h
        simp only [SplitRes.found.injEq] at h
        subst h
        refine ⟨by simp, ?_⟩
        intro p hp'
        simp only [List.mem_append, List.mem_cons, List.not_mem_nil, or_false] at hp'
        rcases hp' with h | h | h
        · exact ho p h
        · rw [h]; exact hna
        · rw [h]; exact (isPow2Dots_iff _ hpos).1 hp
      · rw [if_neg hp] at h
        obtain ⟨h1, h2⟩ := ih attempt (ql - attempt) (out ++ [attempt]) h hk hpos (by simpa using hp) (by
          intro p hp'
          rcases List.mem_append.1 hp' with h | h
          · exact ho p h
          · rw [List.mem_singleton.1 h]; exact hna)
        refine ⟨?_, h2⟩
        rw [h1]; simp
    · rw [if_neg hge] at h
      rw [hnp, if_neg (by simp)] at h
      refine ih (attempt / 2) ql out h ?_ hq hnp ho
      obtain ⟨k, rfl⟩ := hk
      exact ⟨k - 1, by rw [zpow_sub₀ (by norm_num)]; norm_num⟩

/-- The rounds are enough: the loop ends by itself. -/
theorem splitLoop_fuel (fuel j : Nat) (ql : Rat) (out : List Rat) (hj : j ≤ 14)
    (hf : (ql * 2048).floor.toNat + (14 - j) + 1 ≤ fuel) : splitLoop fuel (4 / 2 ^ j) ql out ≠ .outOfFuel := by
  induction fuel generalizing j ql out with
  | zero => omega
  | succ fuel ih =>
    rw [splitLoop]
    by_cases hat : (4 : Rat) / 2 ^ j ≥ 1 / 2048
    swap
    · rw [if_neg hat]; simp
    rw [if_pos hat]
    have hj13 : j ≤ 13 := by
      by_contra hc
      have : j = 14 := by omega
      subst this
      norm_num at hat
    by_cases hge : ql ≥ 4 / 2 ^ j
    · rw [if_pos hge]
      split
      · simp
      refine ih j _ _ hj ?_
      have h1 : (ql - 4 / 2 ^ j) * 2048 + 1 ≤ ql * 2048 := by
        have : (4 : Rat) / 2 ^ j * 2048 ≥ 1 := by linarith
        linarith
      have h2 : ⌊(ql - 4 / 2 ^ j) * 2048⌋ + 1 ≤ ⌊ql * 2048⌋ := by
        rw [← Int.floor_add_one]
        exact Int.floor_le_floor h1
      have h3 : 0 ≤ ⌊(ql - 4 / 2 ^ j) * 2048⌋ := by
        apply Int.floor_nonneg.2
        have : 0 ≤ ql - 4 / 2 ^ j := by linarith
        positivity
      have e1 : (ql * 2048).floor = ⌊ql * 2048⌋ := rfl
      have e2 : ((ql - 4 / 2 ^ j) * 2048).floor = ⌊(ql - 4 / 2 ^ j) * 2048⌋ := rfl
      omega
    · rw [if_neg hge]
      split
      · simp
      have : (4 : Rat) / 2 ^ j / 2 = 4 / 2 ^ (j + 1) := by rw [pow_succ]; field_simp
      rw [this]
      exact ih (j + 1) ql out (by omega) (by omega)

/-- The number of rounds given to the loop is always enough. -/
theorem split_enough_fuel (ql : Rat) : splitLoop (splitFuel ql) 4 ql [] ≠ .outOfFuel := by
  have := splitLoop_fuel (splitFuel ql) 0 ql [] (by omega) (by unfold splitFuel; omega)
  simpa using this

/-- C40. The note values given for a quarter length add up to it. -/
theorem split_sum (q : Rat) (hq : 0 < q) : (splitQL q).sum = q := by
  unfold splitQL
  by_cases hp : isPow2Dots q = true
  · rw [if_pos hp]; simp
  rw [if_neg hp]
  cases h : splitLoop (splitFuel q) 4 q [] with
  | found l =>
    have := (splitLoop_found _ _ _ _ _ h ⟨2, by norm_num⟩ hq (by simpa using hp) (by simp)).1
    simpa using this
  | gaveUp => simp
  | outOfFuel => simp

/-- C40. They are powers of two with up to three dots, or the list is the original. -/
theorem split_notatable (q : Rat) (hq : 0 < q) : (∀ p ∈ splitQL q, Notatable p) ∨ splitQL q = [q] := by
  unfold splitQL
  by_cases hp : isPow2Dots q = true
  · rw [if_pos hp]; right; rfl
  rw [if_neg hp]
  cases h : splitLoop (splitFuel q) 4 q [] with
  | found l =>
    left
    exact (splitLoop_found _ _ _ _ _ h ⟨2, by norm_num⟩ hq (by simpa using hp) (by simp)).2
  | gaveUp => right; rfl
  | outOfFuel => right; rfl

theorem splitLoop_not_gaveUp (fuel j : Nat) (ql : Rat) (out : List Rat) (hj : j ≤ 14) (hq : 0 < ql) (hi : ∃ m : Int, ql * 2048 = m)
    (hb : j = 0 ∨ ql < 2 * (4 / 2 ^ j)) (hnp : isPow2Dots ql = false) : splitLoop fuel (4 / 2 ^ j) ql out ≠ .gaveUp := by
  induction fuel generalizing j ql out with
  | zero => simp [splitLoop]
  | succ fuel ih =>
    rw [splitLoop]
    by_cases hj14 : j = 14
    · subst hj14
      exfalso
      obtain ⟨m, hm⟩ := hi
      rcases hb with hb | hb
      · omega
      have h1 : ql * 2048 < 1 := by norm_num at hb; linarith
      have h2 : 0 < ql * 2048 := by positivity
      rw [hm] at h1 h2
      have h3 : m < 1 := by exact_mod_cast h1
      have h4 : 0 < m := by exact_mod_cast h2
      omega
    have hat : (4 : Rat) / 2 ^ j ≥ 1 / 2048 := by
      have h1 : (2 : Rat) ^ j ≤ 2 ^ 13 := pow_le_pow_right₀ (by norm_num) (by omega)
      have h2 : (0 : Rat) < 2 ^ j := by positivity
      rw [ge_iff_le, le_div_iff₀ h2]
      norm_num at h1
      linarith
    have hat0 : (0 : Rat) < 4 / 2 ^ j := by positivity
    have hna : Notatable (4 / 2 ^ j) := by
      have : (4 : Rat) / 2 ^ j = 2 ^ ((2 : Int) - j) := by
        rw [zpow_sub₀ (by norm_num), zpow_natCast]; norm_num
      rw [this]; exact notatable_pow2 _
    rw [if_pos hat]
    by_cases hge : ql ≥ 4 / 2 ^ j
    · rw [if_pos hge]
      by_cases hp : isPow2Dots (ql - 4 / 2 ^ j) = true
      · rw [if_pos hp]; simp
      rw [if_neg hp]
      have hne : ql ≠ 4 / 2 ^ j := by
        intro e
        have := (isPow2Dots_iff ql hq).2 (e ▸ hna)
        rw [hnp] at this; exact absurd this (by simp)
      have hlt : 4 / 2 ^ j < ql := lt_of_le_of_ne hge (Ne.symm hne)
      refine ih j _ _ hj (by linarith) ?_ ?_ (by simpa using hp)
      · obtain ⟨m, hm⟩ := hi
        refine ⟨m - 2 ^ (13 - j), ?_⟩
        have h1 : (4 : Rat) / 2 ^ j * 2048 = 2 ^ (13 - j) := by
          have : (2 : Rat) ^ 13 = 2 ^ (13 - j) * 2 ^ j := by rw [← pow_add]; congr 1; omega
          have h0 : (2 : Rat) ^ j ≠ 0 := by positivity
          field_simp
          rw [mul_comm ((2 : Rat) ^ j), ← this]; norm_num
        rw [sub_mul, h1, hm]; push_cast; ring
      · rcases hb with hb | hb
        · exact Or.inl hb
        · right; linarith
    · rw [if_neg hge, hnp, if_neg (by simp)]
      have e : (4 : Rat) / 2 ^ j / 2 = 4 / 2 ^ (j + 1) := by rw [pow_succ]; field_simp
      rw [e]
      refine ih (j + 1) ql out (by omega) hq hi (Or.inr ?_) hnp
      rw [← e]
      push Not at hge
      linarith

/-- C40. Every multiple of 1/2048 can be split into note values. -/
theorem split_possible (q : Rat) (hq : 0 < q) (hi : ∃ m : Int, q * 2048 = m) : ∀ p ∈ splitQL q, Notatable p := by
  unfold splitQL
  by_cases hp : isPow2Dots q = true
  · rw [if_pos hp]
    intro p h
    rw [List.mem_singleton.1 h]
    exact (isPow2Dots_iff q hq).1 hp
  rw [if_neg hp]
  cases h : splitLoop (splitFuel q) 4 q [] with
  | found l => exact (splitLoop_found _ _ _ _ _ h ⟨2, by norm_num⟩ hq (by simpa using hp) (by simp)).2
  | gaveUp =>
    have := splitLoop_not_gaveUp (splitFuel q) 0 q [] (by omega) hq hi (Or.inl rfl) (by simpa using hp)
    rw [show (4 : Rat) / 2 ^ 0 = 4 by norm_num] at this
    exact absurd h this
  | outOfFuel => exact absurd h (split_enough_fuel q)

/-- C40. The variant that gives nothing when it cannot split gives note values that add up, or nothing. -/
theorem splitDurations_spec (q : Rat) (hq : 0 < q) :
    splitDurations q = [] ∨ ((splitDurations q).sum = q ∧ ∀ p ∈ splitDurations q, Notatable p) := by
  have hs := split_sum q hq
  have hn := split_notatable q hq
  unfold splitDurations
  split
  · rename_i p hl
    rw [hl] at hs hn
    simp only [List.sum_cons, List.sum_nil, add_zero] at hs
    subst hs
    split
    · rename_i hp
      right
      refine ⟨by simp, ?_⟩
      intro x hx
      rw [List.mem_singleton.1 hx]
      exact (isPow2Dots_iff _ hq).1 hp
    · left; rfl
  · rename_i l hne
    right
    refine ⟨hs, ?_⟩
    rcases hn with h | h
    · exact h
    · exact absurd h (hne q)

theorem splitDurations_possible (q : Rat) (hq : 0 < q) (hi : ∃ m : Int, q * 2048 = m) : splitDurations q ≠ [] := by
  have hs := split_sum q hq
  have hn := split_possible q hq hi
  unfold splitDurations
  split
  · rename_i p hl
    rw [hl] at hs hn
    simp only [List.sum_cons, List.sum_nil, add_zero] at hs
    subst hs
    rw [if_pos ((isPow2Dots_iff _ hq).2 (hn p (by simp)))]
    simp
  · intro h
    rw [h] at hs
    simp at hs
    exact absurd hs.symm (ne_of_gt hq)

/-- One side of a crossing. -/
theorem splitSide_sum (d : Rat) (hd : 0 ≤ d) (l : List Rat) (h : splitSide d = some l) : l.sum = d ∧ ∀ p ∈ l, Notatable p := by
  unfold splitSide at h
  by_cases h0 : d = 0
  · rw [if_pos h0] at h
    simp only [Option.some.injEq] at h
    subst h
    simp [h0]
  rw [if_neg h0] at h
  have hpos : 0 < d := lt_of_le_of_ne hd (Ne.symm h0)
  by_cases hp : isPow2Dots d = true
  · rw [if_pos hp] at h
    simp only [Option.some.injEq] at h
    subst h
    refine ⟨by simp, ?_⟩
    intro p hm
    rw [List.mem_singleton.1 hm]
    exact (isPow2Dots_iff _ hpos).1 hp
  rw [if_neg hp] at h
  have hs := splitDurations_spec d hpos
  cases hl : splitDurations d with
  | nil => rw [hl] at h; exact absurd h (by simp)
  | cons a as =>
    rw [hl] at h hs
    simp only [Option.some.injEq] at h
    subst h
    rcases hs with h | h
    · exact absurd h (by simp)
    · exact h

theorem findPart_spec (crossing : Rat) (ps : List Rat) (i0 : Nat) (cur : Rat) (i : Nat) (p c : Rat)
    (h : findPart crossing i0 cur ps = some (i, p, c)) :
    ∃ k, i = i0 + k ∧ ps[k]? = some p ∧ crossing = cur + (ps.take k).sum + c ∧ 0 ≤ c ∧ c < p := by
  induction ps generalizing i0 cur with
  | nil => simp [findPart] at h
  | cons a ps ih =>
    simp only [findPart] at h
    split at h
    · rename_i hc
      simp only [Option.some.injEq, Prod.mk.injEq] at h
      obtain ⟨rfl, rfl, rfl⟩ := h
      exact ⟨0, by omega, rfl, by simp, by linarith [hc.1], by linarith [hc.2]⟩
    · obtain ⟨k, h1, h2, h3, h4⟩ := ih _ _ h
      refine ⟨k + 1, by omega, by simpa using h2, ?_, h4⟩
      rw [h3, List.take_succ_cons, List.sum_cons]; ring

/-- A music21 tuplet computation that keeps the two sides. -/
def TupletOk (tuplet : Rat → Rat → Except PyErr (List Rat × List Rat)) : Prop :=
  ∀ t c l1 l2, tuplet t c = .ok (l1, l2) → l1.sum = c ∧ l2.sum = t - c

/-- C40. Splitting at a crossing point gives two lists that add up to the two sides, unless a tuplet is needed in a later part of the
total: then the part before it is lost. The full property has no exception: `crossing_loses_note`. -/
theorem crossing_partial (tuplet : Rat → Rat → Except PyErr (List Rat × List Rat)) (ht : TupletOk tuplet) (total crossing : Rat)
    (h0 : 0 ≤ crossing) (h1 : crossing ≤ total) (l1 l2 : List Rat) (h : splitCrossing tuplet total crossing = .ok (l1, l2)) :
    l2.sum = total - crossing ∧
    (l1.sum = crossing ∨
      (¬ Notatable total ∧ (splitSide crossing = none ∨ splitSide (total - crossing) = none) ∧
        ∃ (k : Nat) (lost : Rat), (splitDurations total)[k]? = some lost ∧ ((splitDurations total).take (k + 1)).sum ≤ crossing ∧
          l1.sum = crossing - lost)) := by
  unfold splitCrossing at h
  have hsides : ∀ (a b : Rat), 0 ≤ a → 0 ≤ b → ∀ x y, splitSide a = some x → splitSide b = some y → x.sum = a ∧ y.sum = b :=
    fun a b ha hb x y hx hy => ⟨(splitSide_sum a ha x hx).1, (splitSide_sum b hb y hy).1⟩
  by_cases hboth : ∃ x y, splitSide crossing = some x ∧ splitSide (total - crossing) = some y
  · obtain ⟨x, y, hx, hy⟩ := hboth
    rw [hx, hy] at h
    simp only [Except.ok.injEq, Prod.mk.injEq] at h
    obtain ⟨rfl, rfl⟩ := h
    obtain ⟨e1, e2⟩ := hsides _ _ h0 (by linarith) _ _ hx hy
    exact ⟨e2, Or.inl e1⟩
  have hnone : splitSide crossing = none ∨ splitSide (total - crossing) = none := by
    cases hx : splitSide crossing with
    | none => exact Or.inl rfl
    | some x =>
      cases hy : splitSide (total - crossing) with
      | none => exact Or.inr rfl
      | some y => exact absurd ⟨x, y, hx, hy⟩ hboth
  have h : (if isPow2Dots total then tuplet total crossing
    else
      match splitDurations total with
      | [] => .error .humdrumInternal
      | totalDurs =>
        match findPart crossing 0 0 totalDurs with
        | none => .error .humdrumInternal
        | some (i, newTotal, newCrossing) =>
          match splitInner tuplet newTotal newCrossing with
          | .error e => .error e
          | .ok (before, after) =>
            .ok ((if i = 0 then before else totalDurs.take (i - 1) ++ before),
              (if i = totalDurs.length - 1 then after else after ++ totalDurs.drop (i + 1)))) = .ok (l1, l2) := by
    cases hx : splitSide crossing with
    | none => rw [hx] at h; exact h
    | some x =>
      cases hy : splitSide (total - crossing) with
      | none => rw [hx, hy] at h; exact h
      | some y => exact absurd ⟨x, y, hx, hy⟩ hboth
  by_cases hp : isPow2Dots total = true
  · rw [if_pos hp] at h
    obtain ⟨e1, e2⟩ := ht _ _ _ _ h
    exact ⟨e2, Or.inl e1⟩
  rw [if_neg hp] at h
  have hpos : 0 < total := by
    rcases lt_or_eq_of_le (le_trans h0 h1) with h | h
    · exact h
    · exfalso
      have hc : crossing = 0 := by linarith
      rw [← h, hc] at hnone
      rcases hnone with hn | hn <;> simp [splitSide] at hn
  have hspec := splitDurations_spec total hpos
  cases hl : splitDurations total with
  | nil => rw [hl] at h; exact absurd h (by simp)
  | cons a as =>
    rw [hl] at h hspec
    dsimp only at h
    obtain ⟨hsum, hnot⟩ := hspec.resolve_left (by simp)
    cases hf : findPart crossing 0 0 (a :: as) with
    | none => rw [hf] at h; exact absurd h (by simp)
    | some r =>
      obtain ⟨i, p, c⟩ := r
      rw [hf] at h
      dsimp only at h
      obtain ⟨k, hk, hget, hcross, hc0, hcp⟩ := findPart_spec _ _ _ _ _ _ _ hf
      have hik : i = k := by omega
      subst hik
      cases hin : splitInner tuplet p c with
      | error e => rw [hin] at h; exact absurd h (by simp)
      | ok r =>
        obtain ⟨before, after⟩ := r
        rw [hin] at h
        simp only [Except.ok.injEq, Prod.mk.injEq] at h
        obtain ⟨rfl, rfl⟩ := h
        have hba : before.sum = c ∧ after.sum = p - c := by
          unfold splitInner at hin
          cases hx : splitSide c with
          | none => rw [hx] at hin; exact ht _ _ _ _ hin
          | some x =>
            cases hy : splitSide (p - c) with
            | none => rw [hx, hy] at hin; exact ht _ _ _ _ hin
            | some y =>
              rw [hx, hy] at hin
              simp only [Except.ok.injEq, Prod.mk.injEq] at hin
              obtain ⟨rfl, rfl⟩ := hin
              exact hsides _ _ hc0 (by linarith) _ _ hx hy
        have hlt : i < (a :: as).length := (List.getElem?_eq_some_iff.1 hget).1
        have hdec : (a :: as).sum = ((a :: as).take i).sum + p + ((a :: as).drop (i + 1)).sum := by
          conv_lhs => rw [← List.take_append_drop i (a :: as)]
          rw [List.sum_append, List.drop_eq_getElem_cons hlt, List.sum_cons]
          have : (a :: as)[i] = p := by
            have := (List.getElem?_eq_some_iff.1 hget).2
            exact this
          rw [this]; ring
        refine ⟨?_, ?_⟩
        · have h2 : (if i = (a :: as).length - 1 then after else after ++ (a :: as).drop (i + 1)).sum =
              after.sum + ((a :: as).drop (i + 1)).sum := by
            split
            · rename_i he
              rw [List.drop_eq_nil_of_le (by omega)]; simp
            · rw [List.sum_append]
          rw [h2, hba.2]
          linarith
        · by_cases hi0 : i = 0
          · left
            rw [if_pos hi0, hba.1, hcross, hi0]; simp
          · right
            refine ⟨fun e => hp ((isPow2Dots_iff total hpos).2 e), hnone, i - 1, (a :: as)[i - 1]'(by omega), ?_, ?_, ?_⟩
            · exact List.getElem?_eq_getElem (by omega)
            · rw [show i - 1 + 1 = i by omega]; linarith
            · rw [if_neg hi0, List.sum_append, hba.1, hcross]
              have h3 : ((a :: as).take i).sum = ((a :: as).take (i - 1)).sum + (a :: as)[i - 1]'(by omega) := by
                have : i = (i - 1) + 1 := by omega
                conv_lhs => rw [this]
                rw [List.take_succ_eq_append_getElem (by omega), List.sum_append]; simp
              rw [h3]; ring

/-- C40, the full claim fails: with a total of 5 and a crossing at 4 1/3, whatever honest tuplet is found, the first list is 4 too short. -/
theorem crossing_loses_note (tuplet : Rat → Rat → Except PyErr (List Rat × List Rat)) (ht : TupletOk tuplet) (l1 l2 : List Rat)
    (h : tuplet 1 (1 / 3) = .ok (l1, l2)) :
    ∃ l1' l2', splitCrossing tuplet 5 (13 / 3) = .ok (l1', l2') ∧ l1'.sum = 1 / 3 ∧ l1'.sum ≠ 13 / 3 := by
  refine ⟨l1, l2, ?_, (ht _ _ _ _ h).1, ?_⟩
  · have e : splitCrossing tuplet 5 (13 / 3) = (match tuplet 1 (1 / 3) with
        | .error e => .error e
        | .ok (b, a) => .ok (b, a)) := by
      unfold splitCrossing
      have a1 : splitSide (13 / 3) = none := by decide +kernel
      have a2 : isPow2Dots 5 = false := by decide +kernel
      have a3 : splitDurations 5 = [4, 1] := by decide +kernel
      have a4 : findPart (13 / 3) 0 0 [4, 1] = some (1, 1, 1 / 3) := by decide +kernel
      have a5 : splitSide (1 / 3) = none := by decide +kernel
      rw [a1, a2, a3]
      dsimp only
      rw [if_neg (by simp), a4]
      dsimp only
      unfold splitInner
      rw [a5]
      dsimp only
      cases tuplet 1 (1 / 3) with
      | error e => rfl
      | ok r => rfl
    rw [e, h]
  · rw [(ht _ _ _ _ h).1]; norm_num

example : splitQL 5 = [4, 1] := by decide +kernel
example : splitQL (21 / 16) = [1, 1 / 4, 1 / 16] := by decide +kernel
example : splitQL (1 / 3) = [1 / 3] := by decide +kernel
example : TupletOk (fun t c => .ok ([c], [t - c])) := by
  intro t c l1 l2 h
  simp only [Except.ok.injEq, Prod.mk.injEq] at h
  obtain ⟨rfl, rfl⟩ := h
  simp

end C21
