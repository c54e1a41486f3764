import Verif.Model.HumTuplets
import Verif.Props.DurSplit
import Verif.Lemmas.Tac
import Mathlib.Data.List.Basic
import Mathlib.Data.List.Induction
import Mathlib.Tactic.Positivity
import Mathlib.Algebra.Order.Field.Basic
/-
C96: tuplets are found again when a Humdrum file is read.
-/
namespace C21

/-! ### Specification -/

/-- A note or rest whose duration (without dots) is that of a plain note value. -/
def PlainItem (x : TupItem) : Prop := ∃ k : Int, x.noDots = 2 ^ k

/-- A note or rest of a tuplet, shorter than a whole note; no end of a tuplet is asked for by the file. -/
def TupletItem (x : TupItem) : Prop := 0 < x.noDots ∧ x.noDots < 4 ∧ 0 < x.dur ∧ ¬ PlainItem x

/-- The ratios of the tuplets are the same: the durations differ by a power of two. -/
def SameRatio (x y : TupItem) : Prop := ∃ k : Int, y.noDots = x.noDots * 2 ^ k

/-- A plain note value with up to four dots. -/
def DottedValue (q : Rat) : Prop := ∃ k : Int, q = 2 ^ k ∨ q = 2 ^ k * (3 / 2) ∨ q = 2 ^ k * (7 / 4) ∨ q = 2 ^ k * (15 / 8) ∨ q = 2 ^ k * (31 / 16)

/-- A part of a layer: an item that is in no tuplet, or a tuplet. -/
inductive TupSeg where
  | plain (x : TupItem)
  | tup (xs : List TupItem)

/-- The items. -/
def tupSegItems : List TupSeg → List TupItem
  | [] => []
  | .plain x :: r => x :: tupSegItems r
  | .tup xs :: r => xs ++ tupSegItems r

/-- The items from one place to another. -/
def tupSlice (items : List TupItem) (b : Nat × Nat) : List TupItem := (items.drop b.1).take (b.2 + 1 - b.1)

/-- The total duration. -/
def totalDur (xs : List TupItem) : Rat := (xs.map TupItem.dur).sum

/-- A tuplet `xs` at the place `i`, before the items `rest`: it is a beam with a plain or dotted duration, or it goes on until its duration
is that of a plain note value or no tuplet note follows. -/
structure TupletHere (items : List TupItem) (beams : List (Nat × Nat)) (i : Nat) (xs rest : List TupItem) : Prop where
  two : 2 ≤ xs.length
  notes : ∀ x ∈ xs, TupletItem x ∧ x.forced = none ∧ x.brk = false
  ratio : ∀ x ∈ xs, ∀ y ∈ xs, SameRatio x y
  ends : ((i, i + xs.length - 1) ∈ beams ∧ DottedValue (totalDur xs)) ∨
    ((∀ b ∈ beams, b.1 = i → ¬ DottedValue (totalDur (tupSlice items b)) ∨ ∃ x ∈ tupSlice items b, PlainItem x) ∧
      (∀ n, 2 ≤ n → n < xs.length → ¬ ∃ k : Int, totalDur (xs.take n) = 2 ^ k) ∧
      ((∃ k : Int, totalDur xs = 2 ^ k) ∨ ∀ y ∈ rest.head?, PlainItem y))

/-- All segments from the place `i` on are as they should be. -/
def TupletsOk (items : List TupItem) (beams : List (Nat × Nat)) : Nat → List TupSeg → Prop
  | _, [] => True
  | i, .plain x :: r => PlainItem x ∧ TupletsOk items beams (i + 1) r
  | i, .tup xs :: r => TupletHere items beams i xs (tupSegItems r) ∧ TupletsOk items beams (i + xs.length) r

/-- Beams have two items or more and do not overlap. -/
def BeamsApart (beams : List (Nat × Nat)) : Prop := (∀ b ∈ beams, b.1 < b.2) ∧ beams.Pairwise (fun b c => b.2 < c.1)

/-- A beam goes from the item at place `i` to the next one. -/
def BeamGoesOn (beams : List (Nat × Nat)) (i : Nat) : Prop := ∃ b ∈ beams, b.1 ≤ i ∧ i < b.2

/-- Tuplets with the same ratio that a beam connects are one tuplet. -/
inductive Joined (beams : List (Nat × Nat)) : Nat → List TupSeg → List TupSeg → Prop
  | nil (i : Nat) : Joined beams i [] []
  | plain (i : Nat) (x : TupItem) (r r' : List TupSeg) : Joined beams (i + 1) r r' → Joined beams i (.plain x :: r) (.plain x :: r')
  | keep (i : Nat) (xs : List TupItem) (r r' : List TupSeg)
      (h : ∀ x ∈ xs, ∀ y ys r1, r = .tup (y :: ys) :: r1 → ¬ (BeamGoesOn beams (i + xs.length - 1) ∧ SameRatio x y)) :
      Joined beams (i + xs.length) r r' → Joined beams i (.tup xs :: r) (.tup xs :: r')
  | join (i : Nat) (xs ys : List TupItem) (r r' : List TupSeg) (hb : BeamGoesOn beams (i + xs.length - 1))
      (hr : ∀ x ∈ xs, ∀ y ∈ ys, SameRatio x y) :
      Joined beams i (.tup (xs ++ ys) :: r) r' → Joined beams i (.tup xs :: .tup ys :: r) r'

/-- The marks on the items of a tuplet with the given numbers: first, inner ones, last. -/
def tupMarks (an : Int × Int) (len : Nat) : List (Option ((Int × Int) × TupMark)) :=
  some (an, .start) :: (List.replicate (len - 2) (some (an, .inner)) ++ [some (an, .stop)])

/-- What the items should get: every tuplet starts at its first and stops at its last item, and its numbers make the written value of each
item a plain note value. -/
inductive ReadsTuplets : List TupSeg → List (Option ((Int × Int) × TupMark)) → Prop
  | nil : ReadsTuplets [] []
  | plain (x : TupItem) (r : List TupSeg) (o : List (Option ((Int × Int) × TupMark))) : ReadsTuplets r o →
      ReadsTuplets (.plain x :: r) (none :: o)
  | tup (xs : List TupItem) (r : List TupSeg) (o : List (Option ((Int × Int) × TupMark))) (a n : Int) (ha : 1 ≤ a) (hn : 1 ≤ n)
      (hx : ∀ x ∈ xs, ∃ k : Int, x.noDots * a / n = 2 ^ k) : ReadsTuplets r o →
      ReadsTuplets (.tup xs :: r) (tupMarks (a, n) xs.length ++ o)

/-! ### Ratios -/

theorem two_zpow_pos (k : Int) : (0 : Rat) < 2 ^ k := zpow_pos (by norm_num) k

theorem nextHigher_bounds (q : Rat) (h0 : 0 < q) (h1 : q < 1) :
    ∃ L : Nat, nextHigherPow2 q = 1 / 2 ^ L ∧ 1 / 2 < q * 2 ^ L ∧ q * 2 ^ L ≤ 1 := by
  refine ⟨Nat.log 2 ⌊1 / q⌋.toNat, by rw [nextHigherPow2, if_neg (ne_of_gt h0)], ?_, ?_⟩
  all_goals
    have hf1 : (1 : Int) ≤ ⌊1 / q⌋ := by
      rw [Int.le_floor]
      rw [Int.cast_one, le_div_iff₀ h0]
      linarith
    have hn : ⌊1 / q⌋.toNat ≠ 0 := by omega
    have hcast : ((⌊1 / q⌋.toNat : Nat) : Rat) = ((⌊1 / q⌋ : Int) : Rat) := by
      have : ((⌊1 / q⌋.toNat : Nat) : Int) = ⌊1 / q⌋ := Int.toNat_of_nonneg (by omega)
      exact_mod_cast congrArg (fun z : Int => (z : Rat)) this
  · have h2 : ⌊1 / q⌋.toNat < 2 ^ (Nat.log 2 ⌊1 / q⌋.toNat + 1) := Nat.lt_pow_succ_log_self (by omega) _
    have h3 : (((⌊1 / q⌋.toNat : Nat) : Rat) + 1) ≤ 2 ^ (Nat.log 2 ⌊1 / q⌋.toNat + 1) := by exact_mod_cast h2
    have h4 : 1 / q < ((⌊1 / q⌋ : Int) : Rat) + 1 := Int.lt_floor_add_one _
    rw [hcast] at h3
    have h5 : 1 / q < 2 ^ (Nat.log 2 ⌊1 / q⌋.toNat + 1) := lt_of_lt_of_le h4 h3
    rw [div_lt_iff₀ h0, pow_succ] at h5
    linarith
  · have h2 : 2 ^ Nat.log 2 ⌊1 / q⌋.toNat ≤ ⌊1 / q⌋.toNat := Nat.pow_log_le_self 2 hn
    have h3 : ((2 : Rat) ^ Nat.log 2 ⌊1 / q⌋.toNat) ≤ ((⌊1 / q⌋.toNat : Nat) : Rat) := by exact_mod_cast h2
    have h4 : ((⌊1 / q⌋ : Int) : Rat) ≤ 1 / q := Int.floor_le _
    rw [hcast] at h3
    have h5 := le_trans h3 h4
    rw [le_div_iff₀ h0] at h5
    linarith

/-- The part of a number between one half and one is the same for numbers that differ by a power of two. -/
theorem octave_unique (a b : Rat) (k : Int) (ha1 : 1 / 2 < a) (ha2 : a ≤ 1) (hb1 : 1 / 2 < b) (hb2 : b ≤ 1) (h : b = a * 2 ^ k) : a = b := by
  rcases lt_trichotomy k 0 with hk | hk | hk
  · exfalso
    have : (2 : Rat) ^ k ≤ 2 ^ (-1 : Int) := zpow_le_zpow_right₀ (by norm_num) (by omega)
    have e : (2 : Rat) ^ (-1 : Int) = 1 / 2 := by norm_num
    rw [e] at this
    have h2 := two_zpow_pos k
    nlinarith
  · subst hk
    rw [h]; simp
  · exfalso
    have : (2 : Rat) ^ (1 : Int) ≤ 2 ^ k := zpow_le_zpow_right₀ (by norm_num) (by omega)
    have e : (2 : Rat) ^ (1 : Int) = 2 := by norm_num
    rw [e] at this
    nlinarith

/-- Does the duplet correction apply? -/
def isDuplet (q : Rat) : Prop := q.num = 3 ∧ isPow2 q.den = true

theorem isDuplet_iff (q : Rat) (h0 : 0 < q) (h1 : q < 1) : isDuplet q ↔ ∃ k : Int, q = 3 * 2 ^ k := by
  have hden : (0 : Rat) < (q.den : Rat) := by exact_mod_cast q.den_pos
  constructor
  · rintro ⟨h2, h3⟩
    obtain ⟨k, hk⟩ := (isPow2_iff (q.den : Rat) hden).1 h3
    refine ⟨-k, ?_⟩
    have := Rat.num_div_den q
    rw [h2, hk] at this
    rw [← this, zpow_neg]
    norm_num
    rfl
  · rintro ⟨k, hk⟩
    have hk0 : k < 0 := by
      by_contra h
      have : (1 : Rat) ≤ 2 ^ k := one_le_zpow₀ (by norm_num) (by omega)
      linarith
    obtain ⟨n, rfl⟩ : ∃ n : Nat, k = -(n : Int) := ⟨k.natAbs, by omega⟩
    rw [zpow_neg, zpow_natCast] at hk
    have hq : q = ((3 : Int) : Rat) / ((2 ^ n : Nat) : Rat) := by
      rw [hk]
      push_cast
      rw [div_eq_mul_inv]
    have hcop : Nat.Coprime (3 : Int).natAbs (2 ^ n) := by
      show Nat.Coprime 3 (2 ^ n)
      exact Nat.Coprime.pow_right n (by decide)
    have hpos : (0 : Int) < ((2 ^ n : Nat) : Int) := by positivity
    have hnum : q.num = 3 := by
      rw [hq]
      have := Rat.num_div_eq_of_coprime (a := 3) (b := ((2 ^ n : Nat) : Int)) hpos (by simpa using hcop)
      simpa using this
    have hd : (q.den : Int) = ((2 ^ n : Nat) : Int) := by
      rw [hq]
      have := Rat.den_div_eq_of_coprime (a := 3) (b := ((2 ^ n : Nat) : Int)) hpos (by simpa using hcop)
      simpa using this
    refine ⟨hnum, ?_⟩
    have hd' : q.den = 2 ^ n := by exact_mod_cast hd
    rw [hd', isPow2_iff _ (by positivity)]
    exact ⟨n, by push_cast; rw [zpow_natCast]⟩

theorem tupPow2_pow (q : Rat) (h0 : 0 < q) (h1 : q < 1) : ∃ k : Int, tupPow2 q = 2 ^ k := by
  obtain ⟨L, hL, _⟩ := nextHigher_bounds q h0 h1
  have e : (1 : Rat) / 2 ^ L = 2 ^ (-(L : Int)) := by rw [zpow_neg, zpow_natCast, one_div]
  unfold tupPow2
  simp only [h1, if_true, hL, e]
  split
  · exact ⟨-(L : Int) - 1, by rw [zpow_sub₀ (by norm_num)]; norm_num⟩
  · exact ⟨-(L : Int), rfl⟩

theorem tupMult_same (q r : Rat) (hq0 : 0 < q) (hq1 : q < 1) (hr0 : 0 < r) (hr1 : r < 1) (k : Int) (h : r = q * 2 ^ k) :
    q / tupPow2 q = r / tupPow2 r := by
  obtain ⟨L, hL, hL1, hL2⟩ := nextHigher_bounds q hq0 hq1
  obtain ⟨M, hM, hM1, hM2⟩ := nextHigher_bounds r hr0 hr1
  have hsame : q * 2 ^ L = r * 2 ^ M := by
    apply octave_unique _ _ (k + M - L) hL1 hL2 hM1 hM2
    rw [h, zpow_sub₀ (by norm_num), zpow_add₀ (by norm_num), zpow_natCast, zpow_natCast]
    field_simp
  have hdup : isDuplet q ↔ isDuplet r := by
    rw [isDuplet_iff q hq0 hq1, isDuplet_iff r hr0 hr1]
    constructor
    · rintro ⟨j, hj⟩
      exact ⟨j + k, by rw [h, hj, zpow_add₀ (by norm_num)]; ring⟩
    · rintro ⟨j, hj⟩
      refine ⟨j - k, ?_⟩
      rw [zpow_sub₀ (by norm_num), ← mul_div_assoc, ← hj, h]
      have := two_zpow_pos k
      field_simp
  unfold tupPow2
  simp only [hq1, hr1, if_true, hL, hM]
  by_cases hd : isDuplet q
  · have hd1 : q.num = 3 ∧ isPow2 q.den = true := hd
    have hd2 : r.num = 3 ∧ isPow2 r.den = true := hdup.1 hd
    rw [if_pos hd1, if_pos hd2]
    have e1 : q / (1 / 2 ^ L / 2) = (q * 2 ^ L) * 2 := by field_simp
    have e2 : r / (1 / 2 ^ M / 2) = (r * 2 ^ M) * 2 := by field_simp
    rw [e1, e2, hsame]
  · have hd1 : ¬ (q.num = 3 ∧ isPow2 q.den = true) := hd
    have hd2 : ¬ (r.num = 3 ∧ isPow2 r.den = true) := fun h => hd (hdup.2 h)
    rw [if_neg hd1, if_neg hd2]
    have e1 : q / (1 / 2 ^ L) = q * 2 ^ L := by field_simp
    have e2 : r / (1 / 2 ^ M) = r * 2 ^ M := by field_simp
    rw [e1, e2, hsame]

/-- The quotient of an item. -/
def multOf (x : TupItem) : Rat := (tupRatio x).2.2

theorem tupRatio_spec (x : TupItem) (h : TupletItem x) :
    1 ≤ (tupRatio x).1 ∧ 1 ≤ (tupRatio x).2.1 ∧ ((tupRatio x).2.1 : Rat) = multOf x * ((tupRatio x).1 : Rat) ∧
    ∃ k : Int, x.noDots = multOf x * 2 ^ k := by
  obtain ⟨h0, h4, _, _⟩ := h
  have q0 : 0 < x.noDots / 4 := by linarith
  have q1 : x.noDots / 4 < 1 := by linarith
  obtain ⟨k, hk⟩ := tupPow2_pow _ q0 q1
  have hp := two_zpow_pos k
  have hm : 0 < x.noDots / 4 / tupPow2 (x.noDots / 4) := by rw [hk]; exact div_pos q0 hp
  have hne : ¬ ((x.noDots / 4).num = 4 ∧ (x.noDots / 4).den = 3) := by
    rintro ⟨h1, h2⟩
    have := Rat.num_div_den (x.noDots / 4)
    rw [h1, h2] at this
    norm_num at this
    linarith
  have e : tupRatio x = (((x.noDots / 4 / tupPow2 (x.noDots / 4)).den : Int), (x.noDots / 4 / tupPow2 (x.noDots / 4)).num,
      x.noDots / 4 / tupPow2 (x.noDots / 4)) := by
    unfold tupRatio
    simp only
    rw [if_neg hne]
  unfold multOf
  rw [e]
  simp only
  refine ⟨by have := (x.noDots / 4 / tupPow2 (x.noDots / 4)).den_pos; omega, ?_, ?_, k + 2, ?_⟩
  · have := Rat.num_pos.2 hm
    omega
  · have := Rat.mul_den_eq_num (x.noDots / 4 / tupPow2 (x.noDots / 4))
    rw [← this]
    push_cast
    rfl
  · rw [hk, zpow_add₀ (by norm_num)]
    field_simp
    norm_num

theorem multOf_eq (x : TupItem) (h : TupletItem x) : multOf x = x.noDots / 4 / tupPow2 (x.noDots / 4) := by
  obtain ⟨h0, h4, _, _⟩ := h
  have hne : ¬ ((x.noDots / 4).num = 4 ∧ (x.noDots / 4).den = 3) := by
    rintro ⟨h1, h2⟩
    have := Rat.num_div_den (x.noDots / 4)
    rw [h1, h2] at this
    norm_num at this
    linarith
  unfold multOf tupRatio
  simp only
  rw [if_neg hne]

theorem ratio_of_mult (x y : TupItem) (hx : TupletItem x) (hy : TupletItem y) (h : multOf x = multOf y) :
    (tupRatio x).1 = (tupRatio y).1 ∧ (tupRatio x).2.1 = (tupRatio y).2.1 := by
  have key : ∀ z : TupItem, TupletItem z → (tupRatio z).1 = (multOf z).den ∧ (tupRatio z).2.1 = (multOf z).num := by
    intro z hz
    obtain ⟨h0, h4, _, _⟩ := hz
    have hne : ¬ ((z.noDots / 4).num = 4 ∧ (z.noDots / 4).den = 3) := by
      rintro ⟨h1, h2⟩
      have := Rat.num_div_den (z.noDots / 4)
      rw [h1, h2] at this
      norm_num at this
      linarith
    unfold multOf tupRatio
    simp only
    rw [if_neg hne]
    exact ⟨rfl, rfl⟩
  rw [(key x hx).1, (key x hx).2, (key y hy).1, (key y hy).2, h]
  exact ⟨rfl, rfl⟩

theorem same_iff_mult (x y : TupItem) (hx : TupletItem x) (hy : TupletItem y) : SameRatio x y ↔ multOf x = multOf y := by
  constructor
  · rintro ⟨k, hk⟩
    rw [multOf_eq x hx, multOf_eq y hy]
    obtain ⟨hx0, hx4, _, _⟩ := hx
    obtain ⟨hy0, hy4, _, _⟩ := hy
    exact tupMult_same _ _ (by linarith) (by linarith) (by linarith) (by linarith) k (by rw [hk]; ring)
  · intro h
    obtain ⟨_, _, _, k, hk⟩ := tupRatio_spec x hx
    obtain ⟨_, _, _, j, hj⟩ := tupRatio_spec y hy
    refine ⟨j - k, ?_⟩
    rw [hj, hk, ← h, zpow_sub₀ (by norm_num)]
    have := two_zpow_pos k
    field_simp


/-! ### Finding the tuplets -/

theorem plainItem_iff (x : TupItem) (h : 0 < x.noDots) : isPow2 x.noDots = true ↔ PlainItem x := isPow2_iff _ h

theorem plain_isPow2 (x : TupItem) (h : PlainItem x) : isPow2 x.noDots = true := by
  obtain ⟨k, hk⟩ := h
  exact (isPow2_iff _ (by rw [hk]; exact two_zpow_pos k)).2 ⟨k, hk⟩

theorem tupletItem_not (x : TupItem) (h : TupletItem x) : isPow2 x.noDots = false := by
  rw [← Bool.not_eq_true, plainItem_iff x h.1]
  exact h.2.2.2

theorem dottedPow2_iff (q : Rat) (h : 0 < q) : dottedPow2 q = true ↔ DottedValue q := by
  have key : ∀ c : Rat, 0 < c → (isPow2 (q / c) = true ↔ ∃ k : Int, q = 2 ^ k * c) := by
    intro c hc
    rw [isPow2_iff _ (div_pos h hc)]
    constructor
    · rintro ⟨k, hk⟩; exact ⟨k, by rw [← hk]; field_simp⟩
    · rintro ⟨k, hk⟩; exact ⟨k, by rw [hk]; field_simp⟩
  simp only [dottedPow2, Bool.or_eq_true, isPow2_iff q h, key _ (show (0 : Rat) < 3 / 2 by norm_num),
    key _ (show (0 : Rat) < 7 / 4 by norm_num), key _ (show (0 : Rat) < 15 / 8 by norm_num), key _ (show (0 : Rat) < 31 / 16 by norm_num),
    DottedValue]
  constructor
  · rintro ((((⟨k, h⟩ | ⟨k, h⟩) | ⟨k, h⟩) | ⟨k, h⟩) | ⟨k, h⟩)
    · exact ⟨k, Or.inl h⟩
    · exact ⟨k, Or.inr (Or.inl h)⟩
    · exact ⟨k, Or.inr (Or.inr (Or.inl h))⟩
    · exact ⟨k, Or.inr (Or.inr (Or.inr (Or.inl h)))⟩
    · exact ⟨k, Or.inr (Or.inr (Or.inr (Or.inr h)))⟩
  · rintro ⟨k, h | h | h | h | h⟩
    · exact Or.inl (Or.inl (Or.inl (Or.inl ⟨k, h⟩)))
    · exact Or.inl (Or.inl (Or.inl (Or.inr ⟨k, h⟩)))
    · exact Or.inl (Or.inl (Or.inr ⟨k, h⟩))
    · exact Or.inl (Or.inr ⟨k, h⟩)
    · exact Or.inr ⟨k, h⟩

theorem dotted_pos (q : Rat) (h : DottedValue q) : 0 < q := by
  obtain ⟨k, h | h | h | h | h⟩ := h <;> rw [h] <;> have := two_zpow_pos k <;> linarith

theorem dottedPow2_false (q : Rat) (h : 0 ≤ q) (hn : ¬ DottedValue q) : q = 0 ∨ dottedPow2 q = false := by
  rcases eq_or_lt_of_le h with h0 | h0
  · exact Or.inl h0.symm
  · right
    rw [← Bool.not_eq_true, dottedPow2_iff q h0]
    exact hn

/-- The scan over the rest `r` of a tuplet. -/
theorem scanTup_found (r rest : List TupItem) (g : Rat) (hg : 0 ≤ g) (hr : ∀ x ∈ r, TupletItem x ∧ x.brk = false)
    (hp : ∀ n, 1 ≤ n → n < r.length → ¬ ∃ k : Int, g + totalDur (r.take n) = 2 ^ k)
    (he : (r ≠ [] ∧ ∃ k : Int, g + totalDur r = 2 ^ k) ∨ ∀ y ∈ rest.head?, PlainItem y) :
    scanTup none g (r ++ rest) = (r.length, false) := by
  induction r generalizing g with
  | nil =>
    rcases he with he | he
    · exact absurd rfl he.1
    cases rest with
    | nil => rfl
    | cons y ys =>
      have := plain_isPow2 y (he y (by simp))
      simp only [List.nil_append, scanTup, this, if_true]
      rfl
  | cons x r ih =>
    obtain ⟨hx, hb⟩ := hr x (by simp)
    have hd : 0 < x.dur := hx.2.2.1
    simp only [List.cons_append, scanTup, tupletItem_not x hx, hb, Bool.false_eq_true, if_false]
    by_cases hs : isPow2 (g + x.dur) = true
    · rw [if_pos hs]
      cases r with
      | nil => rfl
      | cons y r =>
        exfalso
        apply hp 1 (by omega) (by simp)
        have := (isPow2_iff _ (by linarith)).1 hs
        simpa [totalDur] using this
    · rw [if_neg hs]
      have hns : ¬ ∃ k : Int, g + x.dur = 2 ^ k := fun h => hs ((isPow2_iff _ (by linarith)).2 h)
      rw [ih (g + x.dur) (by linarith) (fun y hy => hr y (by simp [hy])) ?_ ?_]
      · rfl
      · intro n h1 h2 ⟨k, hk⟩
        apply hp (n + 1) (by omega) (by simp; omega)
        refine ⟨k, ?_⟩
        rw [← hk]
        simp [totalDur, add_assoc]
      · rcases he with ⟨_, k, hk⟩ | he
        · cases r with
          | nil =>
            exfalso
            apply hns
            exact ⟨k, by rw [← hk]; simp [totalDur]⟩
          | cons y r =>
            left
            exact ⟨by simp, k, by rw [← hk]; simp [totalDur, add_assoc]⟩
        · exact Or.inr he

theorem beamDur_eq (items : List TupItem) (b : Nat × Nat) : beamDur items b = totalDur (tupSlice items b) := rfl

theorem find_beam (beams : List (Nat × Nat)) (hb : BeamsApart beams) (b : Nat × Nat) (h : b ∈ beams) :
    beams.find? (fun c => c.1 = b.1) = some b := by
  obtain ⟨h1, h2⟩ := hb
  induction beams with
  | nil => simp at h
  | cons c cs ih =>
    rw [List.pairwise_cons] at h2
    rcases List.mem_cons.1 h with rfl | hm
    · simp
    · have := h2.1 b hm
      have := h1 c (by simp)
      rw [List.find?_cons_of_neg (by simp; omega)]
      exact ih hm (fun d hd => h1 d (by simp [hd])) h2.2

theorem tupLen_found (items : List TupItem) (beams : List (Nat × Nat)) (hb : BeamsApart beams) (hi : ∀ x ∈ items, 0 ≤ x.dur) (i : Nat) (x : TupItem)
    (r rest : List TupItem) (hit : items.drop i = x :: r ++ rest) (h : TupletHere items beams i (x :: r) rest) :
    tupLen items beams i x (r ++ rest) = (r.length, false) := by
  have hx := h.notes x (by simp)
  have htwo : 1 ≤ r.length := by have := h.two; simp at this; omega
  have hsub : ∀ b : Nat × Nat, ∀ y ∈ tupSlice items b, y ∈ items := fun b y hy => List.mem_of_mem_drop (List.mem_of_mem_take hy)
  unfold tupLen
  rcases h.ends with ⟨h1, h2⟩ | ⟨h1, h2, h3⟩
  · have hf := find_beam beams hb _ h1
    simp only at hf
    have hsl : tupSlice items (i, i + (x :: r).length - 1) = x :: r := by
      unfold tupSlice
      have : i + (x :: r).length - 1 + 1 - i = (x :: r).length := by simp; omega
      simp only [this, hit]
      exact List.take_left
    have hfe : findTupEnd items beams i = some (i + r.length) := by
      unfold findTupEnd
      rw [hf]
      simp only
      rw [beamDur_eq, hsl, if_neg, if_neg]
      · simp
      · have hsl' : List.take (i + (x :: r).length - 1 + 1 - i) (List.drop i items) = x :: r := hsl
        rw [hsl']
        simp only [List.any_eq_true, not_exists, not_and, Bool.not_eq_true]
        intro y hy
        exact tupletItem_not y (h.notes y hy).1
      · rw [(dottedPow2_iff _ (dotted_pos _ h2)).2 h2]
        simp
    rw [hx.2.1, hfe]
    simp
  · have hfe : findTupEnd items beams i = none := by
      unfold findTupEnd
      cases hf : beams.find? (fun c => c.1 = i) with
      | none => rfl
      | some b =>
        simp only
        have hbm := List.mem_of_find?_eq_some hf
        have hbi : b.1 = i := by have := List.find?_some hf; simpa using this
        rw [beamDur_eq]
        by_cases hd : dottedPow2 (totalDur (tupSlice items b)) = false
        · rw [if_pos hd]
        · rw [if_neg hd, if_pos]
          rcases h1 b hbm hbi with hn | ⟨y, hy, hp⟩
          · have hnn : 0 ≤ totalDur (tupSlice items b) := by
              unfold totalDur
              apply List.sum_nonneg
              intro q hq
              obtain ⟨y, hy, rfl⟩ := List.mem_map.1 hq
              exact hi y (hsub b y hy)
            rcases dottedPow2_false _ hnn hn with h0 | h0
            · exfalso
              apply hd
              rw [h0]
              decide +kernel
            · exact absurd h0 hd
          · simp only [List.any_eq_true]
            exact ⟨y, hy, plain_isPow2 y hp⟩
    rw [hx.2.1, hfe]
    simp only
    apply scanTup_found r rest x.dur (le_of_lt hx.1.2.2.1) (fun y hy => ⟨(h.notes y (by simp [hy])).1, (h.notes y (by simp [hy])).2.2⟩)
    · intro n hn1 hn2 ⟨k, hk⟩
      exact h2 (n + 1) (by omega) (by simp; omega) ⟨k, by rw [← hk]; simp [totalDur]⟩
    · rcases h3 with ⟨k, hk⟩ | h3
      · left
        exact ⟨by rintro rfl; simp at htwo, k, by rw [← hk]; simp [totalDur]⟩
      · exact Or.inr h3

/-- The numbers of the tuplets. -/
def segNums (num : Nat) : List TupSeg → List Nat
  | [] => []
  | .plain _ :: r => 0 :: segNums num r
  | .tup xs :: r => List.replicate xs.length num ++ segNums (num + 1) r

theorem tupLabels_false (num k : Nat) : tupLabels num k false = List.replicate (k + 1) (num, false) := by
  cases k with
  | zero => rfl
  | succ k =>
    rw [tupLabels, List.replicate_succ (n := k + 1), ← List.replicate_succ']

theorem tupGroups_found (items : List TupItem) (beams : List (Nat × Nat)) (hb : BeamsApart beams) (hi : ∀ x ∈ items, 0 ≤ x.dur) (segs : List TupSeg)
    (i num : Nat) (hit : items.drop i = tupSegItems segs) (hok : TupletsOk items beams i segs) :
    tupGroups items beams i num (tupSegItems segs) = (segNums num segs).map (fun g => (g, false)) := by
  induction segs generalizing i num with
  | nil => simp [tupSegItems, tupGroups, segNums]
  | cons s r ih =>
    cases s with
    | plain x =>
      obtain ⟨h1, h2⟩ := hok
      rw [tupSegItems, tupGroups, if_pos (plain_isPow2 x h1), ih (i + 1) num ?_ h2]
      · rfl
      · rw [← List.drop_drop, hit]; rfl
    | tup xs =>
      obtain ⟨h1, h2⟩ := hok
      cases xs with
      | nil => have := h1.two; simp at this
      | cons x xr =>
        have hl := tupLen_found items beams hb hi i x xr (tupSegItems r) hit h1
        have hdrop : items.drop (i + (x :: xr).length) = tupSegItems r := by
          rw [← List.drop_drop, hit, tupSegItems]
          exact List.drop_left
        show tupGroups items beams i num (x :: (xr ++ tupSegItems r)) = _
        rw [tupGroups, if_neg (by rw [tupletItem_not x (h1.notes x (by simp)).1]; simp)]
        simp only
        rw [hl]
        simp only
        have hmin : min xr.length (xr ++ tupSegItems r).length = xr.length := by simp
        rw [hmin, List.drop_left, tupLabels_false]
        have e : i + 1 + xr.length = i + (x :: xr).length := by simp; omega
        rw [e, ih _ (num + 1) hdrop h2, segNums, List.map_append, List.map_replicate]
        rfl

theorem map_fst_labels (l : List Nat) : (l.map (fun g => (g, false))).map Prod.fst = l := by
  rw [List.map_map]
  exact List.map_id _

theorem tupStarts_append (seen a b : List Nat) : tupStarts seen (a ++ b) = tupStarts seen a ++ tupStarts (a.reverse ++ seen) b := by
  induction a generalizing seen with
  | nil => rfl
  | cons x a ih => simp [tupStarts, ih]

theorem tupStops_cons (g : Nat) (gs : List Nat) : tupStops (g :: gs) = (if g = 0 ∨ g ∈ gs then 0 else g) :: tupStops gs := by
  unfold tupStops
  rw [List.reverse_cons, tupStarts_append]
  simp [tupStarts]

theorem segNums_bound (num : Nat) (segs : List TupSeg) (g : Nat) (h : g ∈ segNums num segs) : g = 0 ∨ num ≤ g := by
  induction segs generalizing num with
  | nil => simp [segNums] at h
  | cons s r ih =>
    cases s with
    | plain x =>
      rcases List.mem_cons.1 h with h | h
      · exact Or.inl h
      · exact ih num h
    | tup xs =>
      rcases List.mem_append.1 h with h | h
      · exact Or.inr (le_of_eq (List.eq_of_mem_replicate h).symm)
      · rcases ih (num + 1) h with h | h
        · exact Or.inl h
        · right; omega

/-! ### The notes of a layer with tuplets -/

/-- An item in no tuplet, or a tuplet with its numbers. -/
inductive NumSeg where
  | plain (x : TupItem)
  | tup (xs : List TupItem) (a n : Int)

/-- The tuplets as they are found. -/
def numSegs : List TupSeg → List NumSeg
  | [] => []
  | .plain x :: r => .plain x :: numSegs r
  | .tup [] :: r => .tup [] 1 1 :: numSegs r
  | .tup (x :: xs) :: r => .tup (x :: xs) (tupRatio x).1 (tupRatio x).2.1 :: numSegs r

/-- A note that is in no tuplet. -/
def plainNote (gr : Nat → Nat) (ib : Nat → Bool) (beams : List (Nat × Nat)) (i : Nat) (x : TupItem) : HTupNote :=
  { item := x, start := 0, stop := 0, group := gr 0, actual := -1, normal := -1, mult := 1, force := false
    beamStart := beams.any (fun b => b.1 = i), beamEnd := beams.any (fun b => b.2 = i), inBeam := ib i, scale := 1 }

/-- A note of a tuplet. -/
def inTup (gr : Nat → Nat) (ib : Nat → Bool) (beams : List (Nat × Nat)) (k i : Nat) (x : TupItem) (st en : Nat) (a n : Int) : HTupNote :=
  { item := x, start := st, stop := en, group := gr k, actual := a, normal := n, mult := multOf x, force := false
    beamStart := beams.any (fun b => b.1 = i), beamEnd := beams.any (fun b => b.2 = i), inBeam := ib i, scale := 1 }

/-- The notes of a tuplet; `f`: does it start here? -/
def tupRun (gr : Nat → Nat) (ib : Nat → Bool) (beams : List (Nat × Nat)) (k : Nat) (a n : Int) : Nat → Bool → List TupItem → List HTupNote
  | _, _, [] => []
  | i, f, [x] => [inTup gr ib beams k i x (if f then k else 0) k a n]
  | i, f, x :: y :: r => inTup gr ib beams k i x (if f then k else 0) 0 a n :: tupRun gr ib beams k a n (i + 1) false (y :: r)

/-- The notes of a layer. -/
def numNotes (gr : Nat → Nat) (ib : Nat → Bool) (beams : List (Nat × Nat)) : Nat → Nat → List NumSeg → List HTupNote
  | _, _, [] => []
  | i, k, .plain x :: r => plainNote gr ib beams i x :: numNotes gr ib beams (i + 1) k r
  | i, k, .tup xs a n :: r => tupRun gr ib beams k a n i true xs ++ numNotes gr ib beams (i + xs.length) (k + 1) r

theorem tupNotes_run (beams : List (Nat × Nat)) (k : Nat) (hk : k ≠ 0) (a n : Int) (items : List TupItem) (L : List (Nat × Bool)) (S : List Nat)
    (hS : k ∉ S) (xs : List TupItem) (hx : ∀ x ∈ xs, (tupRatio x).1 = a ∧ (tupRatio x).2.1 = n) (i : Nat) (f : Bool) (seen : List Nat)
    (hf : f = decide (k ∉ seen)) :
    tupNotes beams i (xs ++ items) (List.replicate xs.length (k, false) ++ L) (tupStarts seen (List.replicate xs.length k ++ S))
      (tupStops (List.replicate xs.length k ++ S)) =
    tupRun id (fun _ => false) beams k a n i f xs ++
      tupNotes beams (i + xs.length) items L (tupStarts (List.replicate xs.length k ++ seen) S) (tupStops S) := by
  induction xs generalizing i f seen with
  | nil => rfl
  | cons x xs ih =>
    have ih := ih (fun y hy => hx y (by simp [hy])) (i + 1) false (k :: seen) (by simp)
    have hst : (if k = 0 ∨ k ∈ seen then 0 else k) = (if f then k else 0) := by
      rw [hf]
      by_cases h : k ∈ seen <;> simp [h, hk]
    have hsw : List.replicate xs.length k ++ k :: seen = List.replicate (xs.length + 1) k ++ seen := by
      rw [List.replicate_succ', List.append_assoc]; rfl
    simp only [List.length_cons, List.replicate_succ, List.cons_append, tupStarts, tupStops_cons, tupNotes, hst]
    rw [ih, hsw]
    have hn : tupNote beams i x (k, false) (if f then k else 0) (if k = 0 ∨ k ∈ List.replicate xs.length k ++ S then 0 else k) =
        inTup id (fun _ => false) beams k i x (if f then k else 0) (if xs = [] then k else 0) a n := by
      unfold tupNote inTup
      rw [if_neg hk, if_neg hk, if_neg hk, (hx x (by simp)).1, (hx x (by simp)).2]
      have : (if k = 0 ∨ k ∈ List.replicate xs.length k ++ S then 0 else k) = if xs = [] then k else 0 := by
        cases xs with
        | nil => simp [hk, hS]
        | cons y ys => simp [List.replicate_succ]
      rw [this]
      rfl
    rw [hn]
    have e : i + 1 + xs.length = i + (xs.length + 1) := by omega
    rw [e]
    cases xs with
    | nil => rfl
    | cons y ys => rfl

theorem tupNotes_found (beams : List (Nat × Nat)) (segs : List TupSeg) (i k : Nat) (hk : k ≠ 0) (seen : List Nat) (hs : ∀ s ∈ seen, s < k)
    (hx : ∀ xs, .tup xs ∈ segs → ∀ x ∈ xs, ∀ y ∈ xs, (tupRatio x).1 = (tupRatio y).1 ∧ (tupRatio x).2.1 = (tupRatio y).2.1) :
    tupNotes beams i (tupSegItems segs) ((segNums k segs).map (fun g => (g, false))) (tupStarts seen (segNums k segs)) (tupStops (segNums k segs)) =
    numNotes id (fun _ => false) beams i k (numSegs segs) := by
  induction segs generalizing i k seen with
  | nil => rfl
  | cons s r ih =>
    cases s with
    | plain x =>
      have ih := ih (i + 1) k hk (0 :: seen) (by
        intro s hs'
        rcases List.mem_cons.1 hs' with h | h
        · omega
        · exact hs s h) (fun xs h => hx xs (by simp [h]))
      simp only [tupSegItems, segNums, List.map_cons, tupStarts, tupStops_cons, tupNotes, numSegs, numNotes]
      rw [ih]
      simp [tupNote, plainNote]
    | tup xs =>
      have hnot : k ∉ segNums (k + 1) r := by
        intro h
        rcases segNums_bound _ _ _ h with h | h <;> omega
      have hns : k ∉ seen := fun h => absurd (hs k h) (by omega)
      cases xs with
      | nil =>
        have := ih i (k + 1) (by omega) seen (fun s h => by have := hs s h; omega) (fun xs h => hx xs (by simp [h]))
        simpa [tupSegItems, segNums, numSegs, numNotes, tupRun] using this
      | cons x xs =>
        have hrat : ∀ y ∈ x :: xs, (tupRatio y).1 = (tupRatio x).1 ∧ (tupRatio y).2.1 = (tupRatio x).2.1 :=
          fun y hy => hx (x :: xs) (by simp) y hy x (by simp)
        have ih := ih (i + (x :: xs).length) (k + 1) (by omega) (List.replicate (x :: xs).length k ++ seen) (by
          intro s h
          rcases List.mem_append.1 h with h | h
          · rw [List.eq_of_mem_replicate h]; omega
          · have := hs s h; omega) (fun ys h => hx ys (by simp [h]))
        rw [tupSegItems, segNums, List.map_append, List.map_replicate,
          tupNotes_run beams k hk (tupRatio x).1 (tupRatio x).2.1 _ _ _ hnot (x :: xs) hrat i true seen (by simp [hns]), ih]
        rfl

/-! ### No splits, same numbers -/

theorem splitTups_same (p : HTupNote) (ts : List HTupNote) (h : ∀ t ∈ p :: ts, ∀ u ∈ p :: ts, t.group = u.group → t.actual = u.actual ∧ t.normal = u.normal) :
    splitTups 0 p ts = p :: ts := by
  induction ts generalizing p with
  | nil => rfl
  | cons x ts ih =>
    have ih := ih x (fun t ht u hu => h t (List.mem_cons_of_mem _ ht) u (List.mem_cons_of_mem _ hu))
    rw [splitTups]
    by_cases h1 : (noRatio x || noRatio p) = true
    · rw [if_pos h1, ih]
    · rw [if_neg h1, if_neg]
      · have e : ({ x with group := x.group + 0 } : HTupNote) = x := by simp
        rw [e, ih]
      · rintro ⟨h2, h3⟩
        have := h x (by simp) p (by simp) h3
        rcases h2 with h2 | h2
        · exact h2 this.1
        · exact h2 this.2

theorem tupRun_mem (gr : Nat → Nat) (ib : Nat → Bool) (beams : List (Nat × Nat)) (k : Nat) (a n : Int) (i : Nat) (f : Bool) (xs : List TupItem)
    (t : HTupNote) (h : t ∈ tupRun gr ib beams k a n i f xs) :
    t.group = gr k ∧ t.actual = a ∧ t.normal = n ∧ t.item ∈ xs ∧ t.mult = multOf t.item ∧ t.scale = 1 := by
  induction xs generalizing i f with
  | nil => simp [tupRun] at h
  | cons x xs ih =>
    cases xs with
    | nil =>
      simp only [tupRun, List.mem_singleton] at h
      subst h
      simp [inTup]
    | cons y r =>
      rw [tupRun] at h
      rcases List.mem_cons.1 h with h | h
      · subst h
        simp [inTup]
      · have := ih (i + 1) false h
        exact ⟨this.1, this.2.1, this.2.2.1, List.mem_cons_of_mem _ this.2.2.2.1, this.2.2.2.2⟩

theorem numNotes_mem (ib : Nat → Bool) (beams : List (Nat × Nat)) (i k : Nat) (hk : k ≠ 0) (ms : List NumSeg) (t : HTupNote)
    (h : t ∈ numNotes id ib beams i k ms) :
    (t.group = 0 ∧ t.actual = -1 ∧ t.normal = -1 ∧ t.start = 0) ∨ (k ≤ t.group ∧ ∃ xs, .tup xs t.actual t.normal ∈ ms ∧ t.item ∈ xs ∧ t.mult = multOf t.item ∧ t.scale = 1) := by
  induction ms generalizing i k with
  | nil => simp [numNotes] at h
  | cons s r ih =>
    cases s with
    | plain x =>
      rw [numNotes] at h
      rcases List.mem_cons.1 h with h | h
      · subst h
        left
        simp [plainNote]
      · rcases ih (i + 1) k hk h with h | ⟨h1, xs, h2, h3⟩
        · exact Or.inl h
        · exact Or.inr ⟨h1, xs, by simp [h2], h3⟩
    | tup xs a n =>
      rw [numNotes] at h
      rcases List.mem_append.1 h with h | h
      · obtain ⟨h1, h2, h3, h4, h5⟩ := tupRun_mem _ _ _ _ _ _ _ _ _ _ h
        right
        exact ⟨by rw [h1]; exact le_refl k, xs, by simp [h2, h3], h4, h5⟩
      · rcases ih _ (k + 1) (by omega) h with h | ⟨h1, ys, h2, h3⟩
        · exact Or.inl h
        · exact Or.inr ⟨by omega, ys, by simp [h2], h3⟩

/-- Two notes of the same tuplet belong to the same segment. -/
theorem numNotes_group (ib : Nat → Bool) (beams : List (Nat × Nat)) (i k : Nat) (hk : k ≠ 0) (ms : List NumSeg) (t u : HTupNote)
    (ht : t ∈ numNotes id ib beams i k ms) (hu : u ∈ numNotes id ib beams i k ms) (h : t.group = u.group) :
    (t.group = 0 ∧ t.actual = -1 ∧ t.normal = -1 ∧ t.start = 0 ∧ u.actual = -1 ∧ u.normal = -1) ∨
    ∃ xs, .tup xs t.actual t.normal ∈ ms ∧ t.actual = u.actual ∧ t.normal = u.normal ∧ t.item ∈ xs ∧ u.item ∈ xs ∧
      t.mult = multOf t.item ∧ u.mult = multOf u.item ∧ t.scale = 1 := by
  induction ms generalizing i k with
  | nil => simp [numNotes] at ht
  | cons s r ih =>
    cases s with
    | plain x =>
      rw [numNotes] at ht hu
      rcases List.mem_cons.1 ht with ht | ht
      · rcases List.mem_cons.1 hu with hu | hu
        · subst ht; subst hu
          left; simp [plainNote]
        · subst ht
          rcases numNotes_mem _ _ _ _ hk _ _ hu with hu | hu
          · left; simp [plainNote, hu]
          · simp [plainNote] at h; omega
      · rcases List.mem_cons.1 hu with hu | hu
        · subst hu
          rcases numNotes_mem _ _ _ _ hk _ _ ht with ht | ht
          · left; simp [plainNote, ht]
          · simp [plainNote] at h; omega
        · rcases ih (i + 1) k hk ht hu with h | ⟨xs, h1, h2⟩
          · exact Or.inl h
          · exact Or.inr ⟨xs, by simp [h1], h2⟩
    | tup xs a n =>
      rw [numNotes] at ht hu
      rcases List.mem_append.1 ht with ht | ht
      · obtain ⟨h1, h2, h3, h4, h5, h6⟩ := tupRun_mem _ _ _ _ _ _ _ _ _ _ ht
        rcases List.mem_append.1 hu with hu | hu
        · obtain ⟨k1, k2, k3, k4, k5, k6⟩ := tupRun_mem _ _ _ _ _ _ _ _ _ _ hu
          right
          exact ⟨xs, by simp [h2, h3], by rw [h2, k2], by rw [h3, k3], h4, k4, h5, k5, h6⟩
        · rcases numNotes_mem _ _ _ _ (by omega) _ _ hu with hu | hu
          · rw [h1, hu.1] at h; exact absurd h hk
          · rw [h1] at h; simp only [id] at h; omega
      · rcases List.mem_append.1 hu with hu | hu
        · obtain ⟨k1, k2, k3, k4, k5, k6⟩ := tupRun_mem _ _ _ _ _ _ _ _ _ _ hu
          rcases numNotes_mem _ _ _ _ (by omega) _ _ ht with ht | ht
          · rw [k1, ht.1] at h; exact absurd h.symm hk
          · rw [k1] at h; simp only [id] at h; omega
        · rcases ih _ (k + 1) (by omega) ht hu with h | ⟨ys, h1, h2⟩
          · exact Or.inl h
          · exact Or.inr ⟨ys, by simp [h1], h2⟩

theorem splitAll_same (ib : Nat → Bool) (beams : List (Nat × Nat)) (i k : Nat) (hk : k ≠ 0) (ms : List NumSeg) :
    splitAll (numNotes id ib beams i k ms) = numNotes id ib beams i k ms := by
  have h : ∀ t ∈ numNotes id ib beams i k ms, ∀ u ∈ numNotes id ib beams i k ms, t.group = u.group → t.actual = u.actual ∧ t.normal = u.normal := by
    intro t ht u hu hg
    rcases numNotes_group ib beams i k hk ms t u ht hu hg with h | ⟨xs, _, h1, h2, _⟩
    · rw [h.2.1, h.2.2.1, h.2.2.2.2.1, h.2.2.2.2.2]; exact ⟨rfl, rfl⟩
    · exact ⟨h1, h2⟩
  cases hn : numNotes id ib beams i k ms with
  | nil => rfl
  | cons p ts =>
    rw [hn] at h
    exact splitTups_same p ts h

/-- Every tuplet has two notes or more. -/
def NumTwo (ms : List NumSeg) : Prop := ∀ xs a n, .tup xs a n ∈ ms → 2 ≤ xs.length

theorem renumber_run (ib : Nat → Bool) (beams : List (Nat × Nat)) (k : Nat) (hk : k ≠ 0) (a n : Int) (xs : List TupItem) (i : Nat) (ts : List HTupNote) :
    renumber k (tupRun id ib beams k a n i false xs ++ ts) = tupRun id ib beams k a n i false xs ++ renumber k ts := by
  induction xs generalizing i with
  | nil => rfl
  | cons x xs ih =>
    cases xs with
    | nil => simp [tupRun, renumber, inTup, hk]
    | cons y r =>
      have ih := ih (i + 1)
      simp only [tupRun, List.cons_append, renumber, inTup, Bool.false_eq_true, if_false, ne_eq, not_true_eq_false] at ih ⊢
      rw [ih]

theorem renumber_same (ib : Nat → Bool) (beams : List (Nat × Nat)) (i c : Nat) (ms : List NumSeg) (h2 : NumTwo ms) :
    renumber c (numNotes id ib beams i (c + 1) ms) = numNotes id ib beams i (c + 1) ms := by
  induction ms generalizing i c with
  | nil => rfl
  | cons s r ih =>
    have hr : NumTwo r := fun xs a n h => h2 xs a n (by simp [h])
    cases s with
    | plain x =>
      rw [numNotes, renumber]
      simp [plainNote, ih (i + 1) c hr]
    | tup xs a n =>
      have hl := h2 xs a n (by simp)
      match xs, hl with
      | x :: y :: r', _ =>
        rw [numNotes, tupRun, List.cons_append, renumber, if_pos (by simp [inTup]), renumber_run ib beams (c + 1) (by omega), ih _ (c + 1) hr]
        rfl

/-! ### Beams -/

/-- A beam goes from the item before the place `i` to the one there. -/
def beamInto (beams : List (Nat × Nat)) (i : Nat) : Bool := beams.any (fun b => decide (b.1 < i) && decide (i ≤ b.2))

theorem pairwise_trich {α : Type} {R : α → α → Prop} (l : List α) (h : l.Pairwise R) (a b : α) (ha : a ∈ l) (hb : b ∈ l) :
    a = b ∨ R a b ∨ R b a := by
  induction l with
  | nil => simp at ha
  | cons c l ih =>
    rw [List.pairwise_cons] at h
    rcases List.mem_cons.1 ha with rfl | ha
    · rcases List.mem_cons.1 hb with rfl | hb
      · exact Or.inl rfl
      · exact Or.inr (Or.inl (h.1 b hb))
    · rcases List.mem_cons.1 hb with hb' | hb
      · subst hb'
        exact Or.inr (Or.inr (h.1 a (by assumption)))
      · exact ih h.2 ha hb

theorem beamInto_step (beams : List (Nat × Nat)) (hb : BeamsApart beams) (i : Nat) :
    (if beams.any (fun b => decide (b.1 = i)) then true else if beams.any (fun b => decide (b.2 = i)) then false else beamInto beams i) =
    beamInto beams (i + 1) := by
  obtain ⟨h1, h2⟩ := hb
  by_cases hs : beams.any (fun b => decide (b.1 = i)) = true
  · rw [if_pos hs]
    symm
    simp only [List.any_eq_true, decide_eq_true_eq] at hs
    obtain ⟨b, hb, he⟩ := hs
    have := h1 b hb
    simp only [beamInto, List.any_eq_true, Bool.and_eq_true, decide_eq_true_eq]
    exact ⟨b, hb, by omega, by omega⟩
  · rw [if_neg hs]
    have hs' : ∀ b ∈ beams, b.1 ≠ i := by
      intro b hb he
      apply hs
      simp only [List.any_eq_true, decide_eq_true_eq]
      exact ⟨b, hb, he⟩
    by_cases he : beams.any (fun b => decide (b.2 = i)) = true
    · rw [if_pos he]
      symm
      simp only [List.any_eq_true, decide_eq_true_eq] at he
      obtain ⟨b, hb, he⟩ := he
      rw [← Bool.not_eq_true]
      simp only [beamInto, List.any_eq_true, Bool.and_eq_true, decide_eq_true_eq]
      rintro ⟨c, hc, hc1, hc2⟩
      have := h1 b hb
      have := h1 c hc
      rcases pairwise_trich beams h2 b c hb hc with rfl | h | h <;> omega
    · rw [if_neg he]
      have he' : ∀ b ∈ beams, b.2 ≠ i := by
        intro b hb h
        apply he
        simp only [List.any_eq_true, decide_eq_true_eq]
        exact ⟨b, hb, h⟩
      rw [Bool.eq_iff_iff]
      simp only [beamInto, List.any_eq_true, Bool.and_eq_true, decide_eq_true_eq]
      constructor
      · rintro ⟨b, hb, hc1, hc2⟩
        have := he' b hb
        exact ⟨b, hb, by omega, by omega⟩
      · rintro ⟨b, hb, hc1, hc2⟩
        have := hs' b hb
        exact ⟨b, hb, by omega, by omega⟩

theorem markBeams_cons (p : Bool) (t : HTupNote) (ts : List HTupNote) (b : Bool) (hf : t.force = false)
    (h : (if t.beamStart = true then true else if t.beamEnd = true then false else p) = b) :
    markBeams p (t :: ts) = { t with inBeam := b } :: markBeams b ts := by
  subst h
  rw [markBeams]
  simp only [hf, Bool.false_eq_true, if_false]

theorem markBeams_run (beams : List (Nat × Nat)) (hb : BeamsApart beams) (k : Nat) (a n : Int) (xs : List TupItem) (i : Nat) (f : Bool) (ts : List HTupNote) :
    markBeams (beamInto beams i) (tupRun id (fun _ => false) beams k a n i f xs ++ ts) =
    tupRun id (fun j => beamInto beams (j + 1)) beams k a n i f xs ++ markBeams (beamInto beams (i + xs.length)) ts := by
  induction xs generalizing i f with
  | nil => rfl
  | cons x xs ih =>
    cases xs with
    | nil =>
      have := beamInto_step beams hb i
      simp only [tupRun, List.cons_append, markBeams, inTup, Bool.false_eq_true, if_false, List.nil_append, List.length_cons, List.length_nil,
        Nat.zero_add]
      rw [this]
    | cons y r =>
      have h1 := beamInto_step beams hb i
      have ih := ih (i + 1) false
      have e : i + 1 + (y :: r).length = i + (x :: y :: r).length := by simp; omega
      rw [e] at ih
      rw [tupRun, tupRun, List.cons_append, List.cons_append, markBeams_cons _ _ _ _ rfl h1, ih]
      rfl

theorem markBeams_same (beams : List (Nat × Nat)) (hb : BeamsApart beams) (i k : Nat) (ms : List NumSeg) :
    markBeams (beamInto beams i) (numNotes id (fun _ => false) beams i k ms) = numNotes id (fun j => beamInto beams (j + 1)) beams i k ms := by
  induction ms generalizing i k with
  | nil => rfl
  | cons s r ih =>
    cases s with
    | plain x =>
      have h1 := beamInto_step beams hb i
      rw [numNotes, numNotes, markBeams_cons _ _ _ _ rfl h1, ih (i + 1) k]
      rfl
    | tup xs a n => rw [numNotes, numNotes, markBeams_run beams hb, ih]

/-! ### Tuplets that are joined -/

/-- The number of the tuplet of a note does not matter when tuplets are joined. -/
def noGroup (t : HTupNote) : HTupNote := { t with group := 0 }

theorem backSet_noGroup (k : Nat) (a n : Int) (ts : List HTupNote) : (backSet k a n ts).map noGroup = backSet k a n (ts.map noGroup) := by
  induction ts with
  | nil => rfl
  | cons t ts ih =>
    simp only [backSet, List.map_cons]
    have e : (noGroup t).start = t.start := rfl
    rw [e]
    by_cases h : t.start = k
    · rw [if_pos h, if_pos h]; rfl
    · rw [if_neg h, if_neg h, ih]; rfl

theorem foreSet_noGroup (k : Nat) (a n : Int) (ts : List HTupNote) : (foreSet k a n ts).map noGroup = foreSet k a n (ts.map noGroup) := by
  induction ts with
  | nil => rfl
  | cons t ts ih =>
    simp only [foreSet, List.map_cons]
    have e : (noGroup t).stop = t.stop := rfl
    rw [e]
    by_cases h : t.stop ≠ 0 ∧ t.stop = k
    · rw [if_pos h, if_pos h]; rfl
    · rw [if_neg h, if_neg h, ih]; rfl

theorem clearStop_noGroup (ts : List HTupNote) : (clearStop ts).map noGroup = clearStop (ts.map noGroup) := by
  cases ts <;> rfl

theorem clearStart_noGroup (ts : List HTupNote) : (clearStart ts).map noGroup = clearStart (ts.map noGroup) := by
  cases ts with
  | nil => rfl
  | cons t ts =>
    simp only [clearStart, List.map_cons, List.map_map]
    rfl

theorem mergeTups_noGroup (pre post : List HTupNote) : (mergeTups pre post).map noGroup = mergeTups (pre.map noGroup) (post.map noGroup) := by
  induction pre, post using mergeTups.induct with
  | case1 pre => simp [mergeTups]
  | case2 pre x => simp [mergeTups]
  | case3 pre x y post h ih =>
    rw [mergeTups, if_pos h, ih, clearStop_noGroup, backSet_noGroup, clearStart_noGroup, foreSet_noGroup]
    conv_rhs => rw [List.map_cons, List.map_cons, mergeTups]
    rw [if_pos (show (noGroup x).inBeam = true ∧ (noGroup x).stop ≠ 0 ∧ (noGroup y).start ≠ 0 ∧ (noGroup x).mult = (noGroup y).mult from h)]
    rfl
  | case4 pre x y post h ih =>
    rw [mergeTups, if_neg h, ih]
    conv_rhs => rw [List.map_cons, List.map_cons, mergeTups]
    rw [if_neg (show ¬ ((noGroup x).inBeam = true ∧ (noGroup x).stop ≠ 0 ∧ (noGroup y).start ≠ 0 ∧ (noGroup x).mult = (noGroup y).mult) from h)]
    rfl

theorem regroup_noGroup (c : Nat) (ts : List HTupNote) : regroup c (ts.map noGroup) = regroup c ts := by
  induction ts generalizing c with
  | nil => rfl
  | cons t ts ih => simp only [List.map_cons, regroup, ih]; rfl

theorem tupRun_noGroup (ib : Nat → Bool) (beams : List (Nat × Nat)) (k : Nat) (a n : Int) (i : Nat) (f : Bool) (xs : List TupItem) :
    (tupRun id ib beams k a n i f xs).map noGroup = tupRun (fun _ => 0) ib beams k a n i f xs := by
  induction xs generalizing i f with
  | nil => rfl
  | cons x xs ih =>
    cases xs with
    | nil => rfl
    | cons y r => rw [tupRun, tupRun, List.map_cons, ih]; rfl

theorem numNotes_noGroup (ib : Nat → Bool) (beams : List (Nat × Nat)) (i k : Nat) (ms : List NumSeg) :
    (numNotes id ib beams i k ms).map noGroup = numNotes (fun _ => 0) ib beams i k ms := by
  induction ms generalizing i k with
  | nil => rfl
  | cons s r ih =>
    cases s with
    | plain x => rw [numNotes, numNotes, List.map_cons, ih]; rfl
    | tup xs a n => rw [numNotes, numNotes, List.map_append, ih, tupRun_noGroup]

/-- The first notes of a tuplet. -/
def openRun (ib : Nat → Bool) (beams : List (Nat × Nat)) (k : Nat) (a n : Int) : Nat → Bool → List TupItem → List HTupNote
  | _, _, [] => []
  | i, f, x :: r => inTup (fun _ => 0) ib beams k i x (if f then k else 0) 0 a n :: openRun ib beams k a n (i + 1) false r

theorem openRun_snoc (ib : Nat → Bool) (beams : List (Nat × Nat)) (k : Nat) (a n : Int) (i : Nat) (f : Bool) (P : List TupItem) (x : TupItem) :
    openRun ib beams k a n i f (P ++ [x]) =
    openRun ib beams k a n i f P ++ [inTup (fun _ => 0) ib beams k (i + P.length) x (if f ∧ P = [] then k else 0) 0 a n] := by
  induction P generalizing i f with
  | nil => simp [openRun]
  | cons p P ih =>
    rw [List.cons_append, openRun, openRun, ih]
    have e : i + 1 + P.length = i + (p :: P).length := by simp; omega
    simp [e]

theorem backSet_end (k : Nat) (a n : Int) (t : HTupNote) (ts : List HTupNote) (h : t.start = k) :
    backSet k a n (t :: ts) = { t with actual := a, normal := n } :: ts := by rw [backSet, if_pos h]

theorem backSet_go (k : Nat) (a n : Int) (t : HTupNote) (ts : List HTupNote) (h : t.start ≠ k) :
    backSet k a n (t :: ts) = { t with actual := a, normal := n } :: backSet k a n ts := by rw [backSet, if_neg h]

theorem foreSet_go (k : Nat) (a n : Int) (t : HTupNote) (ts : List HTupNote) (h : t.stop = 0) :
    foreSet k a n (t :: ts) = { t with actual := a, normal := n } :: foreSet k a n ts := by
  rw [foreSet, if_neg (fun h' => h'.1 h)]

theorem backSet_open (ib : Nat → Bool) (beams : List (Nat × Nat)) (k : Nat) (hk : k ≠ 0) (a n A N : Int) (i : Nat) (P : List TupItem) (hP : P ≠ [])
    (pre : List HTupNote) :
    backSet k A N ((openRun ib beams k a n i true P).reverse ++ pre) = (openRun ib beams k A N i true P).reverse ++ pre := by
  induction P using List.reverseRecOn with
  | nil => exact absurd rfl hP
  | append_singleton P x ih =>
    rw [openRun_snoc, openRun_snoc, List.reverse_append, List.reverse_append]
    simp only [List.reverse_cons, List.reverse_nil, List.nil_append, List.cons_append]
    cases P with
    | nil =>
      rw [backSet_end _ _ _ _ _ (by simp [inTup])]
      rfl
    | cons p P =>
      rw [backSet_go _ _ _ _ _ (by simp [inTup]; exact fun h => hk h.symm), ih (by simp)]
      rfl

theorem foreSet_run (gr : Nat → Nat) (ib : Nat → Bool) (beams : List (Nat × Nat)) (k : Nat) (hk : k ≠ 0) (a n A N : Int) (i : Nat) (f : Bool)
    (ys : List TupItem) (hy : ys ≠ []) (ts : List HTupNote) :
    foreSet k A N (tupRun gr ib beams k a n i f ys ++ ts) = tupRun gr ib beams k A N i f ys ++ ts := by
  induction ys generalizing i f with
  | nil => exact absurd rfl hy
  | cons y ys ih =>
    cases ys with
    | nil => simp [tupRun, foreSet, inTup, hk]
    | cons z r =>
      rw [tupRun, tupRun, List.cons_append, foreSet_go _ _ _ _ _ rfl, ih (i + 1) false (by simp)]
      rfl

theorem lessOne_run (ib : Nat → Bool) (beams : List (Nat × Nat)) (k : Nat) (a n : Int) (i : Nat) (ys : List TupItem) :
    (tupRun (fun _ => 0) ib beams (k + 1) a n i false ys).map lessOne = tupRun (fun _ => 0) ib beams k a n i false ys := by
  induction ys generalizing i with
  | nil => rfl
  | cons y ys ih =>
    cases ys with
    | nil => simp [tupRun, lessOne, inTup]
    | cons z r => rw [tupRun, tupRun, List.map_cons, ih]; simp [lessOne, inTup]

theorem lessOne_run_start (ib : Nat → Bool) (beams : List (Nat × Nat)) (k : Nat) (a n : Int) (i : Nat) (ys : List TupItem) :
    (tupRun (fun _ => 0) ib beams (k + 1) a n i true ys).map lessOne = tupRun (fun _ => 0) ib beams k a n i true ys := by
  match ys with
  | [] => rfl
  | [y] => simp [tupRun, lessOne, inTup]
  | y :: z :: r => rw [tupRun, tupRun, List.map_cons, lessOne_run]; simp [lessOne, inTup]

theorem lessOne_numNotes (ib : Nat → Bool) (beams : List (Nat × Nat)) (k i : Nat) (ms : List NumSeg) :
    (numNotes (fun _ => 0) ib beams i (k + 1) ms).map lessOne = numNotes (fun _ => 0) ib beams i k ms := by
  induction ms generalizing i k with
  | nil => rfl
  | cons s r ih =>
    cases s with
    | plain x => rw [numNotes, numNotes, List.map_cons, ih]; rfl
    | tup xs a n => rw [numNotes, numNotes, List.map_append, ih, lessOne_run_start]

theorem clearStart_run (ib : Nat → Bool) (beams : List (Nat × Nat)) (k : Nat) (a n : Int) (i j : Nat) (ys : List TupItem) (hy : 2 ≤ ys.length)
    (ms : List NumSeg) :
    clearStart (tupRun (fun _ => 0) ib beams (k + 1) a n i true ys ++ numNotes (fun _ => 0) ib beams j (k + 1 + 1) ms) =
    tupRun (fun _ => 0) ib beams k a n i false ys ++ numNotes (fun _ => 0) ib beams j (k + 1) ms := by
  match ys, hy with
  | y :: z :: r, _ =>
    rw [tupRun, tupRun, List.cons_append, List.cons_append, clearStart, List.map_append, lessOne_run, lessOne_numNotes]
    rfl

/-- A tuplet with its numbers is as it should be. -/
def NumOk : NumSeg → Prop
  | .plain _ => True
  | .tup xs a n => 2 ≤ xs.length ∧ 1 ≤ a ∧ 1 ≤ n ∧ ∃ m : Rat, (n : Rat) = m * a ∧ ∀ x ∈ xs, TupletItem x ∧ multOf x = m

/-- Without the numbers. -/
def forgetNum : NumSeg → TupSeg
  | .plain x => .plain x
  | .tup xs _ _ => .tup xs

/-- How many items there are. -/
def numSize : List NumSeg → Nat
  | [] => 0
  | .plain _ :: r => 1 + numSize r
  | .tup xs _ _ :: r => xs.length + numSize r

theorem beamInto_iff (beams : List (Nat × Nat)) (i : Nat) (hi : 0 < i) : beamInto beams i = true ↔ BeamGoesOn beams (i - 1) := by
  simp only [beamInto, List.any_eq_true, Bool.and_eq_true, decide_eq_true_eq, BeamGoesOn]
  constructor
  · rintro ⟨b, hb, h1, h2⟩; exact ⟨b, hb, by omega, by omega⟩
  · rintro ⟨b, hb, h1, h2⟩; exact ⟨b, hb, by omega, by omega⟩

theorem mergeTups_next (pre : List HTupNote) (x : HTupNote) (ts : List HTupNote)
    (h : ∀ y ∈ ts.head?, ¬ (x.inBeam = true ∧ x.stop ≠ 0 ∧ y.start ≠ 0 ∧ x.mult = y.mult)) :
    mergeTups pre (x :: ts) = mergeTups (x :: pre) ts := by
  cases ts with
  | nil => simp [mergeTups]
  | cons y ts => rw [mergeTups, if_neg (h y (by simp))]

theorem merge_both (beams : List (Nat × Nat)) (N : Nat) :
    (∀ (ms : List NumSeg) (i k : Nat) (pre : List HTupNote), numSize ms ≤ N → (∀ s ∈ ms, NumOk s) → k ≠ 0 →
      ∃ ms', (∀ s ∈ ms', NumOk s) ∧ Joined beams i (ms.map forgetNum) (ms'.map forgetNum) ∧
        mergeTups pre (numNotes (fun _ => 0) (fun j => beamInto beams (j + 1)) beams i k ms) =
        pre.reverse ++ numNotes (fun _ => 0) (fun j => beamInto beams (j + 1)) beams i k ms') ∧
    (∀ (P Q : List TupItem) (ms : List NumSeg) (a n : Int) (i k : Nat) (pre : List HTupNote), P ≠ [] → Q ≠ [] → Q.length + numSize ms ≤ N →
      NumOk (.tup (P ++ Q) a n) → (∀ s ∈ ms, NumOk s) → k ≠ 0 →
      ∃ ms', (∀ s ∈ ms', NumOk s) ∧ Joined beams i (.tup (P ++ Q) :: ms.map forgetNum) (ms'.map forgetNum) ∧
        mergeTups ((openRun (fun j => beamInto beams (j + 1)) beams k a n i true P).reverse ++ pre)
          (tupRun (fun _ => 0) (fun j => beamInto beams (j + 1)) beams k a n (i + P.length) false Q ++
            numNotes (fun _ => 0) (fun j => beamInto beams (j + 1)) beams (i + P.length + Q.length) (k + 1) ms) =
        pre.reverse ++ numNotes (fun _ => 0) (fun j => beamInto beams (j + 1)) beams i k ms') := by
  induction N with
  | zero =>
    refine ⟨?_, ?_⟩
    · intro ms i k pre hs hok hk
      cases ms with
      | nil => exact ⟨[], by simp, .nil i, by simp [numNotes, mergeTups]⟩
      | cons s r =>
        exfalso
        cases s with
        | plain x => simp [numSize] at hs
        | tup xs a n =>
          have := (hok (.tup xs a n) (by simp)).1
          simp only [numSize] at hs
          omega
    · intro P Q ms a n i k pre hP hQ hs
      exfalso
      have := List.length_pos_of_ne_nil hQ
      omega
  | succ N ih =>
    obtain ⟨ihA, ihB⟩ := ih
    refine ⟨?_, ?_⟩
    · intro ms i k pre hs hok hk
      cases ms with
      | nil => exact ⟨[], by simp, .nil i, by simp [numNotes, mergeTups]⟩
      | cons s r =>
        cases s with
        | plain x =>
          obtain ⟨ms', h1, h2, h3⟩ := ihA r (i + 1) k (plainNote (fun _ => 0) (fun j => beamInto beams (j + 1)) beams i x :: pre)
            (by simp only [numSize] at hs; omega) (fun s hs => hok s (by simp [hs])) hk
          refine ⟨.plain x :: ms', ?_, ?_, ?_⟩
          · intro s hs
            rcases List.mem_cons.1 hs with rfl | hs
            · trivial
            · exact h1 s hs
          · exact .plain i x _ _ h2
          · rw [numNotes, mergeTups_next _ _ _ (by intro y hy; simp [plainNote]), h3, numNotes]
            simp
        | tup xs a n =>
          have hx := hok (.tup xs a n) (by simp)
          match xs, hx with
          | x :: y :: r', hx =>
            obtain ⟨ms', h1, h2, h3⟩ := ihB [x] (y :: r') r a n i k pre (by simp) (by simp) (by simp [numSize] at hs ⊢; omega) hx
              (fun s hs => hok s (by simp [hs])) hk
            refine ⟨ms', h1, h2, ?_⟩
            rw [← h3, numNotes, tupRun, List.cons_append, mergeTups_next _ _ _ (by intro z hz; simp [inTup])]
            have e : i + [x].length + (y :: r').length = i + (x :: y :: r').length := by simp; omega
            rw [e]
            rfl
    · intro P Q ms a n i k pre hP hQ hs hPQ hok hk
      match Q, hQ with
      | x :: y :: r, _ =>
        obtain ⟨ms', h1, h2, h3⟩ := ihB (P ++ [x]) (y :: r) ms a n i k pre (by simp) (by simp) (by simp at hs ⊢; omega)
          (by rw [List.append_assoc]; exact hPQ) hok hk
        refine ⟨ms', h1, by rw [List.append_assoc] at h2; exact h2, ?_⟩
        rw [← h3, tupRun, List.cons_append, mergeTups_next _ _ _ (by intro z hz; simp [inTup]), openRun_snoc]
        have e1 : i + P.length + (x :: y :: r).length = i + (P ++ [x]).length + (y :: r).length := by simp; omega
        have e2 : i + P.length + 1 = i + (P ++ [x]).length := by simp; omega
        rw [e1, e2]
        simp [hP]
      | [x], _ =>
        have hlen : i + P.length + [x].length = i + (P ++ [x]).length := by simp; omega
        have hpos : 0 < (P ++ [x]).length := by simp
        have hlast : i + (P ++ [x]).length - 1 = i + P.length := by simp
        have hsn : openRun (fun j => beamInto beams (j + 1)) beams k a n i true (P ++ [x]) =
            openRun (fun j => beamInto beams (j + 1)) beams k a n i true P ++
              [inTup (fun _ => 0) (fun j => beamInto beams (j + 1)) beams k (i + P.length) x 0 0 a n] := by
          rw [openRun_snoc]; simp [hP]
        have hrs : tupRun (fun _ => 0) (fun j => beamInto beams (j + 1)) beams k a n i true (P ++ [x]) =
            openRun (fun j => beamInto beams (j + 1)) beams k a n i true P ++
              [inTup (fun _ => 0) (fun j => beamInto beams (j + 1)) beams k (i + P.length) x 0 k a n] := by
          have gen : ∀ (P : List TupItem) (i : Nat) (f : Bool), tupRun (fun _ => 0) (fun j => beamInto beams (j + 1)) beams k a n i f (P ++ [x]) =
            openRun (fun j => beamInto beams (j + 1)) beams k a n i f P ++
              [inTup (fun _ => 0) (fun j => beamInto beams (j + 1)) beams k (i + P.length) x (if f ∧ P = [] then k else 0) k a n] := by
            intro P
            induction P with
            | nil => intro i f; simp [tupRun, openRun]
            | cons p P ihp =>
              intro i f
              have e : i + 1 + P.length = i + (p :: P).length := by simp; omega
              cases hPx : P ++ [x] with
              | nil => simp at hPx
              | cons q R =>
                rw [List.cons_append, hPx, tupRun, ← hPx, ihp, e, openRun]
                simp
          rw [gen P i true]; simp [hP]
        -- the joined tuplet stays as it is
        have stay : (∀ y ∈ (numNotes (fun _ => 0) (fun j => beamInto beams (j + 1)) beams (i + (P ++ [x]).length) (k + 1) ms).head?,
            ¬ (beamInto beams (i + P.length + 1) = true ∧ y.start ≠ 0 ∧ multOf x = y.mult)) →
            (∀ z ∈ P ++ [x], ∀ y ys r1, ms.map forgetNum = .tup (y :: ys) :: r1 → ¬ (BeamGoesOn beams (i + (P ++ [x]).length - 1) ∧ SameRatio z y)) →
            ∃ ms', (∀ s ∈ ms', NumOk s) ∧ Joined beams i (.tup (P ++ [x]) :: ms.map forgetNum) (ms'.map forgetNum) ∧
            mergeTups ((openRun (fun j => beamInto beams (j + 1)) beams k a n i true P).reverse ++ pre)
              (tupRun (fun _ => 0) (fun j => beamInto beams (j + 1)) beams k a n (i + P.length) false [x] ++
                numNotes (fun _ => 0) (fun j => beamInto beams (j + 1)) beams (i + P.length + [x].length) (k + 1) ms) =
            pre.reverse ++ numNotes (fun _ => 0) (fun j => beamInto beams (j + 1)) beams i k ms' := by
          intro hno hno'
          obtain ⟨ms', h1, h2, h3⟩ := ihA ms (i + (P ++ [x]).length) (k + 1)
            (inTup (fun _ => 0) (fun j => beamInto beams (j + 1)) beams k (i + P.length) x 0 k a n ::
              ((openRun (fun j => beamInto beams (j + 1)) beams k a n i true P).reverse ++ pre))
            (by simp at hs; omega) hok (by omega)
          refine ⟨.tup (P ++ [x]) a n :: ms', ?_, ?_, ?_⟩
          · intro s hs
            rcases List.mem_cons.1 hs with rfl | hs
            · exact hPQ
            · exact h1 s hs
          · exact .keep i _ _ _ hno' h2
          · rw [hlen, tupRun, List.cons_append, List.nil_append, mergeTups_next _ _ _ ?_]
            · have : (if false = true then k else 0) = 0 := rfl
              rw [this, h3, numNotes, hrs]
              simp
            · intro y hy h
              exact hno y hy ⟨h.1, h.2.2⟩
        cases ms with
        | nil =>
          apply stay
          · intro y hy; simp [numNotes] at hy
          · intro z _ y ys r1 h; simp at h
        | cons s r =>
          cases s with
          | plain p =>
            apply stay
            · intro y hy
              simp only [numNotes, List.head?_cons, Option.mem_some_iff] at hy
              subst hy
              simp [plainNote]
            · intro z _ y ys r1 h; simp [forgetNum] at h
          | tup ys b m =>
            have hys := hok (.tup ys b m) (by simp)
            match ys, hys with
            | y :: y2 :: r', hys =>
            have hxT := hPQ.2.2.2
            obtain ⟨m1, hm1, hm1'⟩ := hxT
            obtain ⟨hylen, hb1, hmm1, m2, hm2, hm2'⟩ := hys
            have hx1 := hm1' x (by simp)
            have hy1 := hm2' y (by simp)
            by_cases hc : beamInto beams (i + P.length + 1) = true ∧ multOf x = multOf y
            · have hmeq : m1 = m2 := by rw [← hx1.2, ← hy1.2, hc.2]
              have hnew : NumOk (.tup ((P ++ [x]) ++ (y :: y2 :: r')) (a + b) (n + m)) := by
                refine ⟨by simp only [List.length_append, List.length_cons]; omega, by have := hPQ.2.1; omega, by have := hPQ.2.2.1; omega, m1, ?_, ?_⟩
                · push_cast
                  rw [hm1, hm2, hmeq]
                  ring
                · intro z hz
                  rcases List.mem_append.1 hz with hz | hz
                  · exact hm1' z hz
                  · rw [hmeq]; exact hm2' z hz
              obtain ⟨ms', h1, h2, h3⟩ := ihB (P ++ [x]) (y :: y2 :: r') r (a + b) (n + m) i k pre (by simp) (by simp)
                (by simp [numSize] at hs ⊢; omega) hnew (fun s hs => hok s (by simp [hs])) hk
              refine ⟨ms', h1, ?_, ?_⟩
              · apply Joined.join i _ _ _ _ _ _ h2
                · rw [hlast]
                  exact (beamInto_iff beams _ (by omega)).1 hc.1
                · intro z hz w hw
                  rw [same_iff_mult z w (hm1' z hz).1 (hm2' w hw).1, (hm1' z hz).2, (hm2' w hw).2, hmeq]
              · rw [← h3, hlen, numNotes, tupRun, List.cons_append, List.nil_append]
                have hF := foreSet_run (fun _ => 0) (fun j => beamInto beams (j + 1)) beams (k + 1) (by omega) b m (a + b) (n + m)
                  (i + (P ++ [x]).length) true (y :: y2 :: r') (by simp)
                  (numNotes (fun _ => 0) (fun j => beamInto beams (j + 1)) beams (i + (P ++ [x]).length + (y :: y2 :: r').length) (k + 1 + 1) r)
                have hB := backSet_open (fun j => beamInto beams (j + 1)) beams k hk a n (a + b) (n + m) i P hP pre
                have hC := clearStart_run (fun j => beamInto beams (j + 1)) beams k (a + b) (n + m) (i + (P ++ [x]).length)
                  (i + (P ++ [x]).length + (y :: y2 :: r').length) (y :: y2 :: r') (by simp) r
                have hun : tupRun (fun _ => 0) (fun j => beamInto beams (j + 1)) beams (k + 1) b m (i + (P ++ [x]).length) true (y :: y2 :: r') =
                    inTup (fun _ => 0) (fun j => beamInto beams (j + 1)) beams (k + 1) (i + (P ++ [x]).length) y (k + 1) 0 b m ::
                    tupRun (fun _ => 0) (fun j => beamInto beams (j + 1)) beams (k + 1) b m (i + (P ++ [x]).length + 1) false (y2 :: r') := rfl
                rw [hun] at hF ⊢
                rw [List.cons_append] at hF ⊢
                rw [mergeTups, if_pos ⟨hc.1, hk, by simp [inTup], hc.2⟩]
                have e1 : ∀ st en, (inTup (fun _ => 0) (fun j => beamInto beams (j + 1)) beams k (i + P.length) x st en a n).actual = a := fun _ _ => rfl
                have e2 : ∀ st en, (inTup (fun _ => 0) (fun j => beamInto beams (j + 1)) beams k (i + P.length) x st en a n).normal = n := fun _ _ => rfl
                have e3 : ∀ st en, (inTup (fun _ => 0) (fun j => beamInto beams (j + 1)) beams k (i + P.length) x st en a n).stop = en := fun _ _ => rfl
                have f1 : ∀ st en, (inTup (fun _ => 0) (fun j => beamInto beams (j + 1)) beams (k + 1) (i + (P ++ [x]).length) y st en b m).actual = b := fun _ _ => rfl
                have f2 : ∀ st en, (inTup (fun _ => 0) (fun j => beamInto beams (j + 1)) beams (k + 1) (i + (P ++ [x]).length) y st en b m).normal = m := fun _ _ => rfl
                have f3 : ∀ st en, (inTup (fun _ => 0) (fun j => beamInto beams (j + 1)) beams (k + 1) (i + (P ++ [x]).length) y st en b m).start = st := fun _ _ => rfl
                rw [e1, e2, e3, f1, f2, f3, hF, hC, backSet_go _ _ _ _ _ (by simp [inTup]; exact fun h => hk h.symm), hB, clearStop]
                have hsn2 : openRun (fun j => beamInto beams (j + 1)) beams k (a + b) (n + m) i true (P ++ [x]) =
                    openRun (fun j => beamInto beams (j + 1)) beams k (a + b) (n + m) i true P ++
                      [inTup (fun _ => 0) (fun j => beamInto beams (j + 1)) beams k (i + P.length) x 0 0 (a + b) (n + m)] := by
                  rw [openRun_snoc]; simp [hP]
                rw [hsn2, List.reverse_append]
                rfl
            · apply stay
              · intro w hw
                simp only [numNotes, tupRun, List.cons_append, List.head?_cons, Option.mem_some_iff] at hw
                subst hw
                intro h
                exact hc ⟨h.1, h.2.2⟩
              · intro z hz w ws r1 h
                simp only [List.map_cons, forgetNum, List.cons.injEq, TupSeg.tup.injEq] at h
                obtain ⟨⟨h1, _⟩, _⟩ := h
                subst h1
                rintro ⟨hg, hr⟩
                apply hc
                refine ⟨?_, ?_⟩
                · rw [beamInto_iff beams _ (by omega)]
                  rw [hlast] at hg
                  exact hg
                · rw [same_iff_mult z y (hm1' z hz).1 hy1.1, (hm1' z hz).2] at hr
                  rw [hx1.2]
                  exact hr

/-! ### Scales and marks -/

theorem regroup_run (ib : Nat → Bool) (beams : List (Nat × Nat)) (k : Nat) (hk : k ≠ 0) (a n : Int) (xs : List TupItem) (hx : xs ≠ []) (i c : Nat) (f : Bool)
    (hc : f = true ∨ c = k) (ts : List HTupNote) :
    regroup c (tupRun (fun _ => 0) ib beams k a n i f xs ++ ts) = tupRun id ib beams k a n i f xs ++ regroup 0 ts := by
  have hg : (if (if f = true then k else 0) ≠ 0 then (if f = true then k else 0) else c) = k := by
    rcases hc with h | h
    · simp [h, hk]
    · cases f <;> simp [h, hk]
  induction xs generalizing i c f with
  | nil => exact absurd rfl hx
  | cons x xs ih =>
    cases xs with
    | nil =>
      simp only [tupRun, List.cons_append, List.nil_append, regroup, inTup, id]
      rw [hg, if_pos hk]
    | cons y r =>
      have ih := ih (by simp) (i + 1) k false (Or.inr rfl) (by simp)
      simp only [tupRun, List.cons_append, regroup, inTup, id]
      rw [hg]
      simp only [ne_eq, not_true_eq_false, if_false]
      rw [ih]

theorem regroup_numNotes (ib : Nat → Bool) (beams : List (Nat × Nat)) (i k : Nat) (hk : k ≠ 0) (ms : List NumSeg) (h : ∀ s ∈ ms, NumOk s) :
    regroup 0 (numNotes (fun _ => 0) ib beams i k ms) = numNotes id ib beams i k ms := by
  induction ms generalizing i k with
  | nil => rfl
  | cons s r ih =>
    have ih := fun i k hk => ih i k hk (fun s hs => h s (by simp [hs]))
    cases s with
    | plain x =>
      rw [numNotes, numNotes, regroup]
      simp only [plainNote, ne_eq, not_true_eq_false, if_false, id]
      rw [ih (i + 1) k hk]
    | tup xs a n =>
      have hl := (h (.tup xs a n) (by simp)).1
      rw [numNotes, numNotes, regroup_run ib beams k hk a n xs (by rintro rfl; simp at hl) i 0 true (Or.inl rfl), ih _ (k + 1) (by omega)]

theorem whole_num (q : Rat) (h : q.den = 1) : ((q.num : Int) : Rat) = q := by
  have := Rat.num_div_den q
  rw [h] at this
  simpa using this

theorem whole_num_ge (q : Rat) (l : Rat) (hl : 1 ≤ l) (h : wholeAbove q l = true) : ((q.num : Int) : Rat) = q ∧ 1 ≤ q.num := by
  simp only [wholeAbove, Bool.and_eq_true, decide_eq_true_eq] at h
  have h1 := whole_num q h.1
  refine ⟨h1, ?_⟩
  have : (1 : Rat) < ((q.num : Int) : Rat) := by rw [h1]; linarith [h.2]
  have : (1 : Int) < q.num := by exact_mod_cast this
  omega

/-- A note's tuplet has numbers that fit its quotient. -/
theorem scaleTup_ok (ts : List HTupNote) (m : Rat) (hm : ∀ t ∈ ts, t.mult = m) :
    ((scaleTup ts).2 = none ∧ 1 ≤ (scaleTup ts).1) ∨
    ∃ a n : Int, (scaleTup ts).2 = some (a, n) ∧ (scaleTup ts).1 = 1 ∧ 1 ≤ a ∧ 1 ≤ n ∧ (n : Rat) = m * a := by
  cases ts with
  | nil => left; simp [scaleTup]
  | cons f r =>
    have hf := hm f (by simp)
    have key : ∀ q : Rat, ((if wholeAbove q 1 = true then (q.num, none) else ((1 : Int), (none : Option (Int × Int)))).2 = none ∧
        1 ≤ (if wholeAbove q 1 = true then (q.num, none) else ((1 : Int), (none : Option (Int × Int)))).1) := by
      intro q
      by_cases h : wholeAbove q 1 = true
      · rw [if_pos h]
        exact ⟨rfl, (whole_num_ge q 1 (le_refl 1) h).2⟩
      · rw [if_neg h]; exact ⟨rfl, le_refl 1⟩
    unfold scaleTup
    simp only
    split
    · rename_i s hs
      left
      refine ⟨rfl, ?_⟩
      simp only
      split at hs
      · rename_i v hv
        split at hs
        · rename_i hc
          have hs' := Option.some.inj hs
          rw [← hs']
          have h1 := whole_num _ hc.2.1
          have : (1 : Rat) ≤ (((((v : Rat) / (f.actual : Rat)).num : Int)) : Rat) := by rw [h1]; exact hc.2.2
          exact_mod_cast this
        · simp at hs
      · simp at hs
    · split
      · left
        exact key _
      · split
        · left
          exact key _
        · split
          · rename_i hw
            right
            simp only [Bool.and_eq_true] at hw
            obtain ⟨h1, h2⟩ := whole_num_ge _ 1 (le_refl 1) hw.1
            obtain ⟨h3, h4⟩ := whole_num_ge _ 1 (le_refl 1) hw.2
            refine ⟨_, _, rfl, rfl, h2, h4, ?_⟩
            rw [h3, h1, hf]
            ring
          · left
            exact ⟨rfl, le_refl 1⟩

/-- What scaling does to one note. -/
def scaleOne (ts : List HTupNote) (t : HTupNote) : HTupNote :=
  if t.group = 0 then t
  else
    match (scaleTup (ts.filter (fun u => u.group = t.group))).2 with
    | some (a, n) => { t with scale := (scaleTup (ts.filter (fun u => u.group = t.group))).1, actual := a, normal := n }
    | none => { t with scale := (scaleTup (ts.filter (fun u => u.group = t.group))).1 }

theorem scaleTups_eq (ts : List HTupNote) : scaleTups ts = ts.map (scaleOne ts) := rfl

theorem scaleOne_marks (ts : List HTupNote) (t : HTupNote) : (scaleOne ts t).start = t.start ∧ (scaleOne ts t).stop = t.stop := by
  unfold scaleOne
  split
  · exact ⟨rfl, rfl⟩
  · split <;> exact ⟨rfl, rfl⟩

theorem scaleOne_ok (ib : Nat → Bool) (beams : List (Nat × Nat)) (ms : List NumSeg) (i : Nat) (h : ∀ s ∈ ms, NumOk s) (t : HTupNote)
    (ht : t ∈ numNotes id ib beams i 1 ms) (hs : t.start ≠ 0) :
    1 ≤ (scaleOne (numNotes id ib beams i 1 ms) t).actual * (scaleOne (numNotes id ib beams i 1 ms) t).scale ∧
    1 ≤ (scaleOne (numNotes id ib beams i 1 ms) t).normal * (scaleOne (numNotes id ib beams i 1 ms) t).scale ∧
    (((scaleOne (numNotes id ib beams i 1 ms) t).normal * (scaleOne (numNotes id ib beams i 1 ms) t).scale : Int) : Rat) =
      t.mult * (((scaleOne (numNotes id ib beams i 1 ms) t).actual * (scaleOne (numNotes id ib beams i 1 ms) t).scale : Int) : Rat) := by
  rcases numNotes_group ib beams i 1 (by omega) ms t t ht ht rfl with h0 | ⟨xs, hx1, _, _, hx2, _, hx3, _, hx4⟩
  · exact absurd h0.2.2.2.1 hs
  · obtain ⟨_, ha, hn, m, hm, hall⟩ := h _ hx1
    have htm : t.mult = m := by rw [hx3]; exact (hall _ hx2).2
    have hg0 : t.group ≠ 0 := by
      rcases numNotes_mem _ _ _ _ (by omega) _ _ ht with h | h
      · exact absurd h.2.2.2 hs
      · omega
    have hsame : ∀ u ∈ (numNotes id ib beams i 1 ms).filter (fun u => u.group = t.group), u.mult = m := by
      intro u hu
      rw [List.mem_filter] at hu
      have hug : t.group = u.group := by have := hu.2; simp at this; exact this.symm
      rcases numNotes_group ib beams i 1 (by omega) ms t u ht hu.1 hug with h0 | ⟨ys, hy1, hy2, hy3, hy4, hy5, _, hy6, _⟩
      · exact absurd h0.2.2.2.1 hs
      · obtain ⟨_, _, _, m', hm', hall'⟩ := h _ hy1
        have e1 : t.mult = m' := by rw [hx3]; exact (hall' _ hy4).2
        rw [hy6, (hall' _ hy5).2, ← e1, htm]
    rw [htm]
    unfold scaleOne
    rw [if_neg hg0]
    rcases scaleTup_ok _ m hsame with ⟨h1, h2⟩ | ⟨a, n, h1, h2, h3, h4, h5⟩
    · rw [h1]
      simp only
      refine ⟨by nlinarith, by nlinarith, ?_⟩
      push_cast
      rw [hm]
      ring
    · rw [h1]
      simp only
      rw [h2]
      simp only [mul_one]
      exact ⟨h3, h4, h5⟩

theorem tupWalk_start (c : Option (Int × Int)) (t : HTupNote) (ts : List HTupNote) (h : t.start ≠ 0) :
    tupWalk c (t :: ts) = some ((t.actual * t.scale, t.normal * t.scale), .start) :: tupWalk (some (t.actual * t.scale, t.normal * t.scale)) ts := by
  simp only [tupWalk]
  rw [if_pos h]

theorem tupWalk_none (t : HTupNote) (ts : List HTupNote) (h : t.start = 0) : tupWalk none (t :: ts) = none :: tupWalk none ts := by
  simp only [tupWalk]
  rw [if_neg (by simp [h])]

theorem tupWalk_inner (r : Int × Int) (t : HTupNote) (ts : List HTupNote) (h : t.start = 0) (h2 : t.stop = 0) :
    tupWalk (some r) (t :: ts) = some (r, .inner) :: tupWalk (some r) ts := by
  simp only [tupWalk]
  rw [if_neg (by simp [h]), if_neg (by simp [h2])]

theorem tupWalk_run (gr : Nat → Nat) (ib : Nat → Bool) (beams : List (Nat × Nat)) (k : Nat) (hk : k ≠ 0) (a n : Int) (F : HTupNote → HTupNote)
    (hF : ∀ t, (F t).start = t.start ∧ (F t).stop = t.stop) (r : Int × Int) (xs : List TupItem) (hx : xs ≠ []) (i : Nat) (ts : List HTupNote) :
    tupWalk (some r) ((tupRun gr ib beams k a n i false xs).map F ++ ts) =
    List.replicate (xs.length - 1) (some (r, .inner)) ++ [some (r, .stop)] ++ tupWalk none ts := by
  induction xs generalizing i with
  | nil => exact absurd rfl hx
  | cons x xs ih =>
    cases xs with
    | nil =>
      simp only [tupRun, List.map_cons, List.map_nil, List.cons_append, List.nil_append, tupWalk, (hF _).1, (hF _).2, inTup]
      simp [hk]
    | cons y r' =>
      have ih := ih (by simp) (i + 1)
      rw [tupRun, List.map_cons, List.cons_append, tupWalk_inner _ _ _ (by rw [(hF _).1]; rfl) (by rw [(hF _).2]; rfl), ih]
      simp [List.replicate_succ]

theorem tupWalk_reads (ib : Nat → Bool) (beams : List (Nat × Nat)) (i k : Nat) (hk : k ≠ 0) (ms : List NumSeg) (h : ∀ s ∈ ms, NumOk s)
    (F : HTupNote → HTupNote) (hF : ∀ t, (F t).start = t.start ∧ (F t).stop = t.stop)
    (hG : ∀ t ∈ numNotes id ib beams i k ms, t.start ≠ 0 → 1 ≤ (F t).actual * (F t).scale ∧ 1 ≤ (F t).normal * (F t).scale ∧
      (((F t).normal * (F t).scale : Int) : Rat) = t.mult * (((F t).actual * (F t).scale : Int) : Rat)) :
    ReadsTuplets (ms.map forgetNum) (tupWalk none ((numNotes id ib beams i k ms).map F)) := by
  induction ms generalizing i k with
  | nil => exact .nil
  | cons s r ih =>
    have hr : ∀ s ∈ r, NumOk s := fun s hs => h s (by simp [hs])
    cases s with
    | plain x =>
      have ih := ih (i + 1) k hk hr (fun t ht => hG t (by rw [numNotes]; simp [ht]))
      rw [numNotes]
      show ReadsTuplets _ (tupWalk none (F _ :: _))
      rw [tupWalk_none _ _ (by rw [(hF _).1]; rfl)]
      exact .plain x _ _ ih
    | tup xs a n =>
      have hx := h (.tup xs a n) (by simp)
      match xs, hx with
      | x :: y :: r', hx =>
        have ih := ih (i + (x :: y :: r').length) (k + 1) (by omega) hr (fun t ht => hG t (by rw [numNotes]; simp only [List.mem_append]; exact Or.inr ht))
        obtain ⟨_, _, _, m, hm, hall⟩ := hx
        rw [numNotes, List.map_append]
        have hfirst := hG (inTup id ib beams k i x k 0 a n) (by rw [numNotes, tupRun]; simp) (by simpa [inTup] using hk)
        show ReadsTuplets _ (tupWalk none (F (inTup id ib beams k i x k 0 a n) :: ((tupRun id ib beams k a n (i + 1) false (y :: r')).map F ++ _)))
        rw [tupWalk_start _ _ _ (by rw [(hF _).1]; exact hk), tupWalk_run id ib beams k hk a n F hF _ (y :: r') (by simp)]
        set F0 := F (inTup id ib beams k i x k 0 a n) with hF0
        have := ReadsTuplets.tup (x :: y :: r') (r.map forgetNum) _ (F0.actual * F0.scale) (F0.normal * F0.scale) hfirst.1 hfirst.2.1 ?_ ih
        · simpa [tupMarks, forgetNum] using this
        · intro z hz
          obtain ⟨_, _, _, e, he⟩ := tupRatio_spec z (hall z hz).1
          refine ⟨e, ?_⟩
          have hmz : (inTup id ib beams k i x k 0 a n).mult = multOf z := by
            show multOf x = multOf z
            rw [(hall x (by simp)).2, (hall z hz).2]
          rw [hmz] at hfirst
          rw [he, hfirst.2.2]
          have hpos : (0 : Rat) < ((F0.normal * F0.scale : Int) : Rat) := by exact_mod_cast lt_of_lt_of_le (by norm_num) hfirst.2.1
          have hapos : (0 : Rat) < ((F0.actual * F0.scale : Int) : Rat) := by exact_mod_cast lt_of_lt_of_le (by norm_num) hfirst.1
          have hmne : multOf z ≠ 0 := by
            intro h0
            rw [hfirst.2.2, h0] at hpos
            simp at hpos
          field_simp

/-! ### The whole -/

theorem numSegs_ok (items : List TupItem) (beams : List (Nat × Nat)) (i : Nat) (segs : List TupSeg) (h : TupletsOk items beams i segs) :
    ∀ s ∈ numSegs segs, NumOk s := by
  induction segs generalizing i with
  | nil => simp [numSegs]
  | cons s r ih =>
    cases s with
    | plain x =>
      intro s hs
      rcases List.mem_cons.1 hs with rfl | hs
      · trivial
      · exact ih (i + 1) h.2 s hs
    | tup xs =>
      obtain ⟨h1, h2⟩ := h
      cases xs with
      | nil => have := h1.two; simp at this
      | cons x xs =>
        intro s hs
        rcases List.mem_cons.1 hs with rfl | hs
        · obtain ⟨ha, hn, hm, _⟩ := tupRatio_spec x (h1.notes x (by simp)).1
          refine ⟨h1.two, ha, hn, multOf x, hm, ?_⟩
          intro y hy
          refine ⟨(h1.notes y hy).1, ?_⟩
          exact ((same_iff_mult x y (h1.notes x (by simp)).1 (h1.notes y hy).1).1 (h1.ratio x (by simp) y hy)).symm
        · exact ih _ h2 s hs

theorem numSegs_forget (segs : List TupSeg) : (numSegs segs).map forgetNum = segs := by
  induction segs with
  | nil => rfl
  | cons s r ih =>
    cases s with
    | plain x => simp [numSegs, forgetNum, ih]
    | tup xs => cases xs <;> simp [numSegs, forgetNum, ih]

theorem tupletsOk_ratio (items : List TupItem) (beams : List (Nat × Nat)) (i : Nat) (segs : List TupSeg) (h : TupletsOk items beams i segs) :
    ∀ xs, .tup xs ∈ segs → ∀ x ∈ xs, ∀ y ∈ xs, (tupRatio x).1 = (tupRatio y).1 ∧ (tupRatio x).2.1 = (tupRatio y).2.1 := by
  induction segs generalizing i with
  | nil => intro xs h; simp at h
  | cons s r ih =>
    intro xs hxs x hx y hy
    cases s with
    | plain p =>
      simp only [List.mem_cons, reduceCtorEq, false_or] at hxs
      exact ih _ h.2 xs hxs x hx y hy
    | tup zs =>
      obtain ⟨h1, h2⟩ := h
      rcases List.mem_cons.1 hxs with he | hxs
      · have he : xs = zs := by injection he
        subst he
        exact ratio_of_mult x y (h1.notes x hx).1 (h1.notes y hy).1
          ((same_iff_mult x y (h1.notes x hx).1 (h1.notes y hy).1).1 (h1.ratio x hx y hy))
      · exact ih _ h2 xs hxs x hx y hy

/-- C96. The reader finds every tuplet of a layer, and only these: from the first to the last of its notes, with numbers that make a plain
note value of each of its durations. Only tuplets with the same ratio that a beam connects become one. Partial: tuplets have two notes or
more, each shorter than a whole note, and end with their beam, or where their duration is that of a plain note value, or where no tuplet
note follows. The theorems below show that this is needed. -/
theorem hum_tuplets_found_partial (segs : List TupSeg) (beams : List (Nat × Nat)) (hb : BeamsApart beams)
    (hd : ∀ x ∈ tupSegItems segs, 0 ≤ x.dur) (hok : TupletsOk (tupSegItems segs) beams 0 segs) :
    ∃ segs', Joined beams 0 segs segs' ∧ ReadsTuplets segs' (layerTups (tupSegItems segs) beams) := by
  have hlab := tupGroups_found (tupSegItems segs) beams hb hd segs 0 1 rfl hok
  have hnotes := tupNotes_found beams segs 0 1 (by omega) [] (by simp) (tupletsOk_ratio _ _ _ _ hok)
  have hnum := numSegs_ok _ _ _ _ hok
  obtain ⟨ms', h1, h2, h3⟩ := (merge_both beams (numSize (numSegs segs))).1 (numSegs segs) 0 1 [] (le_refl _) hnum (by omega)
  rw [numSegs_forget] at h2
  refine ⟨ms'.map forgetNum, h2, ?_⟩
  unfold layerTups
  simp only
  rw [hlab, map_fst_labels, hnotes, splitAll_same _ _ _ _ (by omega)]
  have hren := renumber_same (fun _ => false) beams 0 0 (numSegs segs) (fun xs a n h => (hnum _ h).1)
  have hmark := markBeams_same beams hb 0 1 (numSegs segs)
  have hb0 : beamInto beams 0 = false := by
    rw [← Bool.not_eq_true]
    simp [beamInto]
  rw [hb0] at hmark
  simp only [Nat.zero_add] at hren
  rw [hren, hmark, ← regroup_noGroup, mergeTups_noGroup, numNotes_noGroup]
  simp only [List.map_nil]
  rw [h3]
  simp only [List.reverse_nil, List.nil_append]
  rw [regroup_numNotes _ _ _ _ (by omega) _ h1, scaleTups_eq]
  exact tupWalk_reads _ _ _ _ (by omega) _ h1 _ (scaleOne_marks _) (fun t ht hs => scaleOne_ok _ _ _ _ h1 t ht hs)

/-- A plain item without parameters. -/
def tupQ (q : Rat) : TupItem := ⟨q, q, none, none, false⟩

theorem not_pow2 (q : Rat) (h0 : 0 < q) (h : isPow2 q = false) : ¬ ∃ k : Int, q = 2 ^ k := by
  rw [← isPow2_iff q h0, h]
  simp

/-- Two eighth-note triplets and a quarter note, the triplets and the quarter in one beam: the case is within the theorem, and the triplets
become one. -/
def exampleTups : List TupSeg := [.tup [tupQ (1/3), tupQ (1/3), tupQ (1/3)], .tup [tupQ (1/3), tupQ (1/3), tupQ (1/3)], .plain (tupQ 1)]

theorem tupQ_third : TupletItem (tupQ (1/3)) :=
  ⟨by simp [tupQ], by simp [tupQ]; norm_num, by simp [tupQ], not_pow2 _ (by simp [tupQ]) (by decide +kernel)⟩

theorem exampleTups_ok : TupletsOk (tupSegItems exampleTups) [(0, 6)] 0 exampleTups := by
  have hone : PlainItem (tupQ 1) := ⟨0, by simp [tupQ]⟩
  have h3 : ∀ x ∈ [tupQ (1/3), tupQ (1/3), tupQ (1/3)], TupletItem x ∧ x.forced = none ∧ x.brk = false := by
    intro x hx
    simp only [List.mem_cons, List.not_mem_nil, or_false, or_self] at hx
    subst hx
    exact ⟨tupQ_third, rfl, rfl⟩
  have hs : ∀ x ∈ [tupQ (1/3), tupQ (1/3), tupQ (1/3)], ∀ y ∈ [tupQ (1/3), tupQ (1/3), tupQ (1/3)], SameRatio x y := by
    intro x hx y hy
    simp only [List.mem_cons, List.not_mem_nil, or_false, or_self] at hx hy
    subst hx; subst hy
    exact ⟨0, by simp⟩
  have hp : ∀ n, 2 ≤ n → n < [tupQ (1/3), tupQ (1/3), tupQ (1/3)].length →
      ¬ ∃ k : Int, totalDur ([tupQ (1/3), tupQ (1/3), tupQ (1/3)].take n) = 2 ^ k := by
    intro n h1 h2
    simp only [List.length_cons, List.length_nil] at h2
    have : n = 2 := by omega
    subst this
    exact not_pow2 _ (by decide +kernel) (by decide +kernel)
  have ht : ∃ k : Int, totalDur [tupQ (1/3), tupQ (1/3), tupQ (1/3)] = 2 ^ k := ⟨0, by simp [totalDur, tupQ]; norm_num⟩
  refine ⟨⟨by decide, h3, hs, Or.inr ⟨?_, hp, Or.inl ht⟩⟩, ⟨by decide, h3, hs, Or.inr ⟨?_, hp, Or.inl ht⟩⟩, hone, trivial⟩
  · intro b hb _
    simp only [List.mem_cons, List.not_mem_nil, or_false] at hb
    subst hb
    right
    refine ⟨tupQ 1, ?_, hone⟩
    simp [tupSlice, exampleTups, tupSegItems]
  · intro b hb h
    simp only [List.mem_cons, List.not_mem_nil, or_false] at hb
    subst hb
    simp at h

example : layerTups (tupSegItems exampleTups) [(0, 6)] =
    [some ((6, 4), .start), some ((6, 4), .inner), some ((6, 4), .inner), some ((6, 4), .inner), some ((6, 4), .inner), some ((6, 4), .stop), none] := by
  decide +kernel

example : ∃ segs', Joined [(0, 6)] 0 exampleTups segs' ∧ ReadsTuplets segs' (layerTups (tupSegItems exampleTups) [(0, 6)]) :=
  hum_tuplets_found_partial exampleTups [(0, 6)] ⟨by decide, by simp⟩ (by decide +kernel) exampleTups_ok

/-- The layout parameter r: the tuplet goes on until its duration reaches the one that is asked for. -/
theorem forced_tuplet_ends (f g : Rat) (p : List TupItem) (x : TupItem) (rest : List TupItem)
    (hp : ∀ y ∈ p ++ [x], 0 < y.noDots ∧ ¬ PlainItem y ∧ y.brk = false)
    (hless : ∀ n, 1 ≤ n → n ≤ p.length → g + totalDur (p.take n) < f) (hx : f ≤ g + totalDur (p ++ [x])) :
    scanTup (some f) g (p ++ x :: rest) = (p.length + 1, true) := by
  induction p generalizing g with
  | nil =>
    obtain ⟨h1, h2, h3⟩ := hp x (by simp)
    have hn : isPow2 x.noDots = false := by rw [← Bool.not_eq_true, plainItem_iff x h1]; exact h2
    simp only [List.nil_append, scanTup, hn, h3, Bool.false_eq_true, if_false]
    rw [if_pos (by simpa [totalDur] using hx)]
    rfl
  | cons y p ih =>
    obtain ⟨h1, h2, h3⟩ := hp y (by simp)
    have hn : isPow2 y.noDots = false := by rw [← Bool.not_eq_true, plainItem_iff y h1]; exact h2
    have hl := hless 1 (by omega) (by simp)
    simp only [List.take_succ_cons, List.take_zero, totalDur, List.map_cons, List.map_nil, List.sum_cons, List.sum_nil, add_zero] at hl
    simp only [List.cons_append, scanTup, hn, h3, Bool.false_eq_true, if_false]
    rw [if_neg (by simpa using hl), ih (g + y.dur) (fun z hz => hp z (by simp at hz ⊢; tauto)) ?_ ?_]
    · rfl
    · intro n hn1 hn2
      have := hless (n + 1) (by omega) (by simp; omega)
      simpa [totalDur, add_assoc] using this
    · simpa [totalDur, add_assoc] using hx

example : scanTup (some 2) (1/3) [tupQ (1/3), tupQ (1/3), tupQ (1/3), tupQ (1/3), tupQ (1/3), tupQ (1/3)] = (5, true) :=
  forced_tuplet_ends 2 (1/3) [tupQ (1/3), tupQ (1/3), tupQ (1/3), tupQ (1/3)] (tupQ (1/3)) [tupQ (1/3)]
    (by
      intro y hy
      simp only [List.cons_append, List.nil_append, List.mem_cons, List.not_mem_nil, or_false, or_self] at hy
      subst hy
      exact ⟨tupQ_third.1, tupQ_third.2.2.2, rfl⟩)
    (by
      intro n h1 h2
      simp only [List.length_cons, List.length_nil] at h2
      obtain rfl | rfl | rfl | rfl : n = 1 ∨ n = 2 ∨ n = 3 ∨ n = 4 := by omega
      all_goals decide +kernel)
    (by decide +kernel)

/-- The interpretation *tupbreak: the tuplet stops before it. -/
theorem tupbreak_ends (g : Rat) (hg : 0 ≤ g) (p : List TupItem) (y : TupItem) (rest : List TupItem)
    (hp : ∀ x ∈ p, TupletItem x ∧ x.brk = false) (hpow : ∀ n, 1 ≤ n → n ≤ p.length → ¬ ∃ k : Int, g + totalDur (p.take n) = 2 ^ k)
    (hy : TupletItem y ∧ y.brk = true) :
    scanTup none g (p ++ y :: rest) = (p.length, true) := by
  induction p generalizing g with
  | nil =>
    simp only [List.nil_append, scanTup, tupletItem_not y hy.1, hy.2, Bool.false_eq_true, if_false, if_true]
    rfl
  | cons x p ih =>
    obtain ⟨hx, hb⟩ := hp x (by simp)
    have hd : 0 < x.dur := hx.2.2.1
    have hn : ¬ isPow2 (g + x.dur) = true := by
      rw [isPow2_iff _ (by linarith)]
      have := hpow 1 (by omega) (by simp)
      simpa [totalDur] using this
    simp only [List.cons_append, scanTup, tupletItem_not x hx, hb, Bool.false_eq_true, if_false]
    rw [if_neg hn, ih (g + x.dur) (by linarith) (fun z hz => hp z (by simp [hz])) ?_]
    · rfl
    · intro n h1 h2
      have := hpow (n + 1) (by omega) (by simp; omega)
      simpa [totalDur, add_assoc] using this

example : scanTup none (1/3) [tupQ (1/3), { tupQ (1/3) with brk := true }, tupQ (1/3)] = (1, true) := by decide +kernel

/-- A tuplet of equal notes has as many notes as its number says, if the number of notes allows this. -/
theorem equal_tuplet_number (ts : List HTupNote) (q : Rat) (a c : Nat) (ha : 1 ≤ a) (hc : 1 ≤ c)
    (h : ∀ t ∈ ts, t.item.noDots = q ∧ t.item.num = none ∧ t.actual = a) (hl : ts.length = c * a) :
    (a : Int) * (scaleTup ts).1 = ts.length ∧ (scaleTup ts).2 = none := by
  cases ts with
  | nil =>
    exfalso
    have : 1 * 1 ≤ c * a := Nat.mul_le_mul hc ha
    simp at hl
    omega
  | cons f r =>
    obtain ⟨hf1, hf2, hf3⟩ := h f (by simp)
    have hmap : (f :: r).map (fun t => t.item.noDots) = List.replicate (f :: r).length q := by
      rw [List.eq_replicate_iff]
      refine ⟨by simp, ?_⟩
      intro b hb
      obtain ⟨t, ht, rfl⟩ := List.mem_map.1 hb
      exact (h t ht).1
    have hded : (List.replicate (f :: r).length q).dedup = [q] := List.replicate_dedup (by simp)
    have haq : (a : Rat) ≠ 0 := by exact_mod_cast (by omega : a ≠ 0)
    have hq : (((f :: r).length : Nat) : Rat) / ((f.actual : Int) : Rat) = ((c : Nat) : Rat) := by
      rw [hf3, hl]
      push_cast
      field_simp
    unfold scaleTup
    simp only [hf2, hmap, hded, List.map_cons, List.map_nil, List.count_replicate_self]
    rw [hq]
    have hden : ((c : Nat) : Rat).den = 1 := Rat.den_natCast c
    have hnum : ((c : Nat) : Rat).num = c := Rat.num_natCast c
    by_cases h1 : 1 < c
    · rw [if_pos (by simp only [wholeAbove, hden, Bool.and_eq_true, decide_eq_true_eq, true_and]; exact_mod_cast h1)]
      simp only [hnum]
      refine ⟨?_, trivial⟩
      rw [hl]
      push_cast
      ring
    · rw [if_neg (by simp only [wholeAbove, hden, Bool.and_eq_true, decide_eq_true_eq, true_and]; exact_mod_cast h1)]
      have hc1 : c = 1 := by omega
      refine ⟨?_, rfl⟩
      rw [hl, hc1]
      simp

/-- The same for the tuplet as a whole: a beam does not matter when r is given. -/
theorem forced_tuplet_extent (items : List TupItem) (beams : List (Nat × Nat)) (s : Nat) (f : Rat) (x y : TupItem) (p rest : List TupItem)
    (hf : x.forced = some f) (hp : ∀ z ∈ p ++ [y], 0 < z.noDots ∧ ¬ PlainItem z ∧ z.brk = false)
    (hless : ∀ n, 1 ≤ n → n ≤ p.length → totalDur (x :: p.take n) < f) (hx : f ≤ totalDur (x :: p ++ [y])) :
    tupLen items beams s x (p ++ y :: rest) = (p.length + 1, true) := by
  unfold tupLen
  rw [hf]
  simp only
  apply forced_tuplet_ends f x.dur p y rest hp
  · intro n h1 h2
    have := hless n h1 h2
    simpa [totalDur] using this
  · simpa [totalDur] using hx

example : tupLen [] [(0, 2)] 0 { tupQ (1/3) with forced := some 2 } (List.replicate 4 (tupQ (1/3)) ++ tupQ (1/3) :: [tupQ (1/3)]) = (5, true) :=
  forced_tuplet_extent [] [(0, 2)] 0 2 _ _ _ _ rfl
    (by
      intro z hz
      have : z = tupQ (1/3) := by
        rcases List.mem_append.1 hz with hz | hz
        · exact List.eq_of_mem_replicate hz
        · simpa using hz
      subst this
      exact ⟨tupQ_third.1, tupQ_third.2.2.2, rfl⟩)
    (by
      intro n h1 h2
      simp only [List.length_replicate] at h2
      obtain rfl | rfl | rfl | rfl : n = 1 ∨ n = 2 ∨ n = 3 ∨ n = 4 := by omega
      all_goals decide +kernel)
    (by decide +kernel)

/-- The numbers: more notes than they stand for, but less than twice as many; only three halves of a plain value are a duplet. -/
theorem hum_tuplet_numbers (x : TupItem) (h : TupletItem x) :
    (∃ k : Int, x.noDots = 3 * 2 ^ k) ∧ (tupRatio x).1 = 2 ∧ (tupRatio x).2.1 = 3 ∨
    (¬ ∃ k : Int, x.noDots = 3 * 2 ^ k) ∧ (tupRatio x).2.1 < (tupRatio x).1 ∧ (tupRatio x).1 < 2 * (tupRatio x).2.1 := by
  have hr := tupRatio_spec x h
  have hm := multOf_eq x h
  have q0 : 0 < x.noDots / 4 := by have := h.1; linarith
  have q1 : x.noDots / 4 < 1 := by have := h.2.1; linarith
  obtain ⟨L, hL, hL1, hL2⟩ := nextHigher_bounds _ q0 q1
  have hiff : isDuplet (x.noDots / 4) ↔ ∃ k : Int, x.noDots = 3 * 2 ^ k := by
    rw [isDuplet_iff _ q0 q1]
    constructor
    · rintro ⟨k, hk⟩
      exact ⟨k + 2, by rw [zpow_add₀ (by norm_num)]; norm_num; linarith⟩
    · rintro ⟨k, hk⟩
      exact ⟨k - 2, by rw [hk, zpow_sub₀ (by norm_num)]; norm_num; ring⟩
  have ha : (1 : Rat) ≤ ((tupRatio x).1 : Rat) := by exact_mod_cast hr.1
  by_cases hd : isDuplet (x.noDots / 4)
  · left
    refine ⟨hiff.1 hd, ?_⟩
    have hp : tupPow2 (x.noDots / 4) = 1 / 2 ^ L / 2 := by
      unfold tupPow2
      simp only [q1, if_true, hL]
      rw [if_pos (show (x.noDots / 4).num = 3 ∧ isPow2 (x.noDots / 4).den = true from hd)]
    obtain ⟨k, hk⟩ := (isDuplet_iff _ q0 q1).1 hd
    have h34 : x.noDots / 4 * 2 ^ L = 3 / 4 := by
      symm
      apply octave_unique (3 / 4) (x.noDots / 4 * 2 ^ L) (k + 2 + L) (by norm_num) (by norm_num) hL1 hL2
      rw [hk, zpow_add₀ (by norm_num), zpow_add₀ (by norm_num), zpow_natCast]
      norm_num
      ring
    have hmult : multOf x = 3 / 2 := by
      rw [hm, hp]
      have : x.noDots / 4 / (1 / 2 ^ L / 2) = (x.noDots / 4 * 2 ^ L) * 2 := by field_simp
      rw [this, h34]
      norm_num
    have key : (tupRatio x).1 = (multOf x).den ∧ (tupRatio x).2.1 = (multOf x).num := by
      have hne : ¬ ((x.noDots / 4).num = 4 ∧ (x.noDots / 4).den = 3) := by
        rintro ⟨h1, h2⟩
        rw [hd.1] at h1
        omega
      unfold multOf tupRatio
      simp only
      rw [if_neg hne]
      exact ⟨rfl, rfl⟩
    rw [key.1, key.2, hmult]
    decide +kernel
  · right
    refine ⟨fun h => hd (hiff.2 h), ?_⟩
    have hp : tupPow2 (x.noDots / 4) = 1 / 2 ^ L := by
      unfold tupPow2
      simp only [q1, if_true, hL]
      rw [if_neg (show ¬ ((x.noDots / 4).num = 3 ∧ isPow2 (x.noDots / 4).den = true) from hd)]
    have hmult : multOf x = x.noDots / 4 * 2 ^ L := by
      rw [hm, hp]
      field_simp
    have hne : multOf x ≠ 1 := by
      intro h1
      apply h.2.2.2
      refine ⟨2 - L, ?_⟩
      rw [hmult] at h1
      rw [zpow_sub₀ (by norm_num), zpow_natCast]
      have : (0 : Rat) < 2 ^ L := by positivity
      field_simp at h1 ⊢
      norm_num
      linarith
    have hlt : multOf x < 1 := lt_of_le_of_ne (by rw [hmult]; exact hL2) hne
    have hgt : 1 / 2 < multOf x := by rw [hmult]; exact hL1
    have h3 := hr.2.2.1
    constructor
    · have : ((tupRatio x).2.1 : Rat) < ((tupRatio x).1 : Rat) := by rw [h3]; nlinarith
      exact_mod_cast this
    · have : ((tupRatio x).1 : Rat) < 2 * ((tupRatio x).2.1 : Rat) := by rw [h3]; nlinarith
      exact_mod_cast this

example : (tupRatio (tupQ (3/4))).1 = 2 ∧ (tupRatio (tupQ (3/4))).2.1 = 3 ∧ (tupRatio (tupQ (1/7))).1 = 7 ∧ (tupRatio (tupQ (1/7))).2.1 = 4 := by
  decide +kernel

/-- The last one of the notes is the last of the tuplet `g`. -/
def lastStops (g : Nat) : List HTupNote → List HTupNote
  | [] => []
  | [t] => [{ t with stop := g }]
  | t :: u :: r => t :: lastStops g (u :: r)

/-- Where the ratio changes in a run of tuplet notes for the first time, a new tuplet starts. -/
theorem ratio_change_splits (g : Nat) (a n b m : Int) (hdiff : a ≠ b ∨ n ≠ m) (p : HTupNote) (xs : List HTupNote) (y : HTupNote) (ys : List HTupNote)
    (hx : ∀ t ∈ p :: xs, t.actual = a ∧ t.normal = n ∧ t.group = g ∧ noRatio t = false)
    (hy : ∀ t ∈ y :: ys, t.actual = b ∧ t.normal = m ∧ t.group = g ∧ noRatio t = false) :
    splitTups 0 p (xs ++ y :: ys) =
    lastStops g (p :: xs) ++ { y with start := g + 1, group := g + 1 } :: ys.map (fun t => { t with group := g + 1 }) := by
  have tail : ∀ (ys : List HTupNote) (q : HTupNote), q.actual = b → q.normal = m → noRatio q = false →
      (∀ t ∈ ys, t.actual = b ∧ t.normal = m ∧ t.group = g ∧ noRatio t = false) →
      splitTups 1 q ys = q :: ys.map (fun t => { t with group := g + 1 }) := by
    intro ys
    induction ys with
    | nil => intro q _ _ _ _; rfl
    | cons z ys ih =>
      intro q h1 h2 h3 h
      obtain ⟨k1, k2, k3, k4⟩ := h z (by simp)
      rw [splitTups, if_neg (by simp [k4, h3]), if_neg (by rw [k1, k2, h1, h2]; simp), k3,
        ih { z with group := g + 1 } k1 k2 k4 (fun t ht => h t (by simp [ht]))]
      rfl
  induction xs generalizing p with
  | nil =>
    obtain ⟨h1, h2, h3, h4⟩ := hx p (by simp)
    obtain ⟨k1, k2, k3, k4⟩ := hy y (by simp)
    rw [List.nil_append, splitTups, if_neg (by simp [k4, h4]), if_pos]
    · rw [k3, tail ys { y with start := g + (0 + 1), group := g + (0 + 1) } k1 k2 k4 (fun t ht => hy t (by simp [ht]))]
      rfl
    · rw [k1, k2, h1, h2, h3, k3]
      exact ⟨by tauto, rfl⟩
  | cons x xs ih =>
    obtain ⟨h1, h2, h3, h4⟩ := hx p (by simp)
    obtain ⟨k1, k2, k3, k4⟩ := hx x (by simp)
    have ih := ih x (fun t ht => hx t (by simp at ht ⊢; tauto))
    rw [List.cons_append, splitTups, if_neg (by simp [k4, h4]), if_neg (by rw [k1, k2, h1, h2]; simp)]
    have e : ({ x with group := x.group + 0 } : HTupNote) = x := by simp
    rw [e, ih]
    rfl

example : layerTups [tupQ (1/3), tupQ (1/3), tupQ (1/5), tupQ (1/5)] [] =
    [some ((3, 2), .start), some ((3, 2), .stop), some ((5, 4), .start), some ((5, 4), .stop)] := by decide +kernel

/-! ### Where the reader does not find the tuplets -/

/-- A tuplet of one note never ends: the plain notes after it become part of it. -/
theorem one_note_tuplet_goes_on :
    layerTups [tupQ (2/3), tupQ 1, tupQ 1] [] = [some ((3, 2), .start), some ((3, 2), .inner), some ((3, 2), .inner)] := by decide +kernel

/-- After one change of the ratio, the next one is missed: the septuplet notes (1/7) get the numbers of a quintuplet. -/
theorem second_ratio_change_missed :
    layerTups [tupQ (1/3), tupQ (1/3), tupQ (1/5), tupQ (1/5), tupQ (1/7), tupQ (1/7)] [] =
    [some ((3, 2), .start), some ((3, 2), .stop), some ((5, 4), .start), some ((5, 4), .inner), some ((5, 4), .inner), some ((5, 4), .stop)] := by
  decide +kernel

/-- A sextuplet without a beam becomes two triplets. -/
theorem unbeamed_sextuplet_split :
    layerTups (List.replicate 6 (tupQ (1/6))) [] =
    [some ((3, 2), .start), some ((3, 2), .inner), some ((3, 2), .stop), some ((3, 2), .start), some ((3, 2), .inner), some ((3, 2), .stop)] := by
  decide +kernel

/-- A triplet of longs (each two thirds of a long) is read as three in the time of eight. -/
theorem long_triplet_number :
    layerTups [tupQ (32/3), tupQ (32/3), tupQ (32/3)] [] = [some ((3, 8), .start), some ((3, 8), .inner), some ((3, 8), .stop)] := by
  decide +kernel

/-- A *tupbreak within a beam that has a plain duration does nothing. -/
theorem tupbreak_in_beam_ignored :
    layerTups [tupQ (1/3), tupQ (1/3), tupQ (1/3), { tupQ (1/3) with brk := true }, tupQ (1/3), tupQ (1/3)] [(0, 5)] =
    [some ((6, 4), .start), some ((6, 4), .inner), some ((6, 4), .inner), some ((6, 4), .inner), some ((6, 4), .inner), some ((6, 4), .stop)] := by
  decide +kernel

end C21
