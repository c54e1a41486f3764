import Verif.Spec.Tremolo
import Verif.Props.Recip
import Verif.Props.Signifier
import Mathlib.Algebra.Order.Field.Basic
import Mathlib.Tactic.Positivity
import Mathlib.Tactic.NormNum
/-
The texts of the notes of a tremolo, for C51.
-/
namespace C21

/-! ## Substitutions -/

theorem reSub_skip (m : Str → Nat) (rep a b : Str) (h : ∀ c ∈ a, ∀ s, m (c :: s) = 0) :
    reSub m rep 0 (a ++ b) = a ++ reSub m rep 0 b := by
  induction a with
  | nil => rfl
  | cons x a ih =>
    rw [List.cons_append, reSub, if_pos (h x List.mem_cons_self _), ih (fun c hc => h c (List.mem_cons_of_mem _ hc)), List.cons_append]

theorem reSub_drop (m : Str → Nat) (rep : Str) (k : Nat) (s : Str) : reSub m rep k s = reSub m rep 0 (s.drop k) := by
  induction s generalizing k with
  | nil => simp [reSub]
  | cons x s ih =>
    cases k with
    | zero => rfl
    | succ k => rw [reSub, ih, List.drop_succ_cons]

theorem reSub_match (m : Str → Nat) (rep a b : Str) (h : m (a ++ b) = a.length) (ha : a ≠ []) :
    reSub m rep 0 (a ++ b) = rep ++ reSub m rep 0 b := by
  cases a with
  | nil => exact absurd rfl ha
  | cons x a =>
    rw [List.cons_append] at h ⊢
    rw [reSub, if_neg (by rw [h]; simp), h, reSub_drop]
    simp

theorem reSub_mem (m : Str → Nat) (rep : Str) (k : Nat) (s : Str) (c : Char) (h : c ∈ reSub m rep k s) : c ∈ rep ∨ c ∈ s := by
  induction s generalizing k with
  | nil => simp [reSub] at h
  | cons x s ih =>
    cases k with
    | succ k =>
      rw [reSub] at h
      rcases ih k h with h | h
      · exact Or.inl h
      · exact Or.inr (List.mem_cons_of_mem _ h)
    | zero =>
      rw [reSub] at h
      split at h
      · rcases List.mem_cons.1 h with rfl | h
        · exact Or.inr List.mem_cons_self
        · rcases ih _ h with h | h
          · exact Or.inl h
          · exact Or.inr (List.mem_cons_of_mem _ h)
      · rcases List.mem_append.1 h with h | h
        · exact Or.inl h
        · rcases ih _ h with h | h
          · exact Or.inl h
          · exact Or.inr (List.mem_cons_of_mem _ h)

theorem reSub_filter (P : Char → Bool) (m : Str → Nat) (rep : Str) (hm : ∀ s : Str, ∀ c ∈ s.take (m s), P c = false)
    (hr : rep.filter P = []) (k : Nat) (s : Str) : (reSub m rep k s).filter P = (s.drop k).filter P := by
  induction s generalizing k with
  | nil => simp [reSub]
  | cons x s ih =>
    cases k with
    | succ k => rw [reSub, ih, List.drop_succ_cons]
    | zero =>
      rw [reSub, List.drop_zero]
      split
      · rw [List.filter_cons, List.filter_cons, ih, List.drop_zero]
      · next hne =>
        rw [List.filter_append, hr, List.nil_append, ih]
        have key := hm (x :: s)
        obtain ⟨n, hn⟩ : ∃ n, m (x :: s) = n + 1 := ⟨m (x :: s) - 1, by omega⟩
        rw [hn] at key ⊢
        rw [List.take_succ_cons] at key
        rw [Nat.add_sub_cancel]
        conv => rhs; rw [show x :: s = (x :: s.take n) ++ s.drop n by rw [List.cons_append, List.take_append_drop]]
        rw [List.filter_append]
        have : (x :: s.take n).filter P = [] := by
          rw [List.filter_eq_nil_iff]
          intro c hc
          rw [key c hc]
          simp
        rw [this, List.nil_append]

/-- A character that no match touches or looks beyond. -/
def Untouched (m : Str → Nat) (x : Char) : Prop :=
  (∀ b, m (x :: b) = 0) ∧ ∀ y a b, m (y :: a ++ x :: b) = m (y :: a) ∧ m (y :: a) ≤ a.length + 1

theorem reSub_untouched (m : Str → Nat) (rep : Str) (x : Char) (h : Untouched m x) (k : Nat) (a b : Str) (hk : k ≤ a.length) :
    reSub m rep k (a ++ x :: b) = reSub m rep k a ++ x :: reSub m rep 0 b := by
  induction a generalizing k with
  | nil =>
    have : k = 0 := by simpa using hk
    subst this
    show reSub m rep 0 (x :: b) = x :: reSub m rep 0 b
    rw [reSub, if_pos (h.1 b)]
  | cons y a ih =>
    cases k with
    | succ k =>
      rw [List.cons_append, reSub, reSub, ih k (by simpa using hk)]
    | zero =>
      have := h.2 y a b
      rw [List.cons_append] at this ⊢
      rw [reSub, reSub, this.1]
      split
      · rw [ih 0 (by omega), List.cons_append]
      · rw [ih _ (by omega), List.append_assoc]

theorem reSub_untouched_run (m : Str → Nat) (rep ds : Str) (hd : ds ≠ []) (h : ∀ x ∈ ds, Untouched m x) (a b : Str) :
    reSub m rep 0 (a ++ ds ++ b) = reSub m rep 0 a ++ ds ++ reSub m rep 0 b := by
  cases ds with
  | nil => exact absurd rfl hd
  | cons x ds =>
    have e : a ++ (x :: ds) ++ b = a ++ x :: (ds ++ b) := by simp
    rw [e, reSub_untouched m rep x (h x List.mem_cons_self) 0 a _ (Nat.zero_le _),
      reSub_skip m rep ds b (fun c hc s => (h c (List.mem_cons_of_mem _ hc)).1 s)]
    simp

/-! ## Matches -/

theorem runLen_le (q : Char → Bool) (s : Str) : runLen q s ≤ s.length := (List.takeWhile_sublist q).length_le

theorem takeWhile_untouched (q : Char → Bool) (x : Char) (hx : q x = false) (a b : Str) :
    (a ++ x :: b).takeWhile q = a.takeWhile q := by
  induction a with
  | nil => simp [hx]
  | cons y a ih =>
    rw [List.cons_append, List.takeWhile_cons, List.takeWhile_cons, ih]

theorem dropWhile_untouched (q : Char → Bool) (x : Char) (hx : q x = false) (a b : Str) :
    (a ++ x :: b).dropWhile q = a.dropWhile q ++ x :: b := by
  induction a with
  | nil => simp [hx]
  | cons y a ih =>
    rw [List.cons_append, List.dropWhile_cons, List.dropWhile_cons]
    split
    · exact ih
    · rfl

theorem runThen_le (q : Char → Bool) (s : Str) : runThen q s ≤ s.length := by
  unfold runThen
  have hs : s.length = runLen q s + (s.dropWhile q).length := by
    conv => lhs; rw [← List.takeWhile_append_dropWhile (p := q) (l := s), List.length_append]
    rfl
  split
  · omega
  · cases h : s.dropWhile q with
    | nil => dsimp only; omega
    | cons c r =>
      dsimp only
      rw [h] at hs
      simp only [List.length_cons] at hs
      split <;> omega

theorem runPlaced_le (q : Char → Bool) (s : Str) : runPlaced q s ≤ s.length := by
  have := runThen_le q s
  have h2 : runPlaced q s ≤ runThen q s := by
    unfold runPlaced runThen
    split
    · omega
    · cases s.dropWhile q with
      | nil => dsimp only; omega
      | cons c r =>
        dsimp only
        split <;> omega
  omega

theorem runThen_untouched (q : Char → Bool) (x : Char) (hx : q x = false) (hp : isPlacement x = false) : Untouched (runThen q) x := by
  constructor
  · intro b
    unfold runThen runLen
    simp [hx]
  · intro y a b
    refine ⟨?_, by simpa using runThen_le q (y :: a)⟩
    unfold runThen
    have h1 : runLen q (y :: a ++ x :: b) = runLen q (y :: a) := by
      unfold runLen; rw [takeWhile_untouched q x hx]
    rw [h1, dropWhile_untouched q x hx]
    cases (y :: a).dropWhile q with
    | nil => simp [hp]
    | cons c r => rfl

theorem runPlaced_untouched (q : Char → Bool) (x : Char) (hx : q x = false) (hp : isPlacement x = false) :
    Untouched (runPlaced q) x := by
  constructor
  · intro b
    unfold runPlaced runLen
    simp [hx]
  · intro y a b
    refine ⟨?_, by simpa using runPlaced_le q (y :: a)⟩
    unfold runPlaced
    have h1 : runLen q (y :: a ++ x :: b) = runLen q (y :: a) := by
      unfold runLen; rw [takeWhile_untouched q x hx]
    rw [h1, dropWhile_untouched q x hx]
    cases (y :: a).dropWhile q with
    | nil => simp [hp]
    | cons c r => rfl

theorem mem_takeWhile_true (q : Char → Bool) (s : Str) : ∀ c ∈ s.takeWhile q, q c = true := by
  induction s with
  | nil => simp
  | cons x s ih =>
    intro c hc
    rw [List.takeWhile_cons] at hc
    split at hc
    · next h =>
      rcases List.mem_cons.1 hc with rfl | hc
      · exact h
      · exact ih c hc
    · simp at hc

theorem take_runLen (q : Char → Bool) (s : Str) (k : Nat) :
    s.take (runLen q s + k) = s.takeWhile q ++ (s.dropWhile q).take k := by
  conv => lhs; rw [← List.takeWhile_append_dropWhile (p := q) (l := s)]
  unfold runLen
  rw [List.takeWhile_append_dropWhile]
  conv => lhs; arg 2; rw [← List.takeWhile_append_dropWhile (p := q) (l := s)]
  rw [List.take_append]
  simp

theorem runThen_take (q : Char → Bool) (s : Str) : ∀ c ∈ s.take (runThen q s), q c = true ∨ isPlacement c = true := by
  intro c hc
  unfold runThen at hc
  have tw : ∀ c ∈ s.takeWhile q, q c = true := mem_takeWhile_true q s
  split at hc
  · simp at hc
  · cases h : s.dropWhile q with
    | nil =>
      rw [h] at hc
      have := take_runLen q s 0
      simp only [Nat.add_zero, List.take_zero, List.append_nil] at this
      rw [this] at hc
      exact Or.inl (tw c hc)
    | cons d r =>
      rw [h] at hc
      dsimp only at hc
      split at hc
      · next hd =>
        rw [take_runLen, h] at hc
        rcases List.mem_append.1 hc with hc | hc
        · exact Or.inl (tw c hc)
        · simp at hc
          exact Or.inr (hc ▸ hd)
      · have := take_runLen q s 0
        simp only [Nat.add_zero, List.take_zero, List.append_nil] at this
        rw [this] at hc
        exact Or.inl (tw c hc)

theorem runPlaced_take (q : Char → Bool) (s : Str) : ∀ c ∈ s.take (runPlaced q s), q c = true ∨ isPlacement c = true := by
  intro c hc
  apply runThen_take q s c
  have h2 : runPlaced q s ≤ runThen q s := by
    unfold runPlaced runThen
    split
    · omega
    · cases s.dropWhile q with
      | nil => dsimp only; omega
      | cons c r =>
        dsimp only
        split <;> omega
  exact (List.take_sublist_take_left h2).subset hc

theorem recipLen_take (s : Str) : ∀ c ∈ s.take (recipLen s), isDig c = true ∨ c = '%' ∨ c = '.' := by
  intro c hc
  have tw : ∀ (q : Char → Bool) (s : Str), ∀ c ∈ s.takeWhile q, q c = true := mem_takeWhile_true
  unfold recipLen at hc
  split at hc
  · simp at hc
  · split at hc
    · next r h =>
      rw [Nat.add_assoc, Nat.add_assoc, take_runLen, h] at hc
      rcases List.mem_append.1 hc with hc | hc
      · exact Or.inl (tw _ _ c hc)
      · rw [show 1 + (runLen isDig r + runLen (fun c => c = '.') (r.dropWhile isDig)) =
          runLen isDig r + runLen (fun c => c = '.') (r.dropWhile isDig) + 1 by omega, List.take_succ_cons, take_runLen] at hc
        rcases List.mem_cons.1 hc with rfl | hc
        · exact Or.inr (Or.inl rfl)
        rcases List.mem_append.1 hc with hc | hc
        · exact Or.inl (tw _ _ c hc)
        · have := take_runLen (fun c => c = '.') (r.dropWhile isDig) 0
          simp only [Nat.add_zero, List.take_zero, List.append_nil] at this
          rw [this] at hc
          exact Or.inr (Or.inr (by simpa using tw _ _ c hc))
    · rw [take_runLen] at hc
      rcases List.mem_append.1 hc with hc | hc
      · exact Or.inl (tw _ _ c hc)
      · have := take_runLen (fun c => c = '.') (s.dropWhile isDig) 0
        simp only [Nat.add_zero, List.take_zero, List.append_nil] at this
        rw [this] at hc
        exact Or.inr (Or.inr (by simpa using tw _ _ c hc))

/-! ## Replacing a text -/

/-- The match of a fixed text. -/
def prefLen (pat s : Str) : Nat := if pat.isPrefixOf s then pat.length else 0

theorem replaceAll_reSub (pat rep s : Str) (h : pat ≠ []) : replaceAll pat rep s = reSub (prefLen pat) rep 0 s := by
  have hl : pat.length ≠ 0 := by simpa using h
  have : ∀ k, replaceGo pat rep k s = reSub (prefLen pat) rep k s := by
    induction s with
    | nil => intro k; cases k <;> rfl
    | cons x s ih =>
      intro k
      cases k with
      | succ k => rw [replaceGo, reSub, ih]
      | zero =>
        rw [replaceGo, reSub, prefLen]
        by_cases hp : pat.isPrefixOf (x :: s) = true
        · rw [if_pos hp, if_pos hp, if_neg hl, ih]
        · rw [if_neg hp, if_neg hp, if_pos rfl, ih]
  exact this 0

theorem prefLen_take (pat s : Str) : ∀ c ∈ s.take (prefLen pat s), c ∈ pat := by
  intro c hc
  unfold prefLen at hc
  split at hc
  · next h =>
    obtain ⟨t, rfl⟩ := List.isPrefixOf_iff_prefix.1 h
    rw [List.take_left] at hc
    exact hc
  · simp at hc

theorem prefLen_skip (pat : Str) (p : Char) (ps : Str) (hp : pat = p :: ps) (c : Char) (hc : c ≠ p) (s : Str) : prefLen pat (c :: s) = 0 := by
  unfold prefLen
  rw [if_neg]
  rw [hp, List.isPrefixOf]
  simp [Ne.symm hc]

theorem prefLen_self (pat b : Str) : prefLen pat (pat ++ b) = pat.length := by
  unfold prefLen
  rw [if_pos]
  rw [List.isPrefixOf_iff_prefix]
  exact List.prefix_append _ _

/-! ## The value of the mark -/

theorem isDig_at : isDig '@' = false := by decide

theorem markValue_eq (v : Nat) (t : Str) (h : MarkedWith v t) : markValue t = some v := by
  obtain ⟨a, b, rfl, ha⟩ := h
  rw [List.append_assoc]
  induction a with
  | nil =>
    rw [List.nil_append, List.cons_append]
    unfold markValue
    have h1 : (natStr v ++ '@' :: b).takeWhile isDig = natStr v :=
      takeWhile_all_append _ _ (natStr_isDig v) (by intro c hc; simp at hc; rw [← hc]; decide)
    have h2 : (natStr v ++ '@' :: b).dropWhile isDig = '@' :: b :=
      dropWhile_all_append _ _ (natStr_isDig v) (by intro c hc; simp at hc; rw [← hc]; decide)
    rw [h1, h2, if_pos ⟨rfl, natStr_ne_nil v, rfl⟩, parse_natStr]
  | cons x a ih =>
    rw [List.cons_append, markValue, if_neg]
    · exact ih (fun h => ha (List.mem_cons_of_mem _ h))
    · rintro ⟨h1, -⟩
      exact ha (h1 ▸ List.mem_cons_self)

theorem markValue_none (t : Str) (h : '@' ∉ t) : markValue t = none := by
  induction t with
  | nil => rfl
  | cons x t ih =>
    rw [markValue, if_neg]
    · exact ih (fun h' => h (List.mem_cons_of_mem _ h'))
    · rintro ⟨h1, -⟩
      exact h (h1 ▸ List.mem_cons_self)

theorem isFinger_false (t : Str) (h : ¬ ∃ a b, t = a ++ "@@".toList ++ b) : isFinger t = false := by
  unfold isFinger
  rw [Bool.eq_false_iff, Ne, isInfix_iff]
  rintro ⟨a, b, hab⟩
  exact h ⟨a, b, hab.symm⟩

/-! ## The duration -/

theorem base_marked (b : RBase) (hv : b.Valid) (rest : Str) (hr : ∀ c, rest.head? = some c → isDig c = false) (hp' : '%' ∉ rest)
    (pre : Str) (hp : ∀ c ∈ pre, isDig c = false) (hq : '%' ∉ pre) :
    recipBase (pre ++ b.text ++ rest) = .ok (some b.wholes) := by
  have none_of : ∀ run : Str, '%' ∉ run → findPercent (pre ++ run ++ rest) = none := by
    intro run hrun
    apply findPercent_none
    intro x y e
    exfalso
    have : '%' ∈ pre ++ run ++ rest := by rw [e]; simp
    simp only [List.mem_append] at this
    tauto
  cases b with
  | div n =>
    have h1 : findPercent (pre ++ natStr n ++ rest) = none := none_of _ (natStr_not_mem n _ (by decide))
    have h2 := findDigits_run pre (natStr n) rest hp (natStr_isDig n) (natStr_ne_nil n) hr
    have h3 : (natStr n).head? ≠ some '0' := natStr_head n (by have : n > 0 := hv; omega)
    simp only [recipBase, RBase.text, RBase.wholes, h1, h2, h3, parse_natStr, if_false]
  | breve z =>
    have hz : z > 0 := hv
    have hd : ∀ c ∈ List.replicate z '0', isDig c = true := by
      intro c hc; rw [List.eq_of_mem_replicate hc]; decide
    have hn : List.replicate z '0' ≠ [] := by simp; omega
    have h1 : findPercent (pre ++ List.replicate z '0' ++ rest) = none := none_of _ (by
      intro h; exact absurd (List.eq_of_mem_replicate h) (by decide))
    have h2 := findDigits_run pre _ rest hp hd hn hr
    have h3 : (List.replicate z '0').head? = some '0' := by
      cases z with
      | zero => omega
      | succ k => simp [List.replicate_succ]
    simp only [recipBase, RBase.text, RBase.wholes, h1, h2, h3, countChar_replicate, if_true]
  | ratio d n =>
    have hd : d > 0 := hv
    have h1 : findPercent (pre ++ (natStr d ++ '%' :: natStr n) ++ rest) = some (natStr d, natStr n) := by
      rw [List.append_assoc, findPercent_skip _ _ hp, List.append_assoc, List.cons_append]
      exact findPercent_ratio _ _ _ (natStr_isDig d) (natStr_isDig n) (natStr_ne_nil d) (natStr_ne_nil n) hr
    have h0 : ¬ d = 0 := by omega
    simp only [recipBase, RBase.text, RBase.wholes, h1, parse_natStr, h0, if_false]

/-- A mark that the duration does not depend on: it has no percent sign, dot, space or grace note mark. -/
theorem marked_duration (pre : Str) (b : RBase) (dots : Nat) (suf mark suf2 chord : Str) (hv : b.Valid) (hp : PlainText pre)
    (hs : PlainText suf) (hs2 : PlainText suf2) (hm : ∀ c ∈ mark, c ≠ '%' ∧ c ≠ '.' ∧ c ≠ ' ' ∧ c ≠ 'q')
    (hmh : ∀ c, mark.head? = some c → isDig c = false) (hc : ChordRest chord) :
    recipToDuration (pre ++ b.text ++ List.replicate dots '.' ++ suf ++ mark ++ suf2 ++ chord) =
      .ok (4 * b.wholes * (2 - 1 / 2 ^ dots)) := by
  obtain ⟨bt1, bt2, bt3⟩ := base_text_chars b
  have hrep : ∀ c ∈ List.replicate dots '.', c = '.' := fun c hc => List.eq_of_mem_replicate hc
  have notin : ∀ x : Char, (x = ' ' ∨ x = 'q') → x ∉ pre ++ b.text ++ List.replicate dots '.' ++ suf ++ mark ++ suf2 := by
    intro x hx
    simp only [List.mem_append, not_or]
    rcases hx with rfl | rfl
    · exact ⟨⟨⟨⟨⟨fun h => (hp.1 _ h).2.2.1 rfl, bt2⟩, fun h => absurd (hrep _ h) (by decide)⟩, fun h => (hs.1 _ h).2.2.1 rfl⟩,
        fun h => (hm _ h).2.2.1 rfl⟩, fun h => (hs2.1 _ h).2.2.1 rfl⟩
    · exact ⟨⟨⟨⟨⟨fun h => (hp.1 _ h).2.2.2 rfl, bt3⟩, fun h => absurd (hrep _ h) (by decide)⟩, fun h => (hs.1 _ h).2.2.2 rfl⟩,
        fun h => (hm _ h).2.2.2 rfl⟩, fun h => (hs2.1 _ h).2.2.2 rfl⟩
  have hq : 'q' ∉ pre ++ b.text ++ List.replicate dots '.' ++ suf ++ mark ++ suf2 ++ chord := by
    rw [List.mem_append, not_or]
    refine ⟨notin _ (Or.inr rfl), ?_⟩
    rcases hc with rfl | ⟨t, rfl, ht⟩
    · simp
    · simp [ht]
  have hsub : firstSub (pre ++ b.text ++ List.replicate dots '.' ++ suf ++ mark ++ suf2 ++ chord) =
      pre ++ b.text ++ List.replicate dots '.' ++ suf ++ mark ++ suf2 := by
    apply firstSub_append _ _ (notin _ (Or.inl rfl))
    rcases hc with rfl | ⟨t, rfl, _⟩
    · exact Or.inl rfl
    · exact Or.inr ⟨t, rfl⟩
  have hdots : countChar '.' (pre ++ b.text ++ List.replicate dots '.' ++ suf ++ mark ++ suf2) = dots := by
    simp only [countChar_append, countChar_replicate, countChar_zero _ _ bt1,
      countChar_zero _ _ (fun h => (hp.1 _ h).2.1 rfl), countChar_zero _ _ (fun h => (hs.1 _ h).2.1 rfl),
      countChar_zero _ _ (fun h => (hs2.1 _ h).2.1 rfl), countChar_zero _ _ (fun h => (hm _ h).2.1 rfl)]
    omega
  have hbase : recipBase (pre ++ b.text ++ List.replicate dots '.' ++ suf ++ mark ++ suf2) = .ok (some b.wholes) := by
    have e : pre ++ b.text ++ List.replicate dots '.' ++ suf ++ mark ++ suf2 =
        pre ++ b.text ++ (List.replicate dots '.' ++ suf ++ mark ++ suf2) := by simp
    rw [e]
    apply base_marked b hv
    · intro c hc'
      cases dots with
      | succ n =>
        rw [List.replicate_succ] at hc'
        simp at hc'
        rw [← hc']; decide
      | zero =>
        rw [List.replicate_zero, List.nil_append] at hc'
        cases suf with
        | cons x s =>
          simp at hc'
          exact hc' ▸ (hs.1 x List.mem_cons_self).1
        | nil =>
          rw [List.nil_append] at hc'
          cases mark with
          | cons x s =>
            simp at hc'
            exact hmh c (by simp [hc'])
          | nil => exact (hs2.1 c (List.mem_of_head? hc')).1
    · simp only [List.mem_append, not_or]
      exact ⟨⟨⟨fun h => absurd (hrep _ h) (by decide), fun h => (hs.2 _ h).1 rfl⟩, fun h => (hm _ h).1 rfl⟩,
        fun h => (hs2.2 _ h).1 rfl⟩
    · exact fun c h => (hp.1 c h).1
    · exact fun h => (hp.2 _ h).1 rfl
  apply recipToDuration_eq _ _ true
  unfold recipUncached
  rw [if_neg hq]
  simp only [hsub, hbase, hdots, dotFactor_eq]
  congr 2
  ring

theorem mark_chars (v : Nat) (n : Nat) (x : Char) (hx : isDig x = false) (hxa : x ≠ '@') :
    x ∉ List.replicate n '@' ++ natStr v ++ List.replicate n '@' := by
  simp only [List.mem_append, not_or]
  exact ⟨⟨fun h => hxa (List.eq_of_mem_replicate h), natStr_not_mem v x hx⟩, fun h => hxa (List.eq_of_mem_replicate h)⟩

theorem tremolo_duration (v : Nat) (d : Rat) (t : Str) (h : TremoloText v d t) : recipToDuration t = .ok d := by
  obtain ⟨-, -, pre, b, dots, suf, mark, suf2, chord, hv, hp, hs, hs2, hm, hc, rfl, rfl⟩ := h
  apply marked_duration pre b dots suf mark suf2 chord hv hp hs hs2 _ _ hc
  · rcases hm with rfl | rfl
    · intro c hc
      have key : ∀ x : Char, isDig x = false → x ≠ '@' → c ≠ x := fun x h1 h2 e =>
        mark_chars v 1 x h1 h2 (by rw [← e]; simpa using hc)
      exact ⟨key _ (by decide) (by decide), key _ (by decide) (by decide), key _ (by decide) (by decide),
        key _ (by decide) (by decide)⟩
    · intro c hc; simp at hc
  · rcases hm with rfl | rfl
    · intro c hc
      simp at hc
      rw [← hc]; decide
    · intro c hc; simp at hc

/-! ## The texts -/

/-- A note or chord of value `v`. -/
def Shaped (v : Nat) (s : Str) : Prop :=
  ∃ pre suf chord, Inert pre ∧ Inert suf ∧ ChordRest chord ∧ s = pre ++ natStr v ++ suf ++ chord

theorem shaped_rhythm (v : Nat) (hv : 0 < v) (s : Str) (h : Shaped v s) : HasRhythm s (4 / v) := by
  obtain ⟨pre, suf, chord, h1, h2, h3, rfl⟩ := h
  refine ⟨pre, .div v, 0, suf, chord, hv, h1, h2, h3, by simp [RBase.text], ?_⟩
  simp only [RBase.wholes]
  norm_num
  ring

theorem shaped_ne_null (v : Nat) (s : Str) (h : Shaped v s) : s ≠ ".".toList := by
  obtain ⟨pre, suf, chord, h1, h2, h3, rfl⟩ := h
  intro e
  obtain ⟨c, hc⟩ : ∃ c, c ∈ natStr v := by
    cases hn : natStr v with
    | nil => exact absurd hn (natStr_ne_nil v)
    | cons c r => exact ⟨c, List.mem_cons_self⟩
  have hd := natStr_isDig v c hc
  have : c ∈ ".".toList := by rw [← e]; simp [hc]
  have hc' : c = '.' := by simpa using this
  rw [hc'] at hd
  revert hd; decide

theorem inert_append {a b : Str} (ha : Inert a) (hb : Inert b) : Inert (a ++ b) := by
  intro c hc
  rcases List.mem_append.1 hc with h | h
  · exact ha c h
  · exact hb c h

theorem shaped_append (v : Nat) (s e : Str) (h : Shaped v s) (he : Inert e) : Shaped v (s ++ e) := by
  obtain ⟨pre, suf, chord, h1, h2, h3, rfl⟩ := h
  rcases h3 with rfl | ⟨t, rfl, ht⟩
  · exact ⟨pre, suf ++ e, [], h1, inert_append h2 he, Or.inl rfl, by simp⟩
  · refine ⟨pre, suf, ' ' :: (t ++ e), h1, h2, Or.inr ⟨t ++ e, rfl, ?_⟩, by simp⟩
    rw [List.mem_append, not_or]
    exact ⟨ht, fun h => (he _ h).2.2.2 rfl⟩

theorem inert_reSub (m : Str → Nat) (k : Nat) (s : Str) (h : Inert s) : Inert (reSub m [] k s) := by
  intro c hc
  rcases reSub_mem m [] k s c hc with h' | h'
  · simp at h'
  · exact h c h'

theorem shaped_reSub (v : Nat) (m : Str → Nat) (s : Str) (h : Shaped v s) (hm : ∀ x, isDig x = true ∨ x = ' ' → Untouched m x) :
    Shaped v (reSub m [] 0 s) := by
  obtain ⟨pre, suf, chord, h1, h2, h3, rfl⟩ := h
  rw [List.append_assoc, reSub_untouched_run m [] (natStr v) (natStr_ne_nil v) (fun x hx => hm x (Or.inl (natStr_isDig v x hx)))]
  rcases h3 with rfl | ⟨t, rfl, ht⟩
  · exact ⟨_, reSub m [] 0 suf, [], inert_reSub m 0 pre h1, inert_reSub m 0 suf h2, Or.inl rfl, by simp⟩
  · rw [reSub_untouched m [] ' ' (hm _ (Or.inr rfl)) 0 suf t (Nat.zero_le _)]
    refine ⟨_, reSub m [] 0 suf, ' ' :: reSub m [] 0 t, inert_reSub m 0 pre h1, inert_reSub m 0 suf h2, Or.inr ⟨_, rfl, ?_⟩, by simp⟩
    intro hq
    rcases reSub_mem m [] 0 t 'q' hq with h | h
    · simp at h
    · exact ht h

theorem recipLen_zero (c : Char) (h : isDig c = false) (s : Str) : recipLen (c :: s) = 0 := by
  unfold recipLen runLen
  simp [h]

theorem runLen_run (q : Char → Bool) (a b : Str) (ha : ∀ c ∈ a, q c = true) (hb : ∀ c, b.head? = some c → q c = false) :
    runLen q (a ++ b) = a.length := by
  unfold runLen
  rw [takeWhile_all_append a b ha hb]

theorem recipLen_base (b : RBase) (hv : b.Valid) (dots : Nat) (rest : Str)
    (hr : ∀ c, rest.head? = some c → isDig c = false ∧ c ≠ '.' ∧ c ≠ '%') :
    recipLen (b.text ++ List.replicate dots '.' ++ rest) = (b.text ++ List.replicate dots '.').length := by
  have hhead : ∀ c, (List.replicate dots '.' ++ rest).head? = some c → isDig c = false := by
    intro c hc
    cases dots with
    | zero => exact (hr c (by simpa using hc)).1
    | succ n =>
      rw [List.replicate_succ] at hc
      simp at hc
      rw [← hc]; decide
  have hdot : runLen (fun c => decide (c = '.')) (List.replicate dots '.' ++ rest) = dots := by
    rw [runLen_run]
    · simp
    · intro c hc; simp [List.eq_of_mem_replicate hc]
    · intro c hc; simp [(hr c hc).2.1]
  have plain : ∀ run : Str, run ≠ [] → (∀ c ∈ run, isDig c = true) →
      recipLen (run ++ (List.replicate dots '.' ++ rest)) = run.length + dots := by
    intro run hne hrun
    have h1 := runLen_run isDig run _ hrun hhead
    have h2 := dropWhile_all_append run _ hrun hhead
    unfold recipLen
    rw [h1, h2, if_neg (by simpa using hne)]
    cases hq : List.replicate dots '.' ++ rest with
    | nil => rw [hq] at hdot; dsimp only; rw [hdot]
    | cons c r =>
      have hcp : c ≠ '%' := by
        intro e
        subst e
        cases dots with
        | zero => exact (hr '%' (by simpa using congrArg List.head? hq)).2.2 rfl
        | succ n =>
          rw [List.replicate_succ] at hq
          simp at hq
      rw [hq] at hdot
      split
      · next r' heq => injection heq with h _; exact absurd h hcp
      · rw [hdot]
  rw [List.append_assoc]
  cases b with
  | div n =>
    rw [show (RBase.div n).text = natStr n from rfl, plain _ (natStr_ne_nil n) (natStr_isDig n)]
    simp
  | breve z =>
    have hz : z > 0 := hv
    rw [show (RBase.breve z).text = List.replicate z '0' from rfl, plain _ (by simp; omega) (by
      intro c hc; rw [List.eq_of_mem_replicate hc]; decide)]
    simp
  | ratio d n =>
    rw [show (RBase.ratio d n).text = natStr d ++ '%' :: natStr n from rfl]
    have e : natStr d ++ '%' :: natStr n ++ (List.replicate dots '.' ++ rest) =
        natStr d ++ ('%' :: (natStr n ++ (List.replicate dots '.' ++ rest))) := by simp
    rw [e]
    have hp : ∀ c, ('%' :: (natStr n ++ (List.replicate dots '.' ++ rest))).head? = some c → isDig c = false := by
      intro c hc; simp at hc; rw [← hc]; decide
    unfold recipLen
    rw [runLen_run isDig _ _ (natStr_isDig d) hp, dropWhile_all_append _ _ (natStr_isDig d) hp,
      if_neg (by simpa using natStr_ne_nil d)]
    split
    · next r heq =>
      injection heq with _ h2
      subst h2
      rw [runLen_run isDig _ _ (natStr_isDig n) hhead, dropWhile_all_append _ _ (natStr_isDig n) hhead, hdot]
      simp
      omega
    · next h => exact absurd rfl (h _)

theorem base_text_ne (b : RBase) (hv : b.Valid) : b.text ≠ [] := by
  cases b with
  | div n => exact natStr_ne_nil n
  | breve z =>
    have hz : z > 0 := hv
    simp [RBase.text]; omega
  | ratio d n => simp [RBase.text]

theorem base_text_mem (b : RBase) : ∀ c ∈ b.text, isDig c = true ∨ c = '%' := by
  intro c hc
  cases b with
  | div n => exact Or.inl (natStr_isDig n c hc)
  | breve z => exact Or.inl (by rw [List.eq_of_mem_replicate hc]; decide)
  | ratio d n =>
    simp only [RBase.text, List.mem_append, List.mem_cons] at hc
    rcases hc with h | rfl | h
    · exact Or.inl (natStr_isDig d c h)
    · exact Or.inr rfl
    · exact Or.inl (natStr_isDig n c h)

theorem isBeam_isDig (c : Char) (h : isBeam c = true) : isDig c = false ∧ c ≠ '.' ∧ c ≠ '%' ∧ c ≠ ' ' ∧ c ≠ 'q' ∧ c ≠ '@' := by
  unfold isBeam at h
  simp only [Bool.or_eq_true, decide_eq_true_eq] at h
  rcases h with ((rfl | rfl) | rfl) | rfl <;> decide

theorem filter_id_of (s : Str) (h : ∀ c ∈ s, isBeam c = false) : s.filter (fun c => !isBeam c) = s := by
  rw [List.filter_eq_self]
  intro c hc
  rw [h c hc]; rfl

/-- A text with a fixed mark removed, without beams and with the new rhythm. -/
theorem newRhythm_shaped (v : Nat) (pat ps : Str) (hpat : pat = '@' :: ps) (pre : Str) (b : RBase) (dots : Nat)
    (suf mark suf2 chord : Str) (hv : b.Valid) (hp : PlainText pre) (hs : PlainText suf) (hs2 : PlainText suf2)
    (hm : mark = pat ∨ mark = []) (hc : ChordRest chord) :
    Shaped v (newRhythm v (replaceAll pat [] (pre ++ b.text ++ List.replicate dots '.' ++ suf ++ mark ++ suf2 ++ chord))) := by
  have hne : pat ≠ [] := by rw [hpat]; simp
  have skip : ∀ a rest : Str, '@' ∉ a → reSub (prefLen pat) [] 0 (a ++ rest) = a ++ reSub (prefLen pat) [] 0 rest := by
    intro a rest ha
    exact reSub_skip _ _ _ _ (fun c hc s => prefLen_skip pat '@' ps hpat c (fun e => ha (e ▸ hc)) s)
  have h1 : replaceAll pat [] (pre ++ b.text ++ List.replicate dots '.' ++ suf ++ mark ++ suf2 ++ chord) =
      pre ++ b.text ++ List.replicate dots '.' ++ suf ++ suf2 ++ reSub (prefLen pat) [] 0 chord := by
    rw [replaceAll_reSub _ _ _ hne]
    have e : pre ++ b.text ++ List.replicate dots '.' ++ suf ++ mark ++ suf2 ++ chord =
        (pre ++ b.text ++ List.replicate dots '.' ++ suf) ++ (mark ++ (suf2 ++ chord)) := by simp
    have h0 : '@' ∉ pre ++ b.text ++ List.replicate dots '.' ++ suf := by
      simp only [List.mem_append, not_or]
      refine ⟨⟨⟨fun h => (hp.2 _ h).2 rfl, fun h => ?_⟩, fun h => absurd (List.eq_of_mem_replicate h) (by decide)⟩,
        fun h => (hs.2 _ h).2 rfl⟩
      rcases base_text_mem b _ h with h | h
      · revert h; decide
      · revert h; decide
    rw [e, skip _ _ h0]
    have h2 : reSub (prefLen pat) [] 0 (mark ++ (suf2 ++ chord)) = suf2 ++ reSub (prefLen pat) [] 0 chord := by
      rw [← skip suf2 chord (fun h => (hs2.2 _ h).2 rfl)]
      rcases hm with rfl | rfl
      · rw [reSub_match _ _ _ _ (prefLen_self _ _) hne]
        rfl
      · rfl
    rw [h2]
    simp
  have hbeam : ∀ s : Str, (∀ c ∈ s, isDig c = true ∨ c = '%' ∨ c = '.') → s.filter (fun c => !isBeam c) = s := by
    intro s hs
    apply filter_id_of
    intro c hc
    cases hb : isBeam c with
    | false => rfl
    | true =>
      obtain ⟨k1, k2, k3, -⟩ := isBeam_isDig c hb
      rcases hs c hc with h | h | h
      · rw [k1] at h; cases h
      · exact absurd h k3
      · exact absurd h k2
  have fsub : ∀ s : Str, ∀ c ∈ s.filter (fun c => !isBeam c), c ∈ s := fun s c hc => (List.mem_filter.1 hc).1
  unfold newRhythm
  rw [h1]
  simp only [List.filter_append]
  rw [hbeam b.text (fun c hc => by rcases base_text_mem b c hc with h | h <;> tauto),
    hbeam (List.replicate dots '.') (fun c hc => Or.inr (Or.inr (List.eq_of_mem_replicate hc)))]
  generalize hch : (reSub (prefLen pat) [] 0 chord).filter (fun c => !isBeam c) = chord1
  have hchord1 : ChordRest chord1 := by
    rcases hc with rfl | ⟨t, rfl, ht⟩
    · left
      rw [← hch]
      rfl
    · right
      rw [show ' ' :: t = [' '] ++ t from rfl, skip [' '] t (by decide)] at hch
      refine ⟨(reSub (prefLen pat) [] 0 t).filter (fun c => !isBeam c), ?_, ?_⟩
      · rw [← hch]
        rfl
      · intro h
        rcases reSub_mem _ _ _ _ _ (fsub _ _ h) with h | h
        · simp at h
        · exact ht h
  generalize hpre : pre.filter (fun c => !isBeam c) = pre1
  have hpre1 : PlainText pre1 := by
    rw [← hpre]
    exact ⟨fun c hc => hp.1 c (fsub _ _ hc), fun c hc => hp.2 c (fsub _ _ hc)⟩
  generalize hsuf : suf.filter (fun c => !isBeam c) = suf1
  have hsuf1 : PlainText suf1 := by
    rw [← hsuf]
    exact ⟨fun c hc => hs.1 c (fsub _ _ hc), fun c hc => hs.2 c (fsub _ _ hc)⟩
  generalize hsuf2 : suf2.filter (fun c => !isBeam c) = suf3
  have hsuf3 : PlainText suf3 := by
    rw [← hsuf2]
    exact ⟨fun c hc => hs2.1 c (fsub _ _ hc), fun c hc => hs2.2 c (fsub _ _ hc)⟩
  have e : pre1 ++ b.text ++ List.replicate dots '.' ++ suf1 ++ suf3 ++ chord1 =
      pre1 ++ ((b.text ++ List.replicate dots '.') ++ ((suf1 ++ suf3) ++ chord1)) := by simp
  rw [e, reSub_skip _ _ _ _ (fun c hc s => recipLen_zero c (hpre1.1 c hc).1 s), reSub_match, reSub_skip]
  · refine ⟨pre1, suf1 ++ suf3, reSub recipLen (natStr v) 0 chord1, hpre1.1, inert_append hsuf1.1 hsuf3.1, ?_, by simp⟩
    rcases hchord1 with rfl | ⟨t, rfl, ht⟩
    · exact Or.inl rfl
    · right
      refine ⟨reSub recipLen (natStr v) 0 t, ?_, ?_⟩
      · rw [reSub, if_pos (recipLen_zero ' ' (by decide) t)]
      · intro h
        rcases reSub_mem _ _ _ _ _ h with h | h
        · exact natStr_not_mem v 'q' (by decide) h
        · exact ht h
  · intro c hc s
    apply recipLen_zero
    rcases List.mem_append.1 hc with h | h
    · exact (hsuf1.1 c h).1
    · exact (hsuf3.1 c h).1
  · apply recipLen_base b hv
    intro c hc
    have hin : c ∈ suf1 ∨ c ∈ suf3 ∨ c = ' ' := by
      cases hq : suf1 ++ suf3 with
      | cons x r =>
        rw [hq] at hc
        have : x = c := by simpa using hc
        have hx : c ∈ suf1 ++ suf3 := by rw [hq, this]; exact List.mem_cons_self
        rcases List.mem_append.1 hx with h | h
        · exact Or.inl h
        · exact Or.inr (Or.inl h)
      | nil =>
        rw [hq, List.nil_append] at hc
        rcases hchord1 with rfl | ⟨t, rfl, _⟩
        · simp at hc
        · right; right
          have : ' ' = c := by simpa using hc
          exact this.symm
    rcases hin with h | h | rfl
    · exact ⟨(hsuf1.1 c h).1, (hsuf1.1 c h).2.1, (hsuf1.2 c h).1⟩
    · exact ⟨(hsuf3.1 c h).1, (hsuf3.1 c h).2.1, (hsuf3.2 c h).1⟩
    · decide
  · intro h
    exact base_text_ne b hv (List.append_eq_nil_iff.1 h).1

theorem essence_newRhythm (v : Nat) (pat : Str) (hne : pat ≠ []) (hpat : ∀ c ∈ pat, isDig c = true ∨ c = '@') (t : Str) :
    essence (newRhythm v (replaceAll pat [] t)) = essence t := by
  unfold essence newRhythm
  rw [reSub_filter _ recipLen (natStr v), List.drop_zero, List.filter_filter, replaceAll_reSub _ _ _ hne]
  · have : ∀ s : Str, s.filter (fun c => !isOutward c && !isBeam c) = s.filter (fun c => !isOutward c) := by
      intro s
      apply List.filter_congr
      intro c _
      cases hb : isBeam c with
      | false => simp
      | true =>
        have : isOutward c = true := by
          unfold isBeam at hb
          simp only [Bool.or_eq_true, decide_eq_true_eq] at hb
          rcases hb with ((rfl | rfl) | rfl) | rfl <;> decide
        simp [this]
    rw [this, reSub_filter _ (prefLen pat) [] _ rfl, List.drop_zero]
    intro s c hc
    rcases hpat c (prefLen_take pat s c hc) with h | rfl
    · unfold isOutward; simp [h]
    · decide
  · intro s c hc
    rcases recipLen_take s c hc with h | rfl | rfl
    · unfold isOutward; simp [h]
    · decide
    · decide
  · rw [List.filter_eq_nil_iff]
    intro c hc
    have := natStr_isDig v c hc
    unfold isOutward; simp [this]

theorem essence_append (a b : Str) : essence (a ++ b) = essence a ++ essence b := List.filter_append ..

theorem essence_beams (n : Nat) (c : Char) (h : isOutward c = true) : essence (List.replicate n c) = [] := by
  unfold essence
  rw [List.filter_eq_nil_iff]
  intro x hx
  rw [List.eq_of_mem_replicate hx, h]
  simp

theorem essence_reSub (m : Str → Nat) (hm : ∀ s : Str, ∀ c ∈ s.take (m s), isOutward c = true) (s : Str) :
    essence (reSub m [] 0 s) = essence s := by
  unfold essence
  rw [reSub_filter _ m [] _ rfl, List.drop_zero]
  intro s c hc
  rw [hm s c hc]
  rfl

/-- Marks that can be taken out of a note: none is a digit or a space. -/
structure MarkSet (q : Char → Bool) : Prop where
  out : ∀ c, q c = true → isOutward c = true
  dig : ∀ c, isDig c = true ∨ c = ' ' → q c = false

theorem markSet_of (s : Str) (h : ∀ c ∈ s, isOutward c = true ∧ isDig c = false ∧ c ≠ ' ') (q : Char → Bool) (hq : ∀ c, q c = true → c ∈ s) :
    MarkSet q := by
  constructor
  · exact fun c hc => (h c (hq c hc)).1
  · intro c hc
    cases hqc : q c with
    | false => rfl
    | true =>
      obtain ⟨-, h2, h3⟩ := h c (hq c hqc)
      rcases hc with hc | hc
      · rw [h2] at hc; cases hc
      · exact absurd hc h3

theorem placement_set : MarkSet isPlacement := by
  apply markSet_of ['<', '>'] (by decide)
  intro c h
  unfold isPlacement at h
  simpa using h

theorem tie_set : MarkSet isTie := by
  apply markSet_of ['[', '_', ']'] (by decide)
  intro c h
  unfold isTie at h
  simp at h
  simp; tauto

theorem slur_set : MarkSet isSlur := by
  apply markSet_of ['(', ')'] (by decide)
  intro c h
  unfold isSlur at h
  simpa using h

theorem one_set (x : Char) (h : isOutward x = true ∧ isDig x = false ∧ x ≠ ' ') : MarkSet (fun c => decide (c = x)) := by
  apply markSet_of [x] (by simpa using h)
  intro c h
  simpa using h

theorem shaped_runThen (v : Nat) (q : Char → Bool) (hq : MarkSet q) (s : Str) (h : Shaped v s) : Shaped v (reSub (runThen q) [] 0 s) :=
  shaped_reSub v _ s h (fun x hx => runThen_untouched q x (hq.dig x hx) (placement_set.dig x hx))

theorem shaped_runPlaced (v : Nat) (q : Char → Bool) (hq : MarkSet q) (s : Str) (h : Shaped v s) :
    Shaped v (reSub (runPlaced q) [] 0 s) :=
  shaped_reSub v _ s h (fun x hx => runPlaced_untouched q x (hq.dig x hx) (placement_set.dig x hx))

theorem essence_runThen (q : Char → Bool) (hq : MarkSet q) (s : Str) : essence (reSub (runThen q) [] 0 s) = essence s :=
  essence_reSub _ (fun s c hc => by
    rcases runThen_take q s c hc with h | h
    · exact hq.out c h
    · exact placement_set.out c h) s

theorem essence_runPlaced (q : Char → Bool) (hq : MarkSet q) (s : Str) : essence (reSub (runPlaced q) [] 0 s) = essence s :=
  essence_reSub _ (fun s c hc => by
    rcases runPlaced_take q s c hc with h | h
    · exact hq.out c h
    · exact placement_set.out c h) s

theorem inert_beams (n : Nat) (c : Char) (h : isDig c = false ∧ c ≠ '.' ∧ c ≠ ' ' ∧ c ≠ 'q') : Inert (List.replicate n c) := by
  intro x hx
  rw [List.eq_of_mem_replicate hx]
  exact h

/-- The value and the notes are right in every text of a tremolo of one note. -/
def GoodText (v : Nat) (t s : Str) : Prop := Shaped v s ∧ essence s = essence t

theorem noMark_good (v : Nat) (d : Rat) (t : Str) (h : TremoloText v d t) : GoodText v t (newRhythm v (noMark v t)) := by
  obtain ⟨-, -, pre, b, dots, suf, mark, suf2, chord, hv, hp, hs, hs2, hm, hc, ht, -⟩ := h
  constructor
  · rw [ht]
    exact newRhythm_shaped v _ (natStr v ++ ['@']) rfl pre b dots suf mark suf2 chord hv hp hs hs2 hm hc
  · unfold noMark
    apply essence_newRhythm v _ (by simp)
    intro c hc
    simp only [List.cons_append, List.mem_cons, List.mem_append, List.not_mem_nil, or_false] at hc
    rcases hc with rfl | hc | rfl
    · exact Or.inr rfl
    · exact Or.inl (natStr_isDig v c hc)
    · exact Or.inr rfl

theorem good_beams (v : Nat) (t s : Str) (h : GoodText v t s) (n : Nat) (c : Char)
    (hc : isOutward c = true ∧ isDig c = false ∧ c ≠ '.' ∧ c ≠ ' ' ∧ c ≠ 'q') : GoodText v t (s ++ List.replicate n c) := by
  refine ⟨shaped_append v s _ h.1 (inert_beams n c hc.2), ?_⟩
  rw [essence_append, essence_beams n c hc.1, List.append_nil, h.2]

theorem good_runThen (v : Nat) (t s : Str) (h : GoodText v t s) (q : Char → Bool) (hq : MarkSet q) :
    GoodText v t (reSub (runThen q) [] 0 s) :=
  ⟨shaped_runThen v q hq s h.1, (essence_runThen q hq s).trans h.2⟩

theorem good_runPlaced (v : Nat) (t s : Str) (h : GoodText v t s) (q : Char → Bool) (hq : MarkSet q) :
    GoodText v t (reSub (runPlaced q) [] 0 s) :=
  ⟨shaped_runPlaced v q hq s h.1, (essence_runPlaced q hq s).trans h.2⟩

theorem good_if (v : Nat) (t s : Str) (h : GoodText v t s) (n : Nat) (c : Char) (P : Prop) [Decidable P]
    (hc : isOutward c = true ∧ isDig c = false ∧ c ≠ '.' ∧ c ≠ ' ' ∧ c ≠ 'q') :
    GoodText v t (s ++ (if P then List.replicate n c else [])) := by
  split
  · exact good_beams v t s h n c hc
  · rw [List.append_nil]; exact h

theorem bowed_good (v : Nat) (d : Rat) (t : Str) (h : TremoloText v d t) :
    GoodText v t (bowedInitial v d t) ∧ GoodText v t (bowedBase v t) ∧ GoodText v t (bowedTerminal v d t) := by
  have hb := noMark_good v d t h
  refine ⟨?_, ?_, ?_⟩
  · exact good_runThen v t _ (good_if v t _ hb _ 'L' _ (by decide)) _ (one_set '_' (by decide))
  · exact good_runThen v t _ hb _ tie_set
  · exact good_runPlaced v t _ (good_runThen v t _ (good_if v t _ hb _ 'J' _ (by decide)) _ tie_set) _ (one_set '(' (by decide))

/-! ## Beams and ties -/

theorem howMany_append (c : Char) (a b : Str) : howMany c (a ++ b) = howMany c a + howMany c b := by
  unfold howMany
  rw [List.filter_append, List.length_append]

theorem howMany_zero (c : Char) (s : Str) : howMany c s = 0 ↔ c ∉ s := by
  unfold howMany
  rw [List.length_eq_zero_iff, List.filter_eq_nil_iff]
  constructor
  · intro h hc
    exact h c hc (by simp)
  · intro h x hx
    simp only [decide_eq_true_eq]
    intro e
    exact h (e ▸ hx)

theorem howMany_replicate (c : Char) (n : Nat) : howMany c (List.replicate n c) = n := by
  unfold howMany
  simp

theorem howMany_reSub (c : Char) (m : Str → Nat) (rep : Str) (hm : ∀ s : Str, ∀ x ∈ s.take (m s), x ≠ c) (hr : c ∉ rep) (s : Str) :
    howMany c (reSub m rep 0 s) = howMany c s := by
  unfold howMany
  rw [reSub_filter _ m rep, List.drop_zero]
  · intro s x hx
    simpa using hm s x hx
  · rw [List.filter_eq_nil_iff]
    intro x hx
    simp only [decide_eq_true_eq]
    intro e
    exact hr (e ▸ hx)

theorem reSub_none (q : Char → Bool) (m : Str → Nat) (hm : ∀ c s, q c = true → m (c :: s) ≠ 0) (k : Nat) (s : Str) :
    ∀ c ∈ reSub m [] k s, q c = false := by
  induction s generalizing k with
  | nil => simp [reSub]
  | cons x s ih =>
    cases k with
    | succ k => rw [reSub]; exact ih k
    | zero =>
      intro c hc
      rw [reSub] at hc
      split at hc
      · next h0 =>
        rcases List.mem_cons.1 hc with rfl | hc
        · cases hq : q c with
          | false => rfl
          | true => exact absurd h0 (hm c s hq)
        · exact ih 0 c hc
      · rw [List.nil_append] at hc
        exact ih _ c hc

theorem runThen_pos (q : Char → Bool) (c : Char) (s : Str) (h : q c = true) : runThen q (c :: s) ≠ 0 := by
  unfold runThen
  have : runLen q (c :: s) ≠ 0 := by unfold runLen; simp [h]
  rw [if_neg this]
  split
  · split <;> omega
  · exact this

theorem newRhythm_beams (v : Nat) (t : Str) : ∀ c ∈ newRhythm v t, isBeam c = false := by
  intro c hc
  unfold newRhythm at hc
  rcases reSub_mem _ _ _ _ _ hc with h | h
  · cases hb : isBeam c with
    | false => rfl
    | true =>
      have := natStr_isDig v c h
      rw [(isBeam_isDig c hb).1] at this
      cases this
  · have := (List.mem_filter.1 h).2
    simpa using this

theorem howMany_newRhythm (v : Nat) (t : Str) (c : Char) (hb : isBeam c = false) (hd : isDig c = false) (hp : c ≠ '%') (ht : c ≠ '.') :
    howMany c (newRhythm v t) = howMany c t := by
  unfold newRhythm
  rw [howMany_reSub]
  · unfold howMany
    rw [List.filter_filter]
    congr 1
    apply List.filter_congr
    intro x _
    by_cases h : x = c
    · subst h; simp [hb]
    · simp [h]
  · intro s x hx e
    subst e
    rcases recipLen_take s x hx with h | h | h
    · rw [hd] at h; cases h
    · exact hp h
    · exact ht h
  · exact natStr_not_mem v c hd

theorem howMany_noMark (v : Nat) (t : Str) (c : Char) (hd : isDig c = false) (ha : c ≠ '@') : howMany c (noMark v t) = howMany c t := by
  unfold noMark
  rw [replaceAll_reSub _ _ _ (by simp), howMany_reSub _ _ _ _ (by simp)]
  intro s x hx e
  subst e
  have := prefLen_take _ s x hx
  exact mark_chars v 1 x hd ha (by simpa using this)

theorem mem_noMark (v : Nat) (t : Str) (c : Char) (hd : isDig c = false) (ha : c ≠ '@') : c ∈ noMark v t ↔ c ∈ t := by
  rw [← not_iff_not, ← howMany_zero, ← howMany_zero, howMany_noMark v t c hd ha]

theorem howMany_run (c : Char) (q : Char → Bool) (hq : q c = false) (hp : isPlacement c = false) (s : Str) :
    howMany c (reSub (runThen q) [] 0 s) = howMany c s ∧ howMany c (reSub (runPlaced q) [] 0 s) = howMany c s := by
  constructor
  · apply howMany_reSub _ _ _ _ (by simp)
    intro s x hx e
    subst e
    rcases runThen_take q s x hx with h | h
    · rw [hq] at h; cases h
    · rw [hp] at h; cases h
  · apply howMany_reSub _ _ _ _ (by simp)
    intro s x hx e
    subst e
    rcases runPlaced_take q s x hx with h | h
    · rw [hq] at h; cases h
    · rw [hp] at h; cases h

theorem howMany_gone (c : Char) (q : Char → Bool) (hq : q c = true) (s : Str) : howMany c (reSub (runThen q) [] 0 s) = 0 := by
  rw [howMany_zero]
  intro h
  have := reSub_none q (runThen q) (fun c s h => runThen_pos q c s h) 0 s c h
  rw [hq] at this; cases this

theorem howMany_if (c x : Char) (n : Nat) (P : Prop) [Decidable P] :
    howMany c (if P then List.replicate n x else []) = if P ∧ x = c then n else 0 := by
  by_cases h : P
  · rw [if_pos h]
    by_cases hx : x = c
    · subst hx
      rw [howMany_replicate, if_pos ⟨h, rfl⟩]
    · rw [if_neg (fun h => hx h.2), howMany_zero]
      intro hm
      exact hx (List.eq_of_mem_replicate hm).symm
  · rw [if_neg h, if_neg (fun h' => h h'.1)]
    rfl

theorem beamCount_spec (v : Nat) (h : 8 ≤ v) : 2 ^ (beamCount v + 2) ≤ v ∧ v < 2 ^ (beamCount v + 3) := by
  have h3 : 3 ≤ Nat.log2 v := (Nat.le_log2 (by omega)).2 (by omega)
  have e1 : beamCount v + 2 = Nat.log2 v := by unfold beamCount; omega
  have e2 : beamCount v + 3 = Nat.log2 v + 1 := by omega
  rw [e1, e2]
  exact ⟨Nat.log2_self_le (by omega), Nat.lt_log2_self⟩

theorem base_beams (v : Nat) (t : Str) (c : Char) (h : isBeam c = true) : howMany c (newRhythm v t) = 0 := by
  rw [howMany_zero]
  intro hm
  rw [newRhythm_beams v t c hm] at h
  cases h

theorem base_ties (v : Nat) (t : Str) (c : Char) (hb : isBeam c = false) (hd : isDig c = false) (hp : c ≠ '%') (ht : c ≠ '.') (ha : c ≠ '@') :
    howMany c (newRhythm v (noMark v t)) = howMany c t := by
  rw [howMany_newRhythm v _ c hb hd hp ht, howMany_noMark v t c hd ha]

theorem initial_count (v : Nat) (d : Rat) (t : Str) (c : Char) (h : c ≠ '_') (hp : isPlacement c = false) :
    howMany c (bowedInitial v d t) = howMany c (newRhythm v (noMark v t)) +
      (if (1 / 2 < d ∨ 'L' ∈ t) ∧ 'L' = c then beamCount v else 0) := by
  unfold bowedInitial
  rw [(howMany_run c _ (by simpa using h) hp _).1, howMany_append, howMany_if]
  simp only [mem_noMark v t 'L' (by decide) (by decide)]

theorem base_count (v : Nat) (t : Str) (c : Char) (h : isTie c = false) (hp : isPlacement c = false) :
    howMany c (bowedBase v t) = howMany c (newRhythm v (noMark v t)) := by
  unfold bowedBase noTies
  rw [(howMany_run c _ h hp _).1]

theorem terminal_count (v : Nat) (d : Rat) (t : Str) (c : Char) (h : isTie c = false) (hs : c ≠ '(') (hp : isPlacement c = false) :
    howMany c (bowedTerminal v d t) = howMany c (newRhythm v (noMark v t)) +
      (if (1 / 2 < d ∨ 'J' ∈ t) ∧ 'J' = c then beamCount v else 0) := by
  unfold bowedTerminal noTies
  rw [(howMany_run c _ (by simpa using hs) hp _).2, (howMany_run c _ h hp _).1, howMany_append, howMany_if]
  simp only [mem_noMark v t 'J' (by decide) (by decide)]

theorem terminal_gone (v : Nat) (d : Rat) (t : Str) (c : Char) (h : isTie c = true) (hs : c ≠ '(') (hp : isPlacement c = false) :
    howMany c (bowedTerminal v d t) = 0 := by
  unfold bowedTerminal noTies
  rw [(howMany_run c _ (by simpa using hs) hp _).2]
  exact howMany_gone c _ h _

/-! ## The plan -/

/-- The texts of the notes of a tremolo. -/
def bowedText (v : Nat) (d : Rat) (t : Str) (n j : Nat) : Str :=
  if j = 1 then bowedInitial v d t else if j = n then bowedTerminal v d t else bowedBase v t

theorem bowedText_marks (v : Nat) (d : Rat) (t : Str) (n k : Nat) (hv : 8 ≤ v) (hn : 2 ≤ n) :
    TremoloMarks v d t n k (bowedText v d t n (k + 1)) := by
  obtain ⟨b1, b2⟩ := beamCount_spec v hv
  have hbase := base_beams v (noMark v t)
  have hties := base_ties v t
  have one : ∀ (P : Prop) [Decidable P] (c x : Char) (m : Nat), c = x → (if P ∧ c = x then m else 0) = if P then m else 0 := by
    intro P _ c x m h; simp [h]
  have two : ∀ (P : Prop) [Decidable P] (c x : Char) (m : Nat), c ≠ x → (if P ∧ c = x then m else 0) = 0 := by
    intro P _ c x m h; simp [h]
  unfold TremoloMarks bowedText
  by_cases k0 : k = 0
  · subst k0
    have hn1 : ¬ 0 + 1 = n := by omega
    rw [if_pos rfl]
    simp only [true_and, if_true, hn1, false_and, if_false]
    refine ⟨⟨beamCount v, b1, b2, ?_, ?_⟩, ?_, ?_, ?_, ?_, ?_⟩
    · rw [initial_count v d t 'L' (by decide) (by decide), hbase 'L' (by decide), one _ _ _ _ rfl, Nat.zero_add]
    · rw [initial_count v d t 'J' (by decide) (by decide), hbase 'J' (by decide), two _ _ _ _ (by decide)]
    · rw [initial_count v d t 'K' (by decide) (by decide), hbase 'K' (by decide), two _ _ _ _ (by decide)]
    · rw [initial_count v d t 'k' (by decide) (by decide), hbase 'k' (by decide), two _ _ _ _ (by decide)]
    · exact howMany_gone '_' _ (by decide) _
    · rw [initial_count v d t '[' (by decide) (by decide), two _ _ _ _ (by decide),
        hties '[' (by decide) (by decide) (by decide) (by decide) (by decide), Nat.add_zero]
    · rw [initial_count v d t ']' (by decide) (by decide), two _ _ _ _ (by decide),
        hties ']' (by decide) (by decide) (by decide) (by decide) (by decide), Nat.add_zero]
  · rw [if_neg (by omega)]
    simp only [k0, false_and, if_false]
    by_cases kn : k + 1 = n
    · rw [if_pos kn]
      simp only [kn, true_and]
      refine ⟨⟨beamCount v, b1, b2, ?_, ?_⟩, ?_, ?_, ?_, ?_, ?_⟩
      · rw [terminal_count v d t 'L' (by decide) (by decide) (by decide), hbase 'L' (by decide), two _ _ _ _ (by decide)]
      · rw [terminal_count v d t 'J' (by decide) (by decide) (by decide), hbase 'J' (by decide), one _ _ _ _ rfl, Nat.zero_add]
      · rw [terminal_count v d t 'K' (by decide) (by decide) (by decide), hbase 'K' (by decide), two _ _ _ _ (by decide)]
      · rw [terminal_count v d t 'k' (by decide) (by decide) (by decide), hbase 'k' (by decide), two _ _ _ _ (by decide)]
      · exact terminal_gone v d t '_' (by decide) (by decide) (by decide)
      · exact terminal_gone v d t '[' (by decide) (by decide) (by decide)
      · exact terminal_gone v d t ']' (by decide) (by decide) (by decide)
    · rw [if_neg kn]
      simp only [kn, false_and, if_false]
      refine ⟨⟨beamCount v, b1, b2, ?_, ?_⟩, ?_, ?_, ?_, ?_, ?_⟩
      · rw [base_count v t 'L' (by decide) (by decide), hbase 'L' (by decide)]
      · rw [base_count v t 'J' (by decide) (by decide), hbase 'J' (by decide)]
      · rw [base_count v t 'K' (by decide) (by decide), hbase 'K' (by decide)]
      · rw [base_count v t 'k' (by decide) (by decide), hbase 'k' (by decide)]
      · exact howMany_gone '_' _ (by decide) _
      · exact howMany_gone '[' _ (by decide) _
      · exact howMany_gone ']' _ (by decide) _

theorem count_eq (v n : Nat) (hv : 0 < v) (d : Rat) (hd : d = n * (4 / v)) : d * v / 4 = (n : Rat) := by
  have : (v : Rat) ≠ 0 := by exact_mod_cast (by omega : v ≠ 0)
  rw [hd]
  field_simp

theorem bowedPlan_eq (v n : Nat) (d : Rat) (t : Str) (h : TremoloText v d t) (hv : 8 ≤ v) (hd : d = n * (4 / v)) :
    bowedPlan t = .ok (some ⟨n, 4 / v, bowedText v d t n⟩) := by
  have hc := count_eq v n (by omega) d hd
  unfold bowedPlan
  rw [markValue_eq v t h.1]
  dsimp only
  rw [tremolo_duration v d t h]
  dsimp only
  rw [hc, if_neg (by simp), if_neg (by omega)]
  simp [bowedText]
  rfl

theorem nullTimes_eq (v n : Nat) (d start : Rat) (t : Str) (h : TremoloText v d t) (hv : 0 < v) (hd : d = n * (4 / v)) :
    nullTimes start t = .ok ((List.range (n - 1)).map (fun k : Nat => start + 4 / v * (k + 1))) := by
  have hc := count_eq v n hv d hd
  unfold nullTimes
  rw [markValue_eq v t h.1]
  dsimp only
  rw [tremolo_duration v d t h]
  dsimp only
  rw [isFinger_false t h.2.1, if_neg (by omega)]
  simp only [Bool.false_eq_true, if_false, one_mul]
  rw [hc, if_pos (by simp)]
  simp

end C21
