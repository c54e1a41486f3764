import Verif.Model.Recip
import Verif.Lemmas.PyStr
import Verif.Lemmas.PyNum
import Verif.Lemmas.PyDict
import Mathlib.Tactic.Ring
import Mathlib.Tactic.FieldSimp
import Mathlib.Tactic.Linarith
import Mathlib.Data.Rat.Lemmas
namespace C21

theorem takeWhile_all_append {p : Char → Bool} (l r : Str) (hl : ∀ c ∈ l, p c = true)
    (hr : ∀ c, r.head? = some c → p c = false) : (l ++ r).takeWhile p = l := by
  induction l with
  | nil =>
    cases r with
    | nil => rfl
    | cons a b => simp [hr a rfl]
  | cons a b ih =>
    simp only [List.cons_append, List.takeWhile_cons, hl a (by simp), if_true]
    rw [ih (fun c hc => hl c (by simp [hc]))]

theorem dropWhile_all_append {p : Char → Bool} (l r : Str) (hl : ∀ c ∈ l, p c = true)
    (hr : ∀ c, r.head? = some c → p c = false) : (l ++ r).dropWhile p = r := by
  induction l with
  | nil =>
    cases r with
    | nil => rfl
    | cons a b => simp [hr a rfl]
  | cons a b ih =>
    simp only [List.cons_append, List.dropWhile_cons, hl a (by simp), if_true]
    rw [ih (fun c hc => hl c (by simp [hc]))]

theorem takeWhile_nil_of_none {p : Char → Bool} (l : Str) (h : ∀ c ∈ l, p c = false) :
    l.takeWhile p = [] := by
  cases l with
  | nil => rfl
  | cons a b => simp [h a (by simp)]

theorem percentHere_some {s a b : Str} (h : percentHere s = some (a, b)) :
    ∃ x y, s = x ++ '%' :: y ∧ y.takeWhile isDig = b ∧ b ≠ [] := by
  unfold percentHere at h
  split at h
  · next x xs r h1 h2 =>
    split at h
    · next b0 bs hb =>
      simp only [Option.some.injEq, Prod.mk.injEq] at h
      refine ⟨x :: xs, r, ?_, ?_, ?_⟩
      · rw [← h1, ← h2, List.takeWhile_append_dropWhile]
      · rw [hb, h.2]
      · rw [← h.2]; simp
    · simp at h
  · simp at h

theorem findPercent_none (s : Str) (h : ∀ x y, s = x ++ '%' :: y → y.takeWhile isDig = []) :
    findPercent s = none := by
  induction s with
  | nil => rfl
  | cons c cs ih =>
    simp only [findPercent]
    cases hp : percentHere (c :: cs) with
    | some r =>
      obtain ⟨a, b⟩ := r
      obtain ⟨x, y, e, h1, h2⟩ := percentHere_some hp
      exact absurd ((h x y e).symm.trans h1).symm (by simpa using h2)
    | none =>
      simp only
      exact ih (fun x y e => h (c :: x) y (by simp [e]))

theorem findPercent_skip (pre s : Str) (h : ∀ c ∈ pre, isDig c = false) :
    findPercent (pre ++ s) = findPercent s := by
  induction pre with
  | nil => rfl
  | cons a b ih =>
    have : percentHere (a :: (b ++ s)) = none := by
      simp [percentHere, h a (by simp)]
    simp [findPercent, this, ih (fun c hc => h c (by simp [hc]))]

theorem findPercent_run (run rest : Str) (hr : ∀ c ∈ run, isDig c = true)
    (hs : ∀ c ∈ rest, isDig c = false) : findPercent (run ++ rest) = none := by
  apply findPercent_none
  intro x y e
  have hp : isDig '%' = false := by decide
  -- the '%' lies in rest
  have : ∃ x', rest = x' ++ '%' :: y := by
    induction run generalizing x with
    | nil => exact ⟨x, by simpa using e⟩
    | cons a b ih =>
      cases x with
      | nil =>
        simp only [List.cons_append, List.nil_append, List.cons.injEq] at e
        have := hr a (by simp); rw [e.1, hp] at this; simp at this
      | cons x0 xs =>
        simp only [List.cons_append, List.cons.injEq] at e
        exact ih (fun c hc => hr c (by simp [hc])) xs e.2
  obtain ⟨x', e'⟩ := this
  exact takeWhile_nil_of_none _ (fun c hc => hs c (by rw [e']; simp [hc]))

theorem findPercent_ratio (a b rest : Str) (ha : ∀ c ∈ a, isDig c = true) (hb : ∀ c ∈ b, isDig c = true)
    (ha0 : a ≠ []) (hb0 : b ≠ []) (hs : ∀ c, rest.head? = some c → isDig c = false) :
    findPercent (a ++ '%' :: (b ++ rest)) = some (a, b) := by
  have hp : isDig '%' = false := by decide
  have h1 : (a ++ '%' :: (b ++ rest)).takeWhile isDig = a :=
    takeWhile_all_append _ _ ha (by intro c hc; simp at hc; subst hc; exact hp)
  have h2 : (a ++ '%' :: (b ++ rest)).dropWhile isDig = '%' :: (b ++ rest) :=
    dropWhile_all_append _ _ ha (by intro c hc; simp at hc; subst hc; exact hp)
  have h3 : (b ++ rest).takeWhile isDig = b := takeWhile_all_append _ _ hb hs
  obtain ⟨a0, as, rfl⟩ := List.exists_cons_of_ne_nil ha0
  obtain ⟨b0, bs, rfl⟩ := List.exists_cons_of_ne_nil hb0
  have : percentHere (a0 :: as ++ '%' :: (b0 :: bs ++ rest)) = some (a0 :: as, b0 :: bs) := by
    unfold percentHere
    rw [h1, h2]
    simp only [h3]
  simp only [List.cons_append, findPercent] at this ⊢
  rw [this]

theorem findDigits_run (pre run rest : Str) (hp : ∀ c ∈ pre, isDig c = false)
    (hr : ∀ c ∈ run, isDig c = true) (h0 : run ≠ []) (hs : ∀ c, rest.head? = some c → isDig c = false) :
    findDigits (pre ++ run ++ rest) = some run := by
  have h1 : (pre ++ run ++ rest).dropWhile (fun c => !isDig c) = run ++ rest := by
    rw [List.append_assoc]
    apply dropWhile_all_append
    · intro c hc; simp [hp c hc]
    · intro c hc
      obtain ⟨a, b, rfl⟩ := List.exists_cons_of_ne_nil h0
      simp only [List.cons_append, List.head?_cons, Option.some.injEq] at hc
      subst hc; simp [hr]
  unfold findDigits
  rw [h1, takeWhile_all_append _ _ hr hs]
  obtain ⟨a, b, rfl⟩ := List.exists_cons_of_ne_nil h0
  rfl

theorem dotFactor_eq (n : Nat) : dotFactor n = 2 - 1 / 2 ^ n := by
  unfold dotFactor
  split
  · have : (2 : Rat) ^ n ≠ 0 := by positivity
    rw [pow_succ]; field_simp
  · next h =>
    have : n = 0 := by omega
    subst this; norm_num

theorem firstSub_append (s chord : Str) (hs : ' ' ∉ s) (hc : chord = [] ∨ ∃ t, chord = ' ' :: t) :
    firstSub (s ++ chord) = s := by
  apply takeWhile_all_append
  · intro c hc; simp only [bne_iff_ne, ne_eq]; intro e; subst e; exact hs hc
  · intro c hcc
    rcases hc with rfl | ⟨t, rfl⟩
    · simp at hcc
    · simp only [List.head?_cons, Option.some.injEq] at hcc; subst hcc; decide

theorem countChar_append (c : Char) (a b : Str) : countChar c (a ++ b) = countChar c a + countChar c b := by
  simp [countChar]

theorem countChar_zero (c : Char) (s : Str) (h : c ∉ s) : countChar c s = 0 := by
  unfold countChar
  rw [List.length_eq_zero_iff, List.filter_eq_nil_iff]
  intro a ha; simp only [beq_iff_eq]; intro e; subst e; exact h ha

theorem countChar_replicate (c : Char) (n : Nat) : countChar c (List.replicate n c) = n := by
  simp [countChar]

theorem rat_num_one {x : Rat} (h : x.num = 1) : x = 1 / (x.den : Rat) := by
  have := Rat.num_div_den x
  rw [h] at this; simpa using this.symm

end C21
