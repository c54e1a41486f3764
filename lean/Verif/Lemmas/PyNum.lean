import Verif.Model.PyNum
namespace C21

theorem digitChar_toNat (d : Nat) (h : d < 10) : (digitChar d).toNat = 48 + d := by
  have : ∀ d, d < 10 → (digitChar d).toNat = 48 + d := by decide
  exact this d h

theorem isDig_digitChar (d : Nat) (h : d < 10) : isDig (digitChar d) = true := by
  have : ∀ d, d < 10 → isDig (digitChar d) = true := by decide
  exact this d h

theorem natStrAux_isDig (f n : Nat) : ∀ c ∈ natStrAux f n, isDig c = true := by
  induction f generalizing n with
  | zero => simp [natStrAux]
  | succ f ih =>
    intro c hc
    simp only [natStrAux] at hc
    split at hc
    · next h => simp only [List.mem_cons, List.not_mem_nil, or_false] at hc; subst hc; exact isDig_digitChar n h
    · rcases List.mem_append.1 hc with h | h
      · exact ih _ c h
      · simp only [List.mem_cons, List.not_mem_nil, or_false] at h; subst h
        exact isDig_digitChar _ (Nat.mod_lt _ (by omega))

theorem natStr_isDig (n : Nat) : ∀ c ∈ natStr n, isDig c = true := natStrAux_isDig _ _

theorem natStrAux_ne_nil (f n : Nat) (h : n < f) : natStrAux f n ≠ [] := by
  cases f with
  | zero => omega
  | succ f => simp only [natStrAux]; split <;> simp

theorem natStr_ne_nil (n : Nat) : natStr n ≠ [] := natStrAux_ne_nil _ _ (by omega)

theorem parse_natStrAux (f n : Nat) (h : n < f) : parseNat (natStrAux f n) = n := by
  induction f generalizing n with
  | zero => omega
  | succ f ih =>
    simp only [natStrAux]
    split
    · next h' => simp [parseNat, digitChar_toNat n h']
    · next h' =>
      have := ih (n / 10) (by omega)
      unfold parseNat at this ⊢
      rw [List.foldl_append, this]
      simp only [List.foldl_cons, List.foldl_nil, digitChar_toNat _ (Nat.mod_lt n (by omega : 0 < 10))]
      omega

theorem parse_natStr (n : Nat) : parseNat (natStr n) = n := parse_natStrAux _ _ (by omega)

theorem natStrAux_head (f n : Nat) (h : n < f) (hn : n ≠ 0) : (natStrAux f n).head? ≠ some '0' := by
  induction f generalizing n with
  | zero => omega
  | succ f ih =>
    simp only [natStrAux]
    split
    · next h' =>
      have : ∀ d, d < 10 → d ≠ 0 → digitChar d ≠ '0' := by decide
      simpa using this n h' hn
    · next h' =>
      have h1 : n / 10 < f := by omega
      have := ih (n / 10) h1 (by omega)
      have hne := natStrAux_ne_nil f (n / 10) h1
      cases hs : natStrAux f (n / 10) with
      | nil => exact absurd hs hne
      | cons a b => rw [hs] at this; simpa using this

theorem natStr_head (n : Nat) (hn : n ≠ 0) : (natStr n).head? ≠ some '0' :=
  natStrAux_head _ _ (by omega) hn

theorem natStr_inj (a b : Nat) (h : natStr a = natStr b) : a = b := by
  rw [← parse_natStr a, h, parse_natStr]

theorem natStr_not_mem (n : Nat) (c : Char) (hc : isDig c = false) : c ∉ natStr n := by
  intro h
  have := natStr_isDig n c h
  rw [hc] at this; simp at this

theorem intStr_inj (a b : Int) (h : intStr a = intStr b) : a = b := by
  unfold intStr at h
  have hm : ∀ n : Nat, natStr n ≠ [] := natStr_ne_nil
  have hd : ∀ n : Nat, '-' ∉ natStr n := fun n => natStr_not_mem n '-' (by decide)
  split at h <;> split at h
  · simp only [List.cons.injEq, true_and] at h
    have := natStr_inj _ _ h
    omega
  · exact absurd (by rw [← h]; simp) (hd b.natAbs)
  · exact absurd (by rw [h]; simp) (hd a.natAbs)
  · have := natStr_inj _ _ h
    omega

end C21
