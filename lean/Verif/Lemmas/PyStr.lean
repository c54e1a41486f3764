import Verif.Model.PyStr
namespace C21

theorem splitOn_ne_nil (c : Char) (s : Str) : splitOn c s ≠ [] := by
  cases s with
  | nil => simp [splitOn]
  | cons x xs =>
    simp only [splitOn]; split
    · simp
    · split <;> simp

theorem joinWith_splitOn (c : Char) (s : Str) : joinWith c (splitOn c s) = s := by
  induction s with
  | nil => rfl
  | cons x xs ih =>
    simp only [splitOn]
    split
    · next h =>
      subst h
      cases hs : splitOn x xs with
      | nil => exact absurd hs (splitOn_ne_nil x xs)
      | cons a b => rw [hs] at ih; simp [joinWith, ih]
    · next h =>
      cases hs : splitOn c xs with
      | nil => exact absurd hs (splitOn_ne_nil c xs)
      | cons a b =>
        rw [hs] at ih
        cases b with
        | nil => simp only [joinWith] at ih ⊢; rw [ih]
        | cons b1 b2 => simp only [joinWith, List.cons_append] at ih ⊢; rw [ih]

theorem splitOn_no_sep (c : Char) (s : Str) : ∀ p ∈ splitOn c s, c ∉ p := by
  induction s with
  | nil => simp [splitOn]
  | cons x xs ih =>
    simp only [splitOn]
    split
    · intro p hp
      rcases List.mem_cons.1 hp with h | h
      · subst h; simp
      · exact ih p h
    · next hx =>
      cases hs : splitOn c xs with
      | nil => exact absurd hs (splitOn_ne_nil c xs)
      | cons a b =>
        rw [hs] at ih
        intro p hp
        rcases List.mem_cons.1 hp with h | h
        · subst h
          simp only [List.mem_cons, not_or]
          exact ⟨fun h => hx h.symm, ih a (by simp)⟩
        · exact ih p (by simp [h])

theorem splitOn_of_not_mem (c : Char) (s : Str) (h : c ∉ s) : splitOn c s = [s] := by
  induction s with
  | nil => rfl
  | cons x xs ih =>
    simp only [List.mem_cons, not_or] at h
    simp only [splitOn, ih h.2]
    rw [if_neg (fun e => h.1 e.symm)]

theorem splitOn_append_sep (c : Char) (p rest : Str) (h : c ∉ p) :
    splitOn c (p ++ c :: rest) = p :: splitOn c rest := by
  induction p with
  | nil => simp [splitOn]
  | cons x xs ih =>
    simp only [List.mem_cons, not_or] at h
    simp only [List.cons_append, splitOn, ih h.2]
    rw [if_neg (fun e => h.1 e.symm)]

theorem splitOn_joinWith (c : Char) (ps : List Str) (hne : ps ≠ []) (h : ∀ p ∈ ps, c ∉ p) :
    splitOn c (joinWith c ps) = ps := by
  induction ps with
  | nil => exact absurd rfl hne
  | cons p rest ih =>
    cases rest with
    | nil => simp only [joinWith]; exact splitOn_of_not_mem c p (h p (by simp))
    | cons q r =>
      simp only [joinWith]
      rw [splitOn_append_sep c p _ (h p (by simp)), ih (by simp) (fun x hx => h x (by simp [hx]))]

theorem splitFirst_of_not_mem (c : Char) (s : Str) (h : c ∉ s) : splitFirst c s = none := by
  induction s with
  | nil => rfl
  | cons x xs ih =>
    simp only [List.mem_cons, not_or] at h
    have h' : x ≠ c := fun e => h.1 e.symm
    simp [splitFirst, ih h.2, h']

theorem splitFirst_append (c : Char) (a b : Str) (h : c ∉ a) :
    splitFirst c (a ++ c :: b) = some (a, b) := by
  induction a with
  | nil => simp [splitFirst]
  | cons x xs ih =>
    simp only [List.mem_cons, not_or] at h
    have h' : x ≠ c := fun e => h.1 e.symm
    simp [splitFirst, ih h.2, h']

theorem splitFirst_some (c : Char) (s a b : Str) (h : splitFirst c s = some (a, b)) :
    s = a ++ c :: b ∧ c ∉ a := by
  induction s generalizing a with
  | nil => simp [splitFirst] at h
  | cons x xs ih =>
    simp only [splitFirst] at h
    split at h
    · next hx =>
      simp only [Option.some.injEq, Prod.mk.injEq] at h
      obtain ⟨rfl, rfl⟩ := h; simp [hx]
    · next hx =>
      cases hr : splitFirst c xs with
      | none => simp [hr] at h
      | some p =>
        simp only [hr, Option.map_some, Option.some.injEq, Prod.mk.injEq] at h
        obtain ⟨h1, h2⟩ := h
        obtain ⟨r1, r2⟩ := ih p.1 (by rw [hr, ← h2])
        subst h1
        refine ⟨by simp [r1], ?_⟩
        simp only [List.mem_cons, not_or]
        exact ⟨fun e => hx e.symm, r2⟩

theorem splitFirst_none (c : Char) (s : Str) (h : splitFirst c s = none) : c ∉ s := by
  induction s with
  | nil => simp
  | cons x xs ih =>
    simp only [splitFirst] at h
    split at h
    · simp at h
    · next hx =>
      simp only [Option.map_eq_none_iff] at h
      simp only [List.mem_cons, not_or]
      exact ⟨fun e => hx e.symm, ih h⟩

/-- A string in which the pattern's first character does not occur is unchanged by `replaceAll`. -/
theorem replaceGo_of_head_not_mem (a : Char) (pat rep s : Str) (h : a ∉ s) :
    replaceGo (a :: pat) rep 0 s = s := by
  induction s with
  | nil => rfl
  | cons x xs ih =>
    simp only [List.mem_cons, not_or] at h
    have : (a :: pat).isPrefixOf (x :: xs) = false := by
      simp [List.isPrefixOf, h.1]
    simp [replaceGo, this, ih h.2]

end C21
