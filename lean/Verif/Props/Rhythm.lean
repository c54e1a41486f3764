import Verif.Model.Rhythm
import Verif.Spec.Rhythm
import Verif.Props.Links
import Verif.Lemmas.Tac
/-
C19, C20, C21 and C60: times of lines.
-/
namespace C21

/-! ## C60: start times from durations -/

theorem endTime_eq (F : RFile) (t : TokId) (sum : Rat) : endTime F t sum = sum + max 0 (F.dur t) := by
  unfold endTime
  split
  · rename_i h; rw [max_eq_right h.le]
  · rename_i h; rw [max_eq_left (not_lt.1 h)]; ring

/-- The line times agree with the arrival times of the tokens visited. -/
def SInv (F : RFile) (arr : TokId → Rat) (S : RState) : Prop :=
  ∀ x ∈ S.visited, 0 ≤ arr x ∧ (F.stop x = false → 0 ≤ F.dur x → S.start x.1 = arr x) ∧
    (F.stop x = true → arr x ≤ S.start x.1)

/-- What a part of the walk does: `roots` are the tokens it was sent to, at time `sum`. -/
structure Grown (F : RFile) (roots : List TokId) (sum : Rat) (arr : TokId → Rat) (S : RState)
    (arr' : TokId → Rat) (S' : RState) : Prop where
  sub : ∀ x ∈ S.visited, x ∈ S'.visited
  agree : ∀ x ∈ S.visited, arr' x = arr x
  inv : SInv F arr' S'
  done : ∀ x ∈ roots, x ∈ S'.visited
  origin : ∀ x ∈ S'.visited, x ∉ S.visited →
    (x ∈ roots ∧ arr' x = sum) ∨ ∃ p ∈ S'.visited, x ∈ F.next p ∧ arr' x = arr' p + max 0 (F.dur p)
  closed : ∀ x ∈ S'.visited, x ∉ S.visited → ∀ y ∈ F.next x, y ∈ S'.visited

/-- No `*-` stands on a line with notes. -/
def StopsApart (F : RFile) : Prop := ∀ a b : TokId, a.1 = b.1 → F.stop a = true → F.stop b = false → F.dur b < 0

theorem setLineStart_inv (F : RFile) (hF : StopsApart F) (arr : TokId → Rat) (t : TokId) (sum : Rat) (S S1 : RState)
    (hsum : 0 ≤ sum) (hS : SInv F arr S) (ht : t ∉ S.visited)
    (h : setLineStart F t sum { S with visited := t :: S.visited } = .ok S1) :
    SInv F (fun x => if x = t then sum else arr x) S1 ∧ S1.visited = t :: S.visited := by
  unfold setLineStart at h
  have vis : ∀ x ∈ t :: S.visited, x = t ∨ (x ≠ t ∧ x ∈ S.visited) := by
    intro x hx
    by_cases hxt : x = t
    · exact .inl hxt
    · exact .inr ⟨hxt, by simpa [hxt] using hx⟩
  by_cases h1 : F.stop t = false ∧ F.dur t < 0
  · rw [if_pos h1] at h
    cases h
    refine ⟨?_, rfl⟩
    intro x hx
    rcases vis x hx with rfl | ⟨hne, hx⟩
    · simp only [if_true]
      refine ⟨hsum, ?_, ?_⟩
      · intro _ hd; exact absurd hd (not_le.2 h1.2)
      · intro hs; rw [h1.1] at hs; cases hs
    · simp only [if_neg hne]; exact hS x hx
  · rw [if_neg h1] at h
    simp only at h
    by_cases h2 : S.start t.1 = -1
    · rw [if_pos h2] at h
      cases h
      refine ⟨?_, rfl⟩
      intro x hx
      rcases vis x hx with rfl | ⟨hne, hx⟩
      · simp [hsum]
      · simp only [if_neg hne]
        obtain ⟨c1, c2, c3⟩ := hS x hx
        by_cases hl : x.1 = t.1
        · refine ⟨c1, ?_, ?_⟩
          · intro a b
            have := c2 a b
            rw [hl, h2] at this; linarith
          · intro a
            have := c3 a
            rw [hl, h2] at this; linarith
        · simp only [if_neg hl]; exact ⟨c1, c2, c3⟩
    · rw [if_neg h2] at h
      by_cases h3 : S.start t.1 ≠ sum
      · rw [if_pos h3] at h
        by_cases h4 : F.stop t = true
        · rw [if_pos h4] at h
          cases h
          refine ⟨?_, rfl⟩
          intro x hx
          rcases vis x hx with rfl | ⟨hne, hx⟩
          · simp [hsum, h4]
          · simp only [if_neg hne]
            obtain ⟨c1, c2, c3⟩ := hS x hx
            by_cases hl : x.1 = t.1
            · simp only [if_pos hl]
              refine ⟨c1, ?_, ?_⟩
              · intro a b
                exact absurd b (not_le.2 (hF t x hl.symm h4 a))
              · intro a
                have := c3 a
                rw [hl] at this
                exact le_trans this (le_max_left _ _)
            · simp only [if_neg hl]; exact ⟨c1, c2, c3⟩
        · rw [if_neg h4] at h; cases h
      · rw [if_neg h3] at h
        cases h
        have h3' : S.start t.1 = sum := by simpa using h3
        refine ⟨?_, rfl⟩
        intro x hx
        rcases vis x hx with rfl | ⟨hne, hx⟩
        · simp [hsum, h3']
        · simp only [if_neg hne]; exact hS x hx

theorem mem_visitOrder (l : List TokId) (x : TokId) : x ∈ visitOrder l ↔ x ∈ l := by
  cases l <;> simp [visitOrder]

theorem visit_sound (F : RFile) (hF : StopsApart F) (fuel : Nat) :
    ∀ (t : TokId) (sum : Rat) (S S' : RState) (arr : TokId → Rat), 0 ≤ sum → SInv F arr S →
    visit F fuel t sum S = .ok S' → ∃ arr', Grown F [t] sum arr S arr' S' := by
  induction fuel with
  | zero => intro t sum S S' arr _ _ h; simp [visit] at h
  | succ fuel ih =>
    intro t sum S S' arr hsum hS h
    unfold visit at h
    by_cases ht : t ∈ S.visited
    · rw [if_pos ht] at h
      cases h
      exact ⟨arr, fun x hx => hx, fun _ _ => rfl, hS, by simpa using ht, fun x a b => absurd a b, fun x a b => absurd a b⟩
    · rw [if_neg ht] at h
      cases h1 : setLineStart F t sum { S with visited := t :: S.visited } with
      | error e => rw [h1] at h; cases h
      | ok S1 =>
        rw [h1] at h
        simp only at h
        obtain ⟨hinv, hvis⟩ := setLineStart_inv F hF arr t sum S S1 hsum hS ht h1
        have hsum' : 0 ≤ endTime F t sum := by
          rw [endTime_eq]; exact add_nonneg hsum (le_max_left _ _)
        have fold : ∀ (bs : List TokId) (S1 S' : RState) (arr1 : TokId → Rat), SInv F arr1 S1 →
            bs.foldlM (fun S b => visit F fuel b (endTime F t sum) S) S1 = .ok S' →
            ∃ arr', Grown F bs (endTime F t sum) arr1 S1 arr' S' := by
          intro bs
          induction bs with
          | nil =>
            intro S1 S' arr1 hi h
            cases h
            exact ⟨arr1, fun x hx => hx, fun _ _ => rfl, hi, by simp, fun x a b => absurd a b, fun x a b => absurd a b⟩
          | cons b bs ihb =>
            intro S1 S' arr1 hi h
            rw [List.foldlM_cons] at h
            cases hv : visit F fuel b (endTime F t sum) S1 with
            | error e => rw [hv] at h; cases h
            | ok S2 =>
              rw [hv] at h
              obtain ⟨arr2, g2⟩ := ih b _ S1 S2 arr1 hsum' hi hv
              obtain ⟨arr3, g3⟩ := ihb S2 S' arr2 g2.inv h
              refine ⟨arr3, ?_, ?_, g3.inv, ?_, ?_, ?_⟩
              · exact fun x hx => g3.sub x (g2.sub x hx)
              · exact fun x hx => (g3.agree x (g2.sub x hx)).trans (g2.agree x hx)
              · intro x hx
                rcases List.mem_cons.1 hx with rfl | hx
                · exact g3.sub x (g2.done x (by simp))
                · exact g3.done x hx
              · intro x hx hn
                by_cases hx2 : x ∈ S2.visited
                · rcases g2.origin x hx2 hn with ⟨a, e⟩ | ⟨p, hp, a, e⟩
                  · left
                    refine ⟨by simp at a; simp [a], ?_⟩
                    rw [g3.agree x hx2, e]
                  · right
                    exact ⟨p, g3.sub p hp, a, by rw [g3.agree x hx2, g3.agree p hp, e]⟩
                · rcases g3.origin x hx hx2 with ⟨a, e⟩ | r
                  · exact .inl ⟨by simp [a], e⟩
                  · exact .inr r
              · intro x hx hn y hy
                by_cases hx2 : x ∈ S2.visited
                · exact g3.sub y (g2.closed x hx2 hn y hy)
                · exact g3.closed x hx hx2 y hy
        obtain ⟨arr', g⟩ := fold _ S1 S' _ hinv h
        have htS1 : t ∈ S1.visited := by rw [hvis]; simp
        have hmono : ∀ x ∈ S.visited, x ∈ S1.visited := by intro x hx; rw [hvis]; simp [hx]
        have ht' : arr' t = sum := by rw [g.agree t htS1]; simp
        refine ⟨arr', ?_, ?_, g.inv, ?_, ?_, ?_⟩
        · exact fun x hx => g.sub x (hmono x hx)
        · intro x hx
          rw [g.agree x (hmono x hx), if_neg]
          rintro rfl; exact ht hx
        · simpa using g.sub t htS1
        · intro x hx hn
          by_cases hxt : x = t
          · subst hxt; exact .inl ⟨by simp, ht'⟩
          · have : x ∉ S1.visited := by rw [hvis]; simp [hxt, hn]
            rcases g.origin x hx this with ⟨a, e⟩ | r
            · right
              refine ⟨t, g.sub t htS1, (mem_visitOrder _ _).1 a, ?_⟩
              rw [e, ht', endTime_eq]
            · exact .inr r
        · intro x hx hn y hy
          by_cases hxt : x = t
          · subst hxt
            exact g.done y ((mem_visitOrder _ _).2 hy)
          · have : x ∉ S1.visited := by rw [hvis]; simp [hxt, hn]
            exact g.closed x hx this y hy

/-- C60. If the walk over the tracks succeeds there are arrival times for the tokens such that: a track start
arrives at 0, every other token at the end of one of its previous tokens; every line with a note is at the
arrival time of each of its notes; every line with `*-` is not before the arrival of any of them; and all tokens reachable from the starts
have been visited.
Where a token has several previous tokens (after `*v`) only one of them is known to end then: the others are
not checked by the code (`merge_unchecked`). -/
theorem rhythm_sound_partial (F : RFile) (hF : StopsApart F) (fuel : Nat) (starts : List TokId) (S : RState)
    (h : visitTracks F fuel starts ⟨[], fun _ => -1⟩ = .ok S) :
    ∃ arr : TokId → Rat,
      (∀ x ∈ S.visited, (x ∈ starts ∧ arr x = 0) ∨
        ∃ p ∈ S.visited, x ∈ F.next p ∧ arr x = arr p + max 0 (F.dur p)) ∧
      (∀ x ∈ S.visited, F.stop x = false → 0 ≤ F.dur x → S.start x.1 = arr x) ∧
      (∀ x ∈ S.visited, F.stop x = true → arr x ≤ S.start x.1) ∧
      (∀ x, Reach F.next starts x → x ∈ S.visited) := by
  have fold : ∀ (bs : List TokId) (S1 S' : RState) (arr1 : TokId → Rat), SInv F arr1 S1 →
      bs.foldlM (fun S b => visit F fuel b 0 S) S1 = .ok S' →
      ∃ arr', Grown F bs 0 arr1 S1 arr' S' := by
    intro bs
    induction bs with
    | nil =>
      intro S1 S' arr1 hi h
      cases h
      exact ⟨arr1, fun x hx => hx, fun _ _ => rfl, hi, by simp, fun x a b => absurd a b, fun x a b => absurd a b⟩
    | cons b bs ihb =>
      intro S1 S' arr1 hi h
      rw [List.foldlM_cons] at h
      cases hv : visit F fuel b 0 S1 with
      | error e => rw [hv] at h; cases h
      | ok S2 =>
        rw [hv] at h
        obtain ⟨arr2, g2⟩ := visit_sound F hF fuel b _ S1 S2 arr1 le_rfl hi hv
        obtain ⟨arr3, g3⟩ := ihb S2 S' arr2 g2.inv h
        refine ⟨arr3, ?_, ?_, g3.inv, ?_, ?_, ?_⟩
        · exact fun x hx => g3.sub x (g2.sub x hx)
        · exact fun x hx => (g3.agree x (g2.sub x hx)).trans (g2.agree x hx)
        · intro x hx
          rcases List.mem_cons.1 hx with rfl | hx
          · exact g3.sub x (g2.done x (by simp))
          · exact g3.done x hx
        · intro x hx hn
          by_cases hx2 : x ∈ S2.visited
          · rcases g2.origin x hx2 hn with ⟨a, e⟩ | ⟨p, hp, a, e⟩
            · left
              refine ⟨by simp at a; simp [a], ?_⟩
              rw [g3.agree x hx2, e]
            · right
              exact ⟨p, g3.sub p hp, a, by rw [g3.agree x hx2, g3.agree p hp, e]⟩
          · rcases g3.origin x hx hx2 with ⟨a, e⟩ | r
            · exact .inl ⟨by simp [a], e⟩
            · exact .inr r
        · intro x hx hn y hy
          by_cases hx2 : x ∈ S2.visited
          · exact g3.sub y (g2.closed x hx2 hn y hy)
          · exact g3.closed x hx hx2 y hy
  obtain ⟨arr, g⟩ := fold starts ⟨[], fun _ => -1⟩ S (fun _ => 0) (by intro x hx; simp at hx) h
  refine ⟨arr, ?_, ?_, ?_, ?_⟩
  · exact fun x hx => g.origin x hx (by simp)
  · exact fun x hx => (g.inv x hx).2.1
  · exact fun x hx => (g.inv x hx).2.2
  · intro x hx
    induction hx with
    | start h => exact g.done _ h
    | link _ hb ih => exact g.closed _ ih (by simp) _ hb

/-- C60. Where spines neither split nor merge: the next token of the spine is reached when this one ends. -/
theorem rhythm_next (F : RFile) (hF : StopsApart F) (fuel : Nat) (starts : List TokId) (S : RState)
    (h : visitTracks F fuel starts ⟨[], fun _ => -1⟩ = .ok S) (a b : TokId) (ha : Reach F.next starts a)
    (hab : b ∈ F.next a) (huniq : ∀ p, b ∈ F.next p → p = a) (hb : b ∉ starts)
    (ha1 : F.stop a = false) (ha2 : 0 ≤ F.dur a) (hb1 : F.stop b = false) (hb2 : 0 ≤ F.dur b) :
    S.start b.1 = S.start a.1 + F.dur a := by
  obtain ⟨arr, h1, h2, h3, h4⟩ := rhythm_sound_partial F hF fuel starts S h
  have hav := h4 a ha
  have hbv := h4 b (.link ha hab)
  rcases h1 b hbv with ⟨x, _⟩ | ⟨p, _, hp, e⟩
  · exact absurd x hb
  · rw [huniq p hp] at e
    rw [h2 b hbv hb1 hb2, h2 a hav ha1 ha2, e, max_eq_right ha2]

end C21
