import Verif.Props.NullLines
/-
C19, C60, C61: the times of a whole file.
-/
namespace C21

/-- A token that has a time of its own: a note, rest or `*-`. -/
def RFile.Timed (F : RFile) (x : TokId) : Prop := 0 ≤ F.dur x ∨ F.stop x = true

/-- The state of the walk in a file with a consistent timing. -/
structure CInv (F : RFile) (starts : List TokId) (T : Nat → Rat) (S : RState) : Prop where
  reach : ∀ x ∈ S.visited, Reach F.next starts x
  timed : ∀ x ∈ S.visited, F.Timed x → S.start x.1 = T x.1
  other : ∀ l, S.start l = -1 ∨ ∃ x ∈ S.visited, F.Timed x ∧ x.1 = l

theorem setLineStart_complete (F : RFile) (starts : List TokId) (arr : TokId → Rat) (T : Nat → Rat)
    (hT : Timing F.dur F.stop F.next starts arr T) (t : TokId) (ht : Reach F.next starts t) (S : RState)
    (hS : CInv F starts T S) :
    ∃ S1, setLineStart F t (arr t) { S with visited := t :: S.visited } = .ok S1 ∧ S1.visited = t :: S.visited ∧
      CInv F starts T S1 := by
  unfold setLineStart
  by_cases h1 : F.stop t = false ∧ F.dur t < 0
  · rw [if_pos h1]
    have hnt : ¬ F.Timed t := by
      rintro (h | h)
      · exact absurd h (not_le.2 h1.2)
      · rw [h1.1] at h; cases h
    refine ⟨_, rfl, rfl, ?_, ?_, ?_⟩
    · intro x hx
      rcases List.mem_cons.1 hx with rfl | hx
      · exact ht
      · exact hS.reach x hx
    · intro x hx hxt
      rcases List.mem_cons.1 hx with rfl | hx
      · exact absurd hxt hnt
      · exact hS.timed x hx hxt
    · intro l
      rcases hS.other l with h | ⟨x, hx, h⟩
      · exact .inl h
      · exact .inr ⟨x, by simp [hx], h⟩
  · rw [if_neg h1]
    have htt : F.Timed t := by
      by_contra hc
      apply h1
      unfold RFile.Timed at hc
      push Not at hc
      exact ⟨by simpa using hc.2, hc.1⟩
    have hTt := hT.line t ht htt
    simp only
    by_cases h2 : S.start t.1 = -1
    · rw [if_pos h2]
      refine ⟨_, rfl, rfl, ?_, ?_, ?_⟩
      · intro x hx
        rcases List.mem_cons.1 hx with rfl | hx
        · exact ht
        · exact hS.reach x hx
      · intro x hx hxt
        by_cases hl : x.1 = t.1
        · simp only [if_pos hl]; rw [hl, hTt]
        · simp only [if_neg hl]
          rcases List.mem_cons.1 hx with rfl | hx
          · exact absurd rfl hl
          · exact hS.timed x hx hxt
      · intro l
        by_cases hl : l = t.1
        · exact .inr ⟨t, by simp, htt, hl.symm⟩
        · simp only [if_neg hl]
          rcases hS.other l with h | ⟨x, hx, h⟩
          · exact .inl h
          · exact .inr ⟨x, by simp [hx], h⟩
    · rw [if_neg h2]
      have h3 : S.start t.1 = arr t := by
        rcases hS.other t.1 with h | ⟨x, hx, hxt, e⟩
        · exact absurd h h2
        · rw [← e, hS.timed x hx hxt, e, hTt]
      rw [if_neg (by simp [h3])]
      refine ⟨_, rfl, rfl, ?_, ?_, ?_⟩
      · intro x hx
        rcases List.mem_cons.1 hx with rfl | hx
        · exact ht
        · exact hS.reach x hx
      · intro x hx hxt
        rcases List.mem_cons.1 hx with rfl | hx
        · simp only; rw [h3, hTt]
        · exact hS.timed x hx hxt
      · intro l
        rcases hS.other l with h | ⟨x, hx, h⟩
        · exact .inl h
        · exact .inr ⟨x, by simp [hx], h⟩

/-- The walk from one token in a file with a consistent timing: it succeeds, and has visited everything that can be reached. -/
theorem visit_fuel (F : RFile) (starts : List TokId) (arr : TokId → Rat) (T : Nat → Rat)
    (hT : Timing F.dur F.stop F.next starts arr T) (N : Nat)
    (hfwd : ∀ a, ∀ b ∈ F.next a, a.1 < b.1) (hN : ∀ x, Reach F.next starts x → x.1 < N) (fuel : Nat) :
    ∀ (t : TokId) (S : RState), Reach F.next starts t → N ≤ fuel + t.1 → CInv F starts T S →
    ∃ S', visit F fuel t (arr t) S = .ok S' ∧ CInv F starts T S' ∧ (∀ x ∈ S.visited, x ∈ S'.visited) ∧
      t ∈ S'.visited ∧ ∀ x ∈ S'.visited, x ∉ S.visited → ∀ y ∈ F.next x, y ∈ S'.visited := by
  induction fuel with
  | zero => intro t S ht hf _; have := hN t ht; omega
  | succ fuel ih =>
    intro t S ht hf hS
    unfold visit
    by_cases hv : t ∈ S.visited
    · rw [if_pos hv]
      exact ⟨S, rfl, hS, fun _ h => h, hv, fun x a b => absurd a b⟩
    · rw [if_neg hv]
      obtain ⟨S1, e1, e2, e3⟩ := setLineStart_complete F starts arr T hT t ht S hS
      rw [e1]
      simp only
      have fold : ∀ (bs : List TokId) (S1 : RState), (∀ b ∈ bs, b ∈ F.next t) → CInv F starts T S1 →
          ∃ S', bs.foldlM (fun S b => visit F fuel b (endTime F t (arr t)) S) S1 = .ok S' ∧ CInv F starts T S' ∧
            (∀ x ∈ S1.visited, x ∈ S'.visited) ∧ (∀ b ∈ bs, b ∈ S'.visited) ∧
            ∀ x ∈ S'.visited, x ∉ S1.visited → ∀ y ∈ F.next x, y ∈ S'.visited := by
        intro bs
        induction bs with
        | nil => intro S1 _ h; exact ⟨S1, rfl, h, fun _ h => h, by simp, fun x a b => absurd a b⟩
        | cons b bs ihb =>
          intro S1 hb h
          have hbn := hb b (by simp)
          have ha : endTime F t (arr t) = arr b := by rw [endTime_eq, hT.step t ht b hbn]
          obtain ⟨S2, a1, a2, a3, a4, a5⟩ := ih b S1 (.link ht hbn) (by have := hfwd t b hbn; omega) h
          obtain ⟨S3, b1, b2, b3, b4, b5⟩ := ihb S2 (fun x hx => hb x (by simp [hx])) a2
          refine ⟨S3, ?_, b2, fun x hx => b3 x (a3 x hx), ?_, ?_⟩
          · rw [List.foldlM_cons]
            have : visit F fuel b (endTime F t (arr t)) S1 = .ok S2 := by rw [ha]; exact a1
            rw [this]; exact b1
          · intro x hx
            rcases List.mem_cons.1 hx with rfl | hx
            · exact b3 _ a4
            · exact b4 x hx
          · intro x hx hn y hy
            by_cases hx2 : x ∈ S2.visited
            · exact b3 y (a5 x hx2 hn y hy)
            · exact b5 x hx hx2 y hy
      obtain ⟨S', c1, c2, c3, c4, c5⟩ := fold (visitOrder (F.next t)) S1 (fun b hb => (mem_visitOrder _ _).1 hb) e3
      refine ⟨S', c1, c2, ?_, c3 t (by rw [e2]; simp), ?_⟩
      · intro x hx; exact c3 x (by rw [e2]; simp [hx])
      · intro x hx hn y hy
        by_cases hxt : x = t
        · subst hxt; exact c4 y ((mem_visitOrder _ _).2 hy)
        · exact c5 x hx (by rw [e2]; simp [hxt, hn]) y hy

/-- C61. If the file has a consistent timing, the walk succeeds, gives every line with a note, rest or `*-`
its time, and leaves the other lines without one. -/
theorem rhythm_complete (F : RFile) (starts : List TokId) (arr : TokId → Rat) (T : Nat → Rat)
    (hT : Timing F.dur F.stop F.next starts arr T) (N : Nat)
    (hfwd : ∀ a, ∀ b ∈ F.next a, a.1 < b.1) (hN : ∀ x, Reach F.next starts x → x.1 < N) :
    ∃ S, visitTracks F (N + 1) starts ⟨[], fun _ => -1⟩ = .ok S ∧
      (∀ x, Reach F.next starts x → F.Timed x → S.start x.1 = T x.1) ∧
      (∀ l, (¬ ∃ x, Reach F.next starts x ∧ F.Timed x ∧ x.1 = l) → S.start l = -1) := by
  have fold : ∀ (bs : List TokId) (S1 : RState), (∀ b ∈ bs, b ∈ starts) → CInv F starts T S1 →
      ∃ S', bs.foldlM (fun S b => visit F (N + 1) b 0 S) S1 = .ok S' ∧ CInv F starts T S' ∧
        (∀ x ∈ S1.visited, x ∈ S'.visited) ∧ (∀ b ∈ bs, b ∈ S'.visited) ∧
        ∀ x ∈ S'.visited, x ∉ S1.visited → ∀ y ∈ F.next x, y ∈ S'.visited := by
    intro bs
    induction bs with
    | nil => intro S1 _ h; exact ⟨S1, rfl, h, fun _ h => h, by simp, fun x a b => absurd a b⟩
    | cons b bs ihb =>
      intro S1 hb h
      have hbn := hb b (by simp)
      have ha : (0 : Rat) = arr b := (hT.begin b hbn).symm
      obtain ⟨S2, a1, a2, a3, a4, a5⟩ := visit_fuel F starts arr T hT N hfwd hN (N + 1) b S1 (.start hbn) (by omega) h
      obtain ⟨S3, b1, b2, b3, b4, b5⟩ := ihb S2 (fun x hx => hb x (by simp [hx])) a2
      refine ⟨S3, ?_, b2, fun x hx => b3 x (a3 x hx), ?_, ?_⟩
      · rw [List.foldlM_cons]
        have : visit F (N + 1) b 0 S1 = .ok S2 := by rw [ha]; exact a1
        rw [this]; exact b1
      · intro x hx
        rcases List.mem_cons.1 hx with rfl | hx
        · exact b3 _ a4
        · exact b4 x hx
      · intro x hx hn y hy
        by_cases hx2 : x ∈ S2.visited
        · exact b3 y (a5 x hx2 hn y hy)
        · exact b5 x hx hx2 y hy
  obtain ⟨S, e1, e2, e3, e4, e5⟩ := fold starts ⟨[], fun _ => -1⟩ (fun _ h => h) ⟨by simp, by simp, fun _ => .inl rfl⟩
  have all : ∀ x, Reach F.next starts x → x ∈ S.visited := by
    intro x hx
    induction hx with
    | start h => exact e4 _ h
    | link _ hb ih => exact e5 _ ih (by simp) _ hb
  refine ⟨S, e1, fun x hx ht => e2.timed x (all x hx) ht, ?_⟩
  intro l hl
  rcases e2.other l with h | ⟨x, hx, ht, e⟩
  · exact h
  · exact absurd ⟨x, e2.reach x hx, ht, e⟩ hl

/-! ## Null lines: success -/

theorem nullLoop_total (ls : List LineFacts) : ∀ (i : Nat) (prev : Option Nat) (nulls : List Nat) (st : Nat → Rat),
    (∀ n ∈ nulls, n < i) →
    (∀ m l, ls[m]? = some l → l.hasSpines = true → l.allNull = false → l.isData = true → 0 ≤ st (i + m)) →
    ∃ out, nullLoop i ls prev nulls st = .ok out := by
  induction ls with
  | nil => intro i prev nulls st _ _; exact ⟨st, rfl⟩
  | cons l ls ih =>
    intro i prev nulls st hn h
    have ahead : ∀ st' : Nat → Rat, (∀ k, i < k → st' k = st k) →
        ∀ m l', ls[m]? = some l' → l'.hasSpines = true → l'.allNull = false → l'.isData = true → 0 ≤ st' (i + 1 + m) := by
      intro st' hs m l' e1 e2 e3 e4
      rw [hs _ (by omega)]
      have := h (m + 1) l' (by simpa using e1) e2 e3 e4
      rwa [show i + 1 + m = i + (m + 1) by omega]
    have hns : ∀ n ∈ (if l.isBarline then [] else nulls), n < i := by
      intro n hx; split at hx
      · simp at hx
      · exact hn n hx
    unfold nullLoop
    by_cases h1 : l.hasSpines = false
    · rw [if_pos h1]
      exact ih _ _ _ _ (fun n hx => Nat.lt_succ_of_lt (hn n hx)) (ahead st (fun _ _ => rfl))
    · rw [if_neg h1]
      have h1' : l.hasSpines = true := by simpa using h1
      simp only
      by_cases h2 : l.allNull = true
      · rw [if_pos h2]
        refine ih _ _ _ _ ?_ (ahead st (fun _ _ => rfl))
        intro n hx
        by_cases hd : l.isData = true
        · rw [if_pos hd] at hx
          rcases List.mem_append.1 hx with hx | hx
          · exact Nat.lt_succ_of_lt (hns n hx)
          · simp at hx; omega
        · rw [if_neg hd] at hx; exact Nat.lt_succ_of_lt (hns n hx)
      · rw [if_neg h2]
        have h2' : l.allNull = false := by simpa using h2
        by_cases h3 : st i < 0
        · rw [if_pos h3]
          by_cases h4 : l.isData = true
          · have := h 0 l rfl h1' h2' h4
            simp at this; linarith
          · rw [if_neg h4]
            exact ih _ _ _ _ (fun n hx => Nat.lt_succ_of_lt (hns n hx)) (ahead st (fun _ _ => rfl))
        · rw [if_neg h3]
          cases hp : (if l.isBarline then none else prev) with
          | none => simp only; exact ih _ _ _ _ (by simp) (ahead st (fun _ _ => rfl))
          | some q =>
            simp only
            refine ih _ _ _ _ (by simp) (ahead _ ?_)
            intro k hk
            refine spread_other _ _ _ _ _ _ ?_
            intro hx; have := hns k hx; omega

/-! ## Facts about files -/

theorem mapM_get {α β : Type} (f : α → Except PyErr β) (l : List α) : ∀ (r : List β), l.mapM f = .ok r →
    ∀ (i : Nat) (y : β), r[i]? = some y → ∃ x, l[i]? = some x ∧ f x = .ok y := by
  induction l with
  | nil => intro r h i y hy; cases h; simp at hy
  | cons a l ih =>
    intro r h i y hy
    rw [List.mapM_cons] at h
    cases ha : f a with
    | error e => rw [ha] at h; cases h
    | ok b =>
      rw [ha] at h
      cases hl : l.mapM f with
      | error e => rw [hl] at h; cases h
      | ok bs =>
        rw [hl] at h
        cases h
        cases i with
        | zero => simp at hy; subst hy; exact ⟨a, rfl, ha⟩
        | succ i => simpa using ih bs hl i y (by simpa using hy)

theorem tokDuration_nonneg (type t : Str) (d : Rat) (h : tokDuration type t = .ok d) (hd : 0 ≤ d) :
    hasRhythm type = true ∧ tokIsNull t = false := by
  have neg : ∀ {e : Rat}, (Except.ok (-1) : Except PyErr Rat) = .ok e → e = d → False := by
    intro e h1 h2
    cases h1
    rw [← h2] at hd
    norm_num at hd
  unfold tokDuration at h
  by_cases h1 : t = ".".toList
  · rw [if_pos h1] at h; exact (neg h rfl).elim
  · rw [if_neg h1] at h
    by_cases h2 : tokIsComment t = true
    · rw [if_pos h2] at h; exact (neg h rfl).elim
    · rw [if_neg h2] at h
      by_cases h3 : tokIsInterpretation t = true
      · rw [if_pos h3] at h; exact (neg h rfl).elim
      · rw [if_neg h3] at h
        by_cases h4 : tokIsBarline t = true
        · rw [if_pos h4] at h; exact (neg h rfl).elim
        · rw [if_neg h4] at h
          by_cases h5 : hasRhythm type = true
          · rw [if_pos h5] at h
            by_cases h6 : (tokIsData t && !tokIsNull t) = true
            · simp at h6; exact ⟨h5, h6.2⟩
            · rw [if_neg h6] at h; exact (neg h rfl).elim
          · rw [if_neg h5] at h; exact (neg h rfl).elim

theorem rfile_dur (lines : List Line) (types : Nat → Nat → Str) (durs : List (List Rat)) (L : Links)
    (hd : allDurations lines types = .ok durs) (x : TokId) (hx : 0 ≤ (rfile lines durs L).dur x) :
    ∃ l t, lines[x.1]? = some l ∧ l.tokens[x.2]? = some t ∧ hasRhythm (types x.1 x.2) = true ∧ tokIsNull t = false := by
  simp only [rfile] at hx
  cases h1 : durs[x.1]? with
  | none => rw [h1] at hx; simp at hx; norm_num at hx
  | some r =>
    rw [h1] at hx
    simp only [Option.bind_some] at hx
    cases h2 : r[x.2]? with
    | none => rw [h2] at hx; norm_num at hx
    | some d =>
      rw [h2] at hx
      simp only [Option.getD_some] at hx
      obtain ⟨p, e1, e2⟩ := mapM_get _ _ _ hd _ _ h1
      obtain ⟨q, e3, e4⟩ := mapM_get _ _ _ e2 _ _ h2
      rw [List.getElem?_zipIdx, Option.map_eq_some_iff] at e1 e3
      obtain ⟨l, e5, rfl⟩ := e1
      obtain ⟨t, e6, rfl⟩ := e3
      obtain ⟨a, b⟩ := tokDuration_nonneg _ _ _ e4 hx
      exact ⟨l, t, e5, e6, by simpa using a, b⟩

theorem spinesLoop_lines (lines : List Line) (hlines : ∀ l ∈ lines, l.hasSpines = false → l.tokens ≠ []) :
    ∀ (li : Nat) (s : Option Spines) (r : List (List Str)) (s' : Option Spines), spinesLoop li lines s = .ok (r, s') →
    ∀ (i : Nat) (d : List Str), r[i]? = some d → ∃ l, lines[i]? = some l ∧ (d ≠ [] → l.hasSpines = true) := by
  induction lines with
  | nil => intro li s r s' h i d hd; simp [spinesLoop] at h; rw [h.1] at hd; simp at hd
  | cons l ls ih =>
    intro li s r s' h i d hd
    have ih' := ih (fun x hx => hlines x (by simp [hx]))
    have fin : ∀ s2 r2 a, spinesLoop (li + 1) ls s2 = .ok (r2, s') → r = a :: r2 → (a ≠ [] → l.hasSpines = true) →
        ∃ l', (l :: ls)[i]? = some l' ∧ (d ≠ [] → l'.hasSpines = true) := by
      intro s2 r2 a h1 h2 h3
      subst h2
      cases i with
      | zero => simp at hd; subst hd; exact ⟨l, rfl, h3⟩
      | succ i => simpa using ih' _ _ _ _ h1 i d (by simpa using hd)
    have hsp : ¬ (l.hasSpines = false ∧ l.tokens ≠ []) → l.hasSpines = true := by
      intro hc
      cases hb : l.hasSpines with
      | true => rfl
      | false => exact absurd ⟨hb, hlines l (by simp) hb⟩ hc
    unfold spinesLoop at h
    by_cases h1 : l.hasSpines = false ∧ l.tokens ≠ []
    · rw [if_pos h1] at h
      cases h2 : spinesLoop (li + 1) ls s with
      | error e => rw [h2] at h; cases h
      | ok q =>
        rw [h2] at h
        cases h
        exact fin _ _ _ h2 rfl (by simp)
    · rw [if_neg h1] at h
      have hl := hsp h1
      cases s with
      | none =>
        simp only at h
        by_cases h3 : l.isExclusive = true
        · rw [if_pos h3] at h
          cases h2 : spinesLoop (li + 1) ls (some (firstSpines li l.tokens)) with
          | error e => rw [h2] at h; cases h
          | ok q => rw [h2] at h; cases h; exact fin _ _ _ h2 rfl (fun _ => hl)
        · rw [if_neg h3] at h; cases h
      | some s =>
        simp only at h
        by_cases h3 : s.types.length ≠ l.tokens.length
        · rw [if_pos h3] at h; cases h
        · rw [if_neg h3] at h
          by_cases h4 : l.isManipulator = true
          · rw [if_pos h4] at h
            cases h5 : adjustSpines li l.tokens s with
            | error e => rw [h5] at h; cases h
            | ok s2 =>
              rw [h5] at h
              simp only at h
              cases h2 : spinesLoop (li + 1) ls (some s2) with
              | error e => rw [h2] at h; cases h
              | ok q => rw [h2] at h; cases h; exact fin _ _ _ h2 rfl (fun _ => hl)
          · rw [if_neg h4] at h
            cases h2 : spinesLoop (li + 1) ls (some s) with
            | error e => rw [h2] at h; cases h
            | ok q => rw [h2] at h; cases h; exact fin _ _ _ h2 rfl (fun _ => hl)

theorem links_forward (lines : List Line) (L : Links) (h : analyzeLinks lines = .ok L) (a b : TokId)
    (hb : b ∈ L.next a) : a.1 < b.1 := by
  obtain ⟨p, q, lk, ⟨pre, post, e⟩, _, c, _, rfl, rfl⟩ := (links_exact lines L h a b).1 hb
  have hp : (spined lines).Pairwise (fun x y => x.1 < y.1) := by
    unfold spined
    rw [List.pairwise_map]
    refine List.Pairwise.filter _ ?_
    have : ∀ (l : List Line) (k : Nat), (l.zipIdx k).Pairwise (fun x y => x.2 < y.2) := by
      intro l
      induction l with
      | nil => intro k; simp
      | cons x xs ih =>
        intro k
        rw [List.zipIdx_cons, List.pairwise_cons]
        refine ⟨?_, ih (k + 1)⟩
        intro y hy
        have := (List.mem_zipIdx hy).1
        simp only; omega
    exact this lines 0
  rw [e] at hp
  have := (List.pairwise_append.1 hp).2.1
  rw [List.pairwise_cons] at this
  exact this.1 q (by simp)

/-- The known times of lines 0, 1, … are in order. -/
theorem known_range (st : Nat → Rat) (h : InOrder st) (n : Nat) : NonDecreasing (known ((List.range n).map st)) := by
  unfold NonDecreasing known
  rw [List.pairwise_filter, List.pairwise_map]
  refine List.Pairwise.imp (R := (· < ·)) ?_ List.pairwise_lt_range
  intro a b hab ha hb
  simp at ha hb
  exact h a b hab ha hb

/-- C61. A file whose spines are rhythmic throughout and begin together, and which has a timing that is consistent
and in order (`Timing`), and whose data lines with rhythmic tokens have a note: the analysis succeeds; the lines with notes get the times of that timing; the
times of all lines are in order (so that they telescope, `times_telescope_partial`) and not negative. -/
theorem file_times (lines : List Line) (hlines : ∀ l ∈ lines, l.hasSpines = false → l.tokens ≠ [])
    (ds : List (List Str)) (sp : Spines) (L : Links) (durs : List (List Rat)) (startLine j : Nat)
    (tracks : List (Option TokId)) (arr : TokId → Rat) (T : Nat → Rat)
    (hsp : analyzeSpines lines = .ok (ds, sp)) (hL : analyzeLinks lines = .ok L)
    (hd : allDurations lines (typeTable lines ds sp.starts) = .ok durs)
    (htr : sp.starts.drop 1 = some (startLine, j) :: tracks)
    (hstart : ∀ t ∈ rhythmicStarts (typeTable lines ds sp.starts) (sp.starts.drop 1), t.1 = startLine)
    (hT : Timing (rfile lines durs L).dur (rfile lines durs L).stop L.next
      (rhythmicStarts (typeTable lines ds sp.starts) (sp.starts.drop 1)) arr T)
    (hmono : ∀ a b, a ≤ b → T a ≤ T b)
    (htype : ∀ x, Reach L.next (rhythmicStarts (typeTable lines ds sp.starts) (sp.starts.drop 1)) x →
      hasRhythm (typeTable lines ds sp.starts x.1 x.2) = true)
    (hdata : ∀ (i : Nat) l, lines[i]? = some l → (lineFacts (typeTable lines ds sp.starts) i l).isData = true →
      (lineFacts (typeTable lines ds sp.starts) i l).allNull = false → l.hasSpines = true →
      ∃ x, Reach L.next (rhythmicStarts (typeTable lines ds sp.starts) (sp.starts.drop 1)) x ∧
        (rfile lines durs L).Timed x ∧ x.1 = i) :
    ∃ R, analyzeRhythm lines = .ok R ∧ R.dur = assignLineDurations R.start ∧ R.start.length = lines.length ∧
      NonDecreasing R.start ∧
      (∀ x, Reach L.next (rhythmicStarts (typeTable lines ds sp.starts) (sp.starts.drop 1)) x →
        (rfile lines durs L).Timed x → R.start[x.1]? = some (T x.1)) := by
  set types := typeTable lines ds sp.starts with htypes
  set starts := rhythmicStarts types (sp.starts.drop 1) with hstarts
  set F := rfile lines durs L with hF
  have hnext : F.next = L.next := rfl
  -- reached tokens are on spined lines of the file
  have hreach : ∀ x, Reach L.next starts x → ∃ l, lines[x.1]? = some l ∧ l.hasSpines = true := by
    intro x hx
    have h1 := htype x hx
    rw [htypes] at h1
    unfold typeTable at h1
    cases h2 : (ds[x.1]?).bind (·[x.2]?) with
    | none => rw [h2] at h1; simp [hasRhythm] at h1
    | some info =>
      rw [Option.bind_eq_some_iff] at h2
      obtain ⟨d, e1, e2⟩ := h2
      unfold analyzeSpines at hsp
      split at hsp
      · rename_i r s hs
        cases hsp
        obtain ⟨l, a, b⟩ := spinesLoop_lines lines hlines 0 none _ _ hs x.1 d e1
        exact ⟨l, a, b (by rintro rfl; simp at e2)⟩
      · cases hsp
      · cases hsp
  have hN : ∀ x, Reach F.next starts x → x.1 < lines.length := by
    intro x hx
    obtain ⟨l, e, _⟩ := hreach x hx
    exact (List.getElem?_eq_some_iff.1 e).1
  obtain ⟨S, hS, hS1, hS2⟩ := rhythm_complete F starts arr T hT lines.length
    (fun a b hb => links_forward lines L hL a b hb) hN
  set facts := lines.zipIdx.map (fun p => lineFacts types p.2 p.1) with hfacts
  have hfl : facts.length = lines.length := by simp [hfacts]
  have hfget : ∀ (m : Nat) f, facts[m]? = some f → ∃ l, lines[m]? = some l ∧ f = lineFacts types m l := by
    intro m f hf
    rw [hfacts, List.getElem?_map, List.getElem?_zipIdx] at hf
    cases e : lines[m]? with
    | none => rw [e] at hf; simp at hf
    | some l => rw [e] at hf; simp at hf; exact ⟨l, rfl, hf.symm⟩
  -- known times
  have hknown : ∀ k, 0 ≤ S.start k → ∃ x, Reach F.next starts x ∧ F.Timed x ∧ x.1 = k := by
    intro k hk
    by_contra hc
    rw [hS2 k hc] at hk; norm_num at hk
  have hord : InOrder S.start := by
    intro a b hab ha hb
    obtain ⟨x, h1, h2, h3⟩ := hknown a ha
    obtain ⟨y, h4, h5, h6⟩ := hknown b hb
    rw [← h3, ← h6, hS1 x h1 h2, hS1 y h4 h5, h3, h6]
    exact hmono a b hab.le
  have hnull : ∀ (m : Nat) f, facts[m]? = some f → (f.hasSpines = false ∨ f.allNull = true) → S.start (0 + m) < 0 := by
    intro m f hf hc
    rw [Nat.zero_add]
    by_contra hneg
    obtain ⟨x, h1, h2, h3⟩ := hknown m (not_lt.1 hneg)
    obtain ⟨l, e1, e2⟩ := hfget m f hf
    obtain ⟨l', e3, e4⟩ := hreach x h1
    rw [h3, e1] at e3
    cases e3
    rw [e2] at hc
    rcases hc with hc | hc
    · simp [lineFacts, e4] at hc
    · have hty := htype x h1
      simp only [lineFacts, Bool.and_eq_true, List.all_eq_true] at hc
      have key : ∀ t, l.tokens[x.2]? = some t → tokIsNull t = true := by
        intro t ht
        have hmem : (t, x.2) ∈ l.tokens.zipIdx := by
          rw [List.mem_iff_getElem?]
          exact ⟨x.2, by rw [List.getElem?_zipIdx, ht]; simp⟩
        have := hc.2 _ hmem
        rw [h3] at hty
        simpa [hty] using this
      rcases h2 with h2 | h2
      · obtain ⟨l'', t, f1, f2, _, f4⟩ := rfile_dur lines types durs L hd x h2
        rw [h3, e1] at f1
        cases f1
        rw [key t f2] at f4; cases f4
      · simp only [hF, rfile, h3, e1, Option.bind_some, beq_iff_eq] at h2
        have := key _ h2
        simp [tokIsNull] at this
  obtain ⟨out, hout⟩ := nullLoop_total facts 0 none [] S.start (by simp) (by
    intro m f hf h1 h2 h3
    obtain ⟨l, e1, e2⟩ := hfget m f hf
    rw [e2] at h1 h2 h3
    obtain ⟨x, a, b, c⟩ := hdata m l e1 h3 h2 h1
    rw [Nat.zero_add, ← c, hS1 x a b]
    exact hT.nonneg _)
  have hout1 : InOrder out := nullLoop_inOrder facts 0 none [] S.start out hout hord hnull (by simp)
  have hkeep : ∀ x, Reach F.next starts x → F.Timed x → out x.1 = T x.1 := by
    intro x h1 h2
    rw [← hS1 x h1 h2]
    refine nullLoop_frame facts 0 none [] S.start out hout x.1 (by simp) ?_
    intro m f hf e
    rw [Nat.zero_add] at e
    by_contra hc
    have hc' : f.nullData = true := by simpa using hc
    simp only [LineFacts.nullData, Bool.and_eq_true] at hc'
    have := hnull m f hf (.inr hc'.1.2)
    rw [Nat.zero_add, e, hS1 x h1 h2] at this
    exact absurd (hT.nonneg x.1) (not_le.2 this)
  have hR : analyzeRhythm lines = finishRhythm facts S.start := by
    unfold analyzeRhythm
    rw [hsp, hL]
    simp only
    rw [← htypes, hd]
    simp only
    rw [htr]
    simp only
    rw [← htr, ← hstarts, ← hF]
    have f1 : starts.filter (fun t => decide (t.1 = startLine)) = starts := by
      rw [List.filter_eq_self]
      intro t ht; simp [hstart t ht]
    have f2 : starts.filter (fun t => decide (t.1 > startLine)) = [] := by
      rw [List.filter_eq_nil_iff]
      intro t ht; simp [hstart t ht]
    rw [f1, f2, hS]
    rfl
  rw [hR]
  unfold finishRhythm
  rw [hout]
  simp only
  refine ⟨_, rfl, rfl, by simp [fillIn_length, hfl], ?_, ?_⟩
  · by_cases hk : known ((List.range facts.length).map out) = []
    · have := fillIn_unknown _ hk
      unfold NonDecreasing
      rw [List.pairwise_iff_getElem]
      intro a b ha hb _
      rw [this _ (List.getElem_mem ha), this _ (List.getElem_mem hb)]
    · exact (fillIn_sorted _ hk (known_range out hout1 _)).1
  · intro x h1 h2
    have hlt : x.1 < facts.length := by rw [hfl]; exact hN x h1
    have hT0 := hT.nonneg x.1
    have hdrop : ((List.range facts.length).map out).drop x.1 = T x.1 :: ((List.range facts.length).map out).drop (x.1 + 1) := by
      rw [List.drop_eq_getElem_cons (by simpa using hlt)]
      simp [hkeep x h1 h2]
    have hkd : known (((List.range facts.length).map out).drop x.1) = T x.1 :: known (((List.range facts.length).map out).drop (x.1 + 1)) := by
      rw [hdrop, known_cons, if_pos hT0]
    have hk : known ((List.range facts.length).map out) ≠ [] := by
      intro hc
      have : T x.1 ∈ known ((List.range facts.length).map out) := by
        rw [mem_known]
        refine ⟨?_, hT0⟩
        exact List.mem_of_mem_drop (i := x.1) (by rw [hdrop]; simp)
      rw [hc] at this; simp at this
    rw [fillIn_spec _ hk x.1 (by simpa using hlt)]
    unfold filled
    rw [hkd]

/-! ### A file that meets the hypotheses, and files whose times are wrong -/

theorem reach_of_closed (next : TokId → List TokId) (starts vs : List TokId) (h1 : ∀ t ∈ starts, t ∈ vs)
    (h2 : ∀ a ∈ vs, ∀ b ∈ next a, b ∈ vs) (x : TokId) (h : Reach next starts x) : x ∈ vs := by
  induction h with
  | start h => exact h1 _ h
  | link _ hb ih => exact h2 _ ih _ hb

def okOr {α : Type} (d : α) : Except PyErr α → α
  | .ok a => a
  | .error _ => d

theorem okOr_eq {α : Type} (d : α) (x : Except PyErr α) (h : x.isOk = true) : x = .ok (okOr d x) := by
  cases x with
  | ok a => rfl
  | error e => cases h

/-- Two spines, quarters against eighths, then a null line. -/
def sampleFile : List Line :=
  fileOf ["**kern\t**kern", "4c\t8c", ".\t8d", "=1\t=1", "4e\t4f", ".\t.", "4r\t4r", "*-\t*-"]

def sampleLinks : Links := okOr ⟨fun _ => [], fun _ => []⟩ (analyzeLinks sampleFile)
def sampleSpines : List (List Str) × Spines := okOr ([], firstSpines 0 []) (analyzeSpines sampleFile)
def sampleTypes : Nat → Nat → Str := typeTable sampleFile sampleSpines.1 sampleSpines.2.starts
def sampleDurs : List (List Rat) := okOr [] (allDurations sampleFile sampleTypes)
def sampleTokens : List TokId := (List.range 8).flatMap (fun i => [(i, 0), (i, 1)])
/-- The times of the lines, and of the tokens. -/
def sampleT (l : Nat) : Rat := ([0, 0, 1/2, 1, 1, 3/2, 2, 3][l]?).getD 3
def sampleArr (t : TokId) : Rat :=
  (([[0, 0], [0, 0], [1, 1/2], [1, 1], [1, 1], [2, 2], [2, 2], [3, 3]][t.1]?).bind (·[t.2]?)).getD 0

theorem sample_times : ∃ R, analyzeRhythm sampleFile = .ok R ∧ NonDecreasing R.start ∧
    R.start[2]? = some (1/2) ∧ R.start[6]? = some 2 := by
  have hstarts : rhythmicStarts sampleTypes (sampleSpines.2.starts.drop 1) = [(0, 0), (0, 1)] := by decide +kernel
  have hclosed : ∀ x, Reach sampleLinks.next (rhythmicStarts sampleTypes (sampleSpines.2.starts.drop 1)) x → x ∈ sampleTokens := by
    refine reach_of_closed _ _ _ ?_ ?_
    · rw [hstarts]; decide +kernel
    · decide +kernel
  have hmono : ∀ a b, a ≤ b → sampleT a ≤ sampleT b := by
    intro a b hab
    have h8 : ∀ k, 8 ≤ k → sampleT k = sampleT 8 := by
      intro k hk
      unfold sampleT
      rw [List.getElem?_eq_none (by simpa using hk)]; rfl
    have hfin : ∀ a b : Fin 9, a ≤ b → sampleT a ≤ sampleT b := by decide +kernel
    have e : ∀ k, sampleT k = sampleT (min k 8) := by
      intro k
      rcases Nat.lt_or_ge k 8 with h | h
      · rw [Nat.min_eq_left (by omega)]
      · rw [Nat.min_eq_right h, h8 k h]
    rw [e a, e b]
    exact hfin ⟨min a 8, by omega⟩ ⟨min b 8, by omega⟩ (by show min a 8 ≤ min b 8; omega)
  have hTim : Timing (rfile sampleFile sampleDurs sampleLinks).dur (rfile sampleFile sampleDurs sampleLinks).stop
      sampleLinks.next (rhythmicStarts sampleTypes (sampleSpines.2.starts.drop 1)) sampleArr sampleT := by
    refine ⟨?_, ?_, ?_, ?_⟩
    · rw [hstarts]; decide +kernel
    · intro a ha
      exact (by decide +kernel : ∀ a ∈ sampleTokens, ∀ b ∈ sampleLinks.next a,
        sampleArr b = sampleArr a + max 0 ((rfile sampleFile sampleDurs sampleLinks).dur a)) a (hclosed a ha)
    · intro t ht
      exact (by decide +kernel : ∀ t ∈ sampleTokens, (0 ≤ (rfile sampleFile sampleDurs sampleLinks).dur t ∨
        (rfile sampleFile sampleDurs sampleLinks).stop t = true) → sampleT t.1 = sampleArr t) t (hclosed t ht)
    · intro l
      exact le_trans (by decide +kernel : (0 : Rat) ≤ sampleT 0) (hmono 0 l (Nat.zero_le l))
  have hreach : ∀ x ∈ sampleTokens, Reach sampleLinks.next (rhythmicStarts sampleTypes (sampleSpines.2.starts.drop 1)) x := by
    have step : ∀ i : Fin 7, ∀ j : Fin 2, ((i.1 + 1, j.1) : TokId) ∈ sampleLinks.next (i.1, j.1) := by decide +kernel
    have : ∀ i, i < 8 → ∀ j : Fin 2, Reach sampleLinks.next (rhythmicStarts sampleTypes (sampleSpines.2.starts.drop 1)) (i, j.1) := by
      intro i
      induction i with
      | zero => intro _ j; refine .start ?_; rw [hstarts]; revert j; decide
      | succ i ih => intro hi j; exact .link (ih (by omega) j) (step ⟨i, by omega⟩ j)
    intro x hx
    simp only [sampleTokens, List.mem_flatMap, List.mem_range] at hx
    obtain ⟨i, hi, hx⟩ := hx
    simp only [List.mem_cons, List.not_mem_nil, or_false] at hx
    rcases hx with rfl | rfl
    · exact this i hi 0
    · exact this i hi 1
  obtain ⟨R, h1, h2, h3, h4, h5⟩ := file_times sampleFile
    (by decide +kernel) sampleSpines.1 sampleSpines.2 sampleLinks sampleDurs 0 0 [some (0, 1)] sampleArr sampleT
    (okOr_eq ([], firstSpines 0 []) _ (by decide +kernel)) (okOr_eq _ _ (by decide +kernel)) (okOr_eq [] _ (by decide +kernel))
    (by decide +kernel) (by show ∀ t ∈ rhythmicStarts sampleTypes _, _; rw [hstarts]; decide +kernel) hTim hmono
    (fun x hx => (by decide +kernel : ∀ x ∈ sampleTokens, hasRhythm (sampleTypes x.1 x.2) = true) x (hclosed x hx))
    (by
      intro i l hl hd hn hs
      have hi : i < 8 := (List.getElem?_eq_some_iff.1 hl).1
      have := (by decide +kernel : ∀ i : Fin 8, ∀ l ∈ sampleFile[i.1]?.toList, (lineFacts sampleTypes i.1 l).isData = true →
        (lineFacts sampleTypes i.1 l).allNull = false →
        ∃ x ∈ sampleTokens, (0 ≤ (rfile sampleFile sampleDurs sampleLinks).dur x ∨
          (rfile sampleFile sampleDurs sampleLinks).stop x = true) ∧ x.1 = i.1) ⟨i, hi⟩ l (by simp [hl]) hd hn
      obtain ⟨x, a, b, c⟩ := this
      exact ⟨x, hreach x a, b, c⟩)
  have t1 := h5 (2, 1) (hreach _ (by decide)) (by left; decide +kernel)
  have t2 := h5 (6, 1) (hreach _ (by decide)) (by left; decide +kernel)
  refine ⟨R, h1, h4, ?_, ?_⟩
  · rw [t1]; decide +kernel
  · rw [t2]; decide +kernel

/-- The same file, computed: the null line gets a time by interpolation, and positions count from the barline. -/
example : (analyzeRhythm sampleFile).toOption.map (fun R => (R.start, R.dur, R.fromBar, R.toBar)) =
    some ([0, 0, 1/2, 1, 1, 3/2, 2, 3], [0, 1/2, 1/2, 0, 1/2, 1/2, 1, 0],
      [0, 0, 1/2, 1, 0, 1/2, 1, 2], [1, 1, 1/2, 2, 2, 3/2, 1, 0]) := by decide +kernel

/-- C19 is false of the code in general: notes whose spines do not agree on the order of their lines are
accepted, and the start times decrease; the durations are then clamped and no longer telescope. -/
theorem times_can_decrease :
    (analyzeRhythm (fileOf ["**kern\t**kern", "4c\t.", ".\t8d", "4e\t.", ".\t8f", "*-\t*-"])).toOption.map
      (fun R => (R.start, R.dur)) = some ([0, 0, 0, 1, 1/2, 2], [0, 0, 1, 0, 3/2, 0]) := by decide +kernel

/-- C60 is false of the code where spines merge: sub-spines of different length are merged without complaint, and
the time after the merge is that of the first. -/
theorem merge_unchecked :
    (analyzeRhythm (fileOf ["**kern", "*^", "4c\t8d", "*v\t*v", "4e", "*-"])).toOption.map (fun R => R.start) =
      some [0, 0, 0, 1, 1, 2] ∧
    (analyzeRhythm (fileOf ["**kern", "*^", "8d\t4c", "*v\t*v", "4e", "*-"])).toOption.map (fun R => R.start) =
      some [0, 0, 0, 1/2, 1/2, 3/2] := by decide +kernel

/-- Spines of different length that do not merge are found only if notes meet on a line; at the end of the file the later end wins. -/
theorem unequal_ends_accepted :
    (analyzeRhythm (fileOf ["**kern\t**kern", "4c\t8d", "*-\t*-"])).toOption.map (fun R => R.start) = some [0, 0, 1] ∧
    (analyzeRhythm (fileOf ["**kern\t**kern", "4c\t8d", "4e\t4f", "*-\t*-"])).toOption = none := by decide +kernel

end C21
