import Verif.Props.LineTimes
import Mathlib.Tactic.Positivity
import Mathlib.Algebra.Order.Field.Basic
/-
C21: the times of lines that have no rhythmic token.
-/
namespace C21

theorem spread_other (a d : Rat) (ns : List Nat) (j : Nat) (st : Nat → Rat) (k : Nat) (hk : k ∉ ns) :
    spread a d j ns st k = st k := by
  induction ns generalizing j st with
  | nil => rfl
  | cons n ns ih =>
    simp only [spread]
    rw [ih _ _ (fun h => hk (by simp [h]))]
    have : k ≠ n := fun h => hk (by simp [h])
    simp [this]

theorem spread_at (a d : Rat) (ns : List Nat) (hnd : ns.Nodup) (j : Nat) (st : Nat → Rat) (m n : Nat)
    (hn : ns[m]? = some n) : spread a d j ns st n = a + d * ((j + m : Nat) : Rat) := by
  induction ns generalizing j st m with
  | nil => simp at hn
  | cons x ns ih =>
    have hnd' := List.nodup_cons.1 hnd
    simp only [spread]
    cases m with
    | zero =>
      simp at hn
      subst hn
      rw [spread_other _ _ _ _ _ _ hnd'.1]
      simp
    | succ m =>
      rw [ih hnd'.2 (j + 1) _ m (by simpa using hn)]
      congr 3
      omega

/-- A null data line. -/
def LineFacts.nullData (l : LineFacts) : Bool := l.hasSpines && l.allNull && l.isData

/-- The step of the loop on one line, when it does not stop with an error. -/
def NullStep (l : LineFacts) (i : Nat) (prev : Option Nat) (nulls : List Nat) (st : Nat → Rat)
    (prev' : Option Nat) (nulls' : List Nat) (st' : Nat → Rat) : Prop :=
  (l.hasSpines = false ∧ prev' = prev ∧ nulls' = nulls ∧ st' = st) ∨
  (l.hasSpines = true ∧
    ∃ p ns, p = (if l.isBarline then none else prev) ∧ ns = (if l.isBarline then [] else nulls) ∧
    ((l.allNull = true ∧ prev' = p ∧ nulls' = (if l.isData then ns ++ [i] else ns) ∧ st' = st) ∨
     (l.allNull = false ∧ st i < 0 ∧ l.isData = false ∧ prev' = p ∧ nulls' = ns ∧ st' = st) ∨
     (l.allNull = false ∧ 0 ≤ st i ∧ prev' = some i ∧ nulls' = [] ∧
       ((p = none ∧ st' = st) ∨ ∃ q, p = some q ∧
         st' = spread (st q) ((st i - st q) / ((ns.length : Rat) + 1)) 1 ns st))))

theorem nullLoop_step (i : Nat) (l : LineFacts) (ls : List LineFacts) (prev : Option Nat) (nulls : List Nat)
    (st out : Nat → Rat) (h : nullLoop i (l :: ls) prev nulls st = .ok out) :
    ∃ prev' nulls' st', NullStep l i prev nulls st prev' nulls' st' ∧ nullLoop (i + 1) ls prev' nulls' st' = .ok out := by
  unfold nullLoop at h
  by_cases h1 : l.hasSpines = false
  · rw [if_pos h1] at h
    exact ⟨prev, nulls, st, .inl ⟨h1, rfl, rfl, rfl⟩, h⟩
  · rw [if_neg h1] at h
    have h1' : l.hasSpines = true := by simpa using h1
    simp only at h
    by_cases h2 : l.allNull = true
    · rw [if_pos h2] at h
      exact ⟨_, _, st, .inr ⟨h1', _, _, rfl, rfl, .inl ⟨h2, rfl, rfl, rfl⟩⟩, h⟩
    · rw [if_neg h2] at h
      have h2' : l.allNull = false := by simpa using h2
      by_cases h3 : st i < 0
      · rw [if_pos h3] at h
        by_cases h4 : l.isData = true
        · rw [if_pos h4] at h; cases h
        · rw [if_neg h4] at h
          have h4' : l.isData = false := by simpa using h4
          exact ⟨_, _, st, .inr ⟨h1', _, _, rfl, rfl, .inr (.inl ⟨h2', h3, h4', rfl, rfl, rfl⟩)⟩, h⟩
      · rw [if_neg h3] at h
        have h3' := not_lt.1 h3
        cases hp : (if l.isBarline then none else prev) with
        | none =>
          rw [hp] at h
          exact ⟨some i, [], st, .inr ⟨h1', _, _, rfl, rfl, .inr (.inr ⟨h2', h3', rfl, rfl, .inl ⟨hp, rfl⟩⟩)⟩, h⟩
        | some q =>
          rw [hp] at h
          exact ⟨some i, [], _, .inr ⟨h1', _, _, rfl, rfl, .inr (.inr ⟨h2', h3', rfl, rfl, .inr ⟨q, hp, rfl⟩⟩)⟩, h⟩

/-- Lines before the loop which are not waiting for a time, and lines ahead which are not null data lines, are
left alone. -/
theorem nullLoop_frame (ls : List LineFacts) : ∀ (i : Nat) (prev : Option Nat) (nulls : List Nat) (st out : Nat → Rat),
    nullLoop i ls prev nulls st = .ok out → ∀ k, k ∉ nulls →
    (∀ m l, ls[m]? = some l → i + m = k → l.nullData = false) → out k = st k := by
  induction ls with
  | nil => intro i prev nulls st out h k _ _; simp [nullLoop] at h; rw [h]
  | cons l ls ih =>
    intro i prev nulls st out h k hk hl
    obtain ⟨prev', nulls', st', hs, h'⟩ := nullLoop_step i l ls prev nulls st out h
    have ahead : ∀ m l', ls[m]? = some l' → i + 1 + m = k → l'.nullData = false := by
      intro m l' hm he
      exact hl (m + 1) l' (by simpa using hm) (by omega)
    have hns : ∀ ns, ns = (if l.isBarline then [] else nulls) → k ∉ ns := by
      intro ns e; subst e; split <;> simp [hk]
    rcases hs with ⟨_, rfl, rfl, rfl⟩ | ⟨h1, p, ns, hp, hn, hc⟩
    · exact ih _ _ _ _ _ h' k hk ahead
    · rcases hc with ⟨a, rfl, rfl, rfl⟩ | ⟨_, _, _, rfl, rfl, rfl⟩ | ⟨_, _, rfl, rfl, ⟨_, rfl⟩ | ⟨q, _, rfl⟩⟩
      · refine ih _ _ _ _ _ h' k ?_ ahead
        by_cases hd : l.isData = true
        · rw [if_pos hd]
          have : k ≠ i := by
            rintro rfl
            have := hl 0 l rfl (by omega)
            simp [LineFacts.nullData, h1, a, hd] at this
          simp [hns ns hn, this]
        · rw [if_neg hd]; exact hns ns hn
      · exact ih _ _ _ _ _ h' k (hns _ hn) ahead
      · exact ih _ _ _ _ _ h' k (by simp) ahead
      · rw [ih _ _ _ _ _ h' k (by simp) ahead, spread_other _ _ _ _ _ _ (hns ns hn)]

/-- Running through a part of the file. -/
theorem nullLoop_prefix (pre : List LineFacts) : ∀ (rest : List LineFacts) (i : Nat) (prev : Option Nat)
    (nulls : List Nat) (st out : Nat → Rat), (∀ n ∈ nulls, n < i) →
    nullLoop i (pre ++ rest) prev nulls st = .ok out →
    ∃ prev' nulls' st', nullLoop (i + pre.length) rest prev' nulls' st' = .ok out ∧
      (∀ n ∈ nulls', n < i + pre.length) ∧ ∀ k, i + pre.length ≤ k → st' k = st k := by
  induction pre with
  | nil => intro rest i prev nulls st out hn h; exact ⟨prev, nulls, st, h, hn, fun _ _ => rfl⟩
  | cons l pre ih =>
    intro rest i prev nulls st out hn h
    obtain ⟨prev', nulls', st', hs, h'⟩ := nullLoop_step i l _ prev nulls st out h
    have hns : ∀ ns, ns = (if l.isBarline then [] else nulls) → ∀ n ∈ ns, n < i := by
      intro ns e; subst e; split
      · simp
      · exact hn
    have main : (∀ n ∈ nulls', n < i + 1) ∧ ∀ k, i < k → st' k = st k := by
      rcases hs with ⟨_, rfl, rfl, rfl⟩ | ⟨h1, p, ns, hp, hnn, hc⟩
      · exact ⟨fun n hx => Nat.lt_succ_of_lt (hn n hx), fun _ _ => rfl⟩
      · have hlt := hns ns hnn
        rcases hc with ⟨a, rfl, rfl, rfl⟩ | ⟨_, _, _, rfl, rfl, rfl⟩ | ⟨_, _, rfl, rfl, ⟨_, rfl⟩ | ⟨q, _, rfl⟩⟩
        · refine ⟨?_, fun _ _ => rfl⟩
          intro n hx
          by_cases hd : l.isData = true
          · rw [if_pos hd] at hx
            rcases List.mem_append.1 hx with hx | hx
            · exact Nat.lt_succ_of_lt (hlt n hx)
            · simp at hx; omega
          · rw [if_neg hd] at hx; exact Nat.lt_succ_of_lt (hlt n hx)
        · exact ⟨fun n hx => Nat.lt_succ_of_lt (hlt n hx), fun _ _ => rfl⟩
        · exact ⟨by simp, fun _ _ => rfl⟩
        · refine ⟨by simp, ?_⟩
          intro k hk
          refine spread_other _ _ _ _ _ _ ?_
          intro hc; have := hlt k hc; omega
    obtain ⟨p2, n2, s2, e1, e2, e3⟩ := ih rest (i + 1) prev' nulls' st' out main.1 h'
    have hlen : i + (l :: pre).length = i + 1 + pre.length := by simp; omega
    refine ⟨p2, n2, s2, by rw [hlen]; exact e1, by rw [hlen]; exact e2, ?_⟩
    intro k hk
    rw [hlen] at hk
    rw [e3 k hk, main.2 k (by omega)]

/-- The numbers of the null data lines of a part of the file starting at line `i`. -/
def nullIdx (i : Nat) : List LineFacts → List Nat
  | [] => []
  | l :: ls => (if l.nullData then [i] else []) ++ nullIdx (i + 1) ls

theorem nullIdx_ge (ls : List LineFacts) (i n : Nat) (h : n ∈ nullIdx i ls) : i ≤ n ∧ n < i + ls.length := by
  induction ls generalizing i with
  | nil => simp [nullIdx] at h
  | cons l ls ih =>
    simp only [nullIdx, List.mem_append] at h
    rcases h with h | h
    · split at h
      · simp at h; simp; omega
      · simp at h
    · have := ih (i + 1) h
      simp; omega

theorem nullIdx_sorted (ls : List LineFacts) (i : Nat) : (nullIdx i ls).Pairwise (· < ·) := by
  induction ls generalizing i with
  | nil => simp [nullIdx]
  | cons l ls ih =>
    simp only [nullIdx]
    rw [List.pairwise_append]
    refine ⟨by split <;> simp, ih (i + 1), ?_⟩
    intro a ha b hb
    have := nullIdx_ge ls (i + 1) b hb
    split at ha
    · simp at ha; omega
    · simp at ha

/-- Running through lines which have neither a time nor a barline only collects the null data lines. -/
theorem nullLoop_mid (mid : List LineFacts) : ∀ (rest : List LineFacts) (i : Nat) (prev : Option Nat)
    (nulls : List Nat) (st out : Nat → Rat),
    (∀ m l, mid[m]? = some l → l.hasSpines = true → l.isBarline = false ∧ (l.allNull = false → st (i + m) < 0)) →
    nullLoop i (mid ++ rest) prev nulls st = .ok out →
    nullLoop (i + mid.length) rest prev (nulls ++ nullIdx i mid) st = .ok out := by
  induction mid with
  | nil => intro rest i prev nulls st out _ h; simpa [nullIdx] using h
  | cons l mid ih =>
    intro rest i prev nulls st out hm h
    obtain ⟨prev', nulls', st', hs, h'⟩ := nullLoop_step i l _ prev nulls st out h
    have hlen : i + (l :: mid).length = i + 1 + mid.length := by simp; omega
    have ahead : ∀ m l', mid[m]? = some l' → l'.hasSpines = true → l'.isBarline = false ∧ (l'.allNull = false → st (i + 1 + m) < 0) := by
      intro m l' e1 e2
      have := hm (m + 1) l' (by simpa using e1) e2
      rw [show i + 1 + m = i + (m + 1) by omega]; exact this
    have h0 : l.hasSpines = true → l.isBarline = false ∧ (l.allNull = false → st i < 0) := by
      intro e; simpa using hm 0 l rfl e
    rw [hlen]
    have fin : ∀ x, nulls' = nulls ++ x → (if l.nullData then [i] else []) = x → prev' = prev → st' = st →
        nullLoop (i + 1 + mid.length) rest prev (nulls ++ nullIdx i (l :: mid)) st = .ok out := by
      intro x a b c d
      subst c d
      have := ih rest (i + 1) prev' nulls' st' out ahead h'
      rw [a, List.append_assoc] at this
      simp only [nullIdx, b]
      exact this
    rcases hs with ⟨h1, c, a, d⟩ | ⟨h1, p, ns, hp, hnn, hc⟩
    · exact fin [] (by simpa using a) (by simp [LineFacts.nullData, h1]) c d
    · obtain ⟨hb, hneg⟩ := h0 h1
      rw [hb] at hp hnn
      simp only [Bool.false_eq_true, if_false] at hp hnn
      subst hp hnn
      rcases hc with ⟨a, c, e, d⟩ | ⟨a1, a2, a3, c, e, d⟩ | ⟨a1, a2, _⟩
      · by_cases hd : l.isData = true
        · rw [if_pos hd] at e
          exact fin [i] e (by simp [LineFacts.nullData, h1, a, hd]) c d
        · rw [if_neg hd] at e
          exact fin [] (by simpa using e) (by simp [LineFacts.nullData, hd]) c d
      · exact fin [] (by simpa using e) (by simp [LineFacts.nullData, a1]) c d
      · exact absurd (hneg a1) (not_lt.2 a2)

/-- C21. Lines `p < q` have a time, no line strictly between them has a time or is a barline, and `q` is no barline
itself. Then the `n` null data lines between them get the times which cut the interval in `n + 1` equal parts,
in order. -/
theorem null_lines_interpolated (pre mid post : List LineFacts) (lp lq : LineFacts) (st out : Nat → Rat)
    (h : nullLoop 0 (pre ++ lp :: (mid ++ lq :: post)) none [] st = .ok out)
    (hp : lp.hasSpines = true ∧ lp.allNull = false ∧ 0 ≤ st pre.length)
    (hq : lq.hasSpines = true ∧ lq.allNull = false ∧ lq.isBarline = false ∧ 0 ≤ st (pre.length + 1 + mid.length))
    (hm : ∀ (m : Nat) l, mid[m]? = some l → l.hasSpines = true →
      l.isBarline = false ∧ (l.allNull = false → st (pre.length + 1 + m) < 0))
    (j n : Nat) (hn : (nullIdx (pre.length + 1) mid)[j]? = some n) :
    out n = st pre.length + (st (pre.length + 1 + mid.length) - st pre.length) *
      (((j : Rat) + 1) / (((nullIdx (pre.length + 1) mid).length : Rat) + 1)) := by
  obtain ⟨prev1, nulls1, st1, h1, hn1, hst1⟩ := nullLoop_prefix pre _ 0 none [] st out (by simp) h
  rw [Nat.zero_add] at h1 hn1 hst1
  obtain ⟨prev2, nulls2, st2, hs2, h2⟩ := nullLoop_step _ lp _ prev1 nulls1 st1 out h1
  have hst1p : st1 pre.length = st pre.length := hst1 _ le_rfl
  have step2 : prev2 = some pre.length ∧ nulls2 = [] ∧ ∀ k, pre.length ≤ k → st2 k = st k := by
    rcases hs2 with ⟨e, _⟩ | ⟨_, p, ns, hpp, hns, hc⟩
    · rw [hp.1] at e; cases e
    · have hlt : ∀ x ∈ ns, x < pre.length := by
        intro x hx; subst hns
        split at hx
        · simp at hx
        · exact hn1 x hx
      rcases hc with ⟨a, _⟩ | ⟨_, a, _⟩ | ⟨_, _, a, b, ⟨_, c⟩ | ⟨q, _, c⟩⟩
      · rw [hp.2.1] at a; cases a
      · rw [hst1p] at a; exact absurd a (not_lt.2 hp.2.2)
      · exact ⟨a, b, fun k hk => by rw [c, hst1 k hk]⟩
      · refine ⟨a, b, fun k hk => ?_⟩
        rw [c, spread_other, hst1 k hk]
        intro hx; have := hlt k hx; omega
  obtain ⟨rfl, rfl, hst2⟩ := step2
  have h3 := nullLoop_mid mid _ (pre.length + 1) (some pre.length) [] st2 out (by
    intro m l e1 e2
    refine ⟨(hm m l e1 e2).1, fun e3 => ?_⟩
    rw [hst2 _ (by omega)]
    exact (hm m l e1 e2).2 e3) h2
  rw [List.nil_append] at h3
  obtain ⟨prev4, nulls4, st4, hs4, h4⟩ := nullLoop_step _ lq _ _ _ st2 out h3
  have step4 : nulls4 = [] ∧ st4 = spread (st2 pre.length) ((st2 (pre.length + 1 + mid.length) - st2 pre.length) /
      (((nullIdx (pre.length + 1) mid).length : Rat) + 1)) 1 (nullIdx (pre.length + 1) mid) st2 := by
    rcases hs4 with ⟨e, _⟩ | ⟨_, p, ns, hpp, hns, hc⟩
    · rw [hq.1] at e; cases e
    · rw [hq.2.2.1] at hpp hns
      simp only [Bool.false_eq_true, if_false] at hpp hns
      subst hpp hns
      rcases hc with ⟨a, _⟩ | ⟨_, a, _⟩ | ⟨_, _, a, b, ⟨c, _⟩ | ⟨q, c, d⟩⟩
      · rw [hq.2.1] at a; cases a
      · rw [hst2 _ (by omega)] at a; exact absurd a (not_lt.2 hq.2.2.2)
      · cases c
      · cases c; exact ⟨b, d⟩
  obtain ⟨rfl, rfl⟩ := step4
  have hb := nullIdx_ge mid (pre.length + 1) n (List.mem_of_getElem? hn)
  rw [nullLoop_frame post _ _ _ _ _ h4 n (by simp) (by intro m l _ e; omega)]
  have hnd : (nullIdx (pre.length + 1) mid).Nodup := (nullIdx_sorted mid _).imp (fun h => Nat.ne_of_lt h)
  rw [spread_at _ _ _ hnd 1 _ j n hn, hst2 _ le_rfl, hst2 _ (by omega)]
  push_cast
  rw [add_comm (1 : Rat)]
  field_simp

/-- C21. These times lie strictly between those of the neighbours, if those differ, and increase. -/
theorem null_lines_between (p q : Rat) (hpq : p < q) (n j : Nat) (hj : j < n) :
    p < p + (q - p) * (((j : Rat) + 1) / ((n : Rat) + 1)) ∧ p + (q - p) * (((j : Rat) + 1) / ((n : Rat) + 1)) < q ∧
    p + (q - p) * (((j : Rat) + 1) / ((n : Rat) + 1)) < p + (q - p) * ((((j + 1 : Nat) : Rat) + 1) / ((n : Rat) + 1)) := by
  have hn : (0 : Rat) < (n : Rat) + 1 := by positivity
  have hj' : (j : Rat) + 1 ≤ (n : Rat) := by exact_mod_cast hj
  have hj0 : (0 : Rat) < (j : Rat) + 1 := by positivity
  have hd : 0 < q - p := by linarith
  have h1 : (0 : Rat) < ((j : Rat) + 1) / ((n : Rat) + 1) := by positivity
  have h2 : ((j : Rat) + 1) / ((n : Rat) + 1) < 1 := by rw [div_lt_one hn]; linarith
  refine ⟨?_, ?_, ?_⟩
  · have := mul_pos hd h1; linarith
  · have := mul_lt_mul_of_pos_left h2 hd; linarith
  · have : ((j : Rat) + 1) / ((n : Rat) + 1) < (((j + 1 : Nat) : Rat) + 1) / ((n : Rat) + 1) := by
      push_cast
      rw [div_lt_div_iff_of_pos_right hn]; linarith
    have := mul_lt_mul_of_pos_left this hd; linarith

/-- C21. Lines which already had a time keep it, when null data lines have none. -/
theorem null_lines_keep (facts : List LineFacts) (st out : Nat → Rat) (h : nullLoop 0 facts none [] st = .ok out)
    (k : Nat) (l : LineFacts) (hl : facts[k]? = some l) (hn : l.nullData = false) : out k = st k := by
  refine nullLoop_frame facts 0 none [] st out h k (by simp) ?_
  intro m l' e1 e2
  rw [Nat.zero_add] at e2
  subst e2
  rw [hl] at e1; cases e1; exact hn

/-- Times known so far are in order. -/
def InOrder (st : Nat → Rat) : Prop := ∀ a b, a < b → 0 ≤ st a → 0 ≤ st b → st a ≤ st b

theorem spread_inOrder (st : Nat → Rat) (p i : Nat) (ns : List Nat) (hst : InOrder st) (hp : 0 ≤ st p) (hi : 0 ≤ st i)
    (hpi : p < i) (hns : ns.Pairwise (· < ·)) (hin : ∀ n ∈ ns, p < n ∧ n < i)
    (hgap : ∀ k, p < k → k < i → st k < 0) :
    InOrder (spread (st p) ((st i - st p) / ((ns.length : Rat) + 1)) 1 ns st) := by
  have hle : st p ≤ st i := hst p i hpi hp hi
  have hnd : ns.Nodup := hns.imp (fun h => Nat.ne_of_lt h)
  set d := (st i - st p) / ((ns.length : Rat) + 1) with hd
  have hpos : (0 : Rat) < (ns.length : Rat) + 1 := by positivity
  have hd0 : 0 ≤ d := div_nonneg (by linarith) hpos.le
  have hdn : d * ((ns.length : Rat) + 1) = st i - st p := by rw [hd]; field_simp
  have val : ∀ m n, ns[m]? = some n → spread (st p) d 1 ns st n = st p + d * ((1 + m : Nat) : Rat) :=
    fun m n e => spread_at _ _ _ hnd 1 _ m n e
  have bnd : ∀ n ∈ ns, st p ≤ spread (st p) d 1 ns st n ∧ spread (st p) d 1 ns st n ≤ st i := by
    intro n hn
    obtain ⟨m, hm⟩ := List.mem_iff_getElem?.1 hn
    have hmlt := (List.getElem?_eq_some_iff.1 hm).1
    rw [val m n hm]
    have h0 : (0 : Rat) ≤ ((1 + m : Nat) : Rat) := by positivity
    have h1 : ((1 + m : Nat) : Rat) ≤ (ns.length : Rat) + 1 := by
      have : 1 + m ≤ ns.length + 1 := by omega
      exact_mod_cast this
    constructor
    · have := mul_nonneg hd0 h0; linarith
    · have := mul_le_mul_of_nonneg_left h1 hd0; linarith
  intro a b hab ha hb
  by_cases hna : a ∈ ns
  · by_cases hnb : b ∈ ns
    · obtain ⟨m, hm⟩ := List.mem_iff_getElem?.1 hna
      obtain ⟨m', hm'⟩ := List.mem_iff_getElem?.1 hnb
      rw [val m a hm, val m' b hm']
      have hmm : m < m' := by
        by_contra hc
        obtain ⟨x1, e1⟩ := List.getElem?_eq_some_iff.1 hm
        obtain ⟨x2, e2⟩ := List.getElem?_eq_some_iff.1 hm'
        rcases Nat.lt_or_ge m' m with hx | hx
        · have := List.pairwise_iff_getElem.1 hns m' m x2 x1 hx
          omega
        · have : m = m' := by omega
          subst this
          omega
      have : ((1 + m : Nat) : Rat) ≤ ((1 + m' : Nat) : Rat) := by
        have : 1 + m ≤ 1 + m' := by omega
        exact_mod_cast this
      have := mul_le_mul_of_nonneg_left this hd0
      linarith
    · rw [spread_other _ _ _ _ _ _ hnb] at hb ⊢
      have hbi : i ≤ b := by
        by_contra hc
        have := hgap b (by have := (hin a hna).1; omega) (by omega)
        linarith
      refine le_trans (bnd a hna).2 ?_
      rcases Nat.lt_or_ge i b with hx | hx
      · exact hst i b hx hi hb
      · have : i = b := by omega
        rw [this]
  · rw [spread_other _ _ _ _ _ _ hna] at ha ⊢
    by_cases hnb : b ∈ ns
    · have hap : a ≤ p := by
        by_contra hc
        have := hgap a (by omega) (by have := (hin b hnb).2; omega)
        linarith
      refine le_trans ?_ (bnd b hnb).1
      rcases Nat.lt_or_ge a p with hx | hx
      · exact hst a p hx ha hp
      · have : a = p := by omega
        rw [this]
    · rw [spread_other _ _ _ _ _ _ hnb] at hb ⊢
      exact hst a b hab ha hb

/-- C19, C21. If the known times are in order, they still are when the null lines have got theirs. `hnull`: lines
with no rhythmic token have no time before. -/
theorem nullLoop_inOrder (ls : List LineFacts) : ∀ (i : Nat) (prev : Option Nat) (nulls : List Nat) (st out : Nat → Rat),
    nullLoop i ls prev nulls st = .ok out → InOrder st →
    (∀ m l, ls[m]? = some l → (l.hasSpines = false ∨ l.allNull = true) → st (i + m) < 0) →
    (∀ p, prev = some p → p < i ∧ 0 ≤ st p ∧ (∀ k, p < k → k < i → st k < 0) ∧ nulls.Pairwise (· < ·) ∧
      ∀ n ∈ nulls, p < n ∧ n < i) → InOrder out := by
  induction ls with
  | nil => intro i prev nulls st out h hst _ _; simp [nullLoop] at h; rw [← h]; exact hst
  | cons l ls ih =>
    intro i prev nulls st out h hst hnull hinv
    obtain ⟨prev', nulls', st', hs, h'⟩ := nullLoop_step i l ls prev nulls st out h
    have ahead : ∀ m l', ls[m]? = some l' → (l'.hasSpines = false ∨ l'.allNull = true) → st (i + 1 + m) < 0 := by
      intro m l' e1 e2
      have := hnull (m + 1) l' (by simpa using e1) e2
      rw [show i + 1 + m = i + (m + 1) by omega]; exact this
    have ext : ∀ p (ns : List Nat), st i < 0 → (∀ q, p = some q → q < i ∧ 0 ≤ st q ∧ (∀ k, q < k → k < i → st k < 0) ∧
        ns.Pairwise (· < ·) ∧ ∀ n ∈ ns, q < n ∧ n < i) → ∀ q, p = some q → q < i + 1 ∧ 0 ≤ st q ∧
        (∀ k, q < k → k < i + 1 → st k < 0) ∧ (ns.Pairwise (· < ·) ∧ ∀ n ∈ ns, q < n ∧ n < i + 1) ∧
        (ns ++ [i]).Pairwise (· < ·) ∧ ∀ n ∈ ns ++ [i], q < n ∧ n < i + 1 := by
      intro p ns hi hq q e
      obtain ⟨a, b, c, d, f⟩ := hq q e
      refine ⟨by omega, b, ?_, ⟨d, fun n hn => by have := f n hn; omega⟩, ?_, ?_⟩
      · intro k h1 h2
        rcases Nat.lt_or_ge k i with hx | hx
        · exact c k h1 hx
        · have : k = i := by omega
          rw [this]; exact hi
      · rw [List.pairwise_append]
        refine ⟨d, by simp, ?_⟩
        intro x hx y hy
        simp at hy; have := f x hx; omega
      · intro n hn
        rcases List.mem_append.1 hn with hn | hn
        · have := f n hn; omega
        · simp at hn; omega
    rcases hs with ⟨h1, rfl, rfl, rfl⟩ | ⟨h1, p, ns, hp, hnn, hc⟩
    · have hi : st' i < 0 := by simpa using hnull 0 l rfl (.inl h1)
      refine ih _ _ _ _ _ h' hst ahead ?_
      intro q e
      obtain ⟨a, b, c, ⟨d, f⟩, _⟩ := ext prev' nulls' hi hinv q e
      exact ⟨a, b, c, d, f⟩
    · have hinv' : ∀ q, p = some q → q < i ∧ 0 ≤ st q ∧ (∀ k, q < k → k < i → st k < 0) ∧
          ns.Pairwise (· < ·) ∧ ∀ n ∈ ns, q < n ∧ n < i := by
        intro q e
        by_cases hb : l.isBarline = true
        · rw [if_pos hb] at hp; rw [hp] at e; cases e
        · rw [if_neg hb] at hp hnn
          subst hp hnn
          exact hinv q e
      rcases hc with ⟨a, rfl, rfl, rfl⟩ | ⟨_, hi, _, rfl, rfl, rfl⟩ | ⟨_, hi, rfl, rfl, ⟨_, rfl⟩ | ⟨q, e, rfl⟩⟩
      · have hi : st' i < 0 := by simpa using hnull 0 l rfl (.inr a)
        refine ih _ _ _ _ _ h' hst ahead ?_
        intro q e
        obtain ⟨a, b, c, ⟨d, f⟩, d', f'⟩ := ext _ ns hi hinv' q e
        by_cases hd : l.isData = true
        · rw [if_pos hd]; exact ⟨a, b, c, d', f'⟩
        · rw [if_neg hd]; exact ⟨a, b, c, d, f⟩
      · refine ih _ _ _ _ _ h' hst ahead ?_
        intro q e
        obtain ⟨a, b, c, ⟨d, f⟩, _⟩ := ext _ _ hi hinv' q e
        exact ⟨a, b, c, d, f⟩
      · refine ih _ _ _ _ _ h' hst ahead ?_
        intro q e
        cases e
        exact ⟨by omega, hi, fun k h1 h2 => by omega, by simp, by simp⟩
      · obtain ⟨a, b, c, d, f⟩ := hinv' q e
        have same : ∀ k, i ≤ k → spread (st q) ((st i - st q) / ((ns.length : Rat) + 1)) 1 ns st k = st k := by
          intro k hk
          refine spread_other _ _ _ _ _ _ ?_
          intro hx; have := f k hx; omega
        refine ih _ _ _ _ _ h' (spread_inOrder st q i ns hst b hi a d f c) ?_ ?_
        · intro m l' e1 e2
          rw [same _ (by omega)]
          exact ahead m l' e1 e2
        · intro q' e'
          cases e'
          rw [same i le_rfl]
          exact ⟨by omega, hi, fun k h1 h2 => by omega, by simp, by simp⟩

end C21
