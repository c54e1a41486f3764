import Verif.Spec.Manip
import Verif.Lemmas.PyNum
import Verif.Lemmas.Tac
import Mathlib.Data.List.Chain
/-
C37: the manipulator lines put between two lines make exactly the spines of the second out of those of the first.
-/
namespace C21

/-! ## Reading a line staff by staff -/

theorem readManip_other (run : Option (Nat × Bool)) (l : Nat) (ls : List Nat) (t : Str) (ts : List Str) (ht : t ≠ "*v".toList) :
    readManip run (l :: ls) (t :: ts) = (endRun run).bind (fun a =>
        (if t = "*".toList then some [l] else if t = "*^".toList then some [l, l] else none).bind (fun c =>
          (readManip none ls ts).map (fun r => a ++ c ++ r))) := by
  rw [readManip.eq_def]; exact if_neg ht

theorem readManip_open (l : Nat) (ls : List Nat) (t : Str) (ts : List Str) (ht : t = "*v".toList) :
    readManip none (l :: ls) (t :: ts) = readManip (some (l, false)) ls ts := by
  rw [readManip.eq_def]; exact if_pos ht

theorem readManip_more (l l' : Nat) (b : Bool) (ls : List Nat) (t : Str) (ts : List Str) (ht : t = "*v".toList) :
    readManip (some (l', b)) (l :: ls) (t :: ts) = if l = l' then readManip (some (l, true)) ls ts else none := by
  rw [readManip.eq_def]; exact if_pos ht

theorem readManip_append (ts1 : List Str) : ∀ run ls1 ls2 ts2, ls1.length = ts1.length →
    (ts1 = [] → run = none ∨ ts2.head? ≠ some "*v".toList) →
    (ts1.getLast? = some "*v".toList → ts2.head? ≠ some "*v".toList) →
    readManip run (ls1 ++ ls2) (ts1 ++ ts2) =
      (readManip run ls1 ts1).bind (fun a => (readManip none ls2 ts2).map (fun r => a ++ r)) := by
  induction ts1 with
  | nil =>
    intro run ls1 ls2 ts2 hl h1 _
    have : ls1 = [] := List.length_eq_zero_iff.1 hl
    subst this
    rcases h1 rfl with h | h
    · subst h
      simp [readManip, endRun]
    · cases ts2 with
      | nil =>
        cases ls2 with
        | nil => cases h : endRun run <;> simp [readManip, h, endRun]
        | cons l ls => cases h : endRun run <;> simp [readManip, h]
      | cons t ts =>
        have ht : t ≠ "*v".toList := fun he => h (by rw [he]; rfl)
        cases ls2 with
        | nil => cases h : endRun run <;> simp [readManip, h]
        | cons l ls =>
          rw [List.nil_append, List.nil_append, readManip_other _ _ _ _ _ ht, readManip_other _ _ _ _ _ ht, readManip]
          cases endRun run with
          | none => rfl
          | some a =>
            simp only [Option.bind_some, endRun]
            generalize (if t = "*".toList then some [l] else if t = "*^".toList then some [l, l] else none) = o
            cases o with
            | none => rfl
            | some c =>
              simp only [Option.bind_some]
              cases readManip none ls ts with
              | none => rfl
              | some r => simp
  | cons t ts1 ih =>
    intro run ls1 ls2 ts2 hl h1 h2
    cases ls1 with
    | nil => cases hl
    | cons l ls1 =>
      have hl' : ls1.length = ts1.length := by simpa using hl
      have h2' : ts1.getLast? = some "*v".toList → ts2.head? ≠ some "*v".toList := by
        intro h
        apply h2
        cases ts1 with
        | nil => cases h
        | cons x xs => rw [List.getLast?_cons_cons]; exact h
      rw [List.cons_append, List.cons_append]
      by_cases ht : t = "*v".toList
      · have h1' : ∀ r : Option (Nat × Bool), ts1 = [] → r = none ∨ ts2.head? ≠ some "*v".toList := by
          intro r he
          subst he
          exact Or.inr (h2 (by rw [ht]; rfl))
        cases run with
        | none =>
          rw [readManip_open _ _ _ _ ht, readManip_open _ _ _ _ ht]
          exact ih _ _ _ _ hl' (h1' _) h2'
        | some p =>
          obtain ⟨l', b⟩ := p
          rw [readManip_more _ _ _ _ _ _ ht, readManip_more _ _ _ _ _ _ ht]
          by_cases hll : l = l'
          · rw [if_pos hll, if_pos hll]
            exact ih _ _ _ _ hl' (h1' _) h2'
          · rw [if_neg hll, if_neg hll]; rfl
      · rw [readManip_other _ _ _ _ _ ht, readManip_other _ _ _ _ _ ht]
        rw [ih none ls1 ls2 ts2 hl' (fun _ => Or.inl rfl) h2']
        cases endRun run with
        | none => rfl
        | some a =>
          simp only [Option.bind_some]
          generalize (if t = "*".toList then some [l] else if t = "*^".toList then some [l, l] else none) = o
          cases o with
          | none => rfl
          | some c =>
            simp only [Option.bind_some]
            cases readManip none ls1 ts1 with
            | none => rfl
            | some r =>
              simp only [Option.bind_some, Option.map_some]
              cases readManip none ls2 ts2 with
              | none => rfl
              | some r' => simp

/-- How many spines a token makes of one. -/
def MTok.weight : MTok → Nat
  | .null => 1
  | .split => 2
  | .splitN n => n
  | .merge => 0

/-- How many spines the tokens make. -/
def weight (ts : List MTok) : Nat := (ts.map MTok.weight).sum

@[simp] theorem weight_nil : weight [] = 0 := rfl
@[simp] theorem weight_cons (t : MTok) (ts : List MTok) : weight (t :: ts) = t.weight + weight ts := by
  simp [weight]
theorem weight_append (a b : List MTok) : weight (a ++ b) = weight a + weight b := by simp [weight]
theorem weight_nulls (n : Nat) : weight (List.replicate n .null) = n := by
  simp [weight, MTok.weight]

/-- Only `*` and `*^`. -/
def Plain (ts : List MTok) : Prop := ∀ t ∈ ts, t = .null ∨ t = .split

/-- The tokens of one staff on a finished line, making `m` spines. -/
def Emit (ts : List MTok) (m : Nat) : Prop :=
  (Plain ts ∧ ts ≠ [] ∧ weight ts = m) ∨
  ∃ a b, 2 ≤ b ∧ ts = List.replicate a .null ++ List.replicate b .merge ∧ m = a + 1

theorem read_plain (k : Nat) (ts : List MTok) (h : Plain ts) :
    readManip none (List.replicate ts.length k) (ts.map MTok.text) = some (List.replicate (weight ts) k) := by
  induction ts with
  | nil => rfl
  | cons t ts ih =>
    have ih := ih (fun x hx => h x (List.mem_cons_of_mem _ hx))
    rcases h t List.mem_cons_self with rfl | rfl
    · rw [List.length_cons, List.replicate_succ, List.map_cons, readManip_other _ _ _ _ _ (by decide), ih]
      simp [endRun, MTok.text, MTok.weight, Nat.add_comm, List.replicate_succ]
    · rw [List.length_cons, List.replicate_succ, List.map_cons, readManip_other _ _ _ _ _ (by decide), ih]
      simp [endRun, MTok.text, MTok.weight, Nat.add_comm, List.replicate_succ]

theorem read_merges (k n : Nat) : ∀ b, (n = 0 → b = true) →
    readManip (some (k, b)) (List.replicate n k) ((List.replicate n MTok.merge).map MTok.text) = some [k] := by
  induction n with
  | zero => intro b hb; rw [hb rfl]; rfl
  | succ n ih =>
    intro b _
    rw [List.replicate_succ, List.replicate_succ, List.map_cons, readManip_more _ _ _ _ _ _ (show MTok.merge.text = _ from rfl), if_pos rfl]
    exact ih true (fun _ => rfl)

theorem Emit.read {ts : List MTok} {m : Nat} (h : Emit ts m) (k : Nat) :
    readManip none (List.replicate ts.length k) (ts.map MTok.text) = some (List.replicate m k) := by
  rcases h with ⟨hp, _, hw⟩ | ⟨a, b, hb, rfl, rfl⟩
  · rw [read_plain k ts hp, hw]
  · have hpl : Plain (List.replicate a .null) := fun t ht => Or.inl (List.eq_of_mem_replicate ht)
    have h1 := read_plain k _ hpl
    rw [weight_nulls, List.length_replicate] at h1
    rw [List.length_append, List.length_replicate, List.length_replicate, List.map_append,
      List.replicate_add, readManip_append _ _ _ _ _ (by simp) (fun _ => Or.inl rfl), h1]
    · have h2 : readManip none (List.replicate b k) ((List.replicate b MTok.merge).map MTok.text) = some [k] := by
        cases b with
        | zero => omega
        | succ b =>
          rw [List.replicate_succ, List.replicate_succ, List.map_cons, readManip_open _ _ _ _ (show MTok.merge.text = _ from rfl)]
          exact read_merges k b false (by omega)
      rw [h2]
      simp [List.replicate_succ']
    · intro h
      exfalso
      rw [List.map_replicate] at h
      have := List.mem_of_getLast? h
      have := List.eq_of_mem_replicate this
      revert this; decide

theorem text_merge {t : MTok} (h : t.text = "*v".toList) : t = .merge := by
  cases t with
  | null => revert h; decide
  | split => revert h; decide
  | splitN n =>
    exfalso
    have h' : "*^".toList ++ natStr n = "*v".toList := h
    have := congrArg (fun l : Str => l[1]?) h'
    simp at this
  | merge => rfl

theorem Emit.ends {ts : List MTok} {m : Nat} (h : Emit ts m) (hh : ts.head? = some .merge) : ts.getLast? = some .merge := by
  rcases h with ⟨hp, _, _⟩ | ⟨a, b, hb, rfl, rfl⟩
  · rcases hp _ (List.mem_of_mem_head? hh) with h | h <;> cases h
  · cases b with
    | zero => omega
    | succ b => rw [List.replicate_succ', ← List.append_assoc]; simp

theorem Emit.ne_nil {ts : List MTok} {m : Nat} (h : Emit ts m) : ts ≠ [] := by
  rcases h with ⟨_, hn, _⟩ | ⟨a, b, hb, rfl, rfl⟩
  · exact hn
  · intro h
    have := congrArg List.length h
    simp at this
    omega

/-- No two neighbouring staves end in `*v`. -/
def NoAdj (m : List MStaff) : Prop := m.IsChain (fun a b => ¬ (a.endsMerge = true ∧ b.endsMerge = true))

theorem endsMerge_iff (x : MStaff) : x.endsMerge = true ↔ x.voices.getLast? = some .merge := by
  simp [MStaff.endsMerge]

theorem read_line (L : List MStaff) (ms : List Nat) (he : List.Forall₂ (fun x m => Emit x.voices m) L ms) (hn : NoAdj L) :
    ∀ k, readManip none (spinesFrom k (L.map (fun x => x.voices.length))) (manipTexts L) = some (spinesFrom k ms) := by
  induction he with
  | nil => intro k; rfl
  | @cons x m L ms hx hL ih =>
    intro k
    have ih := ih (List.IsChain.tail hn) (k + 1)
    show readManip none (List.replicate x.voices.length k ++ spinesFrom (k + 1) (L.map (fun x => x.voices.length)))
      (x.voices.map MTok.text ++ manipTexts L) = some (List.replicate m k ++ spinesFrom (k + 1) ms)
    rw [readManip_append _ _ _ _ _ (by simp) (fun _ => Or.inl rfl), hx.read, ih]
    · rfl
    · intro h1 h2
      have h1' : x.endsMerge = true := by
        rw [endsMerge_iff]
        rw [List.getLast?_map, Option.map_eq_some_iff] at h1
        obtain ⟨t, ht, he⟩ := h1
        rw [ht, text_merge he]
      cases hL with
      | nil => cases h2
      | @cons y m' L' ms' hy hL' =>
        have h2' : y.voices.head? = some .merge := by
          have hne := hy.ne_nil
          cases hyv : y.voices with
          | nil => exact absurd hyv hne
          | cons t ts =>
            have : manipTexts (y :: L') = t.text :: (ts.map MTok.text ++ manipTexts L') := by
              show y.voices.map MTok.text ++ manipTexts L' = _
              rw [hyv]; rfl
            rw [this] at h2
            rw [List.head?_cons] at h2 ⊢
            rw [text_merge (Option.some.inj h2)]
        exact (List.isChain_cons_cons.1 hn).1 ⟨h1', (endsMerge_iff y).2 (hy.ends h2')⟩

/-- Finished lines leading from staves with `start` to staves with `fin` spines. -/
def Steps : List Nat → List (List MStaff) → List Nat → Prop
  | start, [], fin => start = fin
  | start, l :: ls, fin => start = l.map (fun x => x.voices.length) ∧ NoAdj l ∧
      ∃ mid, List.Forall₂ (fun x m => Emit x.voices m) l mid ∧ Steps mid ls fin

theorem Steps.read {ls : List (List MStaff)} : ∀ {start fin}, Steps start ls fin →
    readManips (spinesFrom 0 start) (ls.map manipTexts) = some (spinesFrom 0 fin) := by
  induction ls with
  | nil => intro start fin h; rw [show start = fin from h]; rfl
  | cons l ls ih =>
    intro start fin h
    obtain ⟨rfl, hn, mid, he, hs⟩ := h
    rw [List.map_cons, readManips, read_line l mid he hn 0]
    exact ih hs

theorem Steps.append {ls ls' : List (List MStaff)} : ∀ {a b c}, Steps a ls b → Steps b ls' c → Steps a (ls ++ ls') c := by
  induction ls with
  | nil => intro a b c h h'; rw [show a = b from h]; exact h'
  | cons l ls ih =>
    intro a b c h h'
    obtain ⟨ha, hn, mid, he, hs⟩ := h
    exact ⟨ha, hn, mid, he, ih hs h'⟩

/-! ## The first line -/

/-- The tokens of one staff on the line under work, to make `m` spines in the end. -/
def Work (ts : List MTok) (m : Nat) : Prop :=
  ((∀ t ∈ ts, t = .null ∨ t = .split ∨ ∃ n, 3 ≤ n ∧ t = .splitN n) ∧ ts ≠ [] ∧ weight ts = m) ∨
  ∃ a b, 2 ≤ b ∧ ts = List.replicate a .null ++ List.replicate b .merge ∧ m = a + 1

theorem manipStaff_length (v1 v2 : Nat) (h1 : 1 ≤ v1) (h2 : 1 ≤ v2) : (manipStaff v1 v2).length ≤ v1 ∧ 1 ≤ (manipStaff v1 v2).length := by
  unfold manipStaff
  split
  · simp; omega
  · split
    · split
      · simp; omega
      · split
        · simp; omega
        · simp; omega
    · simp; omega

theorem padVoices_length (s : StaffStep) : (padVoices s.voices1 (manipStaff s.from s.to)).length = s.from := by
  have h := manipStaff_length s.from s.to (by unfold StaffStep.from; omega) (by unfold StaffStep.to; omega)
  rw [padVoices, List.length_append, List.length_replicate]
  unfold StaffStep.from at *
  omega

theorem mem_nulls {t : MTok} {n : Nat} (h : t ∈ List.replicate n MTok.null) : t = .null := List.eq_of_mem_replicate h

theorem pad_work (s : StaffStep) : Work (padVoices s.voices1 (manipStaff s.from s.to)) s.to := by
  have h1 : 1 ≤ s.from := by unfold StaffStep.from; omega
  have h2 : 1 ≤ s.to := by unfold StaffStep.to; omega
  have hv : s.voices1 = s.from ∨ (s.voices1 = 0 ∧ s.from = 1) := by unfold StaffStep.from; omega
  have hlen := padVoices_length s
  have hl := manipStaff_length s.from s.to h1 h2
  have hne : padVoices s.voices1 (manipStaff s.from s.to) ≠ [] := by
    intro h
    rw [h] at hlen
    simp at hlen
    omega
  revert hlen hne
  generalize hp : s.voices1 - (manipStaff s.from s.to).length = pad
  rw [padVoices, hp]
  have hpad : pad = s.from - (manipStaff s.from s.to).length := by omega
  clear hp hv
  intro hlen hne
  revert hlen hne hpad hl
  unfold manipStaff
  by_cases he : s.from = s.to
  · rw [if_pos he]
    intro hl hpad hlen hne
    refine Or.inl ⟨?_, hne, ?_⟩
    · intro t ht
      rcases List.mem_append.1 ht with h | h
      · simp at h; exact Or.inl h
      · exact Or.inl (mem_nulls h)
    · rw [weight_append, weight_nulls, hpad]
      simp [MTok.weight]; omega
  rw [if_neg he]
  by_cases hlt : s.from < s.to
  · rw [if_pos hlt]
    by_cases hd : s.to = 2 * s.from
    · rw [if_pos hd]
      intro hl hpad hlen hne
      refine Or.inl ⟨?_, hne, ?_⟩
      · intro t ht
        rcases List.mem_append.1 ht with h | h
        · exact Or.inr (Or.inl (List.eq_of_mem_replicate h))
        · exact Or.inl (mem_nulls h)
      · rw [weight_append, weight_nulls, hpad]
        simp [weight, MTok.weight]; omega
    · rw [if_neg hd]
      by_cases hg : s.from > 0 ∧ s.to - s.from > 2 * s.from
      · rw [if_pos hg, if_pos (by omega)]
        intro hl hpad hlen hne
        refine Or.inl ⟨?_, hne, ?_⟩
        · intro t ht
          rcases List.mem_append.1 ht with h | h
          · rcases List.mem_append.1 h with h | h
            · exact Or.inr (Or.inl (List.eq_of_mem_replicate h))
            · simp at h; exact Or.inr (Or.inr ⟨_, by omega, h⟩)
          · exact Or.inl (mem_nulls h)
        · rw [weight_append, weight_nulls, hpad, weight_append]
          simp [weight, MTok.weight]; omega
      · rw [if_neg hg]
        intro hl hpad hlen hne
        refine Or.inl ⟨?_, hne, ?_⟩
        · intro t ht
          rcases List.mem_append.1 ht with h | h
          · rcases List.mem_append.1 h with h | h
            · exact Or.inl (mem_nulls h)
            · rw [List.mem_singleton] at h
              split at h
              · exact Or.inr (Or.inr ⟨_, by omega, h⟩)
              · exact Or.inr (Or.inl h)
          · exact Or.inl (mem_nulls h)
        · rw [weight_append, weight_nulls, hpad, weight_append, weight_nulls]
          split
          · simp [MTok.weight]; omega
          · simp [MTok.weight]; omega
  · rw [if_neg hlt]
    intro hl hpad hlen hne
    refine Or.inr ⟨s.from - (s.from - s.to + 1), s.from - s.to + 1, by omega, ?_, by omega⟩
    have : pad = 0 := by
      rw [hpad]; simp; omega
    rw [this]; simp

/-- The line under work has the shapes of `Work` for the targets. -/
def Works (m : List MStaff) (ms : List Nat) : Prop := List.Forall₂ (fun x t => Work x.voices t) m ms

/-- The part of each staff and whether it ends in `*v`. -/
def flags (m : List MStaff) : List (Nat × Bool) := m.map (fun x => (x.part, x.endsMerge))

/-! ## Expansion -/

/-- No `*^` or `*^n`. -/
def NoSplit (ts : List MTok) : Prop := ∀ t ∈ ts, t = .null ∨ t = .merge

theorem expand_noSplit (ts : List MTok) (h : NoSplit ts) :
    expandStaff ts.length ts = (List.replicate ts.length .null, ts) := by
  induction ts with
  | nil => rfl
  | cons t ts ih =>
    have ih := ih (fun x hx => h x (List.mem_cons_of_mem _ hx))
    rcases h t List.mem_cons_self with rfl | rfl
    · rw [List.length_cons, expandStaff, ih]
      · rfl
      · intro n h; cases h
      · intro h; cases h
    · rw [List.length_cons, expandStaff, ih]
      · rfl
      · intro n h; cases h
      · intro h; cases h

/-- `*`, `*^` or `*^n` with `n ≥ 3`. -/
def Grow (ts : List MTok) : Prop := ∀ t ∈ ts, t = .null ∨ t = .split ∨ ∃ n, 3 ≤ n ∧ t = .splitN n

theorem Grow.tail {t : MTok} {ts : List MTok} (h : Grow (t :: ts)) : Grow ts := fun x hx => h x (List.mem_cons_of_mem _ hx)

theorem lessSplit_grow (n : Nat) (hn : 3 ≤ n) : lessSplit n = .split ∨ ∃ k, 3 ≤ k ∧ lessSplit n = .splitN k := by
  unfold lessSplit
  split
  · exact Or.inl rfl
  · exact Or.inr ⟨n - 1, by omega, rfl⟩

theorem lessSplit_weight (n : Nat) (hn : 3 ≤ n) : (lessSplit n).weight + 1 = n := by
  unfold lessSplit
  split
  · show 2 + 1 = n; omega
  · show n - 1 + 1 = n; omega

theorem expand_grow (k : Nat) : ∀ ts : List MTok, Grow ts → k ≤ ts.length →
    Plain (expandStaff k ts).1 ∧ (expandStaff k ts).1.length = k ∧ Grow (expandStaff k ts).2 ∧
    weight (expandStaff k ts).2 = weight ts ∧
    weight (expandStaff k ts).1 + (ts.length - k) = (expandStaff k ts).2.length ∧ ts.length ≤ (expandStaff k ts).2.length := by
  induction k with
  | zero =>
    intro ts h _
    exact ⟨fun t ht => (List.not_mem_nil ht).elim, rfl, h, rfl, by simp [expandStaff], by simp [expandStaff]⟩
  | succ k ih =>
    intro ts h hk
    cases ts with
    | nil => simp at hk
    | cons t ts =>
      have hk' : k ≤ ts.length := by simpa using hk
      rcases h t List.mem_cons_self with rfl | rfl | ⟨n, hn, rfl⟩
      · obtain ⟨h1, h2, h3, h4, h5, h6⟩ := ih ts h.tail hk'
        have he : expandStaff (k + 1) (.null :: ts) = (.null :: (expandStaff k ts).1, .null :: (expandStaff k ts).2) := by
          rw [expandStaff]
          · intro n h; cases h
          · intro h; cases h
        rw [he]
        refine ⟨?_, by simp [h2], ?_, by simp [h4], ?_, by simp [h6]⟩
        · intro t ht
          rcases List.mem_cons.1 ht with rfl | ht
          · exact Or.inl rfl
          · exact h1 t ht
        · intro t ht
          rcases List.mem_cons.1 ht with rfl | ht
          · exact Or.inl rfl
          · exact h3 t ht
        · simp [MTok.weight]; omega
      · have hg : Grow (.null :: ts) := by
          intro t ht
          rcases List.mem_cons.1 ht with rfl | ht
          · exact Or.inl rfl
          · exact h.tail t ht
        obtain ⟨h1, h2, h3, h4, h5, h6⟩ := ih (.null :: ts) hg (by simp; omega)
        have he : expandStaff (k + 1) (.split :: ts) =
          (.split :: (expandStaff k (.null :: ts)).1, .null :: (expandStaff k (.null :: ts)).2) := rfl
        rw [he]
        rw [List.length_cons] at h5 h6
        rw [weight_cons] at h4
        refine ⟨?_, by simp [h2], ?_, ?_, ?_, ?_⟩
        · intro t ht
          rcases List.mem_cons.1 ht with rfl | ht
          · exact Or.inr rfl
          · exact h1 t ht
        · intro t ht
          rcases List.mem_cons.1 ht with rfl | ht
          · exact Or.inl rfl
          · exact h3 t ht
        · simp only [weight_cons, MTok.weight] at h4 ⊢; omega
        · simp only [weight_cons, MTok.weight, List.length_cons] at h5 ⊢; omega
        · simp only [List.length_cons]; omega
      · have hg : Grow (lessSplit n :: ts) := by
          intro t ht
          rcases List.mem_cons.1 ht with rfl | ht
          · exact Or.inr (lessSplit_grow n hn)
          · exact h.tail t ht
        obtain ⟨h1, h2, h3, h4, h5, h6⟩ := ih (lessSplit n :: ts) hg (by simp; omega)
        have he : expandStaff (k + 1) (.splitN n :: ts) =
          (.split :: (expandStaff k (lessSplit n :: ts)).1, .null :: (expandStaff k (lessSplit n :: ts)).2) := rfl
        rw [he]
        have hw := lessSplit_weight n hn
        rw [List.length_cons] at h5 h6
        rw [weight_cons] at h4
        refine ⟨?_, by simp [h2], ?_, ?_, ?_, ?_⟩
        · intro t ht
          rcases List.mem_cons.1 ht with rfl | ht
          · exact Or.inr rfl
          · exact h1 t ht
        · intro t ht
          rcases List.mem_cons.1 ht with rfl | ht
          · exact Or.inl rfl
          · exact h3 t ht
        · rw [weight_cons, weight_cons]; show 1 + _ = n + weight ts; omega
        · rw [weight_cons, List.length_cons, List.length_cons]; show 2 + _ + _ = _ + 1; omega
        · simp only [List.length_cons]; omega

/-- An unfinished split makes the line grow. -/
theorem expand_more (ts : List MTok) (h : Grow ts) (hx : ∃ n, MTok.splitN n ∈ ts) :
    ts.length < (expandStaff ts.length ts).2.length := by
  induction ts with
  | nil => obtain ⟨n, hn⟩ := hx; cases hn
  | cons t ts ih =>
    rcases h t List.mem_cons_self with rfl | rfl | ⟨n, hn, rfl⟩
    · have hx' : ∃ n, MTok.splitN n ∈ ts := by
        obtain ⟨n, hn⟩ := hx
        rcases List.mem_cons.1 hn with h | h
        · cases h
        · exact ⟨n, h⟩
      have := ih h.tail hx'
      have he : expandStaff (ts.length + 1) (.null :: ts) =
          (.null :: (expandStaff ts.length ts).1, .null :: (expandStaff ts.length ts).2) := by
        rw [expandStaff]
        · intro n h; cases h
        · intro h; cases h
      rw [List.length_cons, he]
      simp only [List.length_cons]; omega
    · have hg : Grow (.null :: ts) := by
        intro t ht
        rcases List.mem_cons.1 ht with rfl | ht
        · exact Or.inl rfl
        · exact h.tail t ht
      have := (expand_grow ts.length (.null :: ts) hg (by simp)).2.2.2.2.2
      rw [List.length_cons]
      show _ < (MTok.null :: (expandStaff ts.length (.null :: ts)).2).length
      simp only [List.length_cons] at *; omega
    · have hg : Grow (lessSplit n :: ts) := by
        intro t ht
        rcases List.mem_cons.1 ht with rfl | ht
        · exact Or.inr (lessSplit_grow n hn)
        · exact h.tail t ht
      have := (expand_grow ts.length (lessSplit n :: ts) hg (by simp)).2.2.2.2.2
      rw [List.length_cons]
      show _ < (MTok.null :: (expandStaff ts.length (lessSplit n :: ts)).2).length
      simp only [List.length_cons] at *; omega

theorem noSplit_merges (a b : Nat) : NoSplit (List.replicate a .null ++ List.replicate b .merge) := by
  intro t ht
  rcases List.mem_append.1 ht with h | h
  · exact Or.inl (List.eq_of_mem_replicate h)
  · exact Or.inr (List.eq_of_mem_replicate h)

theorem plain_nulls (n : Nat) : Plain (List.replicate n .null) := fun _ ht => Or.inl (mem_nulls ht)

theorem emit_nulls (n : Nat) (h : n ≠ 0) : Emit (List.replicate n .null) n :=
  Or.inl ⟨plain_nulls n, fun he => h (by simpa using congrArg List.length he), weight_nulls n⟩

theorem endsMerge_merges (p a b : Nat) (hb : 2 ≤ b) :
    (MStaff.mk p (List.replicate a .null ++ List.replicate b .merge)).endsMerge = true := by
  rw [endsMerge_iff]
  cases b with
  | zero => omega
  | succ b => rw [List.replicate_succ', ← List.append_assoc]; simp

theorem endsMerge_grow (p : Nat) (ts : List MTok) (h : Grow ts) : (MStaff.mk p ts).endsMerge = false := by
  rw [Bool.eq_false_iff]
  intro he
  rw [endsMerge_iff] at he
  rcases h _ (List.mem_of_getLast? he) with h | h | ⟨n, _, h⟩ <;> cases h

theorem endsMerge_nulls (p n : Nat) : (MStaff.mk p (List.replicate n .null)).endsMerge = false :=
  endsMerge_grow p _ (fun _ ht => Or.inl (mem_nulls ht))

/-- One round of expansion for one staff. -/
theorem expand_one (p : Nat) (ts : List MTok) (m : Nat) (h : Work ts m) :
    Emit (expandStaff ts.length ts).1 (expandStaff ts.length ts).2.length ∧
    (expandStaff ts.length ts).1.length = ts.length ∧ Work (expandStaff ts.length ts).2 m ∧
    (MStaff.mk p (expandStaff ts.length ts).1).endsMerge = false ∧
    (MStaff.mk p (expandStaff ts.length ts).2).endsMerge = (MStaff.mk p ts).endsMerge ∧
    weight (expandStaff ts.length ts).2 = weight ts ∧ ts.length ≤ (expandStaff ts.length ts).2.length ∧
    ((∃ n, MTok.splitN n ∈ ts) → ts.length < (expandStaff ts.length ts).2.length ∧ (expandStaff ts.length ts).2.length ≤ weight ts) := by
  rcases h with ⟨hg, hne, hw⟩ | ⟨a, b, hb, he, hm⟩
  · obtain ⟨h1, h2, h3, h4, h5, h6⟩ := expand_grow ts.length ts hg (Nat.le_refl _)
    have hpos : ts.length ≠ 0 := fun h => hne (List.length_eq_zero_iff.1 h)
    have hlw : ∀ l : List MTok, Grow l → l.length ≤ weight l := by
      intro l hl
      induction l with
      | nil => simp
      | cons t l ih =>
        have := ih hl.tail
        rcases hl t List.mem_cons_self with rfl | rfl | ⟨n, hn, rfl⟩ <;> simp [MTok.weight] <;> omega
    refine ⟨Or.inl ⟨h1, ?_, by simpa using h5⟩, h2, Or.inl ⟨h3, ?_, h4.trans hw⟩, ?_, ?_, h4, h6, ?_⟩
    · intro he; exact hpos (by rw [← h2, he]; rfl)
    · intro he; rw [he] at h6; exact hpos (Nat.le_zero.1 h6)
    · exact endsMerge_grow p _ (fun t ht => by rcases h1 t ht with h | h <;> simp [h])
    · rw [endsMerge_grow p _ h3, endsMerge_grow p _ hg]
    · intro hx
      exact ⟨expand_more ts hg hx, by rw [← h4]; exact hlw _ h3⟩
  · have hns : NoSplit ts := he ▸ noSplit_merges a b
    rw [expand_noSplit ts hns]
    dsimp only
    have hpos : ts.length ≠ 0 := by rw [he]; simp; omega
    refine ⟨emit_nulls _ hpos, by simp, Or.inr ⟨a, b, hb, he, hm⟩, endsMerge_nulls p _, rfl, rfl, Nat.le_refl _, ?_⟩
    rintro ⟨n, hn⟩
    rcases hns _ hn with h | h <;> cases h

/-- The number of splits left to do. -/
def slack (m : List MStaff) : Nat := (m.map (fun x => weight x.voices - x.voices.length)).sum

theorem hasSplitN_iff (m : List MStaff) : hasSplitN m = true ↔ ∃ x ∈ m, ∃ n, MTok.splitN n ∈ x.voices := by
  unfold hasSplitN
  rw [List.any_eq_true]
  constructor
  · rintro ⟨x, hx, h⟩
    rw [List.any_eq_true] at h
    obtain ⟨t, ht, h⟩ := h
    cases t with
    | splitN n => exact ⟨x, hx, n, ht⟩
    | null => cases h
    | split => cases h
    | merge => cases h
  · rintro ⟨x, hx, n, hn⟩
    exact ⟨x, hx, List.any_eq_true.2 ⟨_, hn, rfl⟩⟩

theorem noAdj_of_none (m : List MStaff) (h : ∀ x ∈ m, x.endsMerge = false) : NoAdj m := by
  induction m with
  | nil => exact List.IsChain.nil
  | cons a m ih =>
    have ih := ih (fun x hx => h x (List.mem_cons_of_mem _ hx))
    cases m with
    | nil => exact List.IsChain.singleton a
    | cons b m =>
      refine List.isChain_cons_cons.2 ⟨?_, ih⟩
      rw [h a List.mem_cons_self]
      simp

theorem expandNew_step (m : List MStaff) (ms : List Nat) (h : Works m ms) :
    Steps (m.map (fun x => x.voices.length)) [expandNew m] ((expandCur m).map (fun x => x.voices.length)) ∧
    Works (expandCur m) ms ∧ flags (expandCur m) = flags m ∧
    (∀ x ∈ expandNew m, x.endsMerge = false) ∧ slack (expandCur m) ≤ slack m ∧
    (hasSplitN m = true → slack (expandCur m) < slack m) := by
  induction h with
  | nil =>
    refine ⟨⟨rfl, List.IsChain.nil, [], List.Forall₂.nil, rfl⟩, List.Forall₂.nil, rfl, fun x hx => (List.not_mem_nil hx).elim, Nat.le_refl _, ?_⟩
    intro h; cases h
  | @cons x t m ms hx hm ih =>
    obtain ⟨⟨h1, h2, mid, h3, h4⟩, h5, h6, h7, h8, h9⟩ := ih
    obtain ⟨e1, e2, e3, e4, e5, e6, e7, e8⟩ := expand_one x.part x.voices t hx
    have hmid : mid = (expandCur m).map (fun x => x.voices.length) := h4
    have hnew : ∀ y ∈ expandNew (x :: m), y.endsMerge = false := by
      intro y hy
      rcases List.mem_cons.1 hy with rfl | hy
      · exact e4
      · exact h7 y hy
    refine ⟨⟨?_, noAdj_of_none _ hnew, (expandCur (x :: m)).map (fun x => x.voices.length), ?_, by rw [Steps]⟩,
      List.Forall₂.cons e3 h5, ?_, hnew, ?_, ?_⟩
    · show _ :: _ = _ :: _
      rw [show (m.map (fun x => x.voices.length)) = (expandNew m).map (fun x => x.voices.length) from h1]
      exact congrArg (fun q => q :: (expandNew m).map (fun x => x.voices.length)) e2.symm
    · exact List.Forall₂.cons e1 (hmid ▸ h3)
    · show (_, _) :: flags (expandCur m) = (_, _) :: flags m
      rw [h6]; exact congrArg (fun b => (x.part, b) :: flags m) e5
    · show (weight _ - _) + slack (expandCur m) ≤ (weight x.voices - x.voices.length) + slack m
      dsimp only
      omega
    · intro hs
      show (weight _ - _) + slack (expandCur m) < (weight x.voices - x.voices.length) + slack m
      dsimp only
      rw [hasSplitN_iff] at hs
      obtain ⟨y, hy, hn⟩ := hs
      rcases List.mem_cons.1 hy with rfl | hy
      · obtain ⟨q1, q2⟩ := e8 hn
        omega
      · have := h9 ((hasSplitN_iff m).2 ⟨y, hy, hn⟩)
        omega

theorem works_final (m : List MStaff) (ms : List Nat) (h : Works m ms) (hs : hasSplitN m = false) :
    List.Forall₂ (fun x t => Emit x.voices t) m ms := by
  induction h with
  | nil => exact List.Forall₂.nil
  | @cons x t m ms hx hm ih =>
    have hs' : ¬ ∃ y ∈ x :: m, ∃ n, MTok.splitN n ∈ y.voices := fun hh => by
      rw [← hasSplitN_iff, hs] at hh; cases hh
    refine List.Forall₂.cons ?_ (ih ?_)
    · rcases hx with ⟨hg, hne, hw⟩ | h
      · refine Or.inl ⟨?_, hne, hw⟩
        intro t ht
        rcases hg t ht with h | h | ⟨n, _, h⟩
        · exact Or.inl h
        · exact Or.inr h
        · exact (hs' ⟨x, List.mem_cons_self, n, h ▸ ht⟩).elim
      · exact Or.inr h
    · rw [Bool.eq_false_iff]
      intro h
      rw [hasSplitN_iff] at h
      obtain ⟨y, hy, hn⟩ := h
      exact hs' ⟨y, List.mem_cons_of_mem _ hy, hn⟩

theorem expandLoop_ok (ms : List Nat) : ∀ f (m : List MStaff), Works m ms → slack m < f →
    ∃ es c, expandLoop f m = some (es, c) ∧ Steps (m.map (fun x => x.voices.length)) es (c.map (fun x => x.voices.length)) ∧
      List.Forall₂ (fun x t => Emit x.voices t) c ms ∧ flags c = flags m ∧
      (∀ e ∈ es, ∀ x ∈ e, x.endsMerge = false) ∧ es.length ≤ slack m := by
  intro f
  induction f with
  | zero => intro m _ h; omega
  | succ f ih =>
    intro m hm hf
    cases hs : hasSplitN m with
    | false =>
      exact ⟨[], m, by rw [expandLoop, hs]; rfl, rfl, works_final m ms hm hs, rfl, by simp, Nat.zero_le _⟩
    | true =>
      obtain ⟨h1, h2, h3, h4, h5, h6⟩ := expandNew_step m ms hm
      obtain ⟨es, c, e1, e2, e3, e4, e5, e6⟩ := ih (expandCur m) h2 (by have := h6 hs; omega)
      refine ⟨expandNew m :: es, c, by rw [expandLoop, hs, if_pos rfl, e1]; rfl, ?_, e3, e4.trans h3, ?_, by have := h6 hs; simp only [List.length_cons]; omega⟩
      · exact Steps.append h1 e2
      · intro e he
        rcases List.mem_cons.1 he with rfl | he
        · exact h4
        · exact e5 e he

/-! ## Contraction -/

theorem contract_none_iff (m : List MStaff) : contract m = none ↔ NoAdj m := by
  induction m with
  | nil => exact ⟨fun _ => List.IsChain.nil, fun _ => rfl⟩
  | cons a m ih =>
    cases m with
    | nil => exact ⟨fun _ => List.IsChain.singleton a, fun _ => rfl⟩
    | cons b m =>
      rw [contract, NoAdj, List.isChain_cons_cons]
      by_cases h : (a.endsMerge && b.endsMerge) = true
      · rw [if_pos h]
        rw [Bool.and_eq_true] at h
        exact Iff.intro (fun h' => by cases h') (fun h' => absurd h h'.1)
      · rw [if_neg h]
        rw [Bool.and_eq_true] at h
        rw [Option.map_eq_none_iff, ih]
        exact ⟨fun h' => ⟨h, h'⟩, fun h' => h'.2⟩

/-- On the flags: below the part of two neighbouring staves ending in `*v` there are no two such. -/
def SafeF : List (Nat × Bool) → Prop
  | a :: b :: rest =>
    (a.2 = true → b.2 = true → rest.IsChain (fun c d => ¬ (c.1 ≠ b.1 ∧ d.1 ≠ b.1 ∧ c.2 = true ∧ d.2 = true))) ∧
      SafeF (b :: rest)
  | _ => True

/-- Below the part of two neighbouring staves ending in `*v` there is no `*^`. -/
def LowClear : List MStaff → Prop
  | a :: b :: rest =>
    (a.endsMerge = true → b.endsMerge = true → ∀ c ∈ rest, c.part ≠ b.part → MTok.split ∉ c.voices) ∧ LowClear (b :: rest)
  | _ => True

/-- The number of staves ending in `*v`. -/
def nMerge (m : List MStaff) : Nat := (m.filter (·.endsMerge)).length

theorem chain_of_part (p : Nat) (l : List (Nat × Bool)) (hl : ∀ x ∈ l, x.1 ≠ p → x.2 = false) :
    l.IsChain (fun c d => ¬ (c.1 ≠ p ∧ d.1 ≠ p ∧ c.2 = true ∧ d.2 = true)) := by
  induction l with
  | nil => exact List.IsChain.nil
  | cons c l ih =>
    have ih := ih (fun x hx => hl x (List.mem_cons_of_mem _ hx))
    cases l with
    | nil => exact List.IsChain.singleton c
    | cons d l =>
      refine List.isChain_cons_cons.2 ⟨?_, ih⟩
      rintro ⟨h1, _, h3, _⟩
      rw [hl c List.mem_cons_self h1] at h3
      cases h3

theorem safeF_of_part (p : Nat) (l : List (Nat × Bool)) (h : ∀ x ∈ l, x.1 ≠ p → x.2 = false) : SafeF l := by
  induction l with
  | nil => trivial
  | cons a l ih =>
    have ih := ih (fun x hx => h x (List.mem_cons_of_mem _ hx))
    cases l with
    | nil => trivial
    | cons b l =>
      refine ⟨?_, ih⟩
      intro ha hb
      have hbp : b.1 = p := by
        by_contra hne
        rw [h b (List.mem_cons_of_mem _ List.mem_cons_self) hne] at hb
        cases hb
      have hl : ∀ x ∈ l, x.1 ≠ b.1 → x.2 = false := fun x hx hne =>
        h x (List.mem_cons_of_mem _ (List.mem_cons_of_mem _ hx)) (hbp ▸ hne)
      exact chain_of_part b.1 l hl

theorem lowClear_of_part (p : Nat) (l : List MStaff)
    (h : ∀ x ∈ l, x.part ≠ p → x.endsMerge = false ∧ MTok.split ∉ x.voices) : LowClear l := by
  induction l with
  | nil => trivial
  | cons a l ih =>
    have ih := ih (fun x hx => h x (List.mem_cons_of_mem _ hx))
    cases l with
    | nil => trivial
    | cons b l =>
      refine ⟨?_, ih⟩
      intro ha hb c hc hcp
      have hbp : b.part = p := by
        by_contra hne
        rw [(h b (List.mem_cons_of_mem _ List.mem_cons_self) hne).1] at hb
        cases hb
      exact (h c (List.mem_cons_of_mem _ (List.mem_cons_of_mem _ hc)) (hbp ▸ hcp)).2

theorem splitFix_noSplit (ps : List MTok) : ∀ cs, MTok.split ∉ ps → splitFix ps cs = cs := by
  induction ps with
  | nil => intro cs _; cases cs <;> rfl
  | cons t ps ih =>
    intro cs h
    have h1 : t ≠ .split := fun he => h (he ▸ List.mem_cons_self)
    have h2 : MTok.split ∉ ps := fun he => h (List.mem_cons_of_mem _ he)
    cases t with
    | split => exact absurd rfl h1
    | null => cases cs <;> simp [splitFix, ih _ h2]
    | splitN n => cases cs <;> simp [splitFix, ih _ h2]
    | merge => cases cs <;> simp [splitFix, ih _ h2]

theorem splitFix_plain (ts : List MTok) (h : Plain ts) :
    splitFix ts (List.replicate ts.length .null) = List.replicate (weight ts) .null := by
  induction ts with
  | nil => rfl
  | cons t ts ih =>
    have ih := ih (fun x hx => h x (List.mem_cons_of_mem _ hx))
    rcases h t List.mem_cons_self with rfl | rfl
    · rw [List.length_cons, List.replicate_succ, splitFix, ih, weight_cons]
      · show _ = List.replicate (1 + weight ts) MTok.null
        rw [Nat.add_comm, List.replicate_succ]
      · intro h; cases h
    · rw [List.length_cons, List.replicate_succ, splitFix, ih, weight_cons]
      show _ = List.replicate (2 + weight ts) MTok.null
      rw [Nat.add_comm, List.replicate_succ, List.replicate_succ]

theorem split_not_nulls (n : Nat) : MTok.split ∉ List.replicate n MTok.null := by
  intro h
  cases mem_nulls h

theorem filter_merge_plain (ts : List MTok) (h : Plain ts) : ts.filter (· = .merge) = [] := by
  rw [List.filter_eq_nil_iff]
  intro t ht
  rcases h t ht with rfl | rfl <;> decide

theorem Emit.pos {ts : List MTok} {m : Nat} (h : Emit ts m) : 1 ≤ m := by
  rcases h with ⟨hp, hne, hw⟩ | ⟨a, b, hb, rfl, rfl⟩
  · cases ts with
    | nil => exact absurd rfl hne
    | cons t ts =>
      rw [weight_cons] at hw
      rcases hp t List.mem_cons_self with rfl | rfl
      · have : 1 + weight ts = m := hw
        omega
      · have : 2 + weight ts = m := hw
        omega
  · omega

/-- The current line of a staff of another part, after the repair, has the spines made by the new line. -/
theorem other_fixed {ts : List MTok} {m : Nat} (h : Emit ts m) :
    splitFix ts (otherOld ts) = List.replicate m .null ∧ (MTok.split ∉ ts → otherOld ts = List.replicate m .null) := by
  have key : splitFix ts (otherOld ts) = List.replicate m .null := by
    rcases h with ⟨hp, hne, hw⟩ | ⟨a, b, hb, rfl, rfl⟩
    · rw [otherOld, filter_merge_plain ts hp]
      rw [show ts.length - (([] : List MTok).length - 1) = ts.length by simp, splitFix_plain ts hp, hw]
    · rw [splitFix_noSplit]
      · rw [otherOld, List.filter_append]
        have h1 : (List.replicate a MTok.null).filter (· = .merge) = [] := filter_merge_plain _ (plain_nulls a)
        have h2 : (List.replicate b MTok.merge).filter (· = .merge) = List.replicate b .merge := by
          rw [List.filter_eq_self]
          intro t ht
          rw [List.eq_of_mem_replicate ht]
          rfl
        rw [h1, h2]
        congr 1
        simp; omega
      · intro hs
        rcases noSplit_merges a b _ hs with h | h <;> cases h
  exact ⟨key, fun hs => by rw [← splitFix_noSplit ts (otherOld ts) hs]; exact key⟩

/-- The current line of a staff after the repair. -/
def fixedOld (p : Nat) (x : MStaff) : MStaff := ⟨x.part, splitFix (restNew p x).voices (restOld p x).voices⟩

theorem rest_facts (p : Nat) (x : MStaff) (t : Nat) (h : Emit x.voices t) :
    (restNew p x).voices.length = x.voices.length ∧ Emit (restNew p x).voices (fixedOld p x).voices.length ∧
    Emit (fixedOld p x).voices t ∧ ((fixedOld p x).endsMerge = true → x.endsMerge = true) ∧
    (x.part ≠ p → (fixedOld p x).endsMerge = false ∧ MTok.split ∉ (fixedOld p x).voices) ∧
    ((restNew p x).endsMerge = true → x.part ≠ p ∧ x.endsMerge = true) ∧
    ((x.part ≠ p → MTok.split ∉ x.voices) → fixedOld p x = restOld p x) := by
  have hlen : x.voices.length ≠ 0 := fun h' => h.ne_nil (List.length_eq_zero_iff.1 h')
  by_cases hp : x.part = p
  · have h1 : restNew p x = ⟨x.part, nulls x.voices⟩ := by rw [restNew, if_pos hp]
    have h2 : restOld p x = x := by rw [restOld, if_pos hp]
    have h3 : fixedOld p x = x := by
      rw [fixedOld, h1, h2, nulls, splitFix_noSplit _ _ (split_not_nulls _)]
    rw [h3, h2, h1]
    refine ⟨by simp [nulls], emit_nulls _ hlen, h, id, fun h' => absurd hp h', ?_, fun _ => rfl⟩
    intro h'
    rw [nulls, endsMerge_nulls] at h'
    cases h'
  · have h1 : restNew p x = x := by rw [restNew, if_neg hp]
    have h2 : restOld p x = ⟨x.part, otherOld x.voices⟩ := by rw [restOld, if_neg hp]
    have h3 : fixedOld p x = ⟨x.part, List.replicate t .null⟩ := by
      rw [fixedOld, h1, h2, (other_fixed h).1]
    have hpos := h.pos
    rw [h3, h2, h1]
    refine ⟨rfl, by simpa using h, emit_nulls _ (by omega), ?_, fun _ => ⟨endsMerge_nulls _ _, split_not_nulls _⟩,
      fun h' => ⟨hp, h'⟩, ?_⟩
    · intro h'
      rw [endsMerge_nulls] at h'
      cases h'
    · intro h'
      rw [(other_fixed h).2 (h' hp)]

theorem mergeMark_nulls (a : Nat) (ts : List MTok) :
    mergeMark false (List.replicate a .null ++ ts) = List.replicate a (some .null) ++ mergeMark false ts := by
  induction a with
  | zero => rfl
  | succ a ih =>
    rw [List.replicate_succ, List.cons_append, mergeMark, ih]
    · rfl
    · intro h; cases h

theorem mergeMark_true (b : Nat) : mergeMark true (List.replicate b .merge) = List.replicate b none := by
  induction b with
  | zero => rfl
  | succ b ih => rw [List.replicate_succ, mergeMark, ih]; rfl

theorem mergeOld_merges (a b : Nat) (hb : 1 ≤ b) :
    mergeOld (List.replicate a .null ++ List.replicate b .merge) = List.replicate (a + 1) .null := by
  obtain ⟨b, rfl⟩ : ∃ c, b = c + 1 := ⟨b - 1, by omega⟩
  have h : mergeMark false (List.replicate a .null ++ List.replicate (b + 1) .merge) =
      List.replicate (a + 1) (some MTok.null) ++ List.replicate b none := by
    rw [mergeMark_nulls, List.replicate_succ, mergeMark, mergeMark_true]
    simp [List.replicate_succ']
  have hf : ((List.replicate (a + 1) (some MTok.null) ++ List.replicate b none).filter (fun o : Option MTok => o.isNone)).length = b := by
    rw [List.filter_append, List.length_append]
    simp
  unfold mergeOld
  rw [h, hf]
  rw [List.take_append_of_le_length (by simp)]
  simp

theorem mergeNew_merges (a b : Nat) :
    mergeNew (List.replicate a .null ++ List.replicate b .merge) = List.replicate a .null ++ List.replicate b .merge := by
  simp [mergeNew]

theorem Emit.shape {p m : Nat} {ts : List MTok} (h : Emit ts m) (he : (MStaff.mk p ts).endsMerge = true) :
    ∃ a b, 2 ≤ b ∧ ts = List.replicate a .null ++ List.replicate b .merge ∧ m = a + 1 := by
  rcases h with ⟨hp, _, _⟩ | h
  · rw [endsMerge_grow p ts (fun t ht => by rcases hp t ht with h | h <;> simp [h])] at he
    cases he
  · exact h

/-- What is kept by one contraction. -/
structure Contracted (S N C C1 : List MStaff) (ms : List Nat) : Prop where
  noAdj : NoAdj N
  lengths : N.map (fun x => x.voices.length) = S.map (fun x => x.voices.length)
  emit : List.Forall₂ (fun x t => Emit x.voices t) N (C1.map (fun x => x.voices.length))
  targets : List.Forall₂ (fun x t => Emit x.voices t) C1 ms
  heads : List.Forall₂ (fun s c : MStaff => c.part = s.part ∧ (c.endsMerge = true → s.endsMerge = true)) S C1
  safe : SafeF (flags C1)
  low : LowClear C1
  fewer : nMerge C1 < nMerge S
  same : LowClear S → C1 = C

/-- The staves after the pair. -/
theorem rest_all (p : Nat) (rest : List MStaff) (ms : List Nat) (h : List.Forall₂ (fun x t => Emit x.voices t) rest ms) :
    simpleExpansion (rest.map (restNew p)) (rest.map (restOld p)) = rest.map (fixedOld p) ∧
    (rest.map (restNew p)).map (fun x => x.voices.length) = rest.map (fun x => x.voices.length) ∧
    List.Forall₂ (fun x t => Emit x.voices t) (rest.map (restNew p)) ((rest.map (fixedOld p)).map (fun x => x.voices.length)) ∧
    List.Forall₂ (fun x t => Emit x.voices t) (rest.map (fixedOld p)) ms ∧
    List.Forall₂ (fun s c : MStaff => c.part = s.part ∧ (c.endsMerge = true → s.endsMerge = true)) rest (rest.map (fixedOld p)) ∧
    nMerge (rest.map (fixedOld p)) ≤ nMerge rest ∧
    (∀ x ∈ rest.map (fixedOld p), x.part ≠ p → x.endsMerge = false ∧ MTok.split ∉ x.voices) ∧
    ((∀ x ∈ rest, x.part ≠ p → MTok.split ∉ x.voices) → rest.map (fixedOld p) = rest.map (restOld p)) := by
  induction h with
  | nil => exact ⟨rfl, rfl, .nil, .nil, .nil, Nat.le_refl _, fun x hx => (List.not_mem_nil hx).elim, fun _ => rfl⟩
  | @cons x t rest ms hx hrest ih =>
    obtain ⟨i1, i2, i3, i4, i5, i6, i7, i8⟩ := ih
    obtain ⟨f1, f2, f3, f4, f5, f6, f7⟩ := rest_facts p x t hx
    refine ⟨?_, ?_, .cons f2 i3, .cons f3 i4, .cons ⟨rfl, f4⟩ i5, ?_, ?_, ?_⟩
    · show _ :: simpleExpansion (rest.map (restNew p)) (rest.map (restOld p)) = _
      rw [i1]; rfl
    · rw [List.map_cons, List.map_cons, List.map_cons, i2, f1]
    · unfold nMerge at *
      rw [List.map_cons, List.filter_cons, List.filter_cons]
      cases hb : (fixedOld p x).endsMerge with
      | true => rw [if_pos rfl, if_pos (f4 hb)]; simp only [List.length_cons]; omega
      | false =>
        rw [if_neg (by simp)]
        split
        · simp only [List.length_cons]; omega
        · exact i6
    · intro y hy hyp
      rcases List.mem_cons.1 hy with rfl | hy
      · exact f5 hyp
      · exact i7 y hy hyp
    · intro hall
      rw [List.map_cons, List.map_cons, f7 (hall x List.mem_cons_self), i8 (fun y hy => hall y (List.mem_cons_of_mem _ hy))]

theorem flags_mem {m : List MStaff} {y : Nat × Bool} (h : y ∈ flags m) : ∃ x ∈ m, y = (x.part, x.endsMerge) := by
  obtain ⟨x, hx, he⟩ := List.mem_map.1 h
  exact ⟨x, hx, he.symm⟩

theorem rest_noAdj (p : Nat) (rest : List MStaff) (ms : List Nat) (h : List.Forall₂ (fun x t => Emit x.voices t) rest ms)
    (hs : (flags rest).IsChain (fun c d => ¬ (c.1 ≠ p ∧ d.1 ≠ p ∧ c.2 = true ∧ d.2 = true))) : NoAdj (rest.map (restNew p)) := by
  induction h with
  | nil => exact List.IsChain.nil
  | @cons x t rest ms hx hrest ih =>
    cases hrest with
    | nil => exact List.IsChain.singleton _
    | @cons y t' rest' ms' hy hr =>
      have hs' := List.isChain_cons_cons.1 hs
      refine List.isChain_cons_cons.2 ⟨?_, ih hs'.2⟩
      rintro ⟨h1, h2⟩
      have a1 := (rest_facts p x t hx).2.2.2.2.2.1 h1
      have a2 := (rest_facts p y t' hy).2.2.2.2.2.1 h2
      exact hs'.1 ⟨a1.1, a2.1, a1.2, a2.2⟩

theorem contract_pair (a b : MStaff) (rest : List MStaff) (ta tb : Nat) (ms : List Nat) (ha : Emit a.voices ta) (hb : Emit b.voices tb)
    (hr : List.Forall₂ (fun x t => Emit x.voices t) rest ms) (hea : a.endsMerge = true) (heb : b.endsMerge = true)
    (hs : SafeF (flags (a :: b :: rest))) :
    Contracted (a :: b :: rest) (⟨a.part, mergeNew a.voices⟩ :: ⟨b.part, nulls b.voices⟩ :: rest.map (restNew b.part))
      (⟨a.part, mergeOld a.voices⟩ :: b :: rest.map (restOld b.part))
      (simpleExpansion (⟨a.part, mergeNew a.voices⟩ :: ⟨b.part, nulls b.voices⟩ :: rest.map (restNew b.part))
        (⟨a.part, mergeOld a.voices⟩ :: b :: rest.map (restOld b.part))) (ta :: tb :: ms) := by
  obtain ⟨i1, i2, i3, i4, i5, i6, i7, i8⟩ := rest_all b.part rest ms hr
  obtain ⟨n, q, hq, hav, hta⟩ := ha.shape hea
  have hnew : mergeNew a.voices = a.voices := by rw [hav, mergeNew_merges]
  have hold : mergeOld a.voices = List.replicate ta .null := by rw [hav, mergeOld_merges n q (by omega), hta]
  have hns : MTok.split ∉ a.voices := by
    rw [hav]; intro h
    rcases noSplit_merges n q _ h with h | h <;> cases h
  have hC1 : simpleExpansion (⟨a.part, mergeNew a.voices⟩ :: ⟨b.part, nulls b.voices⟩ :: rest.map (restNew b.part))
        (⟨a.part, mergeOld a.voices⟩ :: b :: rest.map (restOld b.part)) =
        ⟨a.part, List.replicate ta .null⟩ :: b :: rest.map (fixedOld b.part) := by
    show ⟨a.part, splitFix (mergeNew a.voices) (mergeOld a.voices)⟩ :: ⟨b.part, splitFix (nulls b.voices) b.voices⟩ ::
      simpleExpansion (rest.map (restNew b.part)) (rest.map (restOld b.part)) = _
    rw [i1, hnew, hold, splitFix_noSplit _ _ hns, nulls, splitFix_noSplit _ _ (split_not_nulls _)]
  rw [hC1, hnew]
  have hblen : b.voices.length ≠ 0 := fun h' => hb.ne_nil (List.length_eq_zero_iff.1 h')
  have hpos := ha.pos
  refine ⟨?_, ?_, ?_, ?_, ?_, ?_, ?_, ?_, ?_⟩
  · have hch := rest_noAdj b.part rest ms hr (hs.1 hea heb)
    have hb0 : (MStaff.mk b.part (nulls b.voices)).endsMerge = false := endsMerge_nulls _ _
    refine List.isChain_cons_cons.2 ⟨by rw [hb0]; simp, ?_⟩
    cases hrc : rest.map (restNew b.part) with
    | nil => exact List.IsChain.singleton _
    | cons y ys =>
      rw [hrc] at hch
      exact List.isChain_cons_cons.2 ⟨by rw [hb0]; simp, hch⟩
  · rw [List.map_cons, List.map_cons, List.map_cons, List.map_cons, i2]
    simp [nulls]
  · refine .cons ?_ (.cons (emit_nulls _ hblen) i3)
    simpa using ha
  · exact .cons (emit_nulls _ (by omega)) (.cons hb i4)
  · exact .cons ⟨rfl, fun _ => hea⟩ (.cons ⟨rfl, id⟩ i5)
  · refine ⟨?_, ?_⟩
    · intro h
      have : (MStaff.mk a.part (List.replicate ta .null)).endsMerge = true := h
      rw [endsMerge_nulls] at this
      cases this
    · apply safeF_of_part b.part
      intro y hy hyp
      obtain ⟨x, hx, rfl⟩ := flags_mem (m := b :: rest.map (fixedOld b.part)) hy
      rcases List.mem_cons.1 hx with rfl | hx
      · exact absurd rfl hyp
      · exact (i7 x hx hyp).1
  · refine ⟨?_, ?_⟩
    · intro h
      rw [endsMerge_nulls] at h
      cases h
    · apply lowClear_of_part b.part
      intro x hx hxp
      rcases List.mem_cons.1 hx with rfl | hx
      · exact absurd rfl hxp
      · exact i7 x hx hxp
  · unfold nMerge at *
    simp only [List.filter_cons, heb, hea, endsMerge_nulls, List.length_cons, Bool.false_eq_true, if_false, if_true]
    omega
  · intro hlow
    rw [i8 (hlow.1 hea heb), hold]

theorem contract_step (S : List MStaff) : ∀ (ms : List Nat) (N C : List MStaff),
    List.Forall₂ (fun x t => Emit x.voices t) S ms → SafeF (flags S) → contract S = some (N, C) →
    Contracted S N C (simpleExpansion N C) ms := by
  induction S with
  | nil => intro ms N C _ _ h; cases h
  | cons a S ih =>
    intro ms N C hm hs hc
    cases S with
    | nil => cases hc
    | cons b rest =>
      cases hm with
      | @cons _ ta _ ms' ha hm' =>
      rw [contract] at hc
      by_cases hab : (a.endsMerge && b.endsMerge) = true
      · rw [if_pos hab] at hc
        rw [Bool.and_eq_true] at hab
        cases hm' with
        | @cons _ tb _ ms'' hb hr =>
        cases hc
        exact contract_pair a b rest ta tb ms'' ha hb hr hab.1 hab.2 hs
      · rw [if_neg hab, Option.map_eq_some_iff] at hc
        obtain ⟨⟨N', C'⟩, hc', he⟩ := hc
        cases he
        have I := ih ms' N' C' hm' hs.2 hc'
        have halen : a.voices.length ≠ 0 := fun h' => ha.ne_nil (List.length_eq_zero_iff.1 h')
        have hC1 : simpleExpansion (⟨a.part, nulls a.voices⟩ :: N') (a :: C') = a :: simpleExpansion N' C' := by
          show ⟨a.part, splitFix (nulls a.voices) a.voices⟩ :: simpleExpansion N' C' = _
          rw [nulls, splitFix_noSplit _ _ (split_not_nulls _)]
        have ha0 : (MStaff.mk a.part (nulls a.voices)).endsMerge = false := endsMerge_nulls _ _
        rw [hC1]
        refine ⟨?_, ?_, ?_, .cons ha I.targets, .cons ⟨rfl, id⟩ I.heads, ?_, ?_, ?_, ?_⟩
        · have hch := I.noAdj
          cases hN : N' with
          | nil => exact List.IsChain.singleton _
          | cons y ys =>
            rw [hN] at hch
            exact List.isChain_cons_cons.2 ⟨by rw [ha0]; simp, hch⟩
        · rw [List.map_cons, I.lengths]; simp [nulls]
        · exact .cons (emit_nulls _ halen) I.emit
        · have hh := I.heads
          have hsafe := I.safe
          revert hh hsafe
          generalize simpleExpansion N' C' = X
          intro hh hsafe
          cases hh with
          | @cons _ y _ ys h1 h2 =>
            refine ⟨?_, hsafe⟩
            intro q1 q2
            exact (hab (by rw [Bool.and_eq_true]; exact ⟨q1, h1.2 q2⟩)).elim
        · have hh := I.heads
          have hlow := I.low
          revert hh hlow
          generalize simpleExpansion N' C' = X
          intro hh hlow
          cases hh with
          | @cons _ y _ ys h1 h2 =>
            refine ⟨?_, hlow⟩
            intro q1 q2
            exact (hab (by rw [Bool.and_eq_true]; exact ⟨q1, h1.2 q2⟩)).elim
        · have := I.fewer
          unfold nMerge at *
          rw [List.filter_cons, show (a :: b :: rest).filter (·.endsMerge) =
            if a.endsMerge = true then a :: (b :: rest).filter (·.endsMerge) else (b :: rest).filter (·.endsMerge) from List.filter_cons]
          split
          · simp only [List.length_cons]; omega
          · exact this
        · intro hlow
          rw [I.same hlow.2]

theorem forall2_lengths {S : List MStaff} {ms : List Nat} (h : List.Forall₂ (fun x t => Emit x.voices t) S ms) : S.length = ms.length :=
  h.length_eq

theorem contractLoop_ok (ms : List Nat) : ∀ f (S : List MStaff), List.Forall₂ (fun x t => Emit x.voices t) S ms →
    SafeF (flags S) → LowClear S → nMerge S < f →
    ∃ ns c, contractLoop f S = some (ns, c) ∧ Steps (S.map (fun x => x.voices.length)) (ns ++ [c]) ms ∧ ns.length ≤ nMerge S := by
  intro f
  induction f with
  | zero => intro S _ _ _ h; omega
  | succ f ih =>
    intro S hm hs hl hf
    cases hc : contract S with
    | none =>
      refine ⟨[], S, by rw [contractLoop, hc], ⟨rfl, (contract_none_iff S).1 hc, ms, hm, rfl⟩, Nat.zero_le _⟩
    | some p =>
      obtain ⟨N, C⟩ := p
      have K := contract_step S ms N C hm hs hc
      rw [K.same hl] at K
      obtain ⟨ns, c, h1, h2, h3⟩ := ih C K.targets K.safe K.low (by have := K.fewer; omega)
      refine ⟨N :: ns, c, by rw [contractLoop, hc]; dsimp only; rw [h1]; rfl, ?_, by have := K.fewer; simp only [List.length_cons]; omega⟩
      exact ⟨K.lengths.symm, K.noAdj, _, K.emit, h2⟩

theorem contractFirst_ok (ms : List Nat) (f : Nat) (had : Bool) (S : List MStaff) (hm : List.Forall₂ (fun x t => Emit x.voices t) S ms)
    (hs : SafeF (flags S)) (hl : had = true ∨ LowClear S) (hf : nMerge S < f) :
    ∃ ns c, contractFirst f had S = some (ns, c) ∧ Steps (S.map (fun x => x.voices.length)) (ns ++ [c]) ms ∧
      ns.length ≤ nMerge S := by
  cases hc : contract S with
  | none =>
    exact ⟨[], S, by rw [contractFirst, hc], ⟨rfl, (contract_none_iff S).1 hc, ms, hm, rfl⟩, Nat.zero_le _⟩
  | some p =>
    obtain ⟨N, C⟩ := p
    have K := contract_step S ms N C hm hs hc
    have hD : (if had = true then simpleExpansion N C else C) = simpleExpansion N C := by
      cases had with
      | true => rfl
      | false =>
        rcases hl with h | h
        · cases h
        · exact (K.same h).symm
    obtain ⟨ns, c, h1, h2, h3⟩ := contractLoop_ok ms f (simpleExpansion N C) K.targets K.safe K.low (by have := K.fewer; omega)
    refine ⟨N :: ns, c, ?_, ⟨K.lengths.symm, K.noAdj, _, K.emit, h2⟩, ?_⟩
    · rw [contractFirst, hc]; dsimp only
      rw [hD, h1]; rfl
    · have := K.fewer
      simp only [List.length_cons]; omega

/-! ## The whole clean-up -/

theorem steps_clean {ls : List (List MStaff)} : ∀ {a b}, Steps a ls b →
    ∀ l ∈ ls, NoAdj l ∧ ∃ mid, List.Forall₂ (fun x t => Emit x.voices t) l mid := by
  induction ls with
  | nil => intro a b _ l hl; cases hl
  | cons l ls ih =>
    intro a b h l' hl'
    obtain ⟨_, hn, mid, he, hs⟩ := h
    rcases List.mem_cons.1 hl' with rfl | hl'
    · exact ⟨hn, mid, he⟩
    · exact ih hs l' hl'

theorem emit_noSplitN {l : List MStaff} {mid : List Nat} (h : List.Forall₂ (fun x t => Emit x.voices t) l mid) : hasSplitN l = false := by
  rw [Bool.eq_false_iff]
  intro hs
  rw [hasSplitN_iff] at hs
  obtain ⟨x, hx, n, hn⟩ := hs
  induction h with
  | nil => cases hx
  | @cons y t l mid hy hl ih =>
    rcases List.mem_cons.1 hx with rfl | hx
    · rcases hy with ⟨hp, _, _⟩ | ⟨a, b, _, he, _⟩
      · rcases hp _ hn with h | h <;> cases h
      · rw [he] at hn
        rcases noSplit_merges a b _ hn with h | h <;> cases h
    · exact ih hx

theorem clean_same (f : Nat) (l : List MStaff) (hn : NoAdj l) (mid : List Nat) (he : List.Forall₂ (fun x t => Emit x.voices t) l mid) :
    cleanManip (f + 1) l = some ([], l) := by
  rw [cleanManip, expandLoop, emit_noSplitN he]
  show (contractFirst (f + 1) false l).map _ = _
  rw [contractFirst, (contract_none_iff l).2 hn]
  rfl

theorem cleanup_same (ls : List (List MStaff)) : ∀ f, ls.length + 1 < f →
    (∀ l ∈ ls, NoAdj l ∧ ∃ mid, List.Forall₂ (fun x t => Emit x.voices t) l mid) → cleanupLoop f ls = some ls := by
  induction ls with
  | nil =>
    intro f hf _
    cases f with
    | zero => omega
    | succ f => rfl
  | cons l ls ih =>
    intro f hf h
    obtain ⟨hn, mid, he⟩ := h l List.mem_cons_self
    match f with
    | 0 => omega
    | 1 => simp at hf
    | f + 2 =>
      rw [cleanupLoop, clean_same f l hn mid he]
      dsimp only
      rw [ih (f + 1) (by simp at hf; omega) (fun l' hl' => h l' (List.mem_cons_of_mem _ hl'))]
      rfl

theorem cleanup_ok (S : List MStaff) (ms : List Nat) (hw : Works S ms) (hs : SafeF (flags S))
    (hl : hasSplitN S = true ∨ LowClear S) :
    ∃ n, ∀ f ≥ n, ∃ lines, cleanupLoop f [S] = some lines ∧ Steps (S.map (fun x => x.voices.length)) lines ms := by
  refine ⟨slack S + nMerge S + 10, ?_⟩
  intro f hf
  obtain ⟨f, rfl⟩ : ∃ g, f = g + 1 := ⟨f - 1, by omega⟩
  obtain ⟨es, c, e1, e2, e3, e4, _, e6⟩ := expandLoop_ok ms f S hw (by omega)
  have hnm : nMerge c = nMerge S := by
    have hfl : ∀ m : List MStaff, nMerge m = ((flags m).filter (·.2)).length := by
      intro m
      rw [nMerge, flags, List.filter_map, List.length_map]
      rfl
    rw [hfl, hfl, e4]
  have hl' : hasSplitN S = true ∨ LowClear c := by
    rcases hl with h | h
    · exact Or.inl h
    · cases hsp : hasSplitN S with
      | true => exact Or.inl rfl
      | false =>
        right
        obtain ⟨g, rfl⟩ : ∃ g, f = g + 1 := ⟨f - 1, by omega⟩
        rw [expandLoop, hsp] at e1
        cases e1
        exact h
  obtain ⟨ns, c', k1, k2, k3⟩ := contractFirst_ok ms f (hasSplitN S) c e3 (e4 ▸ hs) hl' (by omega)
  have hclean : cleanManip f S = some (es ++ ns, c') := by
    rw [cleanManip, e1]
    show (contractFirst f (hasSplitN S) c).map _ = _
    rw [k1]; rfl
  have hsteps : Steps (S.map (fun x => x.voices.length)) (es ++ (ns ++ [c'])) ms := Steps.append e2 k2
  have hall := steps_clean hsteps
  rw [← List.append_assoc] at hsteps hall
  have hlen : (es ++ ns).length ≤ slack S + nMerge S := by rw [List.length_append]; omega
  revert hclean hsteps hall hlen
  generalize es ++ ns = L
  intro hclean hsteps hall hlen
  refine ⟨L ++ [c'], ?_, hsteps⟩
  rw [cleanupLoop, hclean]
  cases L with
  | nil =>
    dsimp only
    rw [cleanup_same [] f (by simp; omega) (by simp)]
    rfl
  | cons n L =>
    dsimp only
    rw [cleanup_same (L ++ [c']) f (by simp at hlen ⊢; omega) (fun l hl => hall l (List.mem_cons_of_mem _ hl))]
    rfl

/-! ## From the numbers of voices -/

instance (s : StaffStep) : Decidable s.loses := inferInstanceAs (Decidable (s.to < s.from))

theorem manip_flag (s : StaffStep) :
    (MStaff.mk s.part (padVoices s.voices1 (manipStaff s.from s.to))).endsMerge = decide s.loses := by
  have h1 : 1 ≤ s.from := by unfold StaffStep.from; omega
  have h2 : 1 ≤ s.to := by unfold StaffStep.to; omega
  have hw := pad_work s
  have hlen := padVoices_length s
  rcases hw with ⟨hg, hne, hw⟩ | ⟨a, b, hb, he, ht⟩
  · rw [endsMerge_grow _ _ hg]
    symm
    rw [decide_eq_false_iff_not]
    unfold StaffStep.loses
    have : (padVoices s.voices1 (manipStaff s.from s.to)).length ≤ weight (padVoices s.voices1 (manipStaff s.from s.to)) := by
      generalize padVoices s.voices1 (manipStaff s.from s.to) = l at hg
      clear hne hw hlen
      induction l with
      | nil => simp
      | cons t l ih =>
        have := ih (fun x hx => hg x (List.mem_cons_of_mem _ hx))
        rcases hg t List.mem_cons_self with rfl | rfl | ⟨n, hn, rfl⟩ <;> simp [MTok.weight] <;> omega
    omega
  · rw [he, endsMerge_merges _ _ _ hb]
    symm
    rw [decide_eq_true_iff]
    unfold StaffStep.loses
    rw [he] at hlen
    simp at hlen
    omega

/-- The line before the clean-up. -/
def startLine (staves : List StaffStep) : List MStaff :=
  staves.map (fun s => ⟨s.part, padVoices s.voices1 (manipStaff s.from s.to)⟩)

theorem matchManip_eq (staves : List StaffStep) :
    matchManip staves (staves.map (fun s => ⟨s.part, manipStaff s.from s.to⟩)) = startLine staves := by
  induction staves with
  | nil => rfl
  | cons s staves ih =>
    show _ :: matchManip staves _ = _ :: startLine staves
    rw [ih]

theorem startLine_works (staves : List StaffStep) : Works (startLine staves) (staves.map (·.to)) := by
  induction staves with
  | nil => exact .nil
  | cons s staves ih => exact .cons (pad_work s) ih

theorem startLine_flags (staves : List StaffStep) : flags (startLine staves) = staves.map (fun s => (s.part, decide s.loses)) := by
  unfold flags startLine
  rw [List.map_map]
  apply List.map_congr_left
  intro s _
  show (s.part, _) = _
  rw [manip_flag]

theorem startLine_lengths (staves : List StaffStep) :
    (startLine staves).map (fun x => x.voices.length) = staves.map (·.from) := by
  unfold startLine
  rw [List.map_map]
  apply List.map_congr_left
  intro s _
  exact padVoices_length s

theorem chain_of_split {α : Type} (R : α → α → Prop) (l : List α) (h : ∀ u c d v, l = u ++ c :: d :: v → R c d) : l.IsChain R := by
  induction l with
  | nil => exact List.IsChain.nil
  | cons a l ih =>
    have ih := ih (fun u c d v he => h (a :: u) c d v (by rw [he]; rfl))
    cases l with
    | nil => exact List.IsChain.singleton a
    | cons b l => exact List.isChain_cons_cons.2 ⟨h [] a b l rfl, ih⟩

theorem mergesClear_tail {s : StaffStep} {staves : List StaffStep} (h : MergesClear (s :: staves)) : MergesClear staves := by
  intro pre a b rest he ha hb
  exact h (s :: pre) a b rest (by rw [he]; rfl) ha hb

theorem noSplitBelow_tail {s : StaffStep} {staves : List StaffStep} (h : NoSplitBelow (s :: staves)) : NoSplitBelow staves := by
  intro pre a b rest he ha hb
  exact h (s :: pre) a b rest (by rw [he]; rfl) ha hb

theorem safe_of_mergesClear (staves : List StaffStep) (h : MergesClear staves) :
    SafeF (staves.map (fun s => (s.part, decide s.loses))) := by
  induction staves with
  | nil => trivial
  | cons a staves ih =>
    have ih := ih (mergesClear_tail h)
    cases staves with
    | nil => trivial
    | cons b rest =>
      refine ⟨?_, ih⟩
      intro ha hb
      have ha' : a.loses := of_decide_eq_true ha
      have hb' : b.loses := of_decide_eq_true hb
      refine (List.isChain_map _).2 (chain_of_split _ rest ?_)
      rintro u c d v he ⟨h1, h2, h3, h4⟩
      exact h [] a b rest rfl ha' hb' u c d v he h1 h2 ⟨of_decide_eq_true h3, of_decide_eq_true h4⟩

theorem split_mem_grows (s : StaffStep) (h : MTok.split ∈ padVoices s.voices1 (manipStaff s.from s.to)) : s.grows := by
  unfold StaffStep.grows
  rcases List.mem_append.1 h with h | h
  · unfold manipStaff at h
    split at h
    · simp at h
    · split at h
      · assumption
      · rcases noSplit_merges _ _ _ h with h | h <;> cases h
  · exact absurd h (split_not_nulls _)

theorem low_of_noSplitBelow (staves : List StaffStep) (h : NoSplitBelow staves) : LowClear (startLine staves) := by
  induction staves with
  | nil => trivial
  | cons a staves ih =>
    have ih := ih (noSplitBelow_tail h)
    cases staves with
    | nil => trivial
    | cons b rest =>
      refine ⟨?_, ih⟩
      intro ha hb c hc hcp hcs
      rw [manip_flag] at ha hb
      obtain ⟨s, hs, rfl⟩ := List.mem_map.1 hc
      exact h [] a b rest rfl (of_decide_eq_true ha) (of_decide_eq_true hb) s hs hcp (split_mem_grows s hcs)

theorem hasSplitN_of_many (staves : List StaffStep) (h : ManySplit staves) : hasSplitN (startLine staves) = true := by
  obtain ⟨s, hs, h1, h2⟩ := h
  rw [hasSplitN_iff]
  refine ⟨_, List.mem_map.2 ⟨s, hs, rfl⟩, ?_⟩
  dsimp only
  unfold padVoices manipStaff
  rw [if_neg (by omega), if_pos (by omega), if_neg h2]
  split
  · rename_i hg
    rw [if_pos (by omega)]
    exact ⟨_, List.mem_append_left _ (List.mem_append_right _ List.mem_cons_self)⟩
  · rw [if_pos (by omega)]
    exact ⟨_, List.mem_append_left _ (List.mem_append_right _ List.mem_cons_self)⟩

/-- C37: between two lines of the same staves the exporter puts manipulator lines that a reader accepts and that make
exactly the spines of the second line out of those of the first, if the losses of voices do not get in each other's way.
What is missing: two or more parts with two neighbouring losing staves each, and a gain below such a part
(`four_staves_merge_broken`, `split_below_merge_broken`: there the lines are wrong). -/
theorem manipulators_read_back_partial (staves : List StaffStep) (h1 : MergesClear staves)
    (h2 : ManySplit staves ∨ NoSplitBelow staves) :
    ∃ n, ∀ f ≥ n, ∃ lines, manipLines f staves = some lines ∧
      readManips (spinesFrom 0 (staves.map (·.from))) (lines.map manipTexts) = some (spinesFrom 0 (staves.map (·.to))) := by
  by_cases hall : staves.all (fun s => s.from == s.to) = true
  · refine ⟨0, fun f _ => ⟨[], by rw [manipLines, manipCheck, if_pos hall], ?_⟩⟩
    have : staves.map (·.from) = staves.map (·.to) := by
      apply List.map_congr_left
      intro s hs
      exact eq_of_beq (List.all_eq_true.1 hall s hs)
    rw [this]; rfl
  · obtain ⟨n, hn⟩ := cleanup_ok (startLine staves) (staves.map (·.to)) (startLine_works staves)
      (startLine_flags staves ▸ safe_of_mergesClear staves h1)
      (h2.elim (fun h => Or.inl (hasSplitN_of_many staves h)) (fun h => Or.inr (low_of_noSplitBelow staves h)))
    refine ⟨n, fun f hf => ?_⟩
    obtain ⟨lines, k1, k2⟩ := hn f hf
    refine ⟨lines, ?_, ?_⟩
    · rw [manipLines, manipCheck, if_neg hall]
      dsimp only
      rw [matchManip_eq]
      exact k1
    · have := k2.read
      rwa [startLine_lengths] at this

/-- C37: in a score of one part the manipulator lines are always right. -/
theorem manipulators_one_part (staves : List StaffStep) (p : Nat) (h : ∀ s ∈ staves, s.part = p) :
    ∃ n, ∀ f ≥ n, ∃ lines, manipLines f staves = some lines ∧
      readManips (spinesFrom 0 (staves.map (·.from))) (lines.map manipTexts) = some (spinesFrom 0 (staves.map (·.to))) := by
  apply manipulators_read_back_partial
  · intro pre a b rest he _ _ u c d v hr hc _
    subst hr he
    exact absurd ((h c (by simp)).trans (h b (by simp)).symm) hc
  · right
    intro pre a b rest he _ _ c hc hcp
    subst he
    exact absurd ((h c (by simp [hc])).trans (h b (by simp)).symm) hcp

/-- C37: the manipulator lines are right whenever no two neighbouring staves lose voices at once. -/
theorem manipulators_no_neighbours (staves : List StaffStep) (h : ∀ pre a b rest, staves = pre ++ a :: b :: rest → ¬ (a.loses ∧ b.loses)) :
    ∃ n, ∀ f ≥ n, ∃ lines, manipLines f staves = some lines ∧
      readManips (spinesFrom 0 (staves.map (·.from))) (lines.map manipTexts) = some (spinesFrom 0 (staves.map (·.to))) := by
  apply manipulators_read_back_partial
  · intro pre a b rest he ha hb
    exact absurd ⟨ha, hb⟩ (h pre a b rest he)
  · right
    intro pre a b rest he ha hb
    exact absurd ⟨ha, hb⟩ (h pre a b rest he)

/-- C37 is false in general: when two parts of two staves each go from two voices to one, the lower part's four
`*v` stand side by side and the reader rejects the line. -/
theorem four_staves_merge_broken :
    (manipLines 50 [⟨1, 2, 1⟩, ⟨1, 2, 1⟩, ⟨0, 2, 1⟩, ⟨0, 2, 1⟩]).map (fun lines => lines.map manipTexts) =
      some [["*v", "*v", "*", "*", "*v", "*v", "*v", "*v"].map String.toList, ["*", "*v", "*v", "*", "*"].map String.toList] ∧
    readManips (spinesFrom 0 [2, 2, 2, 2])
      [["*v", "*v", "*", "*", "*v", "*v", "*v", "*v"].map String.toList, ["*", "*v", "*v", "*", "*"].map String.toList] = none := by
  constructor <;> decide

/-- C37 is false in general: a staff that gains a voice below two neighbouring staves that lose one has too few tokens on
the second line. -/
theorem split_below_merge_broken :
    (manipLines 50 [⟨2, 2, 1⟩, ⟨1, 2, 1⟩, ⟨0, 1, 2⟩]).map (fun lines => lines.map manipTexts) =
      some [["*v", "*v", "*", "*", "*^"].map String.toList, ["*", "*v", "*v", "*"].map String.toList] ∧
    readManips (spinesFrom 0 [2, 2, 1])
      [["*v", "*v", "*", "*", "*^"].map String.toList, ["*", "*v", "*v", "*"].map String.toList] = none := by
  constructor <;> decide

/-! ## The hypotheses are met -/

/-- Two neighbouring losing staves above a part with a single loss. -/
example : MergesClear [⟨1, 2, 1⟩, ⟨1, 3, 1⟩, ⟨0, 2, 1⟩] ∧ NoSplitBelow [⟨1, 2, 1⟩, ⟨1, 3, 1⟩, ⟨0, 2, 1⟩] ∧
    (manipLines 50 [⟨1, 2, 1⟩, ⟨1, 3, 1⟩, ⟨0, 2, 1⟩]).map (fun lines => lines.map manipTexts) =
      some [["*v", "*v", "*", "*", "*", "*v", "*v"].map String.toList, ["*", "*v", "*v", "*v", "*"].map String.toList] := by
  refine ⟨?_, ?_, by decide⟩
  · intro pre a b rest he _ _ u c d v hr hc hd
    have hl := congrArg List.length he
    subst hr
    simp at hl
    have h1 : pre = [] := List.length_eq_zero_iff.1 (by omega)
    have h2 : u = [] := List.length_eq_zero_iff.1 (by omega)
    subst h1 h2
    omega
  · intro pre a b rest he _ _ c hc hcp
    rintro hg
    have hm : c ∈ ([⟨1, 2, 1⟩, ⟨1, 3, 1⟩, ⟨0, 2, 1⟩] : List StaffStep) := by rw [he]; simp [hc]
    rcases List.mem_cons.1 hm with rfl | hm
    · revert hg; unfold StaffStep.grows; decide
    · rcases List.mem_cons.1 hm with rfl | hm
      · revert hg; unfold StaffStep.grows; decide
      · rw [List.mem_singleton] at hm
        subst hm
        revert hg; unfold StaffStep.grows; decide

/-- One staff going from two voices to five: two lines. -/
example : ManySplit [⟨0, 2, 5⟩] ∧ (manipLines 50 [⟨0, 2, 5⟩]).map (fun lines => lines.map manipTexts) =
      some [["*^", "*^"].map String.toList, ["*", "*", "*^", "*"].map String.toList] := by
  refine ⟨⟨⟨0, 2, 5⟩, List.mem_cons_self, by decide, by decide⟩, by decide⟩

end C21
