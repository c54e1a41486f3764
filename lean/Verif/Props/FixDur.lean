import Verif.Model.FixDur
import Verif.Lemmas.Tac
import Mathlib.Data.List.Forall2
import Mathlib.Data.List.Chain
import Mathlib.Algebra.Order.Ring.Unbundled.Rat
/-
C122: the repair of durations before a Humdrum export.
-/
namespace C21

/-! ### Specification -/

/-- No event starts before the one before it has ended. -/
def VoiceApart (v : List FixEvent) : Prop := v.IsChain (fun a b => a.off + a.dur ≤ b.off)

/-- A hidden rest only takes time. -/
def FixEvent.space (e : FixEvent) : Bool := e.rest && e.hidden

/-- `b` is the event `a` of the voice `v` after the repair: it does not start earlier, and lasts as long, unless it is a rest of four quarters alone in
its voice in a shorter measure. -/
structure KeptEvent (bar : Rat) (v : List FixEvent) (a b : FixEvent) : Prop where
  id : b.id = a.id
  rest : b.rest = a.rest
  hidden : b.hidden = a.hidden
  later : a.off ≤ b.off
  dur : b.dur = a.dur ∨ (v = [a] ∧ a.rest = true ∧ a.dur = 4 ∧ 4 > bar ∧ b.dur = bar)

/-- A voice after the repair: its notes and visible rests in the same order, with no overlap. -/
structure RepairedVoice (bar : Rat) (v w : List FixEvent) : Prop where
  kept : List.Forall₂ (KeptEvent bar v) (v.filter (fun e => !e.space)) (w.filter (fun e => !e.space))
  apart : VoiceApart w

/-- Everything in a measure ends in it. -/
def Within (m : FixMeasure) : Prop := ∀ e, (e ∈ m.top ∨ ∃ v ∈ m.voices, e ∈ v) → e.off + e.dur ≤ m.len

/-- The length of a measure is the end of its last event, and notes are either in voices or directly in the measure. -/
structure Regular (m : FixMeasure) : Prop where
  within : Within m
  reached : m.len = 0 ∨ ∃ e, (e ∈ m.top ∨ ∃ v ∈ m.voices, e ∈ v) ∧ e.off + e.dur = m.len
  nonneg : 0 ≤ m.len
  voices : m.voices = [] ∨ m.top = []
  durs : ∀ e, (e ∈ m.top ∨ ∃ v ∈ m.voices, e ∈ v) → 0 ≤ e.dur
  bar : 0 ≤ m.bar

/-- music21 finds durations for a rest that add up to its duration. -/
def SplitsWell (split : FixEvent → List Rat) : Prop :=
  ∀ e, e.rest = true → e.hidden = true → split e ≠ [] ∧ (0 ≤ e.dur → ∀ d ∈ split e, 0 ≤ d) ∧ (split e).sum = e.dur

/-! ### Voices -/

theorem spread_chain (p : FixEvent) (es : List FixEvent) : (p :: spreadFrom p es).IsChain (fun a b => a.off + a.dur ≤ b.off) := by
  induction es generalizing p with
  | nil => simp [spreadFrom]
  | cons e es ih =>
    rw [spreadFrom]
    refine List.IsChain.cons_cons ?_ (ih _)
    split
    · exact le_refl _
    · rename_i h
      have := not_lt.1 h
      linarith

theorem spread_apart (v : List FixEvent) : VoiceApart (spreadVoice v) := by
  cases v with
  | nil => exact List.IsChain.nil
  | cons e es => exact spread_chain e es

theorem spreadFrom_kept (p : FixEvent) (es : List FixEvent) (h0 : ∀ e ∈ es, True) :
    List.Forall₂ (fun a b => b = { a with off := b.off } ∧ a.off ≤ b.off) es (spreadFrom p es) := by
  induction es generalizing p with
  | nil => exact .nil
  | cons e es ih =>
    rw [spreadFrom]
    refine .cons ?_ (ih _ (fun _ _ => trivial))
    split
    · rename_i h
      exact ⟨rfl, by show e.off ≤ p.off + p.dur; linarith⟩
    · exact ⟨rfl, le_refl _⟩

theorem spread_kept (v : List FixEvent) : List.Forall₂ (fun a b => b = { a with off := b.off } ∧ a.off ≤ b.off) v (spreadVoice v) := by
  cases v with
  | nil => exact .nil
  | cons e es => exact .cons ⟨rfl, le_refl _⟩ (spreadFrom_kept e es (fun _ _ => trivial))

theorem shorten_kept (bar : Rat) (v : List FixEvent) : List.Forall₂ (KeptEvent bar v) v (shortenRest bar v) := by
  have same : ∀ l : List FixEvent, List.Forall₂ (KeptEvent bar v) l l := by
    intro l
    induction l with
    | nil => exact .nil
    | cons e l ih => exact .cons ⟨rfl, rfl, rfl, le_refl _, .inl rfl⟩ ih
  unfold shortenRest
  split
  · rename_i e
    split
    · rename_i h
      exact .cons ⟨rfl, rfl, rfl, le_refl _, .inr ⟨rfl, h.1, h.2.1, h.2.1 ▸ h.2.2, rfl⟩⟩ .nil
    · exact same _
  · exact same _

theorem events_filter {R : FixEvent → FixEvent → Prop} {p : FixEvent → Bool} (hp : ∀ a b, R a b → p a = p b) :
    ∀ {l m : List FixEvent}, List.Forall₂ R l m → List.Forall₂ R (l.filter p) (m.filter p) := by
  intro l m h
  induction h with
  | nil => exact .nil
  | @cons a b l m hab _ ih =>
    rw [List.filter_cons, List.filter_cons, ← hp a b hab]
    split
    · exact .cons hab ih
    · exact ih

theorem events_comp {R S T : FixEvent → FixEvent → Prop} (h : ∀ a b c, R a b → S b c → T a c) :
    ∀ {l m n : List FixEvent}, List.Forall₂ R l m → List.Forall₂ S m n → List.Forall₂ T l n := by
  intro l m n h1
  induction h1 generalizing n with
  | nil => intro h2; cases h2; exact .nil
  | cons hab _ ih =>
    intro h2
    cases h2 with
    | cons hbc h3 => exact .cons (h _ _ _ hab hbc) (ih h3)

theorem le_high {v : List FixEvent} {e : FixEvent} (h : e ∈ v) : e.fin ≤ highTime v := by
  unfold highTime
  induction v with
  | nil => simp at h
  | cons a v ih =>
    rw [List.map_cons, List.foldr_cons]
    rcases List.mem_cons.1 h with rfl | h
    · exact le_max_left _ _
    · exact le_trans (ih h) (le_max_right _ _)

theorem high_nonneg (v : List FixEvent) : 0 ≤ highTime v := by
  unfold highTime
  induction v with
  | nil => exact le_refl _
  | cons a v ih => exact le_trans ih (le_max_right _ _)

theorem high_reached (v : List FixEvent) : highTime v = 0 ∨ ∃ e ∈ v, e.fin = highTime v := by
  unfold highTime
  induction v with
  | nil => exact .inl rfl
  | cons a v ih =>
    rw [List.map_cons, List.foldr_cons]
    rcases le_total a.fin ((v.map FixEvent.fin).foldr max 0) with h | h
    · rw [max_eq_right h]
      rcases ih with e | ⟨e, he, h2⟩
      · exact .inl e
      · exact .inr ⟨e, List.mem_cons_of_mem _ he, h2⟩
    · rw [max_eq_left h]
      exact .inr ⟨a, by simp, rfl⟩

theorem high_le {v : List FixEvent} {x : Rat} (h0 : 0 ≤ x) (h : ∀ e ∈ v, e.fin ≤ x) : highTime v ≤ x := by
  rcases high_reached v with e | ⟨e, he, h2⟩
  · rw [e]; exact h0
  · rw [← h2]; exact h e he

theorem append_apart (ql : Rat) (v : List FixEvent) (h : VoiceApart v) : VoiceApart (appendSpace ql v) := by
  unfold VoiceApart appendSpace at *
  rw [List.isChain_append]
  refine ⟨h, List.IsChain.singleton _, ?_⟩
  intro a ha b hb
  have e : b = { id := 0, off := highTime v, dur := ql, rest := true, hidden := true } := by simpa using hb.symm
  rw [e]
  exact le_high (List.mem_of_getLast? ha)

theorem append_visible (ql : Rat) (v : List FixEvent) : (appendSpace ql v).filter (fun e => !e.space) = v.filter (fun e => !e.space) := by
  unfold appendSpace
  rw [List.filter_append]
  simp [FixEvent.space]

/-! ### Splitting -/

theorem splitEvent_spaces (e : FixEvent) (o : Rat) (ds : List Rat) : ∀ x ∈ splitEvent e o ds, x.rest = e.rest ∧ x.hidden = e.hidden := by
  induction ds generalizing o with
  | nil => intro x hx; simp [splitEvent] at hx
  | cons d ds ih =>
    intro x hx
    rw [splitEvent] at hx
    rcases List.mem_cons.1 hx with rfl | hx
    · exact ⟨rfl, rfl⟩
    · exact ih _ x hx

theorem splitEvent_chain (e : FixEvent) (o : Rat) (ds : List Rat) : (splitEvent e o ds).IsChain (fun a b => a.off + a.dur ≤ b.off) ∧
    (∀ x ∈ (splitEvent e o ds).head?, x.off = o) ∧ (∀ x ∈ (splitEvent e o ds).getLast?, x.off + x.dur = o + ds.sum) := by
  induction ds generalizing o with
  | nil => simp [splitEvent]
  | cons d ds ih =>
    obtain ⟨i1, i2, i3⟩ := ih (o + d)
    rw [splitEvent]
    refine ⟨?_, ?_, ?_⟩
    · cases hs : splitEvent e (o + d) ds with
      | nil => exact List.IsChain.singleton _
      | cons y ys =>
        rw [hs] at i1 i2
        refine List.IsChain.cons_cons ?_ i1
        rw [i2 y (by simp)]
    · intro x hx
      simp only [List.head?_cons, Option.mem_some_iff] at hx
      rw [← hx]
    · intro x hx
      cases hs : splitEvent e (o + d) ds with
      | nil =>
        rw [hs] at hx
        have : ds = [] := by
          cases ds with
          | nil => rfl
          | cons a b => rw [splitEvent] at hs; cases hs
        simp only [List.getLast?_singleton, Option.mem_some_iff] at hx
        rw [← hx, this]
        simp
      | cons y ys =>
        rw [hs, List.getLast?_cons_cons] at hx
        have := i3 x (by rw [hs]; exact hx)
        rw [this, List.sum_cons]
        linarith

theorem splitEvent_within (e : FixEvent) (o : Rat) (ds : List Rat) (h : ∀ d ∈ ds, 0 ≤ d) : ∀ x ∈ splitEvent e o ds, x.off + x.dur ≤ o + ds.sum := by
  induction ds generalizing o with
  | nil => intro x hx; simp [splitEvent] at hx
  | cons d ds ih =>
    intro x hx
    have hs : ∀ l : List Rat, (∀ d ∈ l, 0 ≤ d) → 0 ≤ l.sum := by
      intro l hl
      induction l with
      | nil => simp
      | cons a l ih2 =>
        rw [List.sum_cons]
        have := hl a (by simp)
        have := ih2 (fun d hd => hl d (List.mem_cons_of_mem _ hd))
        linarith
    rw [splitEvent] at hx
    rw [List.sum_cons]
    rcases List.mem_cons.1 hx with rfl | hx
    · have := hs ds (fun d hd => h d (List.mem_cons_of_mem _ hd))
      show o + d ≤ _
      linarith
    · have := ih (o + d) (fun d hd => h d (List.mem_cons_of_mem _ hd)) x hx
      linarith

theorem splitEvent_durs (e : FixEvent) (o : Rat) (ds : List Rat) (h : ∀ d ∈ ds, 0 ≤ d) : ∀ x ∈ splitEvent e o ds, 0 ≤ x.dur := by
  induction ds generalizing o with
  | nil => intro x hx; simp [splitEvent] at hx
  | cons d ds ih =>
    intro x hx
    rw [splitEvent] at hx
    rcases List.mem_cons.1 hx with rfl | hx
    · exact h d (by simp)
    · exact ih (o + d) (fun d hd => h d (List.mem_cons_of_mem _ hd)) x hx

theorem splitEvent_nil (e : FixEvent) (o : Rat) (ds : List Rat) (h : ds ≠ []) : splitEvent e o ds ≠ [] := by
  cases ds with
  | nil => exact absurd rfl h
  | cons d ds => simp [splitEvent]

/-- The pieces of one event. -/
def piecesOf (split : FixEvent → List Rat) (e : FixEvent) : List FixEvent := if e.rest ∧ e.hidden then splitEvent e e.off (split e) else [e]

theorem splitHidden_eq (split : FixEvent → List Rat) (v : List FixEvent) : splitHidden split v = v.flatMap (piecesOf split) := rfl

theorem pieces_facts (split : FixEvent → List Rat) (hs : SplitsWell split) (e : FixEvent) :
    (piecesOf split e).IsChain (fun a b => a.off + a.dur ≤ b.off) ∧ piecesOf split e ≠ [] ∧ (∀ x ∈ (piecesOf split e).head?, x.off = e.off) ∧
    (∀ x ∈ (piecesOf split e).getLast?, x.off + x.dur = e.off + e.dur) ∧ (0 ≤ e.dur → ∀ x ∈ piecesOf split e, x.off + x.dur ≤ e.off + e.dur ∧ 0 ≤ x.dur) := by
  unfold piecesOf
  split
  · rename_i h
    obtain ⟨h1, h2, h3⟩ := hs e h.1 h.2
    obtain ⟨c1, c2, c3⟩ := splitEvent_chain e e.off (split e)
    refine ⟨c1, splitEvent_nil _ _ _ h1, c2, ?_, ?_⟩
    · rw [← h3]; exact c3
    · intro h0 x hx
      exact ⟨by rw [← h3]; exact splitEvent_within e _ _ (h2 h0) x hx, splitEvent_durs e _ _ (h2 h0) x hx⟩
  · refine ⟨List.IsChain.singleton _, by simp, ?_, ?_, ?_⟩
    · intro x hx; have : e = x := by simpa using hx
      rw [this]
    · intro x hx; have : e = x := by simpa using hx
      rw [this]
    · intro h0 x hx; have : x = e := by simpa using hx
      rw [this]
      exact ⟨le_refl _, h0⟩

theorem split_apart (split : FixEvent → List Rat) (hs : SplitsWell split) (v : List FixEvent) (h : VoiceApart v) : VoiceApart (splitHidden split v) := by
  rw [splitHidden_eq]
  unfold VoiceApart at *
  induction v with
  | nil => exact List.IsChain.nil
  | cons e v ih =>
    obtain ⟨f1, f2, f3, f4, f5⟩ := pieces_facts split hs e
    rw [List.flatMap_cons, List.isChain_append]
    refine ⟨f1, ih h.tail, ?_⟩
    intro a ha b hb
    rw [f4 a ha]
    cases v with
    | nil => simp at hb
    | cons e2 v =>
      have hc : e.off + e.dur ≤ e2.off := by
        cases h with
        | cons_cons h1 _ => exact h1
      obtain ⟨_, g2, g3, _, _⟩ := pieces_facts split hs e2
      rw [List.flatMap_cons] at hb
      have hb2 : b ∈ (piecesOf split e2).head? := by
        cases hp : piecesOf split e2 with
        | nil => exact absurd hp g2
        | cons y ys => rw [hp] at hb; simpa using hb
      rw [g3 b hb2]
      exact hc

theorem split_visible (split : FixEvent → List Rat) (v : List FixEvent) :
    (splitHidden split v).filter (fun e => !e.space) = v.filter (fun e => !e.space) := by
  rw [splitHidden_eq]
  induction v with
  | nil => rfl
  | cons e v ih =>
    rw [List.flatMap_cons, List.filter_append, ih]
    unfold piecesOf
    split
    · rename_i h
      have h0 : (splitEvent e e.off (split e)).filter (fun e => !e.space) = [] := by
        rw [List.filter_eq_nil_iff]
        intro x hx
        have := splitEvent_spaces _ _ _ x hx
        simp [FixEvent.space, this, h]
      rw [h0, List.filter_cons_of_neg (by simp [FixEvent.space, h])]
      rfl
    · rename_i h
      have : e.space = false := by
        unfold FixEvent.space
        rw [Bool.and_eq_false_iff]
        by_contra hc
        simp only [not_or, Bool.not_eq_false] at hc
        exact h hc
      simp [this]

theorem split_within (split : FixEvent → List Rat) (hs : SplitsWell split) (v : List FixEvent) (h0 : ∀ e ∈ v, 0 ≤ e.dur) (x : FixEvent)
    (hx : x ∈ splitHidden split v) : ∃ e ∈ v, x.off + x.dur ≤ e.off + e.dur ∧ 0 ≤ x.dur := by
  rw [splitHidden_eq] at hx
  obtain ⟨e, he, hx⟩ := List.mem_flatMap.1 hx
  exact ⟨e, he, (pieces_facts split hs e).2.2.2.2 (h0 e he) x hx⟩

theorem split_reached (split : FixEvent → List Rat) (hs : SplitsWell split) (v : List FixEvent) (e : FixEvent) (he : e ∈ v) :
    ∃ x ∈ splitHidden split v, x.off + x.dur = e.off + e.dur := by
  obtain ⟨_, h0, _, h4, _⟩ := pieces_facts split hs e
  obtain ⟨x, hx⟩ := Option.ne_none_iff_exists'.1 (fun h => h0 (List.getLast?_eq_none_iff.1 h))
  refine ⟨x, ?_, h4 x hx⟩
  rw [splitHidden_eq]
  exact List.mem_flatMap.2 ⟨e, he, List.mem_of_getLast? hx⟩

/-! ### Measures -/

/-- The notes of the measure. -/
def FixMeasure.all (m : FixMeasure) : List FixEvent := m.top ++ m.voices.flatten

theorem mem_all (m : FixMeasure) (e : FixEvent) : e ∈ m.all ↔ (e ∈ m.top ∨ ∃ v ∈ m.voices, e ∈ v) := by
  unfold FixMeasure.all
  rw [List.mem_append, List.mem_flatten]

theorem withContents_eq (m : FixMeasure) (top : List FixEvent) (voices : List (List FixEvent)) :
    (m.withContents top voices).top = top ∧ (m.withContents top voices).voices = voices ∧ (m.withContents top voices).bar = m.bar ∧
    (m.withContents top voices).start = m.start := by
  unfold FixMeasure.withContents
  split
  · rename_i h
    exact ⟨h.1.symm, h.2.symm, rfl, rfl⟩
  · exact ⟨rfl, rfl, rfl, rfl⟩

theorem withContents_within (m : FixMeasure) (top : List FixEvent) (voices : List (List FixEvent)) (h : Within m) : Within (m.withContents top voices) := by
  unfold FixMeasure.withContents
  split
  · exact h
  · intro e he
    have : e ∈ top ++ voices.flatten := by
      rw [List.mem_append, List.mem_flatten]
      exact he
    exact le_high this

theorem withContents_regular (m : FixMeasure) (top : List FixEvent) (voices : List (List FixEvent)) (h : Regular m)
    (ht : m.top = [] → top = []) (hv : m.voices = [] → voices = []) (hd : ∀ e, (e ∈ top ∨ ∃ v ∈ voices, e ∈ v) → 0 ≤ e.dur) : Regular (m.withContents top voices) := by
  unfold FixMeasure.withContents
  split
  · exact h
  · refine ⟨?_, ?_, high_nonneg _, ?_, hd, h.bar⟩
    · intro e he
      have : e ∈ top ++ voices.flatten := by
        rw [List.mem_append, List.mem_flatten]
        exact he
      exact le_high this
    · rcases high_reached (top ++ voices.flatten) with e | ⟨e, he, h2⟩
      · exact .inl e
      · refine .inr ⟨e, ?_, h2⟩
        rw [List.mem_append, List.mem_flatten] at he
        exact he
    · exact h.voices.imp hv ht

theorem pad_facts (mx : Rat) (m : FixMeasure) (h : m.len ≤ mx) : (padMeasure mx m).len = mx ∧ (padMeasure mx m).bar = m.bar := by
  unfold padMeasure
  split
  · exact ⟨rfl, rfl⟩
  · rename_i hn
    exact ⟨le_antisymm h (not_lt.1 hn), rfl⟩

theorem pad_within (mx : Rat) (m : FixMeasure) (h : m.len ≤ mx) (hw : Within m) (h0 : 0 ≤ m.len) : Within (padMeasure mx m) := by
  unfold padMeasure
  split
  · rename_i hlt
    have app : ∀ v : List FixEvent, (∀ e ∈ v, e.off + e.dur ≤ m.len) → ∀ e ∈ appendSpace (mx - m.len) v, e.off + e.dur ≤ mx := by
      intro v hv e he
      unfold appendSpace at he
      rcases List.mem_append.1 he with he | he
      · exact le_trans (hv e he) h
      · have : e = { id := 0, off := highTime v, dur := mx - m.len, rest := true, hidden := true } := by simpa using he
        rw [this]
        have := high_le h0 hv
        show highTime v + (mx - m.len) ≤ mx
        linarith
    intro e he
    rcases he with he | ⟨v, hv, he⟩
    · show e.off + e.dur ≤ mx
      simp only at he
      split at he
      · exact app m.top (fun e he => hw e (.inl he)) e he
      · exact le_trans (hw e (.inl he)) h
    · obtain ⟨w, hw', rfl⟩ := List.mem_map.1 hv
      exact app w (fun e he => hw e (.inr ⟨w, hw', he⟩)) e he
  · exact hw

theorem pad_regular (mx : Rat) (m : FixMeasure) (h : m.len ≤ mx) (hr : Regular m) : Regular (padMeasure mx m) := by
  refine ⟨pad_within mx m h hr.within hr.nonneg, ?_, ?_, ?_, ?_, (pad_facts mx m h).2 ▸ hr.bar⟩
  · unfold padMeasure
    split
    · rename_i hlt
      -- a list of events that reaches the length
      have app : ∀ v : List FixEvent, highTime v = m.len → ∃ e ∈ appendSpace (mx - m.len) v, e.off + e.dur = mx := by
        intro v hv
        refine ⟨{ id := 0, off := highTime v, dur := mx - m.len, rest := true, hidden := true }, by simp [appendSpace], ?_⟩
        show highTime v + (mx - m.len) = mx
        rw [hv]; ring
      right
      by_cases hv : m.voices = []
      · have : highTime m.top = m.len := by
          apply le_antisymm (high_le hr.nonneg (fun e he => hr.within e (.inl he)))
          rcases hr.reached with h0 | ⟨e, he, h2⟩
          · rw [h0]; exact high_nonneg _
          · rw [← h2]
            rcases he with he | ⟨v, hv', _⟩
            · exact le_high he
            · rw [hv] at hv'; simp at hv'
        obtain ⟨e, he, h2⟩ := app _ this
        refine ⟨e, .inl ?_, h2⟩
        simp only [hv, if_true]
        exact he
      · have htop := hr.voices.resolve_left hv
        have : ∃ v ∈ m.voices, highTime v = m.len := by
          rcases hr.reached with h0 | ⟨e, he, h2⟩
          · obtain ⟨v, hv'⟩ := List.exists_mem_of_ne_nil _ hv
            refine ⟨v, hv', le_antisymm (high_le hr.nonneg (fun e he => hr.within e (.inr ⟨v, hv', he⟩))) ?_⟩
            rw [h0]; exact high_nonneg _
          · rcases he with he | ⟨v, hv', he⟩
            · rw [htop] at he; simp at he
            · refine ⟨v, hv', le_antisymm (high_le hr.nonneg (fun e he => hr.within e (.inr ⟨v, hv', he⟩))) ?_⟩
              rw [← h2]
              exact le_high he
        obtain ⟨v, hv', e⟩ := this
        obtain ⟨x, hx, h2⟩ := app v e
        exact ⟨x, .inr ⟨_, List.mem_map_of_mem hv', hx⟩, h2⟩
    · exact hr.reached
  · rw [(pad_facts mx m h).1]
    exact le_trans hr.nonneg h
  · unfold padMeasure
    split
    · rcases hr.voices with e | e
      · left; simp [e]
      · by_cases hv : m.voices = []
        · left; simp [hv]
        · right; simp [hv, e]
    · exact hr.voices
  · unfold padMeasure
    split
    · rename_i hlt
      have app : ∀ v : List FixEvent, (∀ e ∈ v, 0 ≤ e.dur) → ∀ e ∈ appendSpace (mx - m.len) v, 0 ≤ e.dur := by
        intro v hv e he
        unfold appendSpace at he
        rcases List.mem_append.1 he with he | he
        · exact hv e he
        · have : e = { id := 0, off := highTime v, dur := mx - m.len, rest := true, hidden := true } := by simpa using he
          rw [this]
          show 0 ≤ mx - m.len
          linarith
      intro e he
      rcases he with he | ⟨v, hv, he⟩
      · simp only at he
        split at he
        · exact app m.top (fun e he => hr.durs e (.inl he)) e he
        · exact hr.durs e (.inl he)
      · obtain ⟨w, hw', rfl⟩ := List.mem_map.1 hv
        exact app w (fun e he => hr.durs e (.inr ⟨w, hw', he⟩)) e he
    · exact hr.durs

/-! ### Parts -/

/-- The measures with other offsets. -/
def Moved (a b : FixMeasure) : Prop := b = { a with start := b.start }

theorem layFrom_facts (again : Bool) (p : FixMeasure) (ms : List FixMeasure) :
    List.Forall₂ Moved ms (layFrom again p ms) ∧ (p :: layFrom again p ms).IsChain (fun a b => a.start + a.len = b.start) := by
  induction ms generalizing again p with
  | nil => exact ⟨.nil, List.IsChain.singleton _⟩
  | cons m ms ih =>
    rw [layFrom]
    obtain ⟨i1, i2⟩ := ih (again || decide (p.start + p.len ≠ m.start)) (if (again || decide (p.start + p.len ≠ m.start)) = true then { m with start := p.start + p.len } else m)
    refine ⟨.cons ?_ i1, List.IsChain.cons_cons ?_ i2⟩
    · unfold Moved
      split <;> rfl
    · split
      · rfl
      · rename_i h
        simp only [Bool.not_eq_true, Bool.or_eq_false_iff, decide_eq_false_iff_not, not_not] at h
        exact h.2

theorem lay_facts (ms : List FixMeasure) : List.Forall₂ Moved ms (layMeasures ms) ∧ (layMeasures ms).IsChain (fun a b => a.start + a.len = b.start) ∧
    (layMeasures ms).head?.map (·.start) = ms.head?.map (·.start) := by
  cases ms with
  | nil => exact ⟨.nil, List.IsChain.nil, rfl⟩
  | cons m ms =>
    obtain ⟨h1, h2⟩ := layFrom_facts false m ms
    exact ⟨.cons rfl h1, h2, rfl⟩

theorem measures_at {R : FixMeasure → FixMeasure → Prop} {l k : List FixMeasure} (h : List.Forall₂ R l k) (i : Nat) (a : FixMeasure) (ha : l[i]? = some a) :
    ∃ b, k[i]? = some b ∧ R a b := by
  induction h generalizing i with
  | nil => simp at ha
  | cons hab _ ih =>
    cases i with
    | zero =>
      simp only [List.getElem?_cons_zero, Option.some.injEq] at ha
      exact ⟨_, rfl, ha ▸ hab⟩
    | succ i => exact ih i ha

theorem le_stackMax (parts : List (List FixMeasure)) (i : Nat) (p : List FixMeasure) (hp : p ∈ parts) (m : FixMeasure) (hm : p[i]? = some m) :
    m.len ≤ stackMax parts i := by
  unfold stackMax
  induction parts with
  | nil => simp at hp
  | cons q qs ih =>
    rw [List.map_cons, List.foldr_cons]
    rcases List.mem_cons.1 hp with rfl | hp
    · rw [hm]; exact le_max_left _ _
    · exact le_trans (ih hp) (le_max_right _ _)

/-! ### Step 1 -/

theorem stackAt_ok (i : Nat) (parts : List (List FixMeasure)) : (∃ s, stackAt i parts = .ok s) ↔ ∀ p ∈ parts, i < p.length := by
  induction parts with
  | nil => simp [stackAt]
  | cons p ps ih =>
    rw [stackAt]
    cases h : p[i]? with
    | none =>
      simp only [reduceCtorEq, exists_false, List.mem_cons, forall_eq_or_imp, false_iff, not_and]
      intro hp
      exact absurd (List.getElem?_eq_none_iff.1 h) (not_le.2 hp)
    | some m =>
      have hl : i < p.length := (List.getElem?_eq_some_iff.1 h).1
      simp only [List.mem_cons, forall_eq_or_imp, hl, true_and, ← ih]
      constructor
      · rintro ⟨s, hs⟩
        cases hq : stackAt i ps with
        | error e => rw [hq] at hs; cases hs
        | ok r => exact ⟨r, rfl⟩
      · rintro ⟨s, hs⟩
        rw [hs]; exact ⟨_, rfl⟩

theorem stackAt_error (i : Nat) (parts : List (List FixMeasure)) (e : PyErr) (h : stackAt i parts = .error e) : e = .indexError := by
  induction parts with
  | nil => simp [stackAt] at h
  | cons p ps ih =>
    rw [stackAt] at h
    cases hp : p[i]? with
    | none => rw [hp] at h; cases h; rfl
    | some m =>
      rw [hp] at h
      cases hq : stackAt i ps with
      | error e2 => rw [hq] at h; cases h; exact ih hq
      | ok r => rw [hq] at h; cases h

theorem stacksFrom_ok (parts : List (List FixMeasure)) (i n : Nat) : (∃ s, stacksFrom parts i n = .ok s) ↔ ∀ j < n, ∀ p ∈ parts, i + j < p.length := by
  induction n generalizing i with
  | zero => simp [stacksFrom]
  | succ n ih =>
    rw [stacksFrom]
    cases h : stackAt i parts with
    | error e =>
      simp only [reduceCtorEq, exists_false, false_iff]
      intro hall
      obtain ⟨s, hs⟩ := (stackAt_ok i parts).2 (fun p hp => by simpa using hall 0 (by omega) p hp)
      rw [hs] at h; cases h
    | ok s =>
      have h0 := (stackAt_ok i parts).1 ⟨s, h⟩
      constructor
      · rintro ⟨r, hr⟩ j hj p hp
        cases hq : stacksFrom parts (i + 1) n with
        | error e => simp only [hq] at hr; cases hr
        | ok r' =>
          cases j with
          | zero => exact h0 p hp
          | succ j =>
            have := (ih (i + 1)).1 ⟨r', hq⟩ j (by omega) p hp
            omega
      · intro hall
        obtain ⟨r, hr⟩ := (ih (i + 1)).2 (fun j hj p hp => by have := hall (j + 1) (by omega) p hp; omega)
        simp only [hr]
        exact ⟨_, rfl⟩

theorem stacksFrom_error (parts : List (List FixMeasure)) (i n : Nat) (e : PyErr) (h : stacksFrom parts i n = .error e) : e = .indexError := by
  induction n generalizing i with
  | zero => simp [stacksFrom] at h
  | succ n ih =>
    rw [stacksFrom] at h
    cases hs : stackAt i parts with
    | error e2 => rw [hs] at h; cases h; exact stackAt_error i parts _ hs
    | ok s =>
      rw [hs] at h
      cases hq : stacksFrom parts (i + 1) n with
      | error e2 => simp only [hq] at h; cases h; exact ih (i + 1) hq
      | ok r => simp only [hq] at h; cases h

theorem le_maxMeasures (parts : List (List FixMeasure)) (p : List FixMeasure) (h : p ∈ parts) : p.length ≤ maxMeasures parts := by
  unfold maxMeasures
  induction parts with
  | nil => simp at h
  | cons q qs ih =>
    rw [List.map_cons, List.foldr_cons]
    rcases List.mem_cons.1 h with rfl | h
    · exact le_max_left _ _
    · exact le_trans (ih h) (le_max_right _ _)

theorem maxMeasures_le (parts : List (List FixMeasure)) (n : Nat) (h : ∀ p ∈ parts, p.length = n) : parts = [] ∨ maxMeasures parts = n := by
  cases parts with
  | nil => exact .inl rfl
  | cons q qs =>
    right
    apply le_antisymm
    · unfold maxMeasures
      have : ∀ l : List (List FixMeasure), (∀ p ∈ l, p.length = n) → (l.map List.length).foldr max 0 ≤ n := by
        intro l hl
        induction l with
        | nil => simp
        | cons a l ih =>
          rw [List.map_cons, List.foldr_cons]
          exact max_le (le_of_eq (hl a (by simp))) (ih (fun p hp => hl p (List.mem_cons_of_mem _ hp)))
      exact this _ h
    · rw [← h q (by simp)]
      exact le_maxMeasures _ _ (by simp)

/-- C122. A score whose parts do not have the same number of measures cannot be exported: where an empty measure was meant to be added, an
IndexError is raised. -/
theorem ragged_score_fails (split : FixEvent → List Rat) (parts : List (List FixMeasure)) (p q : List FixMeasure) (hp : p ∈ parts) (hq : q ∈ parts)
    (h : p.length < q.length) : fixDurations split parts = .error .indexError := by
  unfold fixDurations
  cases hs : stacksFrom parts 0 (maxMeasures parts) with
  | error e => rw [stacksFrom_error _ _ _ _ hs]
  | ok s =>
    have := (stacksFrom_ok parts 0 (maxMeasures parts)).1 ⟨s, hs⟩ p.length (lt_of_lt_of_le h (le_maxMeasures _ _ hq)) p hp
    omega

/-! ### The repaired score -/

/-- The measure after steps 3 and 4. -/
def evened (m : FixMeasure) : FixMeasure := spreadMeasure (shortenRests m)

theorem evened_facts (m : FixMeasure) : (evened m).top = spreadVoice (shortenRest m.bar m.top) ∧
    (evened m).voices = m.voices.map (fun v => spreadVoice (shortenRest m.bar v)) ∧ (evened m).bar = m.bar ∧ (evened m).start = m.start := by
  obtain ⟨a1, a2, a3, a4⟩ := withContents_eq m (shortenRest m.bar m.top) (m.voices.map (shortenRest m.bar))
  obtain ⟨b1, b2, b3, b4⟩ := withContents_eq (shortenRests m) (spreadVoice (shortenRests m).top) ((shortenRests m).voices.map spreadVoice)
  refine ⟨?_, ?_, b3.trans a3, b4.trans a4⟩
  · exact b1.trans (congrArg spreadVoice a1)
  · refine b2.trans ?_
    show ((shortenRests m).voices.map spreadVoice) = _
    rw [show (shortenRests m).voices = _ from a2, List.map_map]
    rfl

theorem evened_within (m : FixMeasure) (h : Within m) : Within (evened m) := withContents_within _ _ _ (withContents_within _ _ _ h)

theorem shorten_nil (bar : Rat) : shortenRest bar [] = [] := rfl

theorem evened_regular (m : FixMeasure) (h : Regular m) : Regular (evened m) := by
  have s1 : ∀ v : List FixEvent, (∀ e ∈ v, 0 ≤ e.dur) → ∀ e ∈ shortenRest m.bar v, 0 ≤ e.dur := by
    intro v hv e he
    unfold shortenRest at he
    split at he
    · split at he
      · have : e = _ := List.mem_singleton.1 he
        rw [this]
        exact h.bar
      · exact hv e he
    · exact hv e he
  have s2 : ∀ v : List FixEvent, (∀ e ∈ v, 0 ≤ e.dur) → ∀ e ∈ spreadVoice v, 0 ≤ e.dur := by
    intro v hv
    have := spread_kept v
    generalize spreadVoice v = w at this
    induction this with
    | nil => intro e he; simp at he
    | @cons a b l1 l2 hab _ ih =>
      intro e he
      rcases List.mem_cons.1 he with rfl | he
      · have := hv a (by simp)
        rw [hab.1]
        exact this
      · exact ih (fun x hx => hv x (List.mem_cons_of_mem _ hx)) e he
  have h1 : Regular (shortenRests m) := withContents_regular _ _ _ h (fun e => by rw [e]; rfl) (fun e => by rw [e]; rfl) (by
    rintro e (he | ⟨v, hv, he⟩)
    · exact s1 _ (fun e he => h.durs e (.inl he)) e he
    · obtain ⟨w, hw, rfl⟩ := List.mem_map.1 hv
      exact s1 _ (fun e he => h.durs e (.inr ⟨w, hw, he⟩)) e he)
  exact withContents_regular _ _ _ h1 (fun e => by rw [e]; rfl) (fun e => by rw [e]; rfl) (by
    rintro e (he | ⟨v, hv, he⟩)
    · exact s2 _ (fun e he => h1.durs e (.inl he)) e he
    · obtain ⟨w, hw, rfl⟩ := List.mem_map.1 hv
      exact s2 _ (fun e he => h1.durs e (.inr ⟨w, hw, he⟩)) e he)

theorem evened_nonneg (m : FixMeasure) (h : 0 ≤ m.len) : 0 ≤ (evened m).len := by
  have key : ∀ (m : FixMeasure) t v, 0 ≤ m.len → 0 ≤ (m.withContents t v).len := by
    intro m t v h
    unfold FixMeasure.withContents
    split
    · exact h
    · exact high_nonneg _
  exact key _ _ _ (key _ _ _ h)

/-- The result, written out. -/
theorem fix_ok (split : FixEvent → List Rat) (parts : List (List FixMeasure)) (n : Nat) (h : ∀ p ∈ parts, p.length = n) :
    fixDurations split parts = .ok (parts.map (fun p =>
      (layMeasures (p.mapIdx (fun i m => padMeasure (stackMax (parts.map (fun p => p.map evened)) i) (evened m)))).map (splitMeasure split))) := by
  have hs : ∃ s, stacksFrom parts 0 (maxMeasures parts) = .ok s := by
    rw [stacksFrom_ok]
    intro j hj p hp
    rw [h p hp]
    rcases maxMeasures_le parts n h with e | e
    · rw [e] at hp; simp at hp
    · omega
  obtain ⟨s, hs⟩ := hs
  unfold fixDurations
  rw [hs]
  simp only [List.map_map]
  congr 1
  apply List.map_congr_left
  intro p _
  simp only [Function.comp]
  congr 2
  apply List.ext_getElem?
  intro i
  rw [List.getElem?_mapIdx, List.getElem?_mapIdx, List.getElem?_map]
  cases p[i]? <;> rfl

/-- One measure before and after. -/
theorem fix_measure (split : FixEvent → List Rat) (parts : List (List FixMeasure)) (n : Nat) (h : ∀ p ∈ parts, p.length = n) (out : List (List FixMeasure))
    (ho : fixDurations split parts = .ok out) (j i : Nat) (p : List FixMeasure) (m : FixMeasure) (hp : parts[j]? = some p) (hm : p[i]? = some m) :
    ∃ q m' s, out[j]? = some q ∧ q[i]? = some m' ∧ (evened m).len ≤ stackMax (parts.map (fun p => p.map evened)) i ∧
      m' = splitMeasure split { padMeasure (stackMax (parts.map (fun p => p.map evened)) i) (evened m) with start := s } := by
  rw [fix_ok split parts n h] at ho
  cases ho
  have hx : (p.mapIdx (fun i m => padMeasure (stackMax (parts.map (fun p => p.map evened)) i) (evened m)))[i]? =
      some (padMeasure (stackMax (parts.map (fun p => p.map evened)) i) (evened m)) := by
    rw [List.getElem?_mapIdx, hm]; rfl
  obtain ⟨b, hb, hmv⟩ := measures_at (lay_facts _).1 i _ hx
  refine ⟨(layMeasures (p.mapIdx (fun i m => padMeasure (stackMax (parts.map (fun p => p.map evened)) i) (evened m)))).map (splitMeasure split),
    splitMeasure split b, b.start, ?_, ?_, ?_, ?_⟩
  · rw [List.getElem?_map, hp]; rfl
  · rw [List.getElem?_map, hb]; rfl
  · exact le_stackMax _ i (p.map evened) (List.mem_map_of_mem (List.mem_of_getElem? hp)) _ (by rw [List.getElem?_map, hm]; rfl)
  · rw [← show b = _ from hmv]

theorem repaired_voice (split : FixEvent → List Rat) (hs : SplitsWell split) (bar : Rat) (v : List FixEvent) :
    RepairedVoice bar v (splitHidden split (spreadVoice (shortenRest bar v))) ∧
    ∀ ql, RepairedVoice bar v (splitHidden split (appendSpace ql (spreadVoice (shortenRest bar v)))) := by
  have hk : List.Forall₂ (KeptEvent bar v) v (spreadVoice (shortenRest bar v)) := by
    refine events_comp ?_ (shorten_kept bar v) (spread_kept _)
    rintro a b c h ⟨e, hl⟩
    rw [e]
    exact ⟨h.id, h.rest, h.hidden, le_trans h.later hl, h.dur⟩
  have hf : List.Forall₂ (KeptEvent bar v) (v.filter (fun e => !e.space)) ((spreadVoice (shortenRest bar v)).filter (fun e => !e.space)) := by
    refine events_filter ?_ hk
    intro a b h
    simp only [FixEvent.space, h.rest, h.hidden]
  constructor
  · exact ⟨by rw [split_visible]; exact hf, split_apart split hs _ (spread_apart _)⟩
  · intro ql
    exact ⟨by rw [split_visible, append_visible]; exact hf, split_apart split hs _ (append_apart _ _ (spread_apart _))⟩

/-- C122. The repair of a score whose parts have equally many measures keeps every voice with its notes and visible rests in order and in their
durations (but for a rest of four quarters alone in a shorter measure), moves notes only later, and leaves no overlap. -/
theorem voices_repaired (split : FixEvent → List Rat) (hs : SplitsWell split) (parts : List (List FixMeasure)) (n : Nat) (h : ∀ p ∈ parts, p.length = n) :
    ∃ out, fixDurations split parts = .ok out ∧ out.map List.length = parts.map List.length ∧
      ∀ (j i : Nat) (p : List FixMeasure) (m : FixMeasure), parts[j]? = some p → p[i]? = some m →
        ∃ q m', out[j]? = some q ∧ q[i]? = some m' ∧ RepairedVoice m.bar m.top m'.top ∧ List.Forall₂ (RepairedVoice m.bar) m.voices m'.voices := by
  refine ⟨_, fix_ok split parts n h, ?_, ?_⟩
  · rw [List.map_map]
    apply List.map_congr_left
    intro p _
    simp only [Function.comp, List.length_map]
    rw [← (lay_facts _).1.length_eq, List.length_mapIdx]
  · intro j i p m hp hm
    obtain ⟨q, m', s, h1, h2, h3, h4⟩ := fix_measure split parts n h _ (fix_ok split parts n h) j i p m hp hm
    refine ⟨q, m', h1, h2, ?_, ?_⟩
    · rw [h4]
      unfold splitMeasure padMeasure
      simp only
      split
      · simp only
        split
        · rw [(evened_facts m).1]
          exact (repaired_voice split hs m.bar m.top).2 _
        · rw [(evened_facts m).1]
          exact (repaired_voice split hs m.bar m.top).1
      · rw [(evened_facts m).1]
        exact (repaired_voice split hs m.bar m.top).1
    · rw [h4]
      unfold splitMeasure padMeasure
      simp only
      split
      · simp only
        rw [(evened_facts m).2.1, List.map_map, List.map_map, List.forall₂_map_right_iff, List.forall₂_same]
        intro v _
        exact (repaired_voice split hs m.bar v).2 _
      · rw [(evened_facts m).2.1, List.map_map, List.forall₂_map_right_iff, List.forall₂_same]
        intro v _
        exact (repaired_voice split hs m.bar v).1

/-- C122. After the repair the measures at one place are equally long in all parts, every measure starts where the one before ends, and the first stays
where it was. -/
theorem measures_repaired (split : FixEvent → List Rat) (parts : List (List FixMeasure)) (n : Nat) (h : ∀ p ∈ parts, p.length = n) (out : List (List FixMeasure))
    (ho : fixDurations split parts = .ok out) :
    (∀ (j k i : Nat) (p q : List FixMeasure) (a b : FixMeasure), out[j]? = some p → out[k]? = some q → p[i]? = some a → q[i]? = some b → a.len = b.len) ∧
    (∀ p ∈ out, p.IsChain (fun a b => a.start + a.len = b.start)) ∧
    out.map (fun p => p.head?.map (·.start)) = parts.map (fun p => p.head?.map (·.start)) := by
  have hfix := fix_ok split parts n h
  refine ⟨?_, ?_, ?_⟩
  · have key : ∀ (j i : Nat) (p : List FixMeasure) (a : FixMeasure), out[j]? = some p → p[i]? = some a → a.len = stackMax (parts.map (fun p => p.map evened)) i := by
      intro j i p a hp ha
      have hj : ∃ p0, parts[j]? = some p0 := by
        rw [hfix] at ho
        cases ho
        rw [List.getElem?_map] at hp
        cases hx : parts[j]? with
        | none => rw [hx] at hp; cases hp
        | some p0 => exact ⟨p0, rfl⟩
      obtain ⟨p0, hp0⟩ := hj
      have hi : ∃ m, p0[i]? = some m := by
        have hl : p.length = p0.length := by
          rw [hfix] at ho
          cases ho
          rw [List.getElem?_map, hp0] at hp
          cases hp
          rw [List.length_map, ← (lay_facts _).1.length_eq, List.length_mapIdx]
        have : i < p0.length := hl ▸ (List.getElem?_eq_some_iff.1 ha).1
        exact ⟨_, List.getElem?_eq_getElem this⟩
      obtain ⟨m, hm⟩ := hi
      obtain ⟨q, m', s, h1, h2, h3, h4⟩ := fix_measure split parts n h out ho j i p0 m hp0 hm
      rw [h1] at hp
      cases hp
      rw [h2] at ha
      cases ha
      rw [h4]
      exact (pad_facts _ _ h3).1
    intro j k i p q a b hp hq ha hb
    rw [key j i p a hp ha, key k i q b hq hb]
  · rw [hfix] at ho
    cases ho
    intro p hp
    obtain ⟨p0, _, rfl⟩ := List.mem_map.1 hp
    rw [List.isChain_map]
    exact (lay_facts _).2.1
  · rw [hfix] at ho
    cases ho
    rw [List.map_map]
    apply List.map_congr_left
    intro p _
    simp only [Function.comp]
    cases p with
    | nil => rfl
    | cons m ms =>
      have := (lay_facts ((m :: ms).mapIdx (fun i m => padMeasure (stackMax (parts.map (fun p => p.map evened)) i) (evened m)))).2.2
      rw [List.head?_map, Option.map_map]
      refine Eq.trans this ?_
      rw [List.mapIdx_cons]
      simp only [List.head?_cons, Option.map_some]
      congr 1
      unfold padMeasure
      split <;> exact (evened_facts m).2.2.2

/-- C122. So measures at one place start at the same time in all parts, if the parts begin together. -/
theorem measures_aligned (split : FixEvent → List Rat) (parts : List (List FixMeasure)) (n : Nat) (h : ∀ p ∈ parts, p.length = n) (out : List (List FixMeasure))
    (ho : fixDurations split parts = .ok out) (t : Rat) (ht : ∀ p ∈ parts, ∀ m, p.head? = some m → m.start = t) (j k i : Nat) (p q : List FixMeasure)
    (a b : FixMeasure) (hp : out[j]? = some p) (hq : out[k]? = some q) (ha : p[i]? = some a) (hb : q[i]? = some b) : a.start = b.start := by
  obtain ⟨h1, h2, h3⟩ := measures_repaired split parts n h out ho
  have hhead : ∀ (j : Nat) (p : List FixMeasure) (a : FixMeasure), out[j]? = some p → p[0]? = some a → a.start = t := by
    intro j p a hp ha
    have e : (out.map (fun p => p.head?.map (·.start)))[j]? = (parts.map (fun p => p.head?.map (·.start)))[j]? := by rw [h3]
    rw [List.getElem?_map, List.getElem?_map, hp] at e
    cases hx : parts[j]? with
    | none => rw [hx] at e; cases e
    | some p0 =>
      rw [hx] at e
      simp only [Option.map_some, Option.some.injEq] at e
      rw [List.head?_eq_getElem?, ha] at e
      cases hy : p0.head? with
      | none => rw [hy] at e; cases e
      | some m =>
        rw [hy] at e
        simp only [Option.map_some, Option.some.injEq] at e
        rw [e]
        exact ht p0 (List.mem_of_getElem? hx) m hy
  induction i generalizing a b with
  | zero => rw [hhead j p a hp ha, hhead k q b hq hb]
  | succ i ih =>
    have hstep : ∀ (p : List FixMeasure) (a : FixMeasure), p ∈ out → p[i + 1]? = some a → ∃ c, p[i]? = some c ∧ c.start + c.len = a.start := by
      intro p a hp ha
      obtain ⟨hi, e⟩ := List.getElem?_eq_some_iff.1 ha
      have hi' : i < p.length := by omega
      refine ⟨p[i], List.getElem?_eq_getElem hi', ?_⟩
      have := (List.isChain_iff_getElem.1 (h2 p hp)) i (by omega)
      rw [← e]
      exact this
    obtain ⟨c, hc, e1⟩ := hstep p a (List.mem_of_getElem? hp) ha
    obtain ⟨d, hd, e2⟩ := hstep q b (List.mem_of_getElem? hq) hb
    rw [← e1, ← e2, ih c d hc hd, h1 j k i p q c d hp hq hc hd]

theorem split_regular (split : FixEvent → List Rat) (hs : SplitsWell split) (m : FixMeasure) (h : Regular m) : Regular (splitMeasure split m) := by
  have key : ∀ e, (e ∈ (splitMeasure split m).top ∨ ∃ v ∈ (splitMeasure split m).voices, e ∈ v) → e.off + e.dur ≤ m.len ∧ 0 ≤ e.dur := by
    rintro e (he | ⟨v, hv, he⟩)
    · obtain ⟨x, hx, hle, h0⟩ := split_within split hs _ (fun e he => h.durs e (.inl he)) e he
      exact ⟨le_trans hle (h.within x (.inl hx)), h0⟩
    · obtain ⟨w, hw, rfl⟩ := List.mem_map.1 hv
      obtain ⟨x, hx, hle, h0⟩ := split_within split hs _ (fun e he => h.durs e (.inr ⟨w, hw, he⟩)) e he
      exact ⟨le_trans hle (h.within x (.inr ⟨w, hw, hx⟩)), h0⟩
  refine ⟨fun e he => (key e he).1, ?_, h.nonneg, ?_, fun e he => (key e he).2, h.bar⟩
  · rcases h.reached with e | ⟨e, he, h2⟩
    · exact .inl e
    · right
      rcases he with he | ⟨v, hv, he⟩
      · obtain ⟨x, hx, e1⟩ := split_reached split hs _ e he
        exact ⟨x, .inl hx, e1.trans h2⟩
      · obtain ⟨x, hx, e1⟩ := split_reached split hs _ e he
        exact ⟨x, .inr ⟨_, List.mem_map_of_mem hv, hx⟩, e1.trans h2⟩
  · rcases h.voices with e | e
    · left; simp [splitMeasure, e]
    · right; simp [splitMeasure, e, splitHidden]

/-- C122. A repaired measure is filled: its last event ends where the measure ends. -/
theorem measures_filled (split : FixEvent → List Rat) (hs : SplitsWell split) (parts : List (List FixMeasure)) (n : Nat) (h : ∀ p ∈ parts, p.length = n)
    (out : List (List FixMeasure)) (ho : fixDurations split parts = .ok out) (hr : ∀ p ∈ parts, ∀ m ∈ p, Regular m) : ∀ p ∈ out, ∀ m ∈ p, Regular m := by
  intro q hq m' hm'
  obtain ⟨j, hj⟩ := List.mem_iff_getElem?.1 hq
  obtain ⟨i, hi⟩ := List.mem_iff_getElem?.1 hm'
  have hfix := fix_ok split parts n h
  have ho2 := ho
  rw [hfix] at ho2
  cases ho2
  rw [List.getElem?_map] at hj
  cases hx : parts[j]? with
  | none => rw [hx] at hj; cases hj
  | some p0 =>
    rw [hx] at hj
    cases hj
    have hl : i < p0.length := by
      have := (List.getElem?_eq_some_iff.1 hi).1
      rw [List.length_map, ← (lay_facts _).1.length_eq, List.length_mapIdx] at this
      exact this
    obtain ⟨q2, m2, s, h1, h2, h3, h4⟩ := fix_measure split parts n h _ hfix j i p0 p0[i] hx (List.getElem?_eq_getElem hl)
    rw [List.getElem?_map, hx] at h1
    cases h1
    rw [hi] at h2
    cases h2
    rw [h4]
    have hreg := pad_regular _ _ h3 (evened_regular _ (hr p0 (List.mem_of_getElem? hx) p0[i] (List.getElem_mem hl)))
    exact split_regular split hs _ ⟨hreg.within, hreg.reached, hreg.nonneg, hreg.voices, hreg.durs, hreg.bar⟩

/-! ### A score without problems -/

theorem spread_id (v : List FixEvent) (h : VoiceApart v) : spreadVoice v = v := by
  have key : ∀ (p : FixEvent) (es : List FixEvent), (p :: es).IsChain (fun a b => a.off + a.dur ≤ b.off) → spreadFrom p es = es := by
    intro p es
    induction es generalizing p with
    | nil => intro _; rfl
    | cons e es ih =>
      intro h
      cases h with
      | cons_cons h1 h2 =>
        rw [spreadFrom, if_neg (by rw [not_lt]; linarith), ih e h2]
  cases v with
  | nil => rfl
  | cons e es => rw [spreadVoice, key e es h]

theorem lay_id (ms : List FixMeasure) (h : ms.IsChain (fun a b => a.start + a.len = b.start)) : layMeasures ms = ms := by
  have key : ∀ (p : FixMeasure) (ms : List FixMeasure), (p :: ms).IsChain (fun a b => a.start + a.len = b.start) → layFrom false p ms = ms := by
    intro p ms
    induction ms generalizing p with
    | nil => intro _; rfl
    | cons m ms ih =>
      intro h
      cases h with
      | cons_cons h1 h2 =>
        rw [layFrom]
        simp only [h1, ne_eq, not_true_eq_false, decide_false, Bool.or_false, Bool.false_eq_true, if_false]
        rw [ih m h2]
  cases ms with
  | nil => rfl
  | cons m ms => rw [layMeasures, key m ms h]

/-- A score in which nothing is to be repaired. -/
structure SoundScore (split : FixEvent → List Rat) (parts : List (List FixMeasure)) : Prop where
  apart : ∀ p ∈ parts, ∀ m ∈ p, VoiceApart m.top ∧ ∀ v ∈ m.voices, VoiceApart v
  rests : ∀ p ∈ parts, ∀ m ∈ p, ∀ e, (m.top = [e] ∨ [e] ∈ m.voices) → e.rest = true → e.dur = 4 → 4 ≤ m.bar
  lens : ∀ p ∈ parts, ∀ q ∈ parts, ∀ (i : Nat) (a b : FixMeasure), p[i]? = some a → q[i]? = some b → a.len = b.len
  nonneg : ∀ p ∈ parts, ∀ m ∈ p, 0 ≤ m.len
  starts : ∀ p ∈ parts, p.IsChain (fun a b => a.start + a.len = b.start)
  simple : ∀ p ∈ parts, ∀ m ∈ p, ∀ e, (e ∈ m.top ∨ ∃ v ∈ m.voices, e ∈ v) → e.rest = true → e.hidden = true → split e = [e.dur]

theorem shorten_id (bar : Rat) (v : List FixEvent) (h : ∀ e, v = [e] → e.rest = true → e.dur = 4 → 4 ≤ bar) : shortenRest bar v = v := by
  unfold shortenRest
  split
  · rename_i e
    rw [if_neg]
    rintro ⟨h1, h2, h3⟩
    have := h e rfl h1 h2
    rw [h2] at h3
    exact absurd h3 (not_lt.2 this)
  · rfl

theorem split_id (split : FixEvent → List Rat) (v : List FixEvent) (h : ∀ e ∈ v, e.rest = true → e.hidden = true → split e = [e.dur]) : splitHidden split v = v := by
  rw [splitHidden_eq]
  induction v with
  | nil => rfl
  | cons e v ih =>
    rw [List.flatMap_cons, ih (fun x hx => h x (List.mem_cons_of_mem _ hx))]
    unfold piecesOf
    split
    · rename_i hc
      rw [h e (by simp) hc.1 hc.2]
      rfl
    · rfl

/-- C122. A score in which nothing is to be repaired is left as it is. -/
theorem sound_score_unchanged (split : FixEvent → List Rat) (parts : List (List FixMeasure)) (n : Nat) (h : ∀ p ∈ parts, p.length = n)
    (hs : SoundScore split parts) : fixDurations split parts = .ok parts := by
  have hev : ∀ p ∈ parts, ∀ m ∈ p, evened m = m := by
    intro p hp m hm
    have h1 : shortenRests m = m := by
      unfold shortenRests FixMeasure.withContents
      rw [if_pos]
      refine ⟨shorten_id _ _ (fun e he => hs.rests p hp m hm e (.inl he)), ?_⟩
      conv => rhs; rw [← List.map_id m.voices]
      apply List.map_congr_left
      intro v hv
      exact shorten_id _ _ (fun e he => hs.rests p hp m hm e (.inr (he ▸ hv)))
    unfold evened
    rw [h1]
    unfold spreadMeasure FixMeasure.withContents
    rw [if_pos]
    refine ⟨spread_id _ (hs.apart p hp m hm).1, ?_⟩
    conv => rhs; rw [← List.map_id m.voices]
    apply List.map_congr_left
    intro v hv
    exact spread_id _ ((hs.apart p hp m hm).2 v hv)
  have hparts : parts.map (fun p => p.map evened) = parts := by
    conv => rhs; rw [← List.map_id parts]
    apply List.map_congr_left
    intro p hp
    conv => rhs; rw [id, ← List.map_id p]
    apply List.map_congr_left
    intro m hm
    exact hev p hp m hm
  rw [fix_ok split parts n h, hparts]
  congr 1
  conv => rhs; rw [← List.map_id parts]
  apply List.map_congr_left
  intro p hp
  have hpad : p.mapIdx (fun i m => padMeasure (stackMax parts i) (evened m)) = p := by
    apply List.ext_getElem?
    intro i
    rw [List.getElem?_mapIdx]
    cases hm : p[i]? with
    | none => rfl
    | some m =>
      simp only [Option.map_some, Option.some.injEq]
      rw [hev p hp m (List.mem_of_getElem? hm)]
      unfold padMeasure
      rw [if_neg]
      rw [not_lt]
      -- the longest measure at this place is as long as this one
      have hle : ∀ l : List (List FixMeasure), (∀ q ∈ l, q ∈ parts) → (l.map (fun p => ((p[i]?).map (·.len)).getD 0)).foldr max 0 ≤ m.len := by
        intro l hl
        induction l with
        | nil => exact hs.nonneg p hp m (List.mem_of_getElem? hm)
        | cons q l ih =>
          rw [List.map_cons, List.foldr_cons]
          refine max_le ?_ (ih (fun r hr => hl r (List.mem_cons_of_mem _ hr)))
          cases hq : q[i]? with
          | none => exact hs.nonneg p hp m (List.mem_of_getElem? hm)
          | some b => exact le_of_eq (hs.lens q (hl q (by simp)) p hp i b m hq hm)
      exact hle parts (fun _ h => h)
  rw [hpad, lay_id p (hs.starts p hp)]
  conv => rhs; rw [id, ← List.map_id p]
  apply List.map_congr_left
  intro m hm
  unfold splitMeasure
  rw [split_id split m.top (fun e he => hs.simple p hp m hm e (.inl he))]
  have : m.voices.map (splitHidden split) = m.voices := by
    conv => rhs; rw [← List.map_id m.voices]
    apply List.map_congr_left
    intro v hv
    exact split_id split v (fun e he => hs.simple p hp m hm e (.inr ⟨v, hv, he⟩))
  rw [this]
  rfl

/-! ### Cases -/

/-- Five quarters of a quarter are split. -/
def sampleSplit (e : FixEvent) : List Rat := if e.dur = 5 / 4 then [1, 1 / 4] else [e.dur]

/-- A whole rest in a measure of three quarters, overlapping notes, and a part that is short. -/
def sampleParts : List (List FixMeasure) :=
  [[{ start := 0, bar := 3, top := [{ id := 1, off := 0, dur := 4, rest := true }], voices := [], len := 4 },
    { start := 4, bar := 3, top := [], voices := [[{ id := 2, off := 0, dur := 2 }, { id := 3, off := 1, dur := 1 }, { id := 4, off := 2, dur := 1 }],
      [{ id := 5, off := 0, dur := 3 }]], len := 3 }],
   [{ start := 0, bar := 3, top := [{ id := 6, off := 0, dur := 7 / 4 }], voices := [], len := 7 / 4 },
    { start := 3, bar := 3, top := [{ id := 7, off := 0, dur := 3 }], voices := [], len := 3 }]]

example : (fixDurations sampleSplit sampleParts).toOption = some
  [[{ start := 0, bar := 3, top := [{ id := 1, off := 0, dur := 3, rest := true }], voices := [], len := 3 },
    { start := 3, bar := 3, top := [], voices := [[{ id := 2, off := 0, dur := 2 }, { id := 3, off := 2, dur := 1 }, { id := 4, off := 3, dur := 1 }],
      [{ id := 5, off := 0, dur := 3 }]], len := 4 }],
   [{ start := 0, bar := 3, top := [{ id := 6, off := 0, dur := 7 / 4 }, { id := 0, off := 7 / 4, dur := 1, rest := true, hidden := true },
      { id := 0, off := 11 / 4, dur := 1 / 4, rest := true, hidden := true }], voices := [], len := 3 },
    { start := 3, bar := 3, top := [{ id := 7, off := 0, dur := 3 }, { id := 0, off := 3, dur := 1, rest := true, hidden := true }], voices := [], len := 4 }]] := by
  decide +kernel

example : ∀ p ∈ sampleParts, p.length = 2 := by decide

example : ∀ p ∈ sampleParts, ∀ m ∈ p, Regular m := by
  intro p hp m hm
  have hw : ∀ p ∈ sampleParts, ∀ m ∈ p, (∀ e ∈ m.all, e.off + e.dur ≤ m.len) ∧ (∃ e ∈ m.all, e.off + e.dur = m.len) ∧ 0 ≤ m.len ∧ (m.voices = [] ∨ m.top = []) ∧
      (∀ e ∈ m.all, 0 ≤ e.dur) ∧ 0 ≤ m.bar := by
    decide +kernel
  obtain ⟨h1, ⟨e, h2, h3⟩, h4, h5, h6, h7⟩ := hw p hp m hm
  exact ⟨fun e he => h1 e ((mem_all m e).2 he), .inr ⟨e, (mem_all m e).1 h2, h3⟩, h4, h5, fun e he => h6 e ((mem_all m e).2 he), h7⟩

example : SplitsWell sampleSplit := by
  intro e _ _
  unfold sampleSplit
  split
  · rename_i h
    rw [h]
    refine ⟨by simp, fun _ d hd => ?_, by decide +kernel⟩
    have hall : ∀ d ∈ [(1 : Rat), 1 / 4], 0 ≤ d := by decide +kernel
    exact hall d hd
  · refine ⟨by simp, fun h0 d hd => ?_, by simp⟩
    rw [List.mem_singleton.1 hd]
    exact h0

/-- Two parts with one and two measures. -/
theorem ragged_score_fails_example :
    (fixDurations sampleSplit [[{ start := 0, bar := 4, top := [], voices := [], len := 4 }],
      [{ start := 0, bar := 4, top := [], voices := [], len := 4 }, { start := 4, bar := 4, top := [], voices := [], len := 4 }]]).toOption = none := by
  decide +kernel

/-- Notes that start together in one voice are played one after the other, and the measure gets longer. -/
theorem together_becomes_apart (split : FixEvent → List Rat) (a b : FixEvent) (bar : Rat) (ha : a.rest = false) (hb : b.rest = false) (h0 : a.off = 0)
    (h1 : b.off = 0) (hp : 0 < a.dur) (hq : 0 < b.dur) :
    fixDurations split [[{ start := 0, bar := bar, top := [a, b], voices := [], len := max a.dur b.dur }]] =
      .ok [[{ start := 0, bar := bar, top := [a, { b with off := a.dur }], voices := [], len := a.dur + b.dur }]] := by
  have hs : spreadVoice [a, b] = [a, { b with off := a.dur }] := by
    simp [spreadVoice, spreadFrom, h0, h1, hp]
  have hne : [a, { b with off := a.dur }] ≠ [a, b] := by
    intro e
    have : a.dur = b.off := by
      have := congrArg (fun l => (l[1]?).map FixEvent.off) e
      simpa using this
    rw [h1] at this
    rw [this] at hp
    exact absurd hp (lt_irrefl _)
  have hev : evened { start := 0, bar := bar, top := [a, b], voices := [], len := max a.dur b.dur } =
      { start := 0, bar := bar, top := [a, { b with off := a.dur }], voices := [], len := a.dur + b.dur } := by
    have h3 : shortenRests { start := 0, bar := bar, top := [a, b], voices := [], len := max a.dur b.dur } =
        { start := 0, bar := bar, top := [a, b], voices := [], len := max a.dur b.dur } := by
      simp [shortenRests, shortenRest, FixMeasure.withContents]
    unfold evened
    rw [h3]
    unfold spreadMeasure FixMeasure.withContents
    simp only [hs, List.map_nil]
    rw [if_neg (fun h => hne h.1)]
    simp only [FixMeasure.mk.injEq, true_and]
    unfold FixMeasure.high highTime
    simp only [List.flatten_nil, List.append_nil, List.map_cons, List.map_nil, List.foldr_cons, List.foldr_nil, FixEvent.fin, h0, zero_add]
    rw [max_eq_left (by linarith : (0 : Rat) ≤ a.dur + b.dur), max_eq_right (by linarith)]
  rw [fix_ok split _ 1 (by simp)]
  simp only [List.map_cons, List.map_nil, List.mapIdx_cons, List.mapIdx_nil, hev, stackMax, List.getElem?_cons_zero, Option.map_some, Option.getD_some,
    List.foldr_cons, List.foldr_nil]
  rw [max_eq_left (by linarith : (0 : Rat) ≤ a.dur + b.dur)]
  simp [padMeasure, layMeasures, layFrom, splitMeasure, splitHidden, ha, hb]

/-- Two measures in two parts with nothing to repair. -/
example : SoundScore sampleSplit
    [[{ start := 0, bar := 3, top := [{ id := 1, off := 0, dur := 1 }, { id := 2, off := 1, dur := 2 }], voices := [], len := 3 },
      { start := 3, bar := 3, top := [{ id := 3, off := 0, dur := 3 }], voices := [], len := 3 }],
     [{ start := 0, bar := 3, top := [], voices := [[{ id := 4, off := 0, dur := 3, rest := true }]], len := 3 },
      { start := 3, bar := 3, top := [{ id := 5, off := 0, dur := 3 }], voices := [], len := 3 }]] := by
  refine ⟨?_, ?_, ?_, ?_, ?_, ?_⟩
  · intro p hp m hm
    simp only [List.mem_cons, List.not_mem_nil, or_false] at hp
    rcases hp with rfl | rfl <;> simp only [List.mem_cons, List.not_mem_nil, or_false] at hm <;> rcases hm with rfl | rfl <;> simp [VoiceApart]
  · intro p hp m hm e he
    simp only [List.mem_cons, List.not_mem_nil, or_false] at hp
    rcases hp with rfl | rfl <;> simp only [List.mem_cons, List.not_mem_nil, or_false] at hm <;> rcases hm with rfl | rfl <;> simp at he <;> subst he <;> norm_num
  · intro p hp q hq i a b ha hb
    have hl : ∀ p ∈ ([[{ start := 0, bar := 3, top := [{ id := 1, off := 0, dur := 1 }, { id := 2, off := 1, dur := 2 }], voices := [], len := 3 },
      { start := 3, bar := 3, top := [{ id := 3, off := 0, dur := 3 }], voices := [], len := 3 }],
     [{ start := 0, bar := 3, top := [], voices := [[{ id := 4, off := 0, dur := 3, rest := true }]], len := 3 },
      { start := 3, bar := 3, top := [{ id := 5, off := 0, dur := 3 }], voices := [], len := 3 }]] : List (List FixMeasure)), ∀ m ∈ p, m.len = 3 := by decide +kernel
    rw [hl p hp a (List.mem_of_getElem? ha), hl q hq b (List.mem_of_getElem? hb)]
  · decide +kernel
  · intro p hp
    simp only [List.mem_cons, List.not_mem_nil, or_false] at hp
    rcases hp with rfl | rfl <;> simp
  · intro p hp m hm e he h1 h2
    simp only [List.mem_cons, List.not_mem_nil, or_false] at hp
    rcases hp with rfl | rfl <;> simp only [List.mem_cons, List.not_mem_nil, or_false] at hm <;> rcases hm with rfl | rfl <;> simp at he <;>
      rcases he with rfl | rfl <;> simp at h2

end C21
