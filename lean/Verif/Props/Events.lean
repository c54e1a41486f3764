import Verif.Spec.Events
import Verif.Props.DurSplit
import Verif.Lemmas.Tac
/-
C70: the events of a measure are handled in order of time, each once.
C71: the gaps of a voice are filled with rests.
C72: grace notes.
-/
namespace C21

/-! ## C70: sorting into bins -/

theorem filter_orderedInsert (t : Rat) (q : MEvent → Bool) (a : MEvent) (l : List MEvent) :
    (l.orderedInsert (fun a b => a.time ≤ b.time) a).filter (fun e => decide (e.time = t) && q e) =
      (a :: l).filter (fun e => decide (e.time = t) && q e) := by
  induction l with
  | nil => rfl
  | cons b l ih =>
    rw [List.orderedInsert]
    by_cases h : a.time ≤ b.time
    · rw [if_pos h]
    · rw [if_neg h, List.filter_cons, ih]
      by_cases ha : a.time = t
      · have hb : ¬ b.time = t := by intro hb; exact h (by rw [ha, hb])
        rw [if_neg (by simp [hb]), List.filter_cons, List.filter_cons]
        simp [hb]
      · have hA : (decide (a.time = t) && q a) = false := by simp [ha]
        simp only [List.filter_cons, hA]
        rfl

/-- Sorting by time does not change the order of simultaneous events. -/
theorem filter_sorted (t : Rat) (q : MEvent → Bool) (l : List MEvent) :
    (l.insertionSort (fun a b => a.time ≤ b.time)).filter (fun e => decide (e.time = t) && q e) =
      l.filter (fun e => decide (e.time = t) && q e) := by
  induction l with
  | nil => rfl
  | cons a l ih =>
    rw [List.insertionSort_cons, filter_orderedInsert, List.filter_cons, List.filter_cons, ih]

theorem distinctTimes_spec (l : List MEvent) : ∀ (times : List Rat), times.Pairwise (· < ·) → l.Pairwise (fun a b => a.time ≤ b.time) →
    (∀ x ∈ times, ∀ e ∈ l, x ≤ e.time) →
    (distinctTimes times l).Pairwise (· < ·) ∧ ∀ x, x ∈ distinctTimes times l ↔ x ∈ times ∨ ∃ e ∈ l, e.time = x := by
  induction l with
  | nil => intro times h _ _; exact ⟨h, fun x => by simp [distinctTimes]⟩
  | cons e l ih =>
    intro times h hs hle
    rw [distinctTimes]
    obtain ⟨hs1, hs2⟩ := List.pairwise_cons.1 hs
    by_cases hl : times.getLast? = some e.time
    · rw [if_pos hl]
      obtain ⟨h1, h2⟩ := ih times h hs2 (fun x hx e' he' => hle x hx e' (List.mem_cons_of_mem _ he'))
      refine ⟨h1, fun x => ?_⟩
      rw [h2]
      constructor
      · rintro (hx | ⟨e', he', rfl⟩)
        · exact Or.inl hx
        · exact Or.inr ⟨e', List.mem_cons_of_mem _ he', rfl⟩
      · rintro (hx | ⟨e', he', rfl⟩)
        · exact Or.inl hx
        · rcases List.mem_cons.1 he' with rfl | he'
          · exact Or.inl (List.mem_of_getLast? hl)
          · exact Or.inr ⟨e', he', rfl⟩
    · rw [if_neg hl]
      have hlt : ∀ x ∈ times, x < e.time := by
        intro x hx
        refine lt_of_le_of_ne (hle x hx e List.mem_cons_self) ?_
        intro he
        subst he
        apply hl
        -- the last time is at least this one and at most the event's
        cases hg : times.getLast? with
        | none => rw [List.getLast?_eq_none_iff.1 hg] at hx; simp at hx
        | some z =>
          obtain ⟨pre, rfl⟩ : ∃ pre, times = pre ++ [z] := by
            obtain ⟨pre, hp⟩ := List.getLast?_eq_some_iff.1 hg
            exact ⟨pre, hp⟩
          have hz := hle z (by simp) e List.mem_cons_self
          rcases List.mem_append.1 hx with hx | hx
          · have := (List.pairwise_append.1 h).2.2 _ hx z (by simp)
            exact absurd hz (not_le.2 this)
          · rw [List.mem_singleton.1 hx]
      obtain ⟨h1, h2⟩ := ih (times ++ [e.time]) (by
          rw [List.pairwise_append]
          exact ⟨h, by simp, fun x hx y hy => by rw [List.mem_singleton.1 hy]; exact hlt x hx⟩) hs2 (by
          intro x hx e' he'
          rcases List.mem_append.1 hx with hx | hx
          · exact hle x hx e' (List.mem_cons_of_mem _ he')
          · rw [List.mem_singleton.1 hx]; exact hs1 e' he')
      refine ⟨h1, fun x => ?_⟩
      rw [h2]
      constructor
      · rintro (hx | ⟨e', he', rfl⟩)
        · rcases List.mem_append.1 hx with hx | hx
          · exact Or.inl hx
          · exact Or.inr ⟨e, List.mem_cons_self, (List.mem_singleton.1 hx).symm⟩
        · exact Or.inr ⟨e', List.mem_cons_of_mem _ he', rfl⟩
      · rintro (hx | ⟨e', he', rfl⟩)
        · exact Or.inl (by simp [hx])
        · rcases List.mem_cons.1 he' with rfl | he'
          · exact Or.inl (by simp)
          · exact Or.inr ⟨e', he', rfl⟩

theorem insertionSort_times (l : List MEvent) : (l.insertionSort (fun a b => a.time ≤ b.time)).Pairwise (fun a b => a.time ≤ b.time) := by
  haveI : Std.Total (fun a b : MEvent => a.time ≤ b.time) := ⟨fun a b => le_total a.time b.time⟩
  haveI : IsTrans MEvent (fun a b => a.time ≤ b.time) := ⟨fun a b c h1 h2 => le_trans h1 h2⟩
  exact List.pairwise_insertionSort _ l

theorem lasting_iff' (e : MEvent) : e.lasting = true ↔ e.Lasts := by
  unfold MEvent.lasting MEvent.Lasts; simp

theorem lasting_iff (e : MEvent) : e.lasting = false ↔ ¬ e.Lasts := by
  rw [← lasting_iff']; simp

/-- The bins of a staff: times go up, each bin has the events of its time in their order, no event is left out. -/
theorem sortEvents_spec (events : List MEvent) :
    ((sortEvents events).map Bin.time).Pairwise (· < ·) ∧
    (∀ b ∈ sortEvents events, b.zero = events.filter (fun e => e.time = b.time ∧ ¬ e.Lasts) ∧
      b.nonZero = events.filter (fun e => e.time = b.time ∧ e.Lasts)) ∧
    (∀ t, t ∈ (sortEvents events).map Bin.time ↔ ∃ e ∈ events, e.time = t) := by
  have hd := distinctTimes_spec (events.insertionSort (fun a b => a.time ≤ b.time)) [] List.Pairwise.nil (insertionSort_times events) (by simp)
  have hm : (sortEvents events).map Bin.time = distinctTimes [] (events.insertionSort (fun a b => a.time ≤ b.time)) := by
    unfold sortEvents
    rw [List.map_map]
    exact List.map_id _
  refine ⟨by rw [hm]; exact hd.1, ?_, ?_⟩
  · intro b hb
    unfold sortEvents at hb
    obtain ⟨t, _, rfl⟩ := List.mem_map.1 hb
    dsimp only
    rw [filter_sorted, filter_sorted]
    constructor
    · apply List.filter_congr
      intro e _
      rw [Bool.eq_iff_iff]; simp [lasting_iff]
    · apply List.filter_congr
      intro e _
      rw [Bool.eq_iff_iff]; simp [lasting_iff']
  · intro t
    rw [hm, hd.2]
    simp [List.mem_insertionSort]

/-! ## C70: merging the staves -/

/-- The bins of a staff are in strict order and no time is negative. -/
def GoodStaff (st : List Bin) : Prop := (st.map Bin.time).Pairwise (· < ·) ∧ ∀ b ∈ st, 0 ≤ b.time

theorem goodStaff_after {p : Rat} {st : List Bin} (h : GoodStaff st) : GoodStaff (afterTime p st) := by
  cases st with
  | nil => exact h
  | cons b bs =>
    rw [afterTime]
    by_cases hb : b.time = p
    · rw [if_pos hb]
      exact ⟨(List.pairwise_cons.1 h.1).2, fun c hc => h.2 c (List.mem_cons_of_mem _ hc)⟩
    · rw [if_neg hb]; exact h

/-- What is taken at the time that no bin is before are all bins of that time. -/
theorem takenAt_filter {p : Rat} {st : List Bin} (h : GoodStaff st) (hle : ∀ b ∈ st, p ≤ b.time) :
    takenAt p st = st.filter (fun b => b.time = p) := by
  cases st with
  | nil => rfl
  | cons b bs =>
    rw [takenAt]
    have hgt : ∀ c ∈ bs, b.time < c.time := fun c hc => (List.pairwise_cons.1 h.1).1 c.time (List.mem_map_of_mem hc)
    have hno : ∀ c ∈ bs, ¬ c.time = p := by
      intro c hc hcp
      have h1 := hgt c hc
      have h2 := hle b List.mem_cons_self
      rw [hcp] at h1
      exact absurd h1 (not_lt.2 h2)
    have hnil : bs.filter (fun c => decide (c.time = p)) = [] := by
      rw [List.filter_eq_nil_iff]
      intro c hc
      simp [hno c hc]
    by_cases hb : b.time = p
    · rw [if_pos hb, List.filter_cons_of_pos (by simpa using hb), hnil]
    · rw [if_neg hb, List.filter_cons_of_neg (by simpa using hb), hnil]

theorem mem_afterTime {p : Rat} {st : List Bin} (h : GoodStaff st) (hle : ∀ b ∈ st, p ≤ b.time) (b : Bin) :
    b ∈ afterTime p st ↔ b ∈ st ∧ p < b.time := by
  cases st with
  | nil => simp [afterTime]
  | cons c bs =>
    rw [afterTime]
    have hgt : ∀ d ∈ bs, c.time < d.time := fun d hd => (List.pairwise_cons.1 h.1).1 d.time (List.mem_map_of_mem hd)
    by_cases hc : c.time = p
    · rw [if_pos hc, List.mem_cons]
      constructor
      · intro hb; exact ⟨Or.inr hb, by rw [← hc]; exact hgt b hb⟩
      · rintro ⟨rfl | hb, hlt⟩
        · exact absurd hlt (by rw [hc]; exact lt_irrefl _)
        · exact hb
    · rw [if_neg hc]
      have hpc : p < c.time := lt_of_le_of_ne (hle c List.mem_cons_self) (Ne.symm hc)
      constructor
      · intro hb
        refine ⟨hb, ?_⟩
        rcases List.mem_cons.1 hb with rfl | hb
        · exact hpc
        · exact lt_trans hpc (hgt b hb)
      · exact fun hb => hb.1

theorem filter_afterTime {p t : Rat} {st : List Bin} (hpt : p ≠ t) :
    (afterTime p st).filter (fun b => b.time = t) = st.filter (fun b => b.time = t) := by
  cases st with
  | nil => rfl
  | cons c bs =>
    rw [afterTime]
    by_cases hc : c.time = p
    · rw [if_pos hc, List.filter_cons_of_neg (by simp [hc, hpt])]
    · rw [if_neg hc]

/-- What a round does. -/
theorem round_spec (p : Rat) (staves : List (List Bin)) (hg : ∀ st ∈ staves, GoodStaff st) :
    (round p staves).now = staves.reverse.flatMap (takenAt p) ∧ (round p staves).rest = staves.map (afterTime p) ∧
    ((round p staves).allEnd = true ↔ ∀ st ∈ staves, afterTime p st = []) ∧
    ((round p staves).next = -1 ∧ (∀ st ∈ staves, afterTime p st = []) ∨
      0 ≤ (round p staves).next ∧ (∃ st ∈ staves, ∃ b ∈ afterTime p st, b.time = (round p staves).next) ∧
        ∀ st ∈ staves, ∀ b ∈ afterTime p st, (round p staves).next ≤ b.time) := by
  induction staves with
  | nil => exact ⟨rfl, rfl, by simp [round], Or.inl ⟨rfl, by simp⟩⟩
  | cons st staves ih =>
    obtain ⟨h1, h2, h3, h4⟩ := ih (fun s hs => hg s (List.mem_cons_of_mem _ hs))
    have hr : round p (st :: staves) = roundStaff p st (round p staves) := rfl
    have hgs := goodStaff_after (p := p) (hg st List.mem_cons_self)
    rw [hr]
    unfold roundStaff
    dsimp only
    refine ⟨by rw [h1]; simp, by rw [h2]; rfl, ?_, ?_⟩
    · cases ha : afterTime p st with
      | nil =>
        rw [lookAhead]
        dsimp only
        rw [h3]; simp [ha]
      | cons c cs =>
        rw [lookAhead]
        dsimp only
        constructor
        · intro hc; cases hc
        · intro hc
          have := hc st List.mem_cons_self
          rw [ha] at this; cases this
    · cases ha : afterTime p st with
      | nil =>
        rw [lookAhead]
        dsimp only
        rcases h4 with ⟨e1, e2⟩ | ⟨e1, ⟨s, hs, b, hb, e2⟩, e3⟩
        · left
          refine ⟨e1, ?_⟩
          intro s hs
          rcases List.mem_cons.1 hs with rfl | hs
          · exact ha
          · exact e2 s hs
        · right
          refine ⟨e1, ⟨s, List.mem_cons_of_mem _ hs, b, hb, e2⟩, ?_⟩
          intro s' hs' b' hb'
          rcases List.mem_cons.1 hs' with rfl | hs'
          · rw [ha] at hb'; cases hb'
          · exact e3 s' hs' b' hb'
      | cons c cs =>
        rw [ha] at hgs
        have hc0 : 0 ≤ c.time := hgs.2 c List.mem_cons_self
        have hcs : ∀ d ∈ c :: cs, c.time ≤ d.time := by
          intro d hd
          rcases List.mem_cons.1 hd with rfl | hd
          · exact le_refl _
          · exact le_of_lt ((List.pairwise_cons.1 hgs.1).1 d.time (List.mem_map_of_mem hd))
        rw [lookAhead]
        dsimp only
        right
        rcases h4 with ⟨e1, e2⟩ | ⟨e1, ⟨s, hs, b, hb, e2⟩, e3⟩
        · rw [if_pos (Or.inl (by rw [e1]; decide +kernel))]
          refine ⟨hc0, ⟨st, List.mem_cons_self, c, by rw [ha]; exact List.mem_cons_self, rfl⟩, ?_⟩
          intro s hs b hb
          rcases List.mem_cons.1 hs with rfl | hs
          · rw [ha] at hb; exact hcs b hb
          · rw [e2 s hs] at hb; cases hb
        · by_cases hlt : c.time < (round p staves).next
          · rw [if_pos (Or.inr hlt)]
            refine ⟨hc0, ⟨st, List.mem_cons_self, c, by rw [ha]; exact List.mem_cons_self, rfl⟩, ?_⟩
            intro s hs b hb
            rcases List.mem_cons.1 hs with rfl | hs
            · rw [ha] at hb; exact hcs b hb
            · exact le_trans (le_of_lt hlt) (e3 s hs b hb)
          · rw [if_neg (by rintro (h | h); exacts [absurd h (not_lt.2 e1), hlt h])]
            refine ⟨e1, ⟨s, List.mem_cons_of_mem _ hs, b, hb, e2⟩, ?_⟩
            intro s' hs' b' hb'
            rcases List.mem_cons.1 hs' with rfl | hs'
            · rw [ha] at hb'; exact le_trans (not_lt.1 hlt) (hcs b' hb')
            · exact e3 s' hs' b' hb'

/-- What the loop has to hand over. -/
structure Merged (staves : List (List Bin)) (out : List (Rat × List Bin)) : Prop where
  increasing : (out.map Prod.fst).Pairwise (· < ·)
  bins : ∀ c ∈ out, c.2 = staves.reverse.flatMap (fun st => st.filter (fun b => b.time = c.1))
  some : ∀ c ∈ out, c.2 ≠ []
  complete : ∀ st ∈ staves, ∀ b ∈ st, b.time ∈ out.map Prod.fst

theorem sum_after_le (p : Rat) (staves : List (List Bin)) :
    ((staves.map (afterTime p)).map List.length).sum ≤ (staves.map List.length).sum := by
  induction staves with
  | nil => simp
  | cons st staves ih =>
    simp only [List.map_cons, List.sum_cons]
    have : (afterTime p st).length ≤ st.length := by
      cases st with
      | nil => simp [afterTime]
      | cons b bs => rw [afterTime]; split <;> simp
    omega

theorem sum_after_lt (p : Rat) (staves : List (List Bin)) (h : staves.reverse.flatMap (takenAt p) ≠ []) :
    ((staves.map (afterTime p)).map List.length).sum < (staves.map List.length).sum := by
  induction staves with
  | nil => simp at h
  | cons st staves ih =>
    simp only [List.map_cons, List.sum_cons]
    have hle := sum_after_le p staves
    by_cases ht : takenAt p st = []
    · have := ih (by simpa [ht] using h)
      have hs : (afterTime p st).length ≤ st.length := by
        cases st with
        | nil => simp [afterTime]
        | cons b bs => rw [afterTime]; split <;> simp
      omega
    · have hs : (afterTime p st).length < st.length := by
        cases st with
        | nil => exact absurd rfl ht
        | cons b bs =>
          rw [takenAt] at ht
          rw [afterTime]
          by_cases hb : b.time = p
          · rw [if_pos hb]; simp
          · rw [if_neg hb] at ht; exact absurd rfl ht
      omega

theorem mergeLoop_spec : ∀ (fuel : Nat) (p : Rat) (staves : List (List Bin)), (∀ st ∈ staves, GoodStaff st) →
    (∀ st ∈ staves, ∀ b ∈ st, p ≤ b.time) →
    (staves.map List.length).sum + (if ∃ st ∈ staves, ∃ b ∈ st, b.time = p then 0 else 1) < fuel →
    ∃ out, mergeLoop fuel p staves = some out ∧ Merged staves out := by
  intro fuel
  induction fuel with
  | zero => intro p staves _ _ h; omega
  | succ fuel ih =>
    intro p staves hg hle hf
    obtain ⟨h1, h2, h3, h4⟩ := round_spec p staves hg
    have hnow : (round p staves).now = staves.reverse.flatMap (fun st => st.filter (fun b => b.time = p)) := by
      rw [h1]
      apply List.flatMap_congr
      intro st hst
      exact takenAt_filter (hg st (List.mem_reverse.1 hst)) (hle st (List.mem_reverse.1 hst))
    have hmem : ∀ st ∈ staves, ∀ b ∈ st, b.time = p → (round p staves).now ≠ [] := by
      intro st hst b hb hbp hnil
      rw [hnow] at hnil
      have : b ∈ staves.reverse.flatMap (fun st => st.filter (fun b => b.time = p)) :=
        List.mem_flatMap.2 ⟨st, List.mem_reverse.2 hst, List.mem_filter.2 ⟨hb, by simpa using hbp⟩⟩
      rw [hnil] at this; cases this
    rw [mergeLoop]
    by_cases he : (round p staves).allEnd = true
    · rw [if_pos he]
      rw [h3] at he
      have hall : ∀ st ∈ staves, ∀ b ∈ st, b.time = p := by
        intro st hst b hb
        by_contra hne
        have : b ∈ afterTime p st := (mem_afterTime (hg st hst) (hle st hst) b).2 ⟨hb, lt_of_le_of_ne (hle st hst b hb) (Ne.symm hne)⟩
        rw [he st hst] at this; cases this
      refine ⟨_, rfl, ?_⟩
      by_cases hn : (round p staves).now = []
      · rw [if_pos hn]
        refine ⟨by simp, by simp, by simp, ?_⟩
        intro st hst b hb
        exact absurd hn (hmem st hst b hb (hall st hst b hb))
      · rw [if_neg hn]
        refine ⟨by simp, ?_, ?_, ?_⟩
        · intro c hc
          rw [List.mem_singleton.1 hc]; exact hnow
        · intro c hc
          rw [List.mem_singleton.1 hc]; exact hn
        · intro st hst b hb
          simp [hall st hst b hb]
    · rw [if_neg he]
      have hrest : ∀ st ∈ (round p staves).rest, GoodStaff st := by
        rw [h2]
        intro st hst
        obtain ⟨s, hs, rfl⟩ := List.mem_map.1 hst
        exact goodStaff_after (hg s hs)
      rcases h4 with ⟨_, e2⟩ | ⟨e1, ⟨s, hs, b, hb, e2⟩, e3⟩
      · exact absurd (h3.2 e2) he
      · have hex : ∃ st ∈ (round p staves).rest, ∃ b ∈ st, b.time = (round p staves).next := by
          rw [h2]
          exact ⟨_, List.mem_map_of_mem hs, b, hb, e2⟩
        obtain ⟨out, ho, hm⟩ := ih (round p staves).next (round p staves).rest hrest (by
            rw [h2]
            intro st hst b' hb'
            obtain ⟨s', hs', rfl⟩ := List.mem_map.1 hst
            exact e3 s' hs' b' hb') (by
            rw [if_pos hex, h2]
            by_cases hp : ∃ st ∈ staves, ∃ b ∈ st, b.time = p
            · rw [if_pos hp] at hf
              obtain ⟨st, hst, b', hb', hbp⟩ := hp
              have := sum_after_lt p staves (by rw [← h1]; exact hmem st hst b' hb' hbp)
              omega
            · rw [if_neg hp] at hf
              have := sum_after_le p staves
              omega)
        rw [ho]
        have hgt : ∀ c ∈ out, p < c.1 := by
          intro c hc
          have hb1 := hm.bins c hc
          have hs1 := hm.some c hc
          obtain ⟨b', hb'⟩ := List.exists_mem_of_ne_nil _ hs1
          rw [hb1, h2] at hb'
          obtain ⟨st, hst, hbf⟩ := List.mem_flatMap.1 hb'
          rw [List.mem_reverse] at hst
          obtain ⟨s', hs', rfl⟩ := List.mem_map.1 hst
          rw [List.mem_filter] at hbf
          have := ((mem_afterTime (hg s' hs') (hle s' hs') b').1 hbf.1).2
          have hbc : b'.time = c.1 := by simpa using hbf.2
          rw [hbc] at this; exact this
        have hbins : ∀ c ∈ out, c.2 = staves.reverse.flatMap (fun st => st.filter (fun b => b.time = c.1)) := by
          intro c hc
          rw [hm.bins c hc, h2, ← List.map_reverse, List.flatMap_map]
          apply List.flatMap_congr
          intro st _
          exact filter_afterTime (ne_of_lt (hgt c hc))
        have hcomp : ∀ st ∈ staves, ∀ b ∈ st, b.time ≠ p → b.time ∈ out.map Prod.fst := by
          intro st hst b' hb' hne
          apply hm.complete (afterTime p st) (by rw [h2]; exact List.mem_map_of_mem hst) b'
          exact (mem_afterTime (hg st hst) (hle st hst) b').2 ⟨hb', lt_of_le_of_ne (hle st hst b' hb') (Ne.symm hne)⟩
        refine ⟨_, rfl, ?_⟩
        dsimp only
        by_cases hn : (round p staves).now = []
        · rw [if_pos hn]
          refine ⟨hm.increasing, hbins, hm.some, ?_⟩
          intro st hst b' hb'
          exact hcomp st hst b' hb' (fun hbp => hmem st hst b' hb' hbp hn)
        · rw [if_neg hn]
          refine ⟨?_, ?_, ?_, ?_⟩
          · rw [List.map_cons, List.pairwise_cons]
            refine ⟨?_, hm.increasing⟩
            intro t ht
            obtain ⟨c, hc, rfl⟩ := List.mem_map.1 ht
            exact hgt c hc
          · intro c hc
            rcases List.mem_cons.1 hc with rfl | hc
            · exact hnow
            · exact hbins c hc
          · intro c hc
            rcases List.mem_cons.1 hc with rfl | hc
            · exact hn
            · exact hm.some c hc
          · intro st hst b' hb'
            rw [List.map_cons, List.mem_cons]
            by_cases hbp : b'.time = p
            · exact Or.inl hbp
            · exact Or.inr (hcomp st hst b' hb' hbp)

theorem firstTime_le {st : List Bin} (h : GoodStaff st) : ∀ b ∈ st, firstTime st ≤ b.time := by
  cases st with
  | nil => intro b hb; cases hb
  | cons c cs =>
    intro b hb
    rw [firstTime]
    rcases List.mem_cons.1 hb with rfl | hb
    · exact le_refl _
    · exact le_of_lt ((List.pairwise_cons.1 h.1).1 b.time (List.mem_map_of_mem hb))

/-- If every staff has events, the loop starts with the earliest time. -/
theorem startTime_fold (staves : List (List Bin)) : ∀ (n : Rat), (∀ st ∈ staves, GoodStaff st ∧ st ≠ []) → (0 ≤ n ∨ n = -1) →
    (0 ≤ n → staves.foldl earlier n ≤ n) ∧ ∀ st ∈ staves, ∀ b ∈ st, staves.foldl earlier n ≤ b.time := by
  induction staves with
  | nil => intro n _ hn; exact ⟨fun _ => le_refl _, by simp⟩
  | cons st staves ih =>
    intro n hg hn
    rw [List.foldl_cons]
    obtain ⟨hgs, hne⟩ := hg st List.mem_cons_self
    have hft : 0 ≤ firstTime st := by
      cases st with
      | nil => exact absurd rfl hne
      | cons c cs => exact hgs.2 c List.mem_cons_self
    have hm : 0 ≤ earlier n st ∧ earlier n st ≤ firstTime st ∧ (0 ≤ n → earlier n st ≤ n) := by
      unfold earlier
      by_cases hneg : n < 0
      · rw [if_pos hneg]
        exact ⟨hft, le_refl _, fun h0 => absurd h0 (not_le.2 hneg)⟩
      · rw [if_neg hneg]
        by_cases hlt : firstTime st < n
        · rw [if_pos hlt]; exact ⟨hft, le_refl _, fun _ => le_of_lt hlt⟩
        · rw [if_neg hlt]; exact ⟨not_lt.1 hneg, not_lt.1 hlt, fun _ => le_refl _⟩
    obtain ⟨h1, h2⟩ := ih (earlier n st) (fun s hs => hg s (List.mem_cons_of_mem _ hs)) (Or.inl hm.1)
    have h3 := h1 hm.1
    refine ⟨fun h0 => le_trans h3 (hm.2.2 h0), ?_⟩
    intro s hs b hb
    rcases List.mem_cons.1 hs with rfl | hs
    · exact le_trans h3 (le_trans hm.2.1 (firstTime_le hgs b hb))
    · exact h2 s hs b hb

/-- Merging the staves, if every staff has events. -/
theorem merge_spec (staves : List (List Bin)) (hg : ∀ st ∈ staves, GoodStaff st) (hne : ∀ st ∈ staves, st ≠ []) :
    ∃ out, mergeLoop (mergeFuel staves) (startTime staves) staves = some out ∧ Merged staves out := by
  apply mergeLoop_spec _ _ _ hg
  · exact (startTime_fold staves (-1) (fun st hst => ⟨hg st hst, hne st hst⟩) (Or.inr rfl)).2
  · unfold mergeFuel
    split <;> omega

/-- C70: if no staff of the measure is without events, the events of all staves are handled in order of time, the
simultaneous ones together, each of them once. The full statement has no condition on staves without events; see
`empty_staff_breaks_order`. -/
theorem events_in_order_partial (staves : List (List MEvent)) (h0 : ∀ st ∈ staves, ∀ e ∈ st, 0 ≤ e.time) (hne : ∀ st ∈ staves, st ≠ []) :
    ∃ calls, measureCalls staves = some calls ∧ HandledInOrder staves calls := by
  have hg : ∀ st ∈ staves.map sortEvents, GoodStaff st := by
    intro st hst
    obtain ⟨s, hs, rfl⟩ := List.mem_map.1 hst
    obtain ⟨h1, _, h3⟩ := sortEvents_spec s
    refine ⟨h1, ?_⟩
    intro b hb
    obtain ⟨e, he, ht⟩ := (h3 b.time).1 (List.mem_map_of_mem hb)
    rw [← ht]; exact h0 s hs e he
  have hn : ∀ st ∈ staves.map sortEvents, st ≠ [] := by
    intro st hst hnil
    obtain ⟨s, hs, rfl⟩ := List.mem_map.1 hst
    obtain ⟨e, he⟩ := List.exists_mem_of_ne_nil _ (hne s hs)
    have := ((sortEvents_spec s).2.2 e.time).2 ⟨e, he, rfl⟩
    rw [hnil] at this; cases this
  obtain ⟨out, ho, hm⟩ := merge_spec _ hg hn
  refine ⟨_, by unfold measureCalls; rw [ho]; rfl, ?_⟩
  -- one staff at one time
  have key : ∀ (f : Bin → List MEvent) (q : MEvent → Prop) [DecidablePred q] (t : Rat) (st : List MEvent),
      (∀ b ∈ sortEvents st, f b = st.filter (fun e => decide (e.time = b.time ∧ q e))) →
      ((sortEvents st).filter (fun b => b.time = t)).flatMap f = st.filter (fun e => decide (e.time = t ∧ q e)) := by
    intro f q _ t st hf
    obtain ⟨h1, _, h3⟩ := sortEvents_spec st
    by_cases ht : t ∈ (sortEvents st).map Bin.time
    · obtain ⟨b, hb, rfl⟩ := List.mem_map.1 ht
      have : (sortEvents st).filter (fun c => c.time = b.time) = [b] := by
        obtain ⟨pre, post, hsp⟩ := List.append_of_mem hb
        rw [hsp] at h1 ⊢
        rw [List.map_append, List.map_cons, List.pairwise_append] at h1
        obtain ⟨_, hp2, hp3⟩ := h1
        have hpre : pre.filter (fun c => decide (c.time = b.time)) = [] := by
          rw [List.filter_eq_nil_iff]
          intro c hc
          have := hp3 c.time (List.mem_map_of_mem hc) b.time List.mem_cons_self
          simpa using ne_of_lt this
        have hpost : post.filter (fun c => decide (c.time = b.time)) = [] := by
          rw [List.filter_eq_nil_iff]
          intro c hc
          have := (List.pairwise_cons.1 hp2).1 c.time (List.mem_map_of_mem hc)
          simpa using ne_of_gt this
        rw [List.filter_append, hpre, List.filter_cons_of_pos (by simp), hpost]; rfl
      rw [this, List.flatMap_cons, List.flatMap_nil, List.append_nil]
      exact hf b hb
    · have hnil : (sortEvents st).filter (fun b => decide (b.time = t)) = [] := by
        rw [List.filter_eq_nil_iff]
        intro b hb
        have : ¬ b.time = t := fun hbt => ht (by rw [← hbt]; exact List.mem_map_of_mem hb)
        simpa using this
      rw [hnil, List.flatMap_nil]
      symm
      rw [List.filter_eq_nil_iff]
      intro e he
      have : ¬ e.time = t := fun het => ht ((h3 t).2 ⟨e, he, het⟩)
      simp [this]
  refine ⟨?_, ?_, ?_, ?_⟩
  · rw [List.map_map]; exact hm.increasing
  · intro c hc
    obtain ⟨d, hd, rfl⟩ := List.mem_map.1 hc
    dsimp only
    rw [hm.bins d hd, ← List.map_reverse, List.flatMap_map, List.flatMap_assoc]
    apply List.flatMap_congr
    intro st _
    exact key Bin.zero (fun e => ¬ e.Lasts) d.1 st (fun b hb => ((sortEvents_spec st).2.1 b hb).1)
  · intro c hc
    obtain ⟨d, hd, rfl⟩ := List.mem_map.1 hc
    dsimp only
    rw [hm.bins d hd, ← List.map_reverse, List.flatMap_map, List.flatMap_assoc]
    apply List.flatMap_congr
    intro st _
    exact key Bin.nonZero (fun e => e.Lasts) d.1 st (fun b hb => ((sortEvents_spec st).2.1 b hb).2)
  · intro st hst e he
    obtain ⟨b, hb, ht⟩ := List.mem_map.1 (((sortEvents_spec st).2.2 e.time).2 ⟨e, he, rfl⟩)
    have := hm.complete (sortEvents st) (List.mem_map_of_mem hst) b hb
    rw [List.map_map]
    rw [← ht]; exact this

/-- C70: a staff without events makes the exporter forget the earliest time: here the event at 0 is handled after one at 2,
and the two simultaneous events at 2 are handled one by one, so that they end up on two lines. -/
theorem empty_staff_breaks_order :
    measureCalls [[⟨0, 2, false, 1⟩, ⟨2, 2, false, 2⟩], [], [⟨2, 2, false, 3⟩]] =
      some [⟨2, [], [⟨2, 2, false, 3⟩]⟩, ⟨0, [], [⟨0, 2, false, 1⟩]⟩, ⟨2, [], [⟨2, 2, false, 2⟩]⟩] := by decide +kernel

/-- The hypotheses of `events_in_order_partial` can be met: two staves, a clef, four notes. -/
example : measureCalls [[⟨0, 2, false, 1⟩, ⟨2, 0, false, 2⟩, ⟨2, 2, false, 3⟩], [⟨0, 4, false, 4⟩]] =
    some [⟨0, [], [⟨0, 4, false, 4⟩, ⟨0, 2, false, 1⟩]⟩, ⟨2, [⟨2, 0, false, 2⟩], [⟨2, 2, false, 3⟩]⟩] := by decide +kernel

/-! ## C71: gaps of a voice -/

theorem tiles_append {a b c : Rat} {l m : List VEvent} (h1 : Tiles a b l) (h2 : Tiles b c m) : Tiles a c (l ++ m) := by
  induction h1 with
  | nil => exact h2
  | cons ht _ ih => exact Tiles.cons ht (ih h2)

theorem tiles_rests (t : Rat) (ds : List Rat) : Tiles t (t + ds.sum) (restsFrom t ds) := by
  induction ds generalizing t with
  | nil => rw [List.sum_nil, add_zero]; exact Tiles.nil t
  | cons d ds ih =>
    rw [restsFrom, List.sum_cons]
    refine Tiles.cons rfl ?_
    have := ih (t + d)
    rw [add_assoc] at this
    exact this

theorem rests_madeUp (t : Rat) (ds : List Rat) : ∀ e ∈ restsFrom t ds, e.madeUp = true := by
  induction ds generalizing t with
  | nil => intro e he; cases he
  | cons d ds ih =>
    intro e he
    rcases List.mem_cons.1 he with rfl | he
    · rfl
    · exact ih _ e he

theorem splitQL_single (q : Rat) (hq : 0 < q) (hn : Notatable q) : splitQL q = [q] := by
  unfold splitQL
  rw [if_pos ((isPow2Dots_iff q hq).2 hn)]

/-- The loop over the elements of a voice, if each gap can be written with one rest. -/
theorem fillLoop_tiles (start : Rat) (es : List VElem) : ∀ (cur stop : Rat), NoOverlap cur stop es → GapsSimple cur es →
    Tiles (start + cur) (start + stop) ((fillLoop start (start + cur) es).filter (fun e => e.dur ≠ 0)) := by
  induction es with
  | nil =>
    intro cur stop hno _
    have : cur = stop := hno
    rw [this]
    exact Tiles.nil _
  | cons e es ih =>
    intro cur stop hno hgap
    obtain ⟨h0, h1, h2⟩ := hno
    obtain ⟨g1, g2⟩ := hgap
    rw [fillLoop]
    by_cases hc : start + cur < start + e.offset
    · rw [if_pos hc]
      have hlt : cur < e.offset := by linarith
      have hd : start + e.offset - (start + cur) = e.offset - cur := by ring
      have hpos : 0 < e.offset - cur := by linarith
      rw [hd, splitQL_single _ hpos (g1 hlt)]
      have hmax : max cur e.offset = e.offset := max_eq_right (le_of_lt hlt)
      rw [hmax] at h2 g2
      have := ih (e.offset + e.ql) stop h2 g2
      rw [← add_assoc] at this
      rw [List.filter_append]
      have hgr : (gapRests (start + cur) [e.offset - cur]).filter (fun e => decide (e.dur ≠ 0)) = [⟨start + cur, e.offset - cur, true⟩] := by
        unfold gapRests
        rw [List.map_cons, List.map_nil, List.filter_cons_of_pos (by simpa using ne_of_gt hpos)]; rfl
      rw [hgr]
      refine Tiles.cons rfl ?_
      have he : start + cur + (e.offset - cur) = start + e.offset := by ring
      dsimp only
      rw [he]
      show Tiles _ _ (List.filter _ _)
      by_cases hq : e.ql = 0
      · rw [List.filter_cons_of_neg (by simpa using hq)]
        rw [hq, add_zero] at this ⊢
        exact this
      · rw [List.filter_cons_of_pos (by simpa using hq)]
        exact Tiles.cons rfl this
    · rw [if_neg hc]
      have hle : e.offset ≤ cur := by
        rcases lt_or_ge cur e.offset with h | h
        · exact absurd (by linarith) hc
        · exact h
      have hmax : max cur e.offset = cur := max_eq_left hle
      rw [hmax] at h2 g2
      have := ih (cur + e.ql) stop h2 g2
      rw [← add_assoc] at this
      by_cases hq : e.ql = 0
      · rw [List.filter_cons_of_neg (by simpa using hq)]
        rw [hq, add_zero] at this ⊢
        exact this
      · rw [List.filter_cons_of_pos (by simpa using hq)]
        have heq : cur = e.offset := le_antisymm (h1 (lt_of_le_of_ne h0 (Ne.symm hq))) hle
        refine Tiles.cons ?_ this
        dsimp only
        rw [heq]

/-- The elements themselves are all there, at their times. -/
theorem fillLoop_elems (start : Rat) (es : List VElem) : ∀ cur, (fillLoop start cur es).filter (fun e => e.madeUp = false) =
    es.map (fun e => ⟨start + e.offset, e.ql, false⟩) := by
  induction es with
  | nil => intro cur; rfl
  | cons e es ih =>
    intro cur
    rw [fillLoop]
    by_cases hc : cur < start + e.offset
    · rw [if_pos hc, List.filter_append]
      have : (gapRests cur (splitQL (start + e.offset - cur))).filter (fun e => decide (e.madeUp = false)) = [] := by
        rw [List.filter_eq_nil_iff]
        intro x hx
        unfold gapRests at hx
        obtain ⟨d, _, rfl⟩ := List.mem_map.1 hx
        simp
      rw [this, List.nil_append, List.filter_cons_of_pos (by simp), ih]; rfl
    · rw [if_neg hc, List.filter_cons_of_pos (by simp), ih]; rfl

/-- C71: every element of a voice becomes one event at its time, whatever rests are made up. -/
theorem voice_elements_kept (start measureDur emptyStart emptyEnd : Rat) (elems : List VElem) :
    (voiceEvents start measureDur emptyStart emptyEnd elems).filter (fun e => e.madeUp = false) =
      elems.map (fun e => ⟨start + e.offset, e.ql, false⟩) := by
  unfold voiceEvents
  rw [List.filter_append, List.filter_append, fillLoop_elems]
  have h1 : ∀ t ds, (restsFrom t ds).filter (fun e => decide (e.madeUp = false)) = [] := by
    intro t ds
    rw [List.filter_eq_nil_iff]
    intro x hx
    simp [rests_madeUp t ds x hx]
  have h2 : ∀ (c : Prop) [Decidable c] t ds, (if c then restsFrom t ds else []).filter (fun e => decide (e.madeUp = false)) = [] := by
    intro c _ t ds
    split
    · exact h1 t ds
    · rfl
  rw [h2, h2, List.nil_append, List.append_nil]

/-- C71: the events of a voice whose elements do not overlap fill the measure without gap or overlap, if each gap between its
elements can be written with one rest. The full statement is without this last condition; see `gap_of_two_rests_wrong`. -/
theorem voice_fills_measure_partial (start measureDur emptyStart emptyEnd : Rat) (elems : List VElem) (h1 : 0 ≤ emptyStart)
    (h2 : 0 ≤ emptyEnd) (hno : NoOverlap emptyStart (measureDur - emptyEnd) elems) (hgap : GapsSimple emptyStart elems) :
    Tiles start (start + measureDur) ((voiceEvents start measureDur emptyStart emptyEnd elems).filter (fun e => e.dur ≠ 0)) := by
  have rest0 : ∀ t q, 0 < q → (restsFrom t (splitQL q)).filter (fun e => decide (e.dur ≠ 0)) = restsFrom t (splitQL q) := by
    intro t q hq
    rw [List.filter_eq_self]
    have hpos : ∀ d ∈ splitQL q, 0 < d := by
      rcases split_notatable q hq with h | h
      · intro d hd
        obtain ⟨k, n, _, rfl⟩ := h d hd
        have hp : (0 : Rat) < 2 ^ k := zpow_pos (by norm_num) k
        have hp2 : (1 : Rat) / 2 ^ n ≤ 1 := by
          rw [div_le_one (by positivity)]
          exact one_le_pow₀ (by norm_num)
        have : (0 : Rat) < 2 - 1 / 2 ^ n := by linarith
        exact mul_pos hp this
      · rw [h]; intro d hd; rw [List.mem_singleton.1 hd]; exact hq
    generalize splitQL q = ds at hpos
    clear hq
    induction ds generalizing t with
    | nil => intro e he; cases he
    | cons d ds ih =>
      intro e he
      rcases List.mem_cons.1 he with rfl | he
      · simpa using ne_of_gt (hpos d List.mem_cons_self)
      · exact ih (t + d) (fun x hx => hpos x (List.mem_cons_of_mem _ hx)) e he
  unfold voiceEvents
  rw [List.filter_append, List.filter_append]
  have hcur : (if 0 < emptyStart then start + (splitQL emptyStart).sum else start) = start + emptyStart := by
    by_cases hp : 0 < emptyStart
    · rw [if_pos hp, split_sum _ hp]
    · rw [if_neg hp, le_antisymm (not_lt.1 hp) h1, add_zero]
  rw [hcur]
  have hmid := fillLoop_tiles start elems emptyStart (measureDur - emptyEnd) hno hgap
  refine tiles_append (tiles_append (b := start + emptyStart) ?_ hmid) ?_
  · by_cases hp : 0 < emptyStart
    · rw [if_pos hp, rest0 _ _ hp]
      have := tiles_rests start (splitQL emptyStart)
      rw [split_sum _ hp] at this
      exact this
    · rw [if_neg hp, le_antisymm (not_lt.1 hp) h1, add_zero]
      exact Tiles.nil _
  · by_cases hp : 0 < emptyEnd
    · rw [if_pos hp, rest0 _ _ hp]
      have := tiles_rests (start + measureDur - emptyEnd) (splitQL emptyEnd)
      rw [split_sum _ hp] at this
      have e1 : start + (measureDur - emptyEnd) = start + measureDur - emptyEnd := by ring
      have e2 : start + measureDur - emptyEnd + emptyEnd = start + measureDur := by ring
      rw [e2] at this
      rw [e1]; exact this
    · rw [if_neg hp, le_antisymm (not_lt.1 hp) h2, sub_zero]
      exact Tiles.nil _

/-- C71: a gap that needs two rests (here of two and a half quarters) gets both at the same time, so that the second one
takes the place of the first in the voice and the rhythm of the exported voice is wrong. -/
theorem gap_of_two_rests_wrong :
    NoOverlap 0 4 [⟨0, 1⟩, ⟨7 / 2, 1 / 2⟩] ∧
    voiceEvents 0 4 0 0 [⟨0, 1⟩, ⟨7 / 2, 1 / 2⟩] = [⟨0, 1, false⟩, ⟨1, 2, true⟩, ⟨1, 1 / 2, true⟩, ⟨7 / 2, 1 / 2, false⟩] := by
  refine ⟨?_, by decide +kernel⟩
  simp only [NoOverlap]
  norm_num

/-- The hypotheses of `voice_fills_measure_partial` can be met: a text inside a gap of a dotted quarter, rests at both ends. -/
example : ∃ elems : List VElem, NoOverlap 1 (5 / 2 + 1 + 1 / 2) elems ∧ GapsSimple 1 elems ∧
    voiceEvents 8 5 1 1 elems = [⟨8, 1, true⟩, ⟨9, 1, false⟩, ⟨10, 1, true⟩, ⟨11, 0, false⟩, ⟨11, 1 / 2, true⟩, ⟨23 / 2, 1 / 2, false⟩, ⟨12, 1, true⟩] := by
  refine ⟨[⟨1, 1⟩, ⟨3, 0⟩, ⟨7 / 2, 1 / 2⟩], ?_, ?_, by decide +kernel⟩
  · simp only [NoOverlap]; norm_num
  · simp only [GapsSimple]
    norm_num
    exact ⟨⟨0, 0, by norm_num, by norm_num⟩, ⟨-1, 0, by norm_num, by norm_num⟩⟩

/-! ## C72: grace notes -/

theorem mostGraces_ge {α : Type} (voices : List (List α)) : ∀ l ∈ voices, l.length ≤ mostGraces voices := by
  unfold mostGraces
  have aux : ∀ (vs : List (List α)) (m : Nat), m ≤ vs.foldl (fun m l => max m l.length) m ∧
      ∀ l ∈ vs, l.length ≤ vs.foldl (fun m l => max m l.length) m := by
    intro vs
    induction vs with
    | nil => intro m; exact ⟨le_refl _, by simp⟩
    | cons v vs ih =>
      intro m
      rw [List.foldl_cons]
      obtain ⟨h1, h2⟩ := ih (max m v.length)
      refine ⟨le_trans (le_max_left _ _) h1, ?_⟩
      intro l hl
      rcases List.mem_cons.1 hl with rfl | hl
      · exact le_trans (le_max_right _ _) h1
      · exact h2 l hl
  exact (aux voices 0).2

/-- The place of a voice on a line. -/
def graceAt {α : Type} (lines : List (List (Option α))) (i v : Nat) : Option α := ((lines[i]?).bind (fun line => line[v]?)).bind id

theorem graceVoice_spec {α : Type} (v w : Nat) (notes : List α) : ∀ (lines : List (List (Option α))) (n : Nat),
    (∀ line ∈ lines, line.length = w) → v < w → n + notes.length ≤ lines.length →
    (graceVoice v lines n notes).length = lines.length ∧ (∀ line ∈ graceVoice v lines n notes, line.length = w) ∧
    ∀ i u, graceAt (graceVoice v lines n notes) i u = if u = v ∧ n ≤ i ∧ i < n + notes.length then notes[i - n]? else graceAt lines i u := by
  induction notes with
  | nil =>
    intro lines n hw hv hl
    refine ⟨rfl, hw, ?_⟩
    intro i u
    rw [if_neg (by simp)]; rfl
  | cons note notes ih =>
    intro lines n hw hv hl
    rw [graceVoice]
    have hlen : (lines.modify n (fun line => line.set v (some note))).length = lines.length := List.length_modify ..
    have hw' : ∀ line ∈ lines.modify n (fun line => line.set v (some note)), line.length = w := by
      intro line hline
      obtain ⟨i, hi⟩ := List.getElem?_of_mem hline
      rw [List.getElem?_modify] at hi
      cases hli : lines[i]? with
      | none => rw [hli] at hi; cases hi
      | some x =>
        rw [hli] at hi
        have hx := hw x (List.mem_of_getElem? hli)
        by_cases hni : n = i
        · simp [hni] at hi
          rw [← hi, List.length_set]; exact hx
        · simp [hni] at hi
          rw [← hi]; exact hx
    obtain ⟨h1, h2, h3⟩ := ih (lines.modify n (fun line => line.set v (some note))) (n + 1) hw' hv (by rw [hlen]; simp at hl; omega)
    refine ⟨by rw [h1, hlen], h2, ?_⟩
    intro i u
    rw [h3]
    have hmod : graceAt (lines.modify n (fun line => line.set v (some note))) i u =
        if u = v ∧ i = n then some note else graceAt lines i u := by
      unfold graceAt
      rw [List.getElem?_modify]
      cases hli : lines[i]? with
      | none =>
        have : ¬ (u = v ∧ i = n) := by
          rintro ⟨_, rfl⟩
          have := List.getElem?_eq_none_iff.1 hli
          simp at hl; omega
        rw [if_neg this]; rfl
      | some x =>
        have hx := hw x (List.mem_of_getElem? hli)
        by_cases hni : n = i
        · subst hni
          by_cases huv : u = v
          · subst huv
            simp [List.getElem?_set_self (show u < x.length by omega)]
          · simp [huv, List.getElem?_set_ne (Ne.symm huv)]
        · simp [hni, Ne.symm hni]
    rw [hmod]
    by_cases huv : u = v
    · subst huv
      by_cases hin : i = n
      · subst hin
        rw [if_neg (by omega), if_pos ⟨rfl, rfl⟩, if_pos ⟨rfl, le_refl _, by simp⟩]
        simp
      · by_cases hr : n + 1 ≤ i ∧ i < n + 1 + notes.length
        · rw [if_pos ⟨rfl, hr⟩, if_pos ⟨rfl, by omega, by simp; omega⟩]
          have : i - n = (i - (n + 1)) + 1 := by omega
          rw [this, List.getElem?_cons_succ]
        · rw [if_neg (fun h => hr h.2), if_neg (fun h => hin h.2), if_neg]
          rintro ⟨_, h4, h5⟩
          simp at h5
          exact hr ⟨by omega, by omega⟩
    · rw [if_neg (fun h => huv h.1), if_neg (fun h => huv h.1), if_neg (fun h => huv h.1)]

theorem graceVoices_spec {α : Type} (most w : Nat) (voices : List (List α)) : ∀ (v : Nat) (lines : List (List (Option α))),
    (∀ line ∈ lines, line.length = w) → lines.length = most → v + voices.length ≤ w → (∀ l ∈ voices, l.length ≤ most) →
    (graceVoices most v lines voices).length = most ∧
    ∀ i u, i < most → graceAt (graceVoices most v lines voices) i u =
      if v ≤ u then match voices[u - v]? with
        | some notes => if most - notes.length ≤ i then notes[i - (most - notes.length)]? else graceAt lines i u
        | none => graceAt lines i u
      else graceAt lines i u := by
  induction voices with
  | nil =>
    intro v lines hw hl _ _
    refine ⟨hl, ?_⟩
    intro i u _
    rw [graceVoices]
    simp
  | cons notes voices ih =>
    intro v lines hw hl hv hm
    rw [graceVoices]
    have hn := hm notes List.mem_cons_self
    obtain ⟨g1, g2, g3⟩ := graceVoice_spec v w notes lines (most - notes.length) hw (by simp at hv; omega) (by omega)
    obtain ⟨h1, h2⟩ := ih (v + 1) (graceVoice v lines (most - notes.length) notes) g2 (by rw [g1, hl]) (by simp at hv ⊢; omega)
      (fun l hl => hm l (List.mem_cons_of_mem _ hl))
    refine ⟨h1, ?_⟩
    intro i u hi
    rw [h2 i u hi]
    by_cases huv : u = v
    · subst huv
      rw [if_neg (by omega), if_pos (le_refl _), Nat.sub_self, g3]
      dsimp only [List.getElem?_cons_zero]
      by_cases hin : most - notes.length ≤ i
      · rw [if_pos ⟨rfl, hin, by omega⟩, if_pos hin]
      · rw [if_neg (fun h => hin h.2.1), if_neg hin]
    · have hg : graceAt (graceVoice v lines (most - notes.length) notes) i u = graceAt lines i u := by
        rw [g3, if_neg (fun h => huv h.1)]
      by_cases hle : v ≤ u
      · rw [if_pos (by omega), if_pos hle, hg]
        have : u - v = (u - (v + 1)) + 1 := by omega
        rw [this, List.getElem?_cons_succ]
      · rw [if_neg (by omega), if_neg hle, hg]

theorem graceAt_blank {α : Type} (m w i u : Nat) : graceAt (List.replicate m (List.replicate w (none : Option α))) i u = none := by
  unfold graceAt
  rw [List.getElem?_replicate]
  split
  · rw [Option.bind_some, List.getElem?_replicate]
    split <;> rfl
  · rfl

/-- C72: read down its column, every voice gives its grace notes, all of them and in order, and they stand directly before
the main note: the last ones on the last line. -/
theorem grace_columns {α : Type} (voices : List (List α)) (v : Nat) (notes : List α) (hv : voices[v]? = some notes) :
    (List.range (graceLines voices).length).map (fun i => graceAt (graceLines voices) i v) =
      List.replicate ((graceLines voices).length - notes.length) none ++ notes.map some := by
  have hvl : v < voices.length := (List.getElem?_eq_some_iff.1 hv).1
  have hm : notes.length ≤ mostGraces voices := mostGraces_ge voices notes (List.mem_of_getElem? hv)
  obtain ⟨h1, h2⟩ := graceVoices_spec (mostGraces voices) voices.length voices 0
    (List.replicate (mostGraces voices) (List.replicate voices.length none)) (by
      intro line hline
      rw [List.eq_of_mem_replicate hline, List.length_replicate]) (by simp) (by simp) (mostGraces_ge voices)
  have hlen : (graceLines voices).length = mostGraces voices := h1
  rw [hlen]
  apply List.ext_getElem?
  intro i
  rw [List.getElem?_map, List.getElem?_append, List.length_replicate]
  by_cases hi : i < mostGraces voices
  · rw [List.getElem?_range hi, Option.map_some]
    have := h2 i v hi
    rw [if_pos (Nat.zero_le _), Nat.sub_zero, hv] at this
    dsimp only at this
    unfold graceLines
    rw [this, graceAt_blank]
    by_cases hin : mostGraces voices - notes.length ≤ i
    · rw [if_pos hin, if_neg (by omega), List.getElem?_map]
      have hlt : i - (mostGraces voices - notes.length) < notes.length := by omega
      rw [List.getElem?_eq_getElem hlt]; rfl
    · rw [if_neg hin, if_pos (by omega), List.getElem?_replicate, if_pos (by omega)]
  · rw [List.getElem?_eq_none (by simp; omega), Option.map_none, if_neg (by omega), List.getElem?_map,
      List.getElem?_eq_none (by omega)]; rfl

/-- A case: one grace note in a voice, two in another. -/
example : graceLines [[1], [2, 3], []] = [[none, some 2, none], [some 1, some 3, none]] := by decide

end C21
