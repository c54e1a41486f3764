import Mathlib.Algebra.Order.Ring.Unbundled.Rat
import Mathlib.Tactic.Linarith
import Verif.Model.SpineDurs
import Verif.Spec.SpineDurs
/-
C127: a dynamic or another token without a rhythm lasts until the next one in its spine.
-/
namespace C21

theorem firstTok_assign (info : Str) (cur : Rat) (s : DStrand) : (assignDurs info cur s).firstTok = s.firstTok := by
  induction s generalizing info cur with
  | top => rfl
  | tok i t d u prev ih =>
    rw [assignDurs]
    split
    · rfl
    · split <;> rfl
  | join sub rest _ ih2 =>
    rw [assignDurs]
    split
    · rfl
    · exact ih2 info cur

theorem named_goes_on (info : Str) (i : Str) (h : i = info ∨ ('b' ∉ i ∧ 'b' ∉ info)) : stopsAt info i = false := by
  unfold stopsAt
  rcases h with h | ⟨h1, h2⟩
  · simp [h]
  · simp [h1, h2]

theorem headInfo_named (info : Str) (s : DStrand) (h : s.NamedAs info) (hn : s.firstTok ≠ []) :
    s.headInfo = info ∨ ('b' ∉ s.headInfo ∧ 'b' ∉ info) := by
  induction s generalizing info with
  | top => exact absurd rfl hn
  | tok i t d u prev _ => exact h.1
  | join sub rest _ ih2 => exact ih2 info h.2 hn

theorem assign_join (info : Str) (cur : Rat) (sub rest : DStrand) (h : rest.NamedAs info) (hn : rest.firstTok ≠ []) :
    assignDurs info cur (.join sub rest) = .join (assignDurs sub.headInfo cur sub) (assignDurs info cur rest) := by
  rw [assignDurs, named_goes_on info _ (headInfo_named info rest h hn)]
  rfl

theorem assign_data (info i : Str) (cur t u : Rat) (prev : DStrand) (h : i = info ∨ ('b' ∉ i ∧ 'b' ∉ info)) :
    assignDurs info cur (.tok i t true u prev) = .tok i t true (cur - t) (assignDurs info t prev) := by
  rw [assignDurs, named_goes_on info i h]
  rfl

theorem assign_other (info i : Str) (cur t u : Rat) (prev : DStrand) (h : i = info ∨ ('b' ∉ i ∧ 'b' ∉ info)) :
    assignDurs info cur (.tok i t false u prev) = .tok i t false u (assignDurs info cur prev) := by
  rw [assignDurs, named_goes_on info i h]
  rfl

theorem assigned_places (endT : Rat) (s : DStrand) : ∀ (info : Str) (cur : Rat) (next : List (Rat × Bool)), s.NoDataAfterMerge → s.NamedAs info →
    s.JoinsTok → nextDataTime endT next = cur →
    ∀ p ∈ (assignDurs info cur s).places next, p.data = true → p.dur = nextDataTime endT p.next - p.time := by
  induction s with
  | top => intro info cur next _ _ _ _ p hp; cases hp
  | tok i t d u prev ih =>
    intro info cur next h1 h2 h3 hc p hp hd
    cases d with
    | true =>
      rw [assign_data info i cur t u prev h2.1] at hp
      rcases List.mem_cons.1 hp with rfl | hp
      · rw [hc]
      · exact ih info t ((t, true) :: next) h1 h2.2 h3 rfl p hp hd
    | false =>
      rw [assign_other info i cur t u prev h2.1] at hp
      rcases List.mem_cons.1 hp with rfl | hp
      · cases hd
      · exact ih info cur ((t, false) :: next) h1 h2.2 h3 hc p hp hd
  | join sub rest ih1 ih2 =>
    intro info cur next h1 h2 h3 hc p hp hd
    rw [assign_join info cur sub rest h2.2 h3.1] at hp
    rcases List.mem_append.1 hp with hp | hp
    · refine ih1 sub.headInfo cur _ h1.2.1 h2.1 h3.2.1 ?_ p hp hd
      rw [firstTok_assign]
      have key : ∀ (l : List (Rat × Bool)), (∀ q ∈ l, q.2 = false) → nextDataTime endT (l ++ next) = nextDataTime endT next := by
        intro l
        induction l with
        | nil => intro _; rfl
        | cons q l ihl =>
          intro hq
          obtain ⟨t, d⟩ := q
          have hdf : d = false := hq (t, d) (by simp)
          subst hdf
          rw [List.cons_append, nextDataTime]
          exact ihl (fun x hx => hq x (by simp [hx]))
      rw [key _ h1.1, hc]
    · exact ih2 info cur next h1.2.2 h2.2 h3.2.2 hc p hp hd

/-- C127: every data token of a track, in the spine itself and in those that merge into it, lasts until the next data
token that follows it, or else until the end of the track, if no line of data stands right after a merge and only the
leftmost spine is split again. -/
theorem track_durations_partial (endT : Rat) (s : DStrand) (h1 : s.NoDataAfterMerge) (h2 : s.NamedAs s.headInfo) (h3 : s.JoinsTok) :
    ∀ p ∈ (assignTrack endT s).places [], p.data = true → p.dur = nextDataTime endT p.next - p.time :=
  assigned_places endT s s.headInfo endT [] h1 h2 h3 rfl

/-- C127: nothing else changes, in any track. -/
theorem only_durations_change (endT : Rat) (s : DStrand) : (assignTrack endT s).bare = s.bare := by
  have key : ∀ (s : DStrand) (info : Str) (cur : Rat), (assignDurs info cur s).bare = s.bare := by
    intro s
    induction s with
    | top => intro _ _; rfl
    | tok i t d u prev ih =>
      intro info cur
      rw [assignDurs]
      split
      · rfl
      · cases d with
        | true => simp [DStrand.bare, ih]
        | false => simp [DStrand.bare, ih]
    | join sub rest ih1 ih2 =>
      intro info cur
      rw [assignDurs]
      split
      · rfl
      · simp [DStrand.bare, ih1, ih2]
  exact key s _ _

/-- C127: durations are not negative if times do not get smaller, also with data after merges. -/
theorem durations_nonneg (endT : Rat) (s : DStrand) (ht : s.InTime endT) (h2 : s.NamedAs s.headInfo) (h3 : s.JoinsTok) :
    ∀ p ∈ (assignTrack endT s).places [], p.data = true → 0 ≤ p.dur := by
  have key : ∀ (s : DStrand) (info : Str) (cur low : Rat) (next : List (Rat × Bool)), s.InTime low → low ≤ cur → s.NamedAs info → s.JoinsTok →
      ∀ p ∈ (assignDurs info cur s).places next, p.data = true → 0 ≤ p.dur := by
    intro s
    induction s with
    | top => intro info cur low next _ _ _ _ p hp; cases hp
    | tok i t d u prev ih =>
      intro info cur low next h hl h2 h3 p hp hd
      cases d with
      | true =>
        rw [assign_data info i cur t u prev h2.1] at hp
        rcases List.mem_cons.1 hp with rfl | hp
        · have := h.1
          dsimp only
          linarith
        · exact ih info t t _ h.2 (le_refl _) h2.2 h3 p hp hd
      | false =>
        rw [assign_other info i cur t u prev h2.1] at hp
        rcases List.mem_cons.1 hp with rfl | hp
        · cases hd
        · exact ih info cur t _ h.2 (le_trans h.1 hl) h2.2 h3 p hp hd
    | join sub rest ih1 ih2 =>
      intro info cur low next h hl h2 h3 p hp hd
      rw [assign_join info cur sub rest h2.2 h3.1] at hp
      rcases List.mem_append.1 hp with hp | hp
      · exact ih1 sub.headInfo cur low _ h.1 hl h2.1 h3.2.1 p hp hd
      · exact ih2 info cur low next h.2 hl h2.2 h3.2.2 p hp hd
  exact key s s.headInfo endT endT [] ht (le_refl _) h2 h3

/-- C127: the data tokens of a spine cover its time without gaps or overlaps, from the first one to the end, also with
data after merges. -/
theorem spine_covered (endT : Rat) (s : DStrand) (h2 : s.NamedAs s.headInfo) (h3 : s.JoinsTok) (t0 : Rat)
    (ht : s.mainTimes.getLast? = some t0) : (assignTrack endT s).mainDurs.sum = endT - t0 := by
  have key : ∀ (s : DStrand) (info : Str) (cur : Rat), s.NamedAs info → s.JoinsTok →
      (assignDurs info cur s).mainDurs.sum = cur - (s.mainTimes.getLast?).getD cur := by
    intro s
    induction s with
    | top => intro info cur _ _; simp [assignDurs, DStrand.mainDurs, DStrand.mainTimes]
    | tok i t d u prev ih =>
      intro info cur h2 h3
      cases d with
      | true =>
        rw [assign_data info i cur t u prev h2.1]
        simp only [DStrand.mainDurs, DStrand.mainTimes, if_true, List.singleton_append, List.sum_cons, ih info t h2.2 h3]
        rw [List.getLast?_cons]
        simp only [Option.getD_some]
        linarith
      | false =>
        rw [assign_other info i cur t u prev h2.1]
        simp only [DStrand.mainDurs, DStrand.mainTimes]
        exact ih info cur h2.2 h3
    | join sub rest _ ih2 =>
      intro info cur h2 h3
      rw [assign_join info cur sub rest h2.2 h3.1]
      exact ih2 info cur h2.2 h3.2.2
  have := key s s.headInfo endT h2 h3
  rw [ht] at this
  exact this

/-! ## Where the claim is false -/

/-- Two spines merge before a line of data at time 2: the token at time 1 of the second spine is taken to last
until the end at time 4, beyond the token at time 2; the one of the first spine lasts until time 2. -/
theorem data_after_merge_breaks :
    assignTrack 4 (.join (.tok "(1)b".toList 1 true (-1) .top) (.tok "1".toList 2 true (-1) (.tok "(1)a".toList 1 true (-1) .top))) =
      .join (.tok "(1)b".toList 1 true 3 .top) (.tok "1".toList 2 true 2 (.tok "(1)a".toList 1 true 1 .top)) := by
  decide +kernel

/-- A second spine that is split and merged again keeps tokens without a duration: the code stops at the other name. -/
theorem second_split_breaks :
    assignTrack 4 (.tok "1".toList 4 false (-1) (.join
      (.tok "(1)b".toList 3 true (-1) (.tok "((1)b)a".toList 2 true (-1) (.tok "(1)b".toList 1 true (-1) .top)))
      (.tok "1".toList 3 false (-1) (.tok "(1)a".toList 1 true (-1) .top)))) =
    .tok "1".toList 4 false (-1) (.join
      (.tok "(1)b".toList 3 true 1 (.tok "((1)b)a".toList 2 true (-1) (.tok "(1)b".toList 1 true (-1) .top)))
      (.tok "1".toList 3 false (-1) (.tok "(1)a".toList 1 true 3 .top))) := by
  decide +kernel

/-! ## The hypotheses are met -/

/-- Dynamics with a second spine for a while. -/
def dynTrack : DStrand :=
  .tok "1".toList 8 false (-1) (.tok "1".toList 6 true (-1) (.join
    (.tok "(1)b".toList 5 true (-1) (.tok "(1)b".toList 4 false (-1) (.tok "(1)b".toList 3 true (-1) .top)))
    (.tok "1".toList 6 false (-1) (.tok "(1)a".toList 5 false (-1) (.tok "(1)a".toList 4 true (-1)
      (.tok "1".toList 3 false (-1) (.tok "1".toList 0 true (-1) (.tok "1".toList 0 false (-1) .top))))))))

example : dynTrack.NoDataAfterMerge ∧ dynTrack.NamedAs dynTrack.headInfo ∧ dynTrack.JoinsTok ∧ dynTrack.InTime 8 ∧
    dynTrack.mainTimes.getLast? = some 0 := by
  refine ⟨?_, ?_, ?_, ?_, ?_⟩
  · simp [dynTrack, DStrand.NoDataAfterMerge, DStrand.firstTok]
  · simp [dynTrack, DStrand.NamedAs, DStrand.headInfo]
  · simp [dynTrack, DStrand.JoinsTok, DStrand.firstTok]
  · simp only [dynTrack, DStrand.InTime]
    norm_num
  · decide +kernel

example : ((assignTrack 8 dynTrack).places []).filterMap (fun p => if p.data then some (p.time, p.dur) else none) =
    [(6, 2), (5, 1), (3, 2), (4, 2), (0, 4)] := by decide +kernel

end C21
