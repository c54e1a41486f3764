import Verif.Spec.Tremolo
import Verif.Lemmas.Tac
import Mathlib.Algebra.Order.Field.Basic
import Mathlib.Tactic.Positivity
import Mathlib.Tactic.NormNum
/-
Null lines and the walk along a column, for C51.
-/
namespace C21

/-! ## Lines -/

theorem columnEvents_append (c : Nat) (a b : List TLine) : columnEvents c (a ++ b) = columnEvents c a ++ columnEvents c b :=
  List.filterMap_append

theorem columnEvents_cons (c : Nat) (x : TLine) (b : List TLine) :
    columnEvents c (x :: b) = (lineEvent c x).toList ++ columnEvents c b := by
  unfold columnEvents
  rw [List.filterMap_cons]
  cases lineEvent c x <;> rfl

theorem lineEvent_some (c : Nat) (x : TLine) (e : CEvent) : lineEvent c x = some e ↔
    x.data = true ∧ x.toks[c]? = some e.text ∧ e.text ≠ ".".toList ∧ e.timed = decide (x.dur ≠ 0) ∧ e.time = x.time := by
  unfold lineEvent
  cases hx : x.data
  · simp
  · simp only [if_true, true_and]
    cases ht : x.toks[c]? with
    | none => simp
    | some t =>
      simp only [Option.bind_some]
      by_cases h : t = ".".toList
      · rw [if_pos h]
        constructor
        · intro he; cases he
        · intro ⟨h1, h2, _⟩
          exact absurd ((Option.some.inj h1) ▸ h) h2
      · rw [if_neg h]
        constructor
        · intro he
          cases he
          exact ⟨rfl, h, rfl, rfl⟩
        · rintro ⟨h1, h2, h3, h4⟩
          cases e
          simp only at h1 h2 h3 h4
          rw [h3, h4, Option.some.inj h1]

theorem mem_columnEvents (c : Nat) (l : List TLine) (e : CEvent) : e ∈ columnEvents c l ↔
    ∃ x ∈ l, x.data = true ∧ x.toks[c]? = some e.text ∧ e.text ≠ ".".toList ∧ e.timed = decide (x.dur ≠ 0) ∧ e.time = x.time := by
  unfold columnEvents
  rw [List.mem_filterMap]
  simp only [lineEvent_some]

theorem timed_iff (x : TLine) : x.timed = true ↔ x.data = true ∧ x.dur ≠ 0 := by
  unfold TLine.timed
  simp

/-- A line with notes that are not grace notes stands at this time. -/
def TimedAt (l : List TLine) (t : Rat) : Prop := ∃ x ∈ l, x.timed = true ∧ x.time = t

/-- Two files with the same music. -/
def SameMusic (w : Nat) (l l' : List TLine) : Prop :=
  FileOk w l' ∧ (∀ c, columnEvents c l' = columnEvents c l) ∧ (∀ t, CoveredAt l t → CoveredAt l' t) ∧
  (∀ t, TimedAt l t → TimedAt l' t) ∧ l'.filter (fun x => !x.data) = l.filter (fun x => !x.data)

theorem sameMusic_refl (w : Nat) (l : List TLine) (h : FileOk w l) : SameMusic w l l :=
  ⟨h, fun _ => rfl, fun _ h => h, fun _ h => h, rfl⟩

theorem sameMusic_trans {w : Nat} {a b c : List TLine} (h1 : SameMusic w a b) (h2 : SameMusic w b c) : SameMusic w a c :=
  ⟨h2.1, fun k => (h2.2.1 k).trans (h1.2.1 k), fun t h => h2.2.2.1 t (h1.2.2.1 t h), fun t h => h2.2.2.2.1 t (h1.2.2.2.1 t h),
    h2.2.2.2.2.trans h1.2.2.2.2⟩

theorem fileOk_split {w : Nat} {A B : List TLine} {x : TLine} (h : FileOk w (A ++ x :: B)) :
    (∀ a ∈ A, a.time + a.dur ≤ x.time) ∧ (∀ b ∈ B, x.time + x.dur ≤ b.time) ∧ (∀ a ∈ A, ∀ b ∈ B, a.time + a.dur ≤ b.time) := by
  obtain ⟨hp, _⟩ := h
  rw [List.pairwise_append] at hp
  obtain ⟨_, h2, h3⟩ := hp
  rw [List.pairwise_cons] at h2
  exact ⟨fun a ha => h3 a ha x List.mem_cons_self, h2.1, fun a ha b hb => h3 a ha b (List.mem_cons_of_mem _ hb)⟩

theorem nullPlace_skip (ts : Rat) (A : List TLine) (h : ∀ a ∈ A, a.time < ts) (rest : List TLine) (i : Nat) (b : Option Nat) :
    ∃ b', nullPlace ts i b (A ++ rest) = nullPlace ts (i + A.length) b' rest := by
  induction A generalizing i b with
  | nil => exact ⟨b, rfl⟩
  | cons a A ih =>
    have ha := h a List.mem_cons_self
    rw [List.cons_append, nullPlace.eq_2]
    by_cases hd : a.data = false
    · rw [if_pos hd]
      obtain ⟨b', hb⟩ := ih (fun a ha => h a (List.mem_cons_of_mem _ ha)) (i + 1) b
      refine ⟨b', ?_⟩
      rw [hb, List.length_cons, show i + 1 + A.length = i + (A.length + 1) by omega]
    · rw [if_neg hd, if_neg (ne_of_lt ha), if_neg (not_lt.2 (le_of_lt ha))]
      obtain ⟨b', hb⟩ := ih (fun a ha => h a (List.mem_cons_of_mem _ ha)) (i + 1) (some i)
      refine ⟨b', ?_⟩
      rw [hb, List.length_cons, show i + 1 + A.length = i + (A.length + 1) by omega]

theorem nullPlace_here (ts : Rat) (A : List TLine) (h : ∀ a ∈ A, a.time ≤ ts) (x : TLine) (hx : x.data = true) (ht : x.time = ts)
    (B : List TLine) (i : Nat) (b : Option Nat) : nullPlace ts i b (A ++ x :: B) = .here := by
  induction A generalizing i b with
  | nil =>
    rw [List.nil_append]
    unfold nullPlace
    rw [if_neg (by simp [hx]), if_pos ht]
  | cons a A ih =>
    have ha := h a List.mem_cons_self
    rw [List.cons_append]
    unfold nullPlace
    have ih' := ih (fun a ha => h a (List.mem_cons_of_mem _ ha))
    by_cases hd : a.data = false
    · rw [if_pos hd, ih']
    · rw [if_neg hd]
      by_cases he : a.time = ts
      · rw [if_pos he]
      · rw [if_neg he, if_neg (not_lt.2 ha), ih']

theorem nullPlace_later (ts : Rat) (B : List TLine) (h : ∀ b ∈ B, ts < b.time) (i : Nat) (b : Option Nat) :
    nullPlace ts i b B = .after b := by
  induction B generalizing i b with
  | nil => rfl
  | cons a B ih =>
    have ha := h a List.mem_cons_self
    unfold nullPlace
    by_cases hd : a.data = false
    · rw [if_pos hd, ih (fun a ha => h a (List.mem_cons_of_mem _ ha))]
    · rw [if_neg hd, if_neg (ne_of_gt ha), if_pos ha]

theorem insertNull_at (ts : Rat) (w : Nat) (A B : List TLine) (x : TLine) (ok : FileOk w (A ++ x :: B)) (hx : x.data = true)
    (h : x.time = ts) : insertNull ts (A ++ x :: B) = A ++ x :: B := by
  obtain ⟨h1, -, -⟩ := fileOk_split ok
  unfold insertNull
  rw [nullPlace_here ts A (fun a ha => ?_) x hx h B]
  have := (ok.2 a (by simp [ha])).1
  have := h1 a ha
  linarith

theorem insertNull_inside (ts : Rat) (w : Nat) (A B : List TLine) (x : TLine) (ok : FileOk w (A ++ x :: B)) (hx : x.data = true)
    (h1 : x.time < ts) (h2 : ts < x.time + x.dur) :
    insertNull ts (A ++ x :: B) = A ++ shortened ts x :: nullLine ts x :: B := by
  obtain ⟨k1, k2, -⟩ := fileOk_split ok
  unfold insertNull
  obtain ⟨b', hb⟩ := nullPlace_skip ts A (fun a ha => by
    have := (ok.2 a (by simp [ha])).1
    have := k1 a ha
    linarith) (x :: B) 0 none
  have hp : nullPlace ts 0 none (A ++ x :: B) = .after (some A.length) := by
    rw [hb]
    unfold nullPlace
    rw [if_neg (by simp [hx]), if_neg (ne_of_lt h1), if_neg (not_lt.2 (le_of_lt h1)), Nat.zero_add]
    exact nullPlace_later ts B (fun b hb => lt_of_lt_of_le h2 (k2 b hb)) _ _
  rw [hp]
  simp

theorem insertNull_same (ts : Rat) (w : Nat) (l : List TLine) (ok : FileOk w l) (hc : CoveredAt l ts) :
    SameMusic w l (insertNull ts l) ∧ TimedAt (insertNull ts l) ts := by
  obtain ⟨x, hx, hd, h1, h2⟩ := hc
  obtain ⟨A, B, rfl⟩ := List.append_of_mem hx
  have hpos : 0 < x.dur := by linarith
  rcases lt_or_eq_of_le h1 with h1 | h1
  · rw [insertNull_inside ts w A B x ok hd h1 h2]
    obtain ⟨k1, k2, k3⟩ := fileOk_split ok
    have tx : x.timed = true := (timed_iff x).2 ⟨hd, ne_of_gt hpos⟩
    have ts1 : (shortened ts x).timed = true := (timed_iff _).2 ⟨hd, by show ts - x.time ≠ 0; intro h; linarith⟩
    have ts2 : (nullLine ts x).timed = true := (timed_iff _).2 ⟨rfl, by show x.dur - (ts - x.time) ≠ 0; intro h; linarith⟩
    refine ⟨⟨⟨?_, ?_⟩, ?_, ?_, ?_, ?_⟩, ?_⟩
    · have hp := ok.1
      rw [List.pairwise_append] at hp ⊢
      obtain ⟨p1, p2, -⟩ := hp
      rw [List.pairwise_cons] at p2
      refine ⟨p1, ?_, ?_⟩
      · rw [List.pairwise_cons, List.pairwise_cons]
        refine ⟨?_, ?_, p2.2⟩
        · intro b hb
          rcases List.mem_cons.1 hb with rfl | hb
          · show x.time + (ts - x.time) ≤ ts
            linarith
          · have := k2 b hb
            show x.time + (ts - x.time) ≤ b.time
            linarith
        · intro b hb
          have := k2 b hb
          show ts + (x.dur - (ts - x.time)) ≤ b.time
          linarith
      · intro a ha b hb
        have := k1 a ha
        rcases List.mem_cons.1 hb with rfl | hb
        · exact this
        · rcases List.mem_cons.1 hb with rfl | hb
          · show a.time + a.dur ≤ ts
            linarith
          · exact k3 a ha b hb
    · intro y hy
      have hxo := ok.2 x (by simp)
      rcases List.mem_append.1 hy with hy | hy
      · exact ok.2 y (by simp [hy])
      · rcases List.mem_cons.1 hy with rfl | hy
        · exact ⟨by show 0 ≤ ts - x.time; linarith, hxo.2⟩
        · rcases List.mem_cons.1 hy with rfl | hy
          · refine ⟨by show 0 ≤ x.dur - (ts - x.time); linarith, fun _ => ?_⟩
            show (x.toks.map _).length = w
            rw [List.length_map]
            exact hxo.2 hd
          · exact ok.2 y (by simp [hy])
    · intro c
      rw [columnEvents_append, columnEvents_append, columnEvents_cons, columnEvents_cons, columnEvents_cons c x]
      have e1 : lineEvent c (shortened ts x) = lineEvent c x := by
        ext e
        rw [lineEvent_some, lineEvent_some]
        have d1 : decide ((shortened ts x).dur ≠ 0) = true := decide_eq_true ((timed_iff _).1 ts1).2
        have d2 : decide (x.dur ≠ 0) = true := decide_eq_true (ne_of_gt hpos)
        rw [d1, d2]
        exact Iff.rfl
      have e2 : lineEvent c (nullLine ts x) = none := by
        rw [Option.eq_none_iff_forall_not_mem]
        intro e he
        obtain ⟨-, g1, g2, -⟩ := (lineEvent_some c _ e).1 he
        apply g2
        have : (x.toks.map (fun _ => ".".toList))[c]? = some e.text := g1
        rw [List.getElem?_map] at this
        cases hq : x.toks[c]? with
        | none => rw [hq] at this; cases this
        | some q =>
          rw [hq] at this
          exact (Option.some.inj this).symm
      rw [e1, e2]
      rfl
    · rintro t ⟨y, hy, g1, g2, g3⟩
      rcases List.mem_append.1 hy with hy | hy
      · exact ⟨y, by simp [hy], g1, g2, g3⟩
      · rcases List.mem_cons.1 hy with rfl | hy
        · by_cases ht : t < ts
          · exact ⟨shortened ts y, by simp, hd, g2, by show t < y.time + (ts - y.time); linarith⟩
          · exact ⟨nullLine ts y, by simp, rfl, not_lt.1 ht, by show t < ts + (y.dur - (ts - y.time)); linarith⟩
        · exact ⟨y, by simp [hy], g1, g2, g3⟩
    · rintro t ⟨y, hy, g1, g2⟩
      rcases List.mem_append.1 hy with hy | hy
      · exact ⟨y, by simp [hy], g1, g2⟩
      · rcases List.mem_cons.1 hy with rfl | hy
        · exact ⟨shortened ts y, by simp, ts1, g2⟩
        · exact ⟨y, by simp [hy], g1, g2⟩
    · have f1 : (shortened ts x).data = true := hd
      have f2 : (nullLine ts x).data = true := rfl
      simp [List.filter_append, f1, f2, hd]
    · exact ⟨nullLine ts x, by simp, ts2, rfl⟩
  · rw [insertNull_at ts w A B x ok hd h1]
    exact ⟨sameMusic_refl w _ ok, x, by simp, (timed_iff x).2 ⟨hd, ne_of_gt hpos⟩, h1⟩

theorem insertNulls_same (w : Nat) (tss : List Rat) (l : List TLine) (ok : FileOk w l) (hc : ∀ t ∈ tss, CoveredAt l t) :
    SameMusic w l (tss.foldl (fun l t => insertNull t l) l) ∧ ∀ t ∈ tss, TimedAt (tss.foldl (fun l t => insertNull t l) l) t := by
  induction tss generalizing l with
  | nil => exact ⟨sameMusic_refl w l ok, fun t ht => by simp at ht⟩
  | cons t tss ih =>
    obtain ⟨h1, h2⟩ := insertNull_same t w l ok (hc t List.mem_cons_self)
    obtain ⟨h3, h4⟩ := ih (insertNull t l) h1.1 (fun t' ht' => h1.2.2.1 t' (hc t' (List.mem_cons_of_mem _ ht')))
    rw [List.foldl_cons]
    refine ⟨sameMusic_trans h1 h3, fun t' ht' => ?_⟩
    rcases List.mem_cons.1 ht' with rfl | ht'
    · exact h3.2.2.2.1 _ h2
    · exact h4 t' ht'

/-- All the null lines are added where the file goes on. -/
theorem addAllNulls_same (w : Nat) (ms : List TMark) (l : List TLine) (ok : FileOk w l)
    (hm : ∀ m ∈ ms, ∃ ts, nullTimes m.time m.text = .ok ts ∧ ∀ t ∈ ts, CoveredAt l t) :
    ∃ l', addAllNulls ms l = .ok l' ∧ SameMusic w l l' ∧ ∀ m ∈ ms, ∀ ts, nullTimes m.time m.text = .ok ts → ∀ t ∈ ts, TimedAt l' t := by
  induction ms with
  | nil => exact ⟨l, rfl, sameMusic_refl w l ok, fun m hm => by simp at hm⟩
  | cons m ms ih =>
    obtain ⟨l', h1, h2, h3⟩ := ih (fun m' hm' => hm m' (List.mem_cons_of_mem _ hm'))
    obtain ⟨ts, h4, h5⟩ := hm m List.mem_cons_self
    obtain ⟨h6, h7⟩ := insertNulls_same w ts l' h2.1 (fun t ht => h2.2.2.1 t (h5 t ht))
    refine ⟨ts.foldl (fun l t => insertNull t l) l', ?_, sameMusic_trans h2 h6, ?_⟩
    · unfold addAllNulls addNulls
      rw [h1]
      dsimp only
      rw [h4]
      rfl
    · intro m' hm' ts' hts' t ht
      rcases List.mem_cons.1 hm' with rfl | hm'
      · rw [h4] at hts'
        cases hts'
        exact h7 t ht
      · exact h6.2.2.2.1 t (h3 m' hm' ts' hts' t ht)

/-! ## The walk -/

/-- What does not change when tokens are replaced. -/
def skel (x : TLine) : Bool × Rat × Rat × Nat := (x.data, x.time, x.dur, x.toks.length)

theorem fileOk_skel (w : Nat) (l : List TLine) : FileOk w l ↔
    (l.map skel).Pairwise (fun a b => a.2.1 + a.2.2.1 ≤ b.2.1) ∧ ∀ s ∈ l.map skel, 0 ≤ s.2.2.1 ∧ (s.1 = true → s.2.2.2 = w) := by
  unfold FileOk
  rw [List.pairwise_map, List.forall_mem_map]
  exact Iff.rfl

theorem timedAt_skel (l : List TLine) (t : Rat) : TimedAt l t ↔ ∃ s ∈ l.map skel, s.1 = true ∧ s.2.2.1 ≠ 0 ∧ s.2.1 = t := by
  unfold TimedAt
  constructor
  · rintro ⟨x, hx, h1, h2⟩
    obtain ⟨h3, h4⟩ := (timed_iff x).1 h1
    exact ⟨skel x, List.mem_map_of_mem hx, h3, h4, h2⟩
  · rintro ⟨s, hs, h1, h2, h3⟩
    obtain ⟨x, hx, rfl⟩ := List.mem_map.1 hs
    exact ⟨x, hx, (timed_iff x).2 ⟨h1, h2⟩, h3⟩

theorem setTok_skel (x : TLine) (c : Nat) (t : Str) : skel (x.setTok c t) = skel x := by
  unfold skel TLine.setTok
  simp

theorem fill_skel (c : Nat) (p : TPlan) (l : List TLine) (k : Nat) (ts : Rat) : (fill c p k ts l).map skel = l.map skel := by
  induction l generalizing k ts with
  | nil => rfl
  | cons x rest ih =>
    unfold fill
    by_cases h1 : x.timed = false
    · rw [if_pos h1, List.map_cons, List.map_cons, ih]
    rw [if_neg h1]
    by_cases h2 : x.time < ts
    · rw [if_pos h2, List.map_cons, List.map_cons, ih]
    rw [if_neg h2]
    by_cases h3 : ts < x.time
    · rw [if_pos h3]
    rw [if_neg h3]
    by_cases h4 : p.count ≤ k + 1
    · rw [if_pos h4, List.map_cons, List.map_cons, setTok_skel]
    · rw [if_neg h4, List.map_cons, List.map_cons, setTok_skel, ih]

theorem lineEvent_setTok_ne (c c' : Nat) (h : c' ≠ c) (x : TLine) (t : Str) : lineEvent c' (x.setTok c t) = lineEvent c' x := by
  unfold lineEvent TLine.setTok
  dsimp only
  rw [List.getElem?_set_ne (Ne.symm h)]

theorem lineEvent_setTok (c : Nat) (x : TLine) (t : Str) (hd : x.timed = true) (hc : c < x.toks.length) (ht : t ≠ ".".toList) :
    lineEvent c (x.setTok c t) = some ⟨true, x.time, t⟩ := by
  obtain ⟨h1, h2⟩ := (timed_iff x).1 hd
  rw [lineEvent_some]
  refine ⟨h1, ?_, ht, ?_, rfl⟩
  · show (x.toks.set c t)[c]? = some t
    rw [List.getElem?_set_self hc]
  · show true = decide (x.dur ≠ 0)
    exact (decide_eq_true h2).symm

theorem fill_other (c c' : Nat) (h : c' ≠ c) (p : TPlan) (l : List TLine) (k : Nat) (ts : Rat) :
    columnEvents c' (fill c p k ts l) = columnEvents c' l := by
  induction l generalizing k ts with
  | nil => rfl
  | cons x rest ih =>
    unfold fill
    by_cases h1 : x.timed = false
    · rw [if_pos h1, columnEvents_cons, columnEvents_cons, ih]
    rw [if_neg h1]
    by_cases h2 : x.time < ts
    · rw [if_pos h2, columnEvents_cons, columnEvents_cons, ih]
    rw [if_neg h2]
    by_cases h3 : ts < x.time
    · rw [if_pos h3]
    rw [if_neg h3]
    by_cases h4 : p.count ≤ k + 1
    · rw [if_pos h4, columnEvents_cons, columnEvents_cons, lineEvent_setTok_ne c c' h]
    · rw [if_neg h4, columnEvents_cons, columnEvents_cons, lineEvent_setTok_ne c c' h, ih]

theorem fill_nondata (c : Nat) (p : TPlan) (l : List TLine) (k : Nat) (ts : Rat) :
    (fill c p k ts l).filter (fun x => !x.data) = l.filter (fun x => !x.data) := by
  have key : ∀ (x : TLine) (t : Str) (r : List TLine), x.timed = true →
      (x.setTok c t :: r).filter (fun x => !x.data) = r.filter (fun x => !x.data) ∧
      (x :: r).filter (fun x => !x.data) = r.filter (fun x => !x.data) := by
    intro x t r hx
    have h1 := ((timed_iff x).1 hx).1
    have h2 : (x.setTok c t).data = true := h1
    simp [h1, h2]
  induction l generalizing k ts with
  | nil => rfl
  | cons x rest ih =>
    unfold fill
    by_cases h1 : x.timed = false
    · rw [if_pos h1, List.filter_cons, List.filter_cons, ih]
    rw [if_neg h1]
    have h1' : x.timed = true := by simpa using h1
    by_cases h2 : x.time < ts
    · rw [if_pos h2, List.filter_cons, List.filter_cons, ih]
    rw [if_neg h2]
    by_cases h3 : ts < x.time
    · rw [if_pos h3]
    rw [if_neg h3]
    by_cases h4 : p.count ≤ k + 1
    · rw [if_pos h4, (key x _ _ h1').1, (key x [] _ h1').2]
    · rw [if_neg h4, (key x _ _ h1').1, (key x [] _ h1').2, ih]

theorem fileOk_tail {w : Nat} {x : TLine} {l : List TLine} (h : FileOk w (x :: l)) : FileOk w l :=
  ⟨(List.pairwise_cons.1 h.1).2, fun y hy => h.2 y (List.mem_cons_of_mem _ hy)⟩

/-- The notes written from number `k + 1` on. -/
def gridNotes (p : TPlan) (k : Nat) (ts : Rat) : List CEvent :=
  (List.range (p.count - k)).map (fun j : Nat => ⟨true, ts + j * p.inc, p.text (k + 1 + j)⟩)

theorem gridNotes_cons (p : TPlan) (k : Nat) (ts : Rat) (h : k < p.count) :
    gridNotes p k ts = ⟨true, ts, p.text (k + 1)⟩ :: gridNotes p (k + 1) (ts + p.inc) := by
  unfold gridNotes
  obtain ⟨n, hn⟩ : ∃ n, p.count - k = n + 1 := ⟨p.count - k - 1, by omega⟩
  have hn' : p.count - (k + 1) = n := by omega
  rw [hn, hn', List.range_succ_eq_map, List.map_cons, List.map_map]
  refine congrArg₂ List.cons (by simp) ?_
  apply List.map_congr_left
  intro j _
  simp only [Function.comp_apply]
  congr 1
  · push_cast
    ring
  · congr 1
    omega

/-- The walk: on lines that are there, it writes the notes that are due over what the column has till the end. -/
theorem fill_events (w c : Nat) (p : TPlan) (l : List TLine) (k : Nat) (ts : Rat) (ok : FileOk w l) (hc : c < w)
    (hk : k < p.count) (hi : 0 < p.inc) (ht : ∀ j, p.text j ≠ ".".toList)
    (hg : ∀ j : Nat, j < p.count - k → TimedAt l (ts + j * p.inc))
    (he : ∀ e ∈ columnEvents c l, e.time < ts + (p.count - k : Nat) * p.inc →
      e.timed = true ∧ ∃ j : Nat, j < p.count - k ∧ e.time = ts + j * p.inc) :
    columnEvents c (fill c p k ts l) =
      gridNotes p k ts ++ (columnEvents c l).filter (fun e => decide (ts + (p.count - k : Nat) * p.inc ≤ e.time)) := by
  induction l generalizing k ts with
  | nil =>
    obtain ⟨x, hx, -⟩ := hg 0 (by omega)
    simp at hx
  | cons x rest ih =>
    have hord := (List.pairwise_cons.1 ok.1).1
    have hdur := (ok.2 x List.mem_cons_self).1
    have hcnt : (1 : Rat) ≤ ((p.count - k : Nat) : Rat) := by exact_mod_cast (by omega : 1 ≤ p.count - k)
    have hend : ts < ts + (p.count - k : Nat) * p.inc := by nlinarith
    have move : x.timed = false ∨ x.time < ts → ∀ j : Nat, j < p.count - k → TimedAt rest (ts + j * p.inc) := by
      intro hcase j hj
      obtain ⟨y, hy, h1, h2⟩ := hg j hj
      rcases List.mem_cons.1 hy with rfl | hy
      · exfalso
        rcases hcase with h | h
        · rw [h] at h1; cases h1
        · have : (0 : Rat) ≤ j * p.inc := mul_nonneg (Nat.cast_nonneg j) (le_of_lt hi)
          linarith
      · exact ⟨y, hy, h1, h2⟩
    have drop : lineEvent c x = none → ∀ g : List CEvent, columnEvents c (x :: rest) = columnEvents c rest := by
      intro h _
      rw [columnEvents_cons, h]
      rfl
    have ev : ∀ e, lineEvent c x = some e → e ∈ columnEvents c (x :: rest) := by
      intro e h
      rw [columnEvents_cons, h]
      simp
    have evr : ∀ e ∈ columnEvents c rest, e ∈ columnEvents c (x :: rest) := by
      intro e h
      rw [columnEvents_cons]
      exact List.mem_append_right _ h
    unfold fill
    by_cases h1 : x.timed = false
    · rw [if_pos h1]
      have hno : lineEvent c x = none := by
        rw [Option.eq_none_iff_forall_not_mem]
        intro e h
        obtain ⟨q1, -, -, q4, q5⟩ := (lineEvent_some c x e).1 h
        have hd0 : x.dur = 0 := by
          by_contra hne
          have := (timed_iff x).2 ⟨q1, hne⟩
          rw [h1] at this; cases this
        obtain ⟨y, hy, y1, y2⟩ := move (Or.inl h1) 0 (by omega)
        have := hord y hy
        have hlt : e.time < ts + (p.count - k : Nat) * p.inc := by
          rw [q5]
          simp only [Nat.cast_zero, zero_mul, add_zero] at y2
          linarith
        obtain ⟨t1, -⟩ := he e (ev e h) hlt
        rw [t1, hd0] at q4
        simp at q4
      rw [columnEvents_cons, hno, columnEvents_cons c x rest, hno]
      exact ih k ts (fileOk_tail ok) hk (move (Or.inl h1)) (fun e h => he e (evr e h))
    rw [if_neg h1]
    have h1' : x.timed = true := by simpa using h1
    have hpos : 0 < x.dur := lt_of_le_of_ne hdur (Ne.symm ((timed_iff x).1 h1').2)
    by_cases h2 : x.time < ts
    · rw [if_pos h2]
      have hno : lineEvent c x = none := by
        rw [Option.eq_none_iff_forall_not_mem]
        intro e h
        obtain ⟨-, -, -, -, q5⟩ := (lineEvent_some c x e).1 h
        obtain ⟨-, j, -, hj⟩ := he e (ev e h) (by rw [q5]; linarith)
        have : (0 : Rat) ≤ j * p.inc := mul_nonneg (Nat.cast_nonneg j) (le_of_lt hi)
        linarith
      rw [columnEvents_cons, hno, columnEvents_cons c x rest, hno]
      exact ih k ts (fileOk_tail ok) hk (move (Or.inr h2)) (fun e h => he e (evr e h))
    rw [if_neg h2]
    by_cases h3 : ts < x.time
    · exfalso
      obtain ⟨y, hy, y1, y2⟩ := hg 0 (by omega)
      simp only [Nat.cast_zero, zero_mul, add_zero] at y2
      rcases List.mem_cons.1 hy with rfl | hy
      · linarith
      · have := hord y hy
        linarith
    rw [if_neg h3]
    have heq : x.time = ts := le_antisymm (not_lt.1 h3) (not_lt.1 h2)
    have hlen : c < x.toks.length := by
      rw [(ok.2 x List.mem_cons_self).2 ((timed_iff x).1 h1').1]; exact hc
    have hlater : ∀ e ∈ columnEvents c rest, ts < e.time := by
      intro e h
      obtain ⟨y, hy, -, -, -, -, q⟩ := (mem_columnEvents c rest e).1 h
      have := hord y hy
      rw [q]; linarith
    have hold : (columnEvents c (x :: rest)).filter (fun e => decide (ts + (p.count - k : Nat) * p.inc ≤ e.time)) =
        (columnEvents c rest).filter (fun e => decide (ts + (p.count - k : Nat) * p.inc ≤ e.time)) := by
      rw [columnEvents_cons, List.filter_append]
      cases hx : lineEvent c x with
      | none => rfl
      | some e =>
        obtain ⟨-, -, -, -, q5⟩ := (lineEvent_some c x e).1 hx
        have : ¬ ts + (p.count - k : Nat) * p.inc ≤ e.time := by rw [q5, heq]; exact not_le.2 hend
        simp [this]
    rw [hold, gridNotes_cons p k ts hk]
    have hshift : ∀ e ∈ columnEvents c rest, e.time < ts + (p.count - k : Nat) * p.inc →
        e.timed = true ∧ ∃ j : Nat, j < p.count - (k + 1) ∧ e.time = ts + p.inc + j * p.inc := by
      intro e h hlt
      obtain ⟨t1, j, hj, t2⟩ := he e (evr e h) hlt
      have := hlater e h
      cases j with
      | zero => simp at t2; linarith
      | succ j =>
        refine ⟨t1, j, by omega, ?_⟩
        rw [t2]; push_cast; ring
    by_cases h4 : p.count ≤ k + 1
    · rw [if_pos h4, columnEvents_cons, lineEvent_setTok c x _ h1' hlen (ht _), heq]
      have hz : p.count - (k + 1) = 0 := by omega
      have hg0 : gridNotes p (k + 1) (ts + p.inc) = [] := by unfold gridNotes; rw [hz]; rfl
      rw [hg0]
      have : (columnEvents c rest).filter (fun e => decide (ts + (p.count - k : Nat) * p.inc ≤ e.time)) = columnEvents c rest := by
        rw [List.filter_eq_self]
        intro e h
        rw [decide_eq_true_iff]
        by_contra hn
        obtain ⟨-, j, hj, -⟩ := hshift e h (not_le.1 hn)
        omega
      rw [this]
      rfl
    · rw [if_neg h4, columnEvents_cons, lineEvent_setTok c x _ h1' hlen (ht _), heq]
      have hn : p.count - k = p.count - (k + 1) + 1 := by omega
      have hE : ts + (p.count - k : Nat) * p.inc = ts + p.inc + (p.count - (k + 1) : Nat) * p.inc := by
        rw [hn]; push_cast; ring
      rw [hE] at hshift ⊢
      rw [ih (k + 1) (ts + p.inc) (fileOk_tail ok) (by omega) ?_ hshift]
      · rfl
      · intro j hj
        obtain ⟨y, hy, y1, y2⟩ := hg (j + 1) (by omega)
        rcases List.mem_cons.1 hy with rfl | hy
        · exfalso
          have : (0 : Rat) ≤ j * p.inc := mul_nonneg (Nat.cast_nonneg j) (le_of_lt hi)
          push_cast at y2
          linarith
        · exact ⟨y, hy, y1, by rw [y2]; push_cast; ring⟩

end C21
