import Verif.Props.TremoloLines
import Verif.Props.TremoloText
import Mathlib.Data.List.Forall2
import Mathlib.Data.List.Flatten
/-
Property theorems for tremolo expansion (C51).
-/
namespace C21

/-! ## The marks -/

theorem mem_withCols (l : List Str) (p : Nat × Str) : p ∈ withCols l ↔ l[p.1]? = some p.2 := by
  unfold withCols
  rw [List.mem_iff_getElem?]
  constructor
  · rintro ⟨i, hi⟩
    rw [List.getElem?_zip_eq_some] at hi
    obtain ⟨h1, h2⟩ := hi
    obtain ⟨h3, h4⟩ := List.getElem?_eq_some_iff.1 h1
    rw [List.getElem_range] at h4
    rw [← h4]
    exact h2
  · intro h
    refine ⟨p.1, ?_⟩
    rw [List.getElem?_zip_eq_some]
    obtain ⟨h1, -⟩ := List.getElem?_eq_some_iff.1 h
    refine ⟨?_, h⟩
    rw [List.getElem?_range h1]

theorem withCols_nodup (l : List Str) : (withCols l).Pairwise (fun a b => a.1 ≠ b.1) := by
  have h : ((withCols l).map Prod.fst).Nodup := by
    unfold withCols
    rw [List.map_fst_zip (by simp)]
    exact List.nodup_range
  exact List.pairwise_map.1 h

/-- The marked notes of the columns. -/
theorem mem_tremoloMarks (kern : Nat → Bool) (l : List TLine) (m : TMark) : m ∈ tremoloMarks kern l ↔
    kern m.col = true ∧ (markValue m.text).isSome = true ∧ (⟨true, m.time, m.text⟩ : CEvent) ∈ columnEvents m.col l := by
  unfold tremoloMarks
  rw [List.mem_flatMap, mem_columnEvents]
  constructor
  · rintro ⟨x, hx, hm⟩
    unfold lineMarks at hm
    split at hm
    · next ht =>
      obtain ⟨h1, h2⟩ := (timed_iff x).1 ht
      obtain ⟨p, hp, rfl⟩ := List.mem_map.1 hm
      obtain ⟨hp1, hp2⟩ := List.mem_filter.1 hp
      rw [List.mem_reverse, mem_withCols] at hp1
      simp only [Bool.and_eq_true, decide_eq_true_eq] at hp2
      exact ⟨hp2.1.1, hp2.2, x, hx, h1, hp1, hp2.1.2, (decide_eq_true h2).symm, rfl⟩
    · simp at hm
  · rintro ⟨hk, hv, x, hx, h1, h2, h3, h4, h5⟩
    refine ⟨x, hx, ?_⟩
    have hd : x.dur ≠ 0 := of_decide_eq_true h4.symm
    unfold lineMarks
    rw [if_pos ((timed_iff x).2 ⟨h1, hd⟩), List.mem_map]
    refine ⟨(m.col, m.text), ?_, ?_⟩
    · rw [List.mem_filter, List.mem_reverse, mem_withCols]
      refine ⟨h2, ?_⟩
      simp only [Bool.and_eq_true, decide_eq_true_eq]
      exact ⟨⟨hk, h3⟩, hv⟩
    · cases m
      simp only at h5
      rw [h5]

theorem tremoloMarks_distinct (w : Nat) (kern : Nat → Bool) (l : List TLine) (ok : FileOk w l) :
    (tremoloMarks kern l).Pairwise (fun a b => a.time ≠ b.time ∨ a.col ≠ b.col) := by
  induction l with
  | nil => exact List.Pairwise.nil
  | cons x l ih =>
    have hord := (List.pairwise_cons.1 ok.1).1
    have hdur := (ok.2 x List.mem_cons_self).1
    unfold tremoloMarks
    rw [List.flatMap_cons, List.pairwise_append]
    refine ⟨?_, ih (fileOk_tail ok), ?_⟩
    · unfold lineMarks
      split
      · rw [List.pairwise_map]
        apply List.Pairwise.filter
        rw [List.pairwise_reverse]
        exact (withCols_nodup x.toks).imp (fun h => Or.inr (Ne.symm h))
      · exact List.Pairwise.nil
    · intro a ha b hb
      left
      have ha' : x.timed = true ∧ a.time = x.time := by
        unfold lineMarks at ha
        split at ha
        · next h =>
          obtain ⟨p, -, rfl⟩ := List.mem_map.1 ha
          exact ⟨h, rfl⟩
        · simp at ha
      have hpos : 0 < x.dur := lt_of_le_of_ne hdur (Ne.symm ((timed_iff x).1 ha'.1).2)
      have hb2 := ((mem_tremoloMarks kern l b).1 hb).2.2
      obtain ⟨y, hy, -, -, -, -, q⟩ := (mem_columnEvents _ l _).1 hb2
      have := hord y hy
      simp only at q
      rw [ha'.2, q]
      intro h
      linarith

/-! ## One tremolo -/

/-- A line in the file, found by its time. -/
theorem expandMark_split (w : Nat) (m : TMark) (P rest : List TLine) (x : TLine) (ok : FileOk w (P ++ x :: rest)) (hx : x.timed = true)
    (ht : x.time = m.time) : expandMark m (P ++ x :: rest) = (expandToken m.col x rest).map (P ++ ·) := by
  induction P with
  | nil =>
    rw [List.nil_append, expandMark, if_pos (by simp [hx, ht])]
    cases expandToken m.col x rest <;> rfl
  | cons y P ih =>
    rw [List.cons_append] at ok ⊢
    have hord := (List.pairwise_cons.1 ok.1).1 x (by simp)
    have hdur := (ok.2 y List.mem_cons_self).1
    rw [expandMark, if_neg, ih (fileOk_tail ok)]
    · cases expandToken m.col x rest <;> rfl
    · rw [Bool.and_eq_true, decide_eq_true_eq]
      rintro ⟨h1, h2⟩
      have hpos : 0 < y.dur := lt_of_le_of_ne hdur (Ne.symm ((timed_iff y).1 h1).2)
      linarith

/-- A tremolo written over the lines that are there. -/
theorem write_events (w c : Nat) (p : TPlan) (P rest : List TLine) (x : TLine) (ok : FileOk w (P ++ x :: rest)) (hc : c < w)
    (hx : x.timed = true) (hk : 2 ≤ p.count) (hi : 0 < p.inc) (ht : ∀ j, p.text j ≠ ".".toList)
    (hg : ∀ j : Nat, j < p.count → TimedAt (P ++ x :: rest) (x.time + j * p.inc))
    (he : ∀ e ∈ columnEvents c rest, e.time < x.time + p.count * p.inc →
      e.timed = true ∧ ∃ j : Nat, j < p.count ∧ e.time = x.time + j * p.inc) :
    columnEvents c (P ++ writePlan c p x rest) = columnEvents c P ++ (gridNotes p 0 x.time ++
      (columnEvents c rest).filter (fun e => decide (x.time + p.count * p.inc ≤ e.time))) := by
  obtain ⟨k1, k2, k3⟩ := fileOk_split ok
  have okx := ok.2 x (by simp)
  obtain ⟨hd, hdur⟩ := (timed_iff x).1 hx
  have hpos : 0 < x.dur := lt_of_le_of_ne okx.1 (Ne.symm hdur)
  have hlen : c < x.toks.length := by rw [okx.2 hd]; exact hc
  have okr : FileOk w rest := by
    refine ⟨?_, fun y hy => ok.2 y (by simp [hy])⟩
    have := ok.1
    rw [List.pairwise_append] at this
    exact (List.pairwise_cons.1 this.2.1).2
  have hend : x.time + p.inc + ((p.count - 1 : Nat) : Rat) * p.inc = x.time + p.count * p.inc := by
    have : ((p.count - 1 : Nat) : Rat) = p.count - 1 := by
      rw [Nat.cast_sub (by omega)]; norm_num
    rw [this]; ring
  have later : ∀ e ∈ columnEvents c rest, x.time < e.time := by
    intro e h
    obtain ⟨y, hy, -, -, -, -, q⟩ := (mem_columnEvents c rest e).1 h
    have := k2 y hy
    rw [q]; linarith
  unfold writePlan
  rw [columnEvents_append, columnEvents_cons, lineEvent_setTok c x _ hx hlen (ht 1),
    fill_events w c p rest 1 (x.time + p.inc) okr hc (by omega) hi ht, hend, gridNotes_cons p 0 x.time (by omega)]
  · rfl
  · intro j hj
    obtain ⟨y, hy, y1, y2⟩ := hg (j + 1) (by omega)
    have hj0 : (0 : Rat) ≤ j * p.inc := mul_nonneg (Nat.cast_nonneg j) (le_of_lt hi)
    have hy2 : y.time = x.time + p.inc + j * p.inc := by rw [y2]; push_cast; ring
    rcases List.mem_append.1 hy with hy | hy
    · exfalso
      have := k1 y hy
      have := (ok.2 y (by simp [hy])).1
      linarith
    · rcases List.mem_cons.1 hy with rfl | hy
      · exfalso; linarith
      · exact ⟨y, hy, y1, hy2⟩
  · intro e h hlt
    rw [hend] at hlt
    obtain ⟨t1, j, hj, t2⟩ := he e h hlt
    have := later e h
    cases j with
    | zero => simp at t2; linarith
    | succ j =>
      refine ⟨t1, j, by omega, ?_⟩
      rw [t2]; push_cast; ring

/-- Everything else stays. -/
theorem write_rest (c : Nat) (p : TPlan) (P rest : List TLine) (x : TLine) (hx : x.timed = true) :
    (P ++ writePlan c p x rest).map skel = (P ++ x :: rest).map skel ∧
    (∀ c', c' ≠ c → columnEvents c' (P ++ writePlan c p x rest) = columnEvents c' (P ++ x :: rest)) ∧
    (P ++ writePlan c p x rest).filter (fun x => !x.data) = (P ++ x :: rest).filter (fun x => !x.data) := by
  unfold writePlan
  refine ⟨?_, ?_, ?_⟩
  · rw [List.map_append, List.map_append, List.map_cons, List.map_cons, setTok_skel, fill_skel]
  · intro c' h
    rw [columnEvents_append, columnEvents_append, columnEvents_cons, columnEvents_cons, lineEvent_setTok_ne c c' h,
      fill_other c c' h]
  · have h1 := ((timed_iff x).1 hx).1
    have h2 : (x.setTok c (p.text 1)).data = true := h1
    rw [List.filter_append, List.filter_append, List.filter_cons, List.filter_cons, fill_nondata]
    simp [h1, h2]

/-- The notes of the tremolo. -/
def tremoloNotes (v n : Nat) (d : Rat) (time : Rat) (t : Str) : List CEvent :=
  gridNotes ⟨n, 4 / v, bowedText v d t n⟩ 0 time

theorem bowedText_good (v : Nat) (d : Rat) (t : Str) (n j : Nat) (h : TremoloText v d t) : GoodText v t (bowedText v d t n j) := by
  obtain ⟨h1, h2, h3⟩ := bowed_good v d t h
  unfold bowedText
  split
  · exact h1
  · split
    · exact h3
    · exact h2

theorem tremoloNotes_spec (v n : Nat) (d : Rat) (e : CEvent) (h : TremoloText v d e.text) (hv : 8 ≤ v) (hn : 2 ≤ n)
    (hd : d = n * (4 / v)) : TremoloNotes v d e (tremoloNotes v n d e.time e.text) := by
  constructor
  · unfold tremoloNotes gridNotes
    simp [hd]
  · intro k x hx
    unfold tremoloNotes gridNotes at hx
    rw [List.getElem?_map] at hx
    cases hr : (List.range (n - 0))[k]? with
    | none => simp only [hr] at hx; cases hx
    | some j =>
      obtain ⟨h1, h2⟩ := List.getElem?_eq_some_iff.1 hr
      rw [List.getElem_range] at h2
      simp only [hr, Option.map_some] at hx
      have hx' := (Option.some.inj hx).symm
      subst hx' h2
      have hg := bowedText_good v d e.text n (0 + 1 + k) h
      refine ⟨rfl, rfl, shaped_rhythm v (by omega) _ hg.1, hg.2, ?_⟩
      have hl : (tremoloNotes v n d e.time e.text).length = n := by unfold tremoloNotes gridNotes; simp
      rw [hl]
      show TremoloMarks v d e.text n k (bowedText v d e.text n (0 + 1 + k))
      rw [show 0 + 1 + k = k + 1 by omega]
      exact bowedText_marks v d e.text n k hv hn

theorem mem_tremoloNotes (v n : Nat) (d time : Rat) (t : Str) (hv : 0 < v) (hd : d = n * (4 / v)) (x : CEvent)
    (hx : x ∈ tremoloNotes v n d time t) : x.timed = true ∧ time ≤ x.time ∧ x.time < time + d := by
  unfold tremoloNotes gridNotes at hx
  obtain ⟨j, hj, rfl⟩ := List.mem_map.1 hx
  rw [List.mem_range] at hj
  simp only [Nat.sub_zero] at hj
  have hv' : (0 : Rat) < v := by exact_mod_cast hv
  have hinc : (0 : Rat) < 4 / v := by positivity
  have hj' : (j : Rat) + 1 ≤ n := by exact_mod_cast (by omega : j + 1 ≤ n)
  have hj0 : (0 : Rat) ≤ j := Nat.cast_nonneg j
  refine ⟨rfl, ?_, ?_⟩
  · show time ≤ time + j * (4 / v)
    nlinarith
  · show time + j * (4 / v) < time + d
    rw [hd]
    nlinarith

theorem tremoloNotes_sorted (v n : Nat) (d time : Rat) (t : Str) (hv : 0 < v) :
    (tremoloNotes v n d time t).Pairwise (fun a b => a.time < b.time) := by
  unfold tremoloNotes gridNotes
  rw [List.pairwise_map]
  have hv' : (0 : Rat) < v := by exact_mod_cast hv
  have hinc : (0 : Rat) < 4 / v := by positivity
  apply (List.pairwise_lt_range).imp
  intro a b h
  have : (a : Rat) < b := by exact_mod_cast h
  show time + a * (4 / v) < time + b * (4 / v)
  nlinarith

/-! ## All tremolos -/

/-- The mark of an event. -/
def evMark (c : Nat) (e : CEvent) : TMark := ⟨e.time, c, e.text⟩

/-- How the events of a column follow each other while `ms` are still to be expanded. -/
def Follows (c : Nat) (ms : List TMark) (a b : CEvent) : Prop :=
  a.time ≤ b.time ∧ (a.timed = true → b.timed = true → a.time < b.time) ∧
  (a.timed = true → evMark c a ∈ ms → ∀ v d, TremoloText v d a.text → a.time + d ≤ b.time)

theorem tremoloText_unique (v v' : Nat) (d d' : Rat) (t : Str) (h : TremoloText v d t) (h' : TremoloText v' d' t) : v = v' ∧ d = d' := by
  have h1 := markValue_eq v t h.1
  rw [markValue_eq v' t h'.1] at h1
  have h2 := tremolo_duration v d t h
  rw [tremolo_duration v' d' t h'] at h2
  exact ⟨(Option.some.inj h1).symm, (Except.ok.inj h2).symm⟩

/-- What is needed to expand a mark: the lines are there. -/
def MarkReady (l : List TLine) (m : TMark) (v n : Nat) (d : Rat) : Prop :=
  TremoloText v d m.text ∧ 8 ≤ v ∧ 2 ≤ n ∧ d = n * (4 / v) ∧ ∀ j : Nat, j < n → TimedAt l (m.time + j * (4 / v))

theorem tremolo_at (v : Nat) (d : Rat) (t : Str) (h : TremoloText v d t) : '@' ∈ t := by
  obtain ⟨⟨a, b, rfl, -⟩, -⟩ := h
  simp

/-- One mark. -/
theorem expandMark_step (w : Nat) (l : List TLine) (m : TMark) (ms : List TMark) (v n : Nat) (d : Rat) (ok : FileOk w l)
    (hr : MarkReady l m v n d) (hm : m ∈ ms) (hev : (⟨true, m.time, m.text⟩ : CEvent) ∈ columnEvents m.col l)
    (hp : (columnEvents m.col l).Pairwise (Follows m.col ms)) :
    ∃ l' A B, expandMark m l = .ok l' ∧ l'.map skel = l.map skel ∧ (∀ c', c' ≠ m.col → columnEvents c' l' = columnEvents c' l) ∧
      l'.filter (fun x => !x.data) = l.filter (fun x => !x.data) ∧
      columnEvents m.col l = A ++ ⟨true, m.time, m.text⟩ :: B ∧
      columnEvents m.col l' = A ++ (tremoloNotes v n d m.time m.text ++ B) := by
  obtain ⟨htext, hv, hn, hd, hgrid⟩ := hr
  obtain ⟨x, hx, q1, q2, q3, q4, q5⟩ := (mem_columnEvents _ _ _).1 hev
  simp only at q2 q3 q4 q5
  have hxt : x.timed = true := (timed_iff x).2 ⟨q1, of_decide_eq_true q4.symm⟩
  obtain ⟨P, rest, rfl⟩ := List.append_of_mem hx
  have hle : lineEvent m.col x = some ⟨true, m.time, m.text⟩ := (lineEvent_some _ _ _).2 ⟨q1, q2, q3, q4, q5⟩
  have hcw : m.col < w := by
    rw [← (ok.2 x (by simp)).2 q1]
    exact (List.getElem?_eq_some_iff.1 q2).1
  have hcol : columnEvents m.col (P ++ x :: rest) = columnEvents m.col P ++ ⟨true, m.time, m.text⟩ :: columnEvents m.col rest := by
    rw [columnEvents_append, columnEvents_cons, hle]
    rfl
  have hB : ∀ e ∈ columnEvents m.col rest, m.time + d ≤ e.time := by
    rw [hcol, List.pairwise_append] at hp
    intro e he
    exact ((List.pairwise_cons.1 hp.2.1).1 e he).2.2 rfl hm v d htext
  have hv' : (0 : Rat) < v := by exact_mod_cast (by omega : 0 < v)
  have hplan := bowedPlan_eq v n d m.text htext hv hd
  obtain ⟨w1, w2, w3⟩ := write_rest m.col ⟨n, 4 / v, bowedText v d m.text n⟩ P rest x hxt
  refine ⟨P ++ writePlan m.col ⟨n, 4 / v, bowedText v d m.text n⟩ x rest, columnEvents m.col P, columnEvents m.col rest,
    ?_, w1, w2, w3, hcol, ?_⟩
  · rw [expandMark_split w m P rest x ok hxt q5.symm]
    unfold expandToken
    rw [q2]
    dsimp only
    unfold tokenPlan
    rw [if_neg (not_not.2 (tremolo_at v d m.text htext)), isFinger_false _ htext.2.1, if_neg (by simp), hplan]
    rfl
  · rw [write_events w m.col ⟨n, 4 / v, bowedText v d m.text n⟩ P rest x ok hcw hxt hn (by positivity)
      (fun j => shaped_ne_null v _ (bowedText_good v d m.text n j htext).1)
      (by rw [← q5]; exact hgrid) (by
        intro e he hlt
        exfalso
        have := hB e he
        rw [← q5] at hlt
        simp only at hlt
        rw [← hd] at hlt
        linarith)]
    congr 1
    unfold tremoloNotes
    rw [← q5]
    congr 1
    rw [List.filter_eq_self]
    intro e he
    rw [decide_eq_true_iff]
    have := hB e he
    simp only
    rw [← hd]
    exact this

/-- What becomes of an event when `ms` are expanded. -/
def After (c : Nat) (ms : List TMark) (e : CEvent) (es : List CEvent) : Prop :=
  (e.timed = true ∧ evMark c e ∈ ms ∧ ∃ v d, TremoloText v d e.text ∧ TremoloNotes v d e es) ∨
  (¬ (e.timed = true ∧ evMark c e ∈ ms) ∧ es = [e])

theorem forall2_append_inv {R : CEvent → List CEvent → Prop} (A B : List CEvent) (ess : List (List CEvent))
    (h : List.Forall₂ R (A ++ B) ess) : ∃ eA eB, ess = eA ++ eB ∧ List.Forall₂ R A eA ∧ List.Forall₂ R B eB := by
  induction A generalizing ess with
  | nil => exact ⟨[], ess, rfl, List.Forall₂.nil, h⟩
  | cons a A ih =>
    rw [List.cons_append] at h
    cases h with
    | cons h1 h2 =>
      obtain ⟨eA, eB, rfl, h3, h4⟩ := ih _ h2
      exact ⟨_ :: eA, eB, rfl, List.Forall₂.cons h1 h3, h4⟩

theorem after_singles (c : Nat) (ms : List TMark) (A : List CEvent) (ess : List (List CEvent))
    (hA : ∀ e ∈ A, ¬ (e.timed = true ∧ evMark c e ∈ ms)) (h : List.Forall₂ (After c ms) A ess) : ess.flatten = A := by
  induction h with
  | nil => rfl
  | @cons a es A ess h1 h2 ih =>
    have ha := hA a List.mem_cons_self
    rcases h1 with ⟨k1, k2, -⟩ | ⟨-, k⟩
    · exact absurd ⟨k1, k2⟩ ha
    · rw [List.flatten_cons, k, ih (fun e he => hA e (List.mem_cons_of_mem _ he))]
      rfl

theorem after_mono (c : Nat) (m : TMark) (ms : List TMark) (A : List CEvent) (ess : List (List CEvent))
    (hA : ∀ e ∈ A, e.timed = true → evMark c e ≠ m) (h : List.Forall₂ (After c ms) A ess) : List.Forall₂ (After c (m :: ms)) A ess := by
  induction h with
  | nil => exact List.Forall₂.nil
  | @cons a es A ess h1 h2 ih =>
    refine List.Forall₂.cons ?_ (ih (fun e he => hA e (List.mem_cons_of_mem _ he)))
    have ha := hA a List.mem_cons_self
    rcases h1 with ⟨k1, k2, k3⟩ | ⟨k1, k2⟩
    · exact Or.inl ⟨k1, List.mem_cons_of_mem _ k2, k3⟩
    · refine Or.inr ⟨?_, k2⟩
      rintro ⟨t1, t2⟩
      rcases List.mem_cons.1 t2 with t2 | t2
      · exact ha t1 t2
      · exact k1 ⟨t1, t2⟩

/-- All the marks, one after the other. -/
theorem expandMarks_spec (w : Nat) (ms : List TMark) (l : List TLine) (ok : FileOk w l)
    (hr : ∀ m ∈ ms, ∃ v n d, MarkReady l m v n d)
    (hev : ∀ m ∈ ms, (⟨true, m.time, m.text⟩ : CEvent) ∈ columnEvents m.col l)
    (hdist : ms.Pairwise (fun a b => a.time ≠ b.time ∨ a.col ≠ b.col))
    (hp : ∀ c, (columnEvents c l).Pairwise (Follows c ms)) :
    ∃ l', expandMarks ms l = .ok l' ∧ l'.map skel = l.map skel ∧
      l'.filter (fun x => !x.data) = l.filter (fun x => !x.data) ∧
      ∀ c, ∃ ess, List.Forall₂ (After c ms) (columnEvents c l) ess ∧ columnEvents c l' = ess.flatten := by
  induction ms generalizing l with
  | nil =>
    refine ⟨l, rfl, rfl, rfl, fun c => ⟨(columnEvents c l).map (fun e => [e]), ?_, ?_⟩⟩
    · rw [List.forall₂_map_right_iff, List.forall₂_same]
      intro e _
      exact Or.inr ⟨by simp, rfl⟩
    · induction columnEvents c l with
      | nil => rfl
      | cons a A ih => rw [List.map_cons, List.flatten_cons, ← ih]; rfl
  | cons m ms ih =>
    obtain ⟨v, n, d, hready⟩ := hr m List.mem_cons_self
    obtain ⟨l1, A, B, s1, s2, s3, s4, s5, s6⟩ :=
      expandMark_step w l m (m :: ms) v n d ok hready List.mem_cons_self (hev m List.mem_cons_self) (hp m.col)
    have ok1 : FileOk w l1 := by rw [fileOk_skel, s2, ← fileOk_skel]; exact ok
    obtain ⟨htext, hv, hn, hd, -⟩ := hready
    obtain ⟨hd1, hd2⟩ := List.pairwise_cons.1 hdist
    have hpm := hp m.col
    rw [s5, List.pairwise_append, List.pairwise_cons] at hpm
    obtain ⟨pA, ⟨pEB, pB⟩, pAX⟩ := hpm
    have notes := mem_tremoloNotes v n d m.time m.text (by omega) hd
    have hBend : ∀ b ∈ B, m.time + d ≤ b.time := fun b hb => (pEB b hb).2.2 rfl List.mem_cons_self v d htext
    have hmarks : ∀ m' ∈ ms, m'.col = m.col → (⟨true, m'.time, m'.text⟩ : CEvent) ∈ A ∨ (⟨true, m'.time, m'.text⟩ : CEvent) ∈ B := by
      intro m' hm' hc
      have := hev m' (List.mem_cons_of_mem _ hm')
      rw [hc, s5, List.mem_append, List.mem_cons] at this
      rcases this with h | h | h
      · exact Or.inl h
      · exfalso
        have ht : m'.time = m.time := congrArg CEvent.time h
        rcases hd1 m' hm' with h1 | h1
        · exact h1 ht.symm
        · exact h1 hc.symm
      · exact Or.inr h
    have hnew : ∀ x ∈ tremoloNotes v n d m.time m.text, evMark m.col x ∉ ms := by
      intro x hx hmem
      obtain ⟨n1, n2, n3⟩ := notes x hx
      rcases hmarks _ hmem rfl with h | h
      · have := (pAX _ h ⟨true, m.time, m.text⟩ List.mem_cons_self).2.1 rfl rfl
        simp only [evMark] at this
        linarith
      · have := hBend _ h
        simp only [evMark] at this
        linarith
    have weak : ∀ {c a b}, Follows c (m :: ms) a b → Follows c ms a b :=
      fun h => ⟨h.1, h.2.1, fun t1 t2 => h.2.2 t1 (List.mem_cons_of_mem _ t2)⟩
    obtain ⟨l', e1, e2, e3, e4⟩ := ih l1 ok1 (fun m' hm' => by
        obtain ⟨v', n', d', r1, r2, r3, r4, r5⟩ := hr m' (List.mem_cons_of_mem _ hm')
        refine ⟨v', n', d', r1, r2, r3, r4, fun j hj => ?_⟩
        rw [timedAt_skel, s2, ← timedAt_skel]
        exact r5 j hj) (fun m' hm' => by
        by_cases hc : m'.col = m.col
        · rw [hc, s6]
          rcases hmarks m' hm' hc with h | h
          · exact List.mem_append_left _ h
          · exact List.mem_append_right _ (List.mem_append_right _ h)
        · rw [s3 _ hc]
          exact hev m' (List.mem_cons_of_mem _ hm')) hd2 (fun c => by
        by_cases hc : c = m.col
        · subst hc
          rw [s6, List.pairwise_append, List.pairwise_append]
          refine ⟨pA.imp weak, ⟨?_, pB.imp weak, ?_⟩, ?_⟩
          · apply List.Pairwise.imp_of_mem _ (tremoloNotes_sorted v n d m.time m.text (by omega))
            intro a b ha hb hlt
            exact ⟨le_of_lt hlt, fun _ _ => hlt, fun _ h => absurd h (hnew a ha)⟩
          · intro a ha b hb
            obtain ⟨n1, n2, n3⟩ := notes a ha
            have hlt : a.time < b.time := lt_of_lt_of_le n3 (hBend b hb)
            exact ⟨le_of_lt hlt, fun _ _ => hlt, fun _ h => absurd h (hnew a ha)⟩
          · intro a ha b hb
            rcases List.mem_append.1 hb with hb | hb
            · obtain ⟨n1, n2, n3⟩ := notes b hb
              have hAE := pAX a ha ⟨true, m.time, m.text⟩ List.mem_cons_self
              refine ⟨le_trans hAE.1 n2, fun t1 _ => lt_of_lt_of_le (hAE.2.1 t1 rfl) n2, fun t1 t2 v' d' h => ?_⟩
              exact le_trans (hAE.2.2 t1 (List.mem_cons_of_mem _ t2) v' d' h) n2
            · exact weak (pAX a ha b (List.mem_cons_of_mem _ hb))
        · rw [s3 _ hc]
          exact (hp c).imp weak)
    refine ⟨l', ?_, e2.trans s2, e3.trans s4, fun c => ?_⟩
    · rw [expandMarks, s1]
      exact e1
    · obtain ⟨ess, g1, g2⟩ := e4 c
      by_cases hc : c = m.col
      · subst hc
        rw [s6] at g1
        obtain ⟨eA, e', rfl, gA, g'⟩ := forall2_append_inv _ _ _ g1
        obtain ⟨eX, eB, rfl, gX, gB⟩ := forall2_append_inv _ _ _ g'
        have hX := after_singles _ _ _ _ (fun e he h => hnew e he h.2) gX
        refine ⟨eA ++ tremoloNotes v n d m.time m.text :: eB, ?_, ?_⟩
        · rw [s5]
          apply List.rel_append
          · apply after_mono _ _ _ _ _ _ gA
            intro e he ht heq
            have := (pAX e he ⟨true, m.time, m.text⟩ List.mem_cons_self).2.1 ht rfl
            have h2 : e.time = m.time := congrArg TMark.time heq
            simp only at this
            linarith
          · refine List.Forall₂.cons ?_ ?_
            · exact Or.inl ⟨rfl, List.mem_cons_self, v, d, htext, tremoloNotes_spec v n d ⟨true, m.time, m.text⟩ htext hv hn hd⟩
            · apply after_mono _ _ _ _ _ _ gB
              intro e he ht heq
              have := (pEB e he).2.1 rfl ht
              have h2 : e.time = m.time := congrArg TMark.time heq
              simp only at this
              linarith
        · rw [g2]
          simp [hX]
      · refine ⟨ess, ?_, g2⟩
        rw [s3 _ hc] at g1
        apply after_mono _ _ _ _ _ _ g1
        intro e _ _ heq
        exact hc (congrArg TMark.col heq)

theorem columnEvents_times (w c : Nat) (l : List TLine) (ok : FileOk w l) :
    (columnEvents c l).Pairwise (fun a b => a.time ≤ b.time ∧ (a.timed = true → b.timed = true → a.time < b.time)) := by
  induction l with
  | nil => exact List.Pairwise.nil
  | cons x l ih =>
    rw [columnEvents_cons]
    cases hx : lineEvent c x with
    | none => exact ih (fileOk_tail ok)
    | some e =>
      show List.Pairwise _ (e :: columnEvents c l)
      rw [List.pairwise_cons]
      refine ⟨?_, ih (fileOk_tail ok)⟩
      intro b hb
      obtain ⟨-, -, -, q4, q5⟩ := (lineEvent_some c x e).1 hx
      obtain ⟨y, hy, -, -, -, -, q⟩ := (mem_columnEvents c l b).1 hb
      have := (List.pairwise_cons.1 ok.1).1 y hy
      have hdur := (ok.2 x List.mem_cons_self).1
      rw [q5, q]
      refine ⟨by linarith, fun t1 _ => ?_⟩
      rw [t1] at q4
      have : x.dur ≠ 0 := of_decide_eq_true q4.symm
      have : 0 < x.dur := lt_of_le_of_ne hdur (Ne.symm this)
      linarith

/-- C51 (bowed tremolos). In a file where every marked note is a tremolo of two or more notes of eighths or shorter that fills the
note exactly, with nothing else happening in its spine while it sounds, expansion never fails and gives a file in which each marked
note of a `**kern` spine has become notes that fill its duration, start one after the other, have the written value, are beamed and
keep the ties of the note at their outside, while every
other note of every spine, and every line that is not data, is as before. Missing: tremolos of two notes (see
`finger_tremolo_partial`), spines that split during a tremolo, and the files of `one_note_tremolo_overwrites`, `tremolo_zero_crashes`
and `tremolo_slur_repeated`, for which the code is wrong. -/
theorem tremolo_expansion_partial (w : Nat) (kern : Nat → Bool) (l : List TLine) (ok : FileOk w l)
    (hcol : ∀ c, kern c = true → ColumnOk l c) :
    ∃ l', processTremolos kern l = .ok l' ∧ FileOk w l' ∧
      (∀ c, kern c = true → ∃ ess, List.Forall₂ ExpandsTo (columnEvents c l) ess ∧ columnEvents c l' = ess.flatten) ∧
      (∀ c, kern c = false → columnEvents c l' = columnEvents c l) ∧
      l'.filter (fun x => !x.data) = l.filter (fun x => !x.data) := by
  have marked : ∀ m ∈ tremoloMarks kern l, ∃ v d, TremoloOk l ⟨true, m.time, m.text⟩ v d := by
    intro m hm
    obtain ⟨h1, h2, h3⟩ := (mem_tremoloMarks kern l m).1 hm
    rcases (hcol m.col h1).1 _ h3 rfl with h | h
    · rw [markValue_none _ h] at h2; cases h2
    · exact h
  have nulls : ∀ m ∈ tremoloMarks kern l, ∃ (v n : Nat) (d : Rat), TremoloText v d m.text ∧ 8 ≤ v ∧ 2 ≤ n ∧ d = n * (4 / v) ∧
      nullTimes m.time m.text = .ok ((List.range (n - 1)).map (fun k : Nat => m.time + 4 / v * (k + 1))) ∧
      ∀ j : Nat, j < n → CoveredAt l (m.time + j * (4 / v)) := by
    intro m hm
    obtain ⟨v, d, h1, h2, ⟨n, h3, h4⟩, h5⟩ := marked m hm
    refine ⟨v, n, d, h1, h2, h3, h4, nullTimes_eq v n d m.time m.text h1 (by omega) h4, fun j hj => ?_⟩
    have hv' : (0 : Rat) < v := by exact_mod_cast (by omega : 0 < v)
    have hinc : (0 : Rat) < 4 / v := by positivity
    have hj' : (j : Rat) + 1 ≤ n := by exact_mod_cast (by omega : j + 1 ≤ n)
    have hj0 : (0 : Rat) ≤ j := Nat.cast_nonneg j
    apply h5
    · show m.time ≤ _
      nlinarith
    · show _ < m.time + d
      rw [h4]
      nlinarith
  obtain ⟨l1, a1, a2, a3⟩ := addAllNulls_same w (tremoloMarks kern l) l ok (fun m hm => by
    obtain ⟨v, n, d, -, -, -, -, h5, h6⟩ := nulls m hm
    refine ⟨_, h5, fun t ht => ?_⟩
    obtain ⟨k, hk, rfl⟩ := List.mem_map.1 ht
    rw [List.mem_range] at hk
    have := h6 (k + 1) (by omega)
    rw [show m.time + 4 / (v : Rat) * ((k : Rat) + 1) = m.time + ((k + 1 : Nat) : Rat) * (4 / v) by push_cast; ring]
    exact this)
  obtain ⟨ok1, ev1, -, ta1, nd1⟩ := a2
  have timed0 : ∀ m ∈ tremoloMarks kern l, TimedAt l m.time := by
    intro m hm
    obtain ⟨-, -, h3⟩ := (mem_tremoloMarks kern l m).1 hm
    obtain ⟨x, hx, q1, -, -, q4, q5⟩ := (mem_columnEvents _ _ _).1 h3
    exact ⟨x, hx, (timed_iff x).2 ⟨q1, of_decide_eq_true q4.symm⟩, q5.symm⟩
  obtain ⟨l', e1, e2, e3, e4⟩ := expandMarks_spec w (tremoloMarks kern l) l1 ok1 (fun m hm => by
      obtain ⟨v, n, d, h1, h2, h3, h4, h5, -⟩ := nulls m hm
      refine ⟨v, n, d, h1, h2, h3, h4, fun j hj => ?_⟩
      cases j with
      | zero =>
        simp only [Nat.cast_zero, zero_mul, add_zero]
        exact ta1 _ (timed0 m hm)
      | succ j =>
        have hmem : m.time + 4 / (v : Rat) * ((j : Rat) + 1) ∈ (List.range (n - 1)).map (fun k : Nat => m.time + 4 / (v : Rat) * (k + 1)) :=
          List.mem_map.2 ⟨j, List.mem_range.2 (by omega), rfl⟩
        have := a3 m hm _ h5 _ hmem
        rw [show m.time + ((j + 1 : Nat) : Rat) * (4 / v) = m.time + 4 / (v : Rat) * ((j : Rat) + 1) by push_cast; ring]
        exact this)
    (fun m hm => by rw [ev1]; exact ((mem_tremoloMarks kern l m).1 hm).2.2)
    (tremoloMarks_distinct w kern l ok)
    (fun c => by
      rw [ev1]
      have h1 := columnEvents_times w c l ok
      by_cases hk : kern c = true
      · apply List.Pairwise.imp _ (List.Pairwise.and h1 (hcol c hk).2)
        rintro a b ⟨⟨k1, k2⟩, k3, k4⟩
        exact ⟨k1, k2, fun t _ v d h => k4 v d t h⟩
      · apply List.Pairwise.imp _ h1
        rintro a b ⟨k1, k2⟩
        exact ⟨k1, k2, fun _ hm => absurd ((mem_tremoloMarks kern l _).1 hm).1 hk⟩)
  refine ⟨l', ?_, ?_, ?_, ?_, e3.trans nd1⟩
  · unfold processTremolos
    rw [a1]
    exact e1
  · rw [fileOk_skel, e2, ← fileOk_skel]
    exact ok1
  · intro c hk
    obtain ⟨ess, g1, g2⟩ := e4 c
    rw [ev1] at g1
    refine ⟨ess, ?_, g2⟩
    have hev : ∀ e ∈ columnEvents c l, ∀ es, After c (tremoloMarks kern l) e es → ExpandsTo e es := by
      intro e he es h
      rcases h with ⟨h1, -, h3⟩ | ⟨h1, h2⟩
      · exact Or.inl ⟨h1, h3⟩
      · refine Or.inr ⟨?_, h2⟩
        by_contra hno
        push Not at hno
        have ht : e.timed = true := by simpa using hno.1
        rcases (hcol c hk).1 e he ht with h | ⟨v, d, h, -⟩
        · exact h hno.2
        · apply h1
          refine ⟨ht, (mem_tremoloMarks kern l _).2 ⟨hk, ?_, ?_⟩⟩
          · show (markValue e.text).isSome = true
            rw [markValue_eq v _ h.1]; rfl
          · show (⟨true, e.time, e.text⟩ : CEvent) ∈ columnEvents c l
            rw [← ht]; exact he
    clear g2 e4
    generalize columnEvents c l = evs at g1 hev
    induction g1 with
    | nil => exact List.Forall₂.nil
    | @cons a es A ess h1 h2 ih =>
      exact List.Forall₂.cons (hev a List.mem_cons_self es h1) (ih (fun e he => hev e (List.mem_cons_of_mem _ he)))
  · intro c hk
    obtain ⟨ess, g1, g2⟩ := e4 c
    rw [ev1] at g1
    rw [g2, after_singles c _ _ _ (fun e _ h => by
      have := ((mem_tremoloMarks kern l _).1 h.2).1
      simp only [evMark] at this
      rw [hk] at this; cases this) g1]

/-- Two spines: a tremolo of sixteenths on a dotted quarter note against eighth notes, a barline, and a last note. -/
def exTremolo : List TLine :=
  [⟨true, 0, 1 / 2, ["[4.c_@16@".toList, "8e".toList]⟩, ⟨true, 1 / 2, 1 / 2, [".".toList, "8f".toList]⟩,
   ⟨true, 1, 1 / 2, [".".toList, "8g".toList]⟩, ⟨false, 3 / 2, 0, ["=".toList, "=".toList]⟩,
   ⟨true, 3 / 2, 1, ["4d".toList, "4a".toList]⟩]

theorem exTremolo_text : TremoloText 16 (3 / 2) "[4.c_@16@".toList := by
  refine ⟨⟨"[4.c_".toList, [], by decide, by decide⟩, ?_, "[".toList, .div 4, 1, "c_".toList, "@16@".toList, [], [], by show _ > 0; decide,
    ⟨by unfold Inert; decide, by decide⟩, ⟨by unfold Inert; decide, by decide⟩, ⟨by unfold Inert; decide, by decide⟩,
    Or.inl (by decide), Or.inl rfl, by decide, by norm_num [RBase.wholes]⟩
  rintro ⟨a, b, h⟩
  have h2 : isInfix "@@".toList "[4.c_@16@".toList = true := (isInfix_iff _ _).2 ⟨a, b, h.symm⟩
  revert h2; decide

example : FileOk 2 exTremolo ∧ ∀ c, (fun c => decide (c < 2)) c = true → ColumnOk exTremolo c := by
  constructor
  · unfold FileOk exTremolo
    decide +kernel
  · intro c hc
    have hc' : c = 0 ∨ c = 1 := by
      have := of_decide_eq_true hc
      omega
    have noAt : ∀ (a : CEvent) v d, '@' ∉ a.text → ¬ TremoloText v d a.text := fun a v d h ht => h (tremolo_at v d a.text ht)
    rcases hc' with rfl | rfl
    · have hev : columnEvents 0 exTremolo = [⟨true, 0, "[4.c_@16@".toList⟩, ⟨true, 3 / 2, "4d".toList⟩] := by decide +kernel
      constructor
      · rw [hev]
        intro e he _
        rcases List.mem_cons.1 he with rfl | he
        · refine Or.inr ⟨16, 3 / 2, exTremolo_text, by omega, ⟨6, by omega, by norm_num⟩, ?_⟩
          intro t h1 h2
          simp only at h1 h2
          by_cases t1 : t < 1 / 2
          · exact ⟨_, List.mem_of_getElem? (i := 0) rfl, rfl, h1, by norm_num; linarith⟩
          by_cases t2 : t < 1
          · exact ⟨_, List.mem_of_getElem? (i := 1) rfl, rfl, by simp only; linarith, by norm_num; linarith⟩
          · exact ⟨_, List.mem_of_getElem? (i := 2) rfl, rfl, by simp only; linarith, by norm_num; linarith⟩
        · left
          rcases List.mem_cons.1 he with rfl | he
          · decide
          · simp at he
      · rw [hev, List.pairwise_cons]
        refine ⟨?_, List.pairwise_singleton _ _⟩
        intro b hb
        rcases List.mem_cons.1 hb with rfl | hb
        · refine ⟨by norm_num, fun v d _ h => ?_⟩
          obtain ⟨-, rfl⟩ := tremoloText_unique _ _ _ _ _ exTremolo_text h
          norm_num
        · simp at hb
    · have hev : columnEvents 1 exTremolo =
        [⟨true, 0, "8e".toList⟩, ⟨true, 1 / 2, "8f".toList⟩, ⟨true, 1, "8g".toList⟩, ⟨true, 3 / 2, "4a".toList⟩] := by decide +kernel
      have hno : ∀ e ∈ columnEvents 1 exTremolo, '@' ∉ e.text := by rw [hev]; decide
      constructor
      · exact fun e he _ => Or.inl (hno e he)
      · apply List.Pairwise.imp_of_mem (R := fun a b => a.time ≤ b.time)
        · intro a b ha _ h
          exact ⟨h, fun v d _ ht => absurd ht (noAt a v d (hno a ha))⟩
        · rw [hev]
          decide +kernel

example : processTremolos (fun c => decide (c < 2)) exTremolo = .ok
    [⟨true, 0, 1 / 4, ["[16cLL".toList, "8e".toList]⟩, ⟨true, 1 / 4, 1 / 4, ["16c".toList, ".".toList]⟩,
     ⟨true, 1 / 2, 1 / 4, ["16c".toList, "8f".toList]⟩, ⟨true, 3 / 4, 1 / 4, ["16c".toList, ".".toList]⟩,
     ⟨true, 1, 1 / 4, ["16c".toList, "8g".toList]⟩, ⟨true, 5 / 4, 1 / 4, ["16cJJ".toList, ".".toList]⟩,
     ⟨false, 3 / 2, 0, ["=".toList, "=".toList]⟩, ⟨true, 3 / 2, 1, ["4d".toList, "4a".toList]⟩] := by decide +kernel

/-! ## Tremolos of two notes -/

theorem split_unique {α : Type} (A A' B B' : List α) (e : α) (h1 : e ∉ A) (h2 : e ∉ A') (h : A ++ e :: B = A' ++ e :: B') :
    A = A' ∧ B = B' := by
  induction A generalizing A' with
  | nil =>
    cases A' with
    | nil => exact ⟨rfl, (List.cons.inj h).2⟩
    | cons a A' => exact absurd ((List.cons.inj h).1 ▸ List.mem_cons_self) h2
  | cons a A ih =>
    cases A' with
    | nil => exact absurd ((List.cons.inj h).1.symm ▸ List.mem_cons_self) h1
    | cons a' A' =>
      rw [List.cons_append, List.cons_append] at h
      obtain ⟨k1, k2⟩ := ih A' (fun h => h1 (List.mem_cons_of_mem _ h)) (fun h => h2 (List.mem_cons_of_mem _ h)) (List.cons.inj h).2
      exact ⟨by rw [(List.cons.inj h).1, k1], k2⟩

theorem fingerValue_eq (v : Nat) (a b : Str) (ha : '@' ∉ a) : fingerValue (a ++ ("@@".toList ++ natStr v ++ "@@".toList) ++ b) = some v := by
  rw [List.append_assoc]
  induction a with
  | nil =>
    have e : [] ++ ("@@".toList ++ natStr v ++ "@@".toList ++ b) = '@' :: '@' :: (natStr v ++ '@' :: '@' :: b) := by simp
    rw [e]
    unfold fingerValue
    have h1 : (natStr v ++ '@' :: '@' :: b).takeWhile isDig = natStr v :=
      takeWhile_all_append _ _ (natStr_isDig v) (by intro c hc; simp at hc; rw [← hc]; decide)
    have h2 : (natStr v ++ '@' :: '@' :: b).dropWhile isDig = '@' :: '@' :: b :=
      dropWhile_all_append _ _ (natStr_isDig v) (by intro c hc; simp at hc; rw [← hc]; decide)
    simp only [List.drop_succ_cons, List.drop_zero]
    rw [h1, h2, if_pos ⟨trivial, rfl, natStr_ne_nil v, by simp⟩, parse_natStr]
  | cons x a ih =>
    rw [List.cons_append, fingerValue, if_neg]
    · exact ih (fun h => ha (List.mem_cons_of_mem _ h))
    · rintro ⟨h1, -⟩
      exact ha (h1 ▸ List.mem_cons_self)

theorem plain_no_at (b : RBase) (pre suf : Str) (dots : Nat) (hp : PlainText pre) (hs : PlainText suf) :
    '@' ∉ pre ++ b.text ++ List.replicate dots '.' ++ suf := by
  simp only [List.mem_append, not_or]
  refine ⟨⟨⟨fun h => (hp.2 _ h).2 rfl, fun h => ?_⟩, fun h => absurd (List.eq_of_mem_replicate h) (by decide)⟩,
    fun h => (hs.2 _ h).2 rfl⟩
  rcases base_text_mem b _ h with h | h
  · revert h; decide
  · revert h; decide

theorem finger_value (v : Nat) (d : Rat) (t : Str) (h : FingerText v d t) : fingerValue t = some v := by
  obtain ⟨pre, b, dots, suf, suf2, chord, hv, hp, hs, hs2, hc, rfl, rfl⟩ := h
  rw [List.append_assoc _ suf2]
  exact fingerValue_eq v _ _ (plain_no_at b pre suf dots hp hs)

theorem finger_duration (v : Nat) (d : Rat) (t : Str) (h : FingerText v d t) : recipToDuration t = .ok d := by
  obtain ⟨pre, b, dots, suf, suf2, chord, hv, hp, hs, hs2, hc, rfl, rfl⟩ := h
  apply marked_duration pre b dots suf _ suf2 chord hv hp hs hs2 _ _ hc
  · intro c hc
    have key : ∀ x : Char, isDig x = false → x ≠ '@' → c ≠ x := fun x h1 h2 e =>
      mark_chars v 2 x h1 h2 (by rw [← e]; exact hc)
    exact ⟨key _ (by decide) (by decide), key _ (by decide) (by decide), key _ (by decide) (by decide),
      key _ (by decide) (by decide)⟩
  · intro c hc
    have : c = '@' := by
      have e : ("@@".toList ++ natStr v ++ "@@".toList).head? = some '@' := rfl
      rw [e] at hc
      exact (Option.some.inj hc).symm
    rw [this]; decide

theorem finger_isFinger (v : Nat) (d : Rat) (t : Str) (h : FingerText v d t) : isFinger t = true ∧ '@' ∈ t := by
  obtain ⟨pre, b, dots, suf, suf2, chord, hv, hp, hs, hs2, hc, rfl, rfl⟩ := h
  constructor
  · unfold isFinger
    rw [isInfix_iff]
    refine ⟨pre ++ b.text ++ List.replicate dots '.' ++ suf, natStr v ++ "@@".toList ++ suf2 ++ chord, ?_⟩
    simp
  · simp

theorem finger_base (v : Nat) (d : Rat) (t : Str) (h : FingerText v d t) : GoodText v t (newRhythm v (noFingerMark v t)) := by
  obtain ⟨pre, b, dots, suf, suf2, chord, hv, hp, hs, hs2, hc, ht, -⟩ := h
  constructor
  · rw [ht]
    exact newRhythm_shaped v _ ('@' :: (natStr v ++ "@@".toList)) rfl pre b dots suf _ suf2 chord hv hp hs hs2 (Or.inl rfl) hc
  · unfold noFingerMark
    apply essence_newRhythm v _ (by simp)
    intro c hc
    simp only [List.mem_append] at hc
    rcases hc with (hc | hc) | hc
    · right; simpa using hc
    · exact Or.inl (natStr_isDig v c hc)
    · right; simpa using hc

theorem finger_good (v : Nat) (d : Rat) (t t2 : Str) (h : FingerText v d t) (h2 : FingerText v d t2) :
    GoodText v t (fingerInitial v t) ∧ GoodText v t (fingerBase1 v t) ∧ GoodText v t2 (fingerBase2 v t2) ∧
    GoodText v t2 (fingerTerminal v t2) := by
  have hb := finger_base v d t h
  have hb2 := finger_base v d t2 h2
  refine ⟨?_, ?_, hb2, ?_⟩
  · exact good_runThen v t _ (good_runThen v t _ (good_beams v t _ hb _ 'L' (by decide)) _ (one_set ')' (by decide))) _
      (one_set '_' (by decide))
  · exact good_runThen v t _ (good_runThen v t _ hb _ slur_set) _ tie_set
  · exact good_runThen v t2 _ (good_runThen v t2 _ (good_beams v t2 _ hb2 _ 'J' (by decide)) _ (one_set '(' (by decide))) _ tie_set

/-- The texts of the notes of a tremolo of two notes. -/
def fingerTexts (v : Nat) (t t2 : Str) (n j : Nat) : Str :=
  if j = 1 then fingerInitial v t else if j = n * 2 then fingerTerminal v t2
  else if j % 2 = 0 then fingerBase2 v t2 else fingerBase1 v t

theorem fingerPlan_eq (v n : Nat) (d : Rat) (t t2 : Str) (h : FingerText v d t) (hv : 8 ≤ v) (hpow : isPow2 v = true)
    (hd : d = n * (4 / v)) : fingerPlan t t2 = .ok (some ⟨n * 2, 4 / v, fingerTexts v t t2 n⟩) := by
  have hc := count_eq v n (by omega) d hd
  unfold fingerPlan
  rw [finger_value v d t h]
  dsimp only
  rw [if_neg (by rw [hpow]; simp), if_neg (by omega), finger_duration v d t h]
  dsimp only
  rw [hc, if_neg (by simp)]
  simp
  rfl

theorem nextNote_eq (w c : Nat) (rest : List TLine) (ok : FileOk w rest) (hc : c < w) (e : CEvent) (B : List CEvent)
    (h : columnEvents c rest = e :: B) (he : notSecond e.text = false) : nextNote c rest = some e.text := by
  induction rest with
  | nil => simp [columnEvents] at h
  | cons x rest ih =>
    unfold nextNote
    rw [columnEvents_cons] at h
    by_cases hd : x.data = false
    · rw [if_pos hd]
      have : lineEvent c x = none := by unfold lineEvent; rw [hd]; rfl
      rw [this] at h
      exact ih (fileOk_tail ok) h
    · rw [if_neg hd]
      have hd' : x.data = true := by simpa using hd
      have hlen : c < x.toks.length := by rw [(ok.2 x List.mem_cons_self).2 hd']; exact hc
      have ht : x.toks[c]? = some x.toks[c] := List.getElem?_eq_getElem hlen
      rw [ht]
      dsimp only
      by_cases hn : x.toks[c] = ".".toList
      · have : lineEvent c x = none := by
          unfold lineEvent
          rw [hd', ht, if_pos rfl, Option.bind_some, if_pos hn]
        rw [this] at h
        have hs : notSecond x.toks[c] = true := by rw [hn]; unfold notSecond; simp
        rw [if_pos hs]
        exact ih (fileOk_tail ok) h
      · have hle : lineEvent c x = some ⟨decide (x.dur ≠ 0), x.time, x.toks[c]⟩ := by
          unfold lineEvent
          rw [hd', ht, if_pos rfl, Option.bind_some, if_neg hn]
        rw [hle] at h
        have : e = ⟨decide (x.dur ≠ 0), x.time, x.toks[c]⟩ := by
          have := (List.cons.inj h).1
          exact this.symm
        rw [this] at he ⊢
        rw [if_neg (by simpa using he)]

/-- C51 (tremolos of two notes). Two notes of equal written duration, one after the other, marked as a tremolo of two notes, become
notes of the written value that fill the time of both, alternating between the two; everything else stays. Missing: the lines for the
notes are taken to be there (`finger_tremolo_lines_past_end` shows what goes wrong when they are made). -/
theorem finger_tremolo_partial (w : Nat) (l : List TLine) (m : TMark) (v n : Nat) (d : Rat) (t2 : Str) (A B : List CEvent) (ok : FileOk w l)
    (h1 : FingerText v d m.text) (h2 : FingerText v d t2) (hrest : 'r' ∉ t2) (hv : 8 ≤ v) (hpow : isPow2 v = true) (hn : 1 ≤ n)
    (hd : d = n * (4 / v)) (hgrid : ∀ j : Nat, j < n * 2 → TimedAt l (m.time + j * (4 / v)))
    (hcol : columnEvents m.col l = A ++ ⟨true, m.time, m.text⟩ :: ⟨true, m.time + d, t2⟩ :: B)
    (hB : ∀ e ∈ B, m.time + d + d ≤ e.time) :
    ∃ l' es, expandMark m l = .ok l' ∧ FileOk w l' ∧ columnEvents m.col l' = A ++ es ++ B ∧
      FingerNotes v d ⟨true, m.time, m.text⟩ ⟨true, m.time + d, t2⟩ es ∧ (∀ c', c' ≠ m.col → columnEvents c' l' = columnEvents c' l) ∧
      l'.filter (fun x => !x.data) = l.filter (fun x => !x.data) := by
  have hv' : (0 : Rat) < v := by exact_mod_cast (by omega : 0 < v)
  have hn' : (1 : Rat) ≤ n := by exact_mod_cast hn
  have hinc : (0 : Rat) < 4 / v := by positivity
  have hdpos : 0 < d := by rw [hd]; nlinarith
  have hev : (⟨true, m.time, m.text⟩ : CEvent) ∈ columnEvents m.col l := by rw [hcol]; simp
  obtain ⟨x, hx, q1, q2, q3, q4, q5⟩ := (mem_columnEvents _ _ _).1 hev
  simp only at q2 q3 q4 q5
  have hxt : x.timed = true := (timed_iff x).2 ⟨q1, of_decide_eq_true q4.symm⟩
  obtain ⟨P, rest, rfl⟩ := List.append_of_mem hx
  have hle : lineEvent m.col x = some ⟨true, m.time, m.text⟩ := (lineEvent_some _ _ _).2 ⟨q1, q2, q3, q4, q5⟩
  have hcw : m.col < w := by
    rw [← (ok.2 x (by simp)).2 q1]
    exact (List.getElem?_eq_some_iff.1 q2).1
  have hcol2 : columnEvents m.col (P ++ x :: rest) = columnEvents m.col P ++ ⟨true, m.time, m.text⟩ :: columnEvents m.col rest := by
    rw [columnEvents_append, columnEvents_cons, hle]
    rfl
  have okr : FileOk w rest := by
    refine ⟨?_, fun y hy => ok.2 y (by simp [hy])⟩
    have := ok.1
    rw [List.pairwise_append] at this
    exact (List.pairwise_cons.1 this.2.1).2
  have hsplit : columnEvents m.col P = A ∧ columnEvents m.col rest = ⟨true, m.time + d, t2⟩ :: B := by
    have hP : ∀ e ∈ columnEvents m.col P, e.time ≤ m.time ∧ (e.timed = true → e.time < m.time) := by
      intro e he
      have := columnEvents_times w m.col _ ok
      rw [hcol2, List.pairwise_append] at this
      have := this.2.2 e he _ List.mem_cons_self
      exact ⟨this.1, fun h => this.2 h rfl⟩
    have hA : ∀ e ∈ A, e.time ≤ m.time ∧ (e.timed = true → e.time < m.time) := by
      intro e he
      have := columnEvents_times w m.col _ ok
      rw [hcol, List.pairwise_append] at this
      have := this.2.2 e he _ List.mem_cons_self
      exact ⟨this.1, fun h => this.2 h rfl⟩
    have notmem : ∀ L : List CEvent, (∀ e ∈ L, e.time ≤ m.time ∧ (e.timed = true → e.time < m.time)) →
        (⟨true, m.time, m.text⟩ : CEvent) ∉ L := by
      intro L hL hmem
      exact lt_irrefl _ ((hL _ hmem).2 rfl)
    have key := hcol2.symm.trans hcol
    exact split_unique _ _ _ _ _ (notmem _ hP) (notmem _ hA) key
  obtain ⟨hA, hR⟩ := hsplit
  have hnd : notSecond t2 = false := by
    unfold notSecond zeroDuration
    rw [finger_duration v d t2 h2]
    have : t2 ≠ ".".toList := by
      intro e
      have := (finger_isFinger v d t2 h2).2
      rw [e] at this
      revert this; decide
    rw [decide_eq_false hrest, decide_eq_false this]
    simp only [decide_eq_false (ne_of_gt hdpos), Bool.or_self]
  have hnext := nextNote_eq w m.col rest okr hcw ⟨true, m.time + d, t2⟩ B hR hnd
  simp only at hnext
  obtain ⟨f1, f2⟩ := finger_isFinger v d m.text h1
  obtain ⟨w1, w2, w3⟩ := write_rest m.col ⟨n * 2, 4 / v, fingerTexts v m.text t2 n⟩ P rest x hxt
  obtain ⟨g1, g2, g3, g4⟩ := finger_good v d m.text t2 h1 h2
  have gt : ∀ j, GoodText v (if j % 2 = 1 then m.text else t2) (fingerTexts v m.text t2 n j) := by
    intro j
    unfold fingerTexts
    by_cases j1 : j = 1
    · rw [if_pos j1, if_pos (by omega)]; exact g1
    rw [if_neg j1]
    by_cases j2 : j = n * 2
    · rw [if_pos j2, if_neg (by omega)]; exact g4
    rw [if_neg j2]
    by_cases j3 : j % 2 = 0
    · rw [if_pos j3, if_neg (by omega)]; exact g3
    · rw [if_neg j3, if_pos (by omega)]; exact g2
  have hend : m.time + ((n * 2 : Nat) : Rat) * (4 / v) = m.time + d + d := by rw [hd]; push_cast; ring
  refine ⟨P ++ writePlan m.col ⟨n * 2, 4 / v, fingerTexts v m.text t2 n⟩ x rest,
    gridNotes ⟨n * 2, 4 / v, fingerTexts v m.text t2 n⟩ 0 m.time, ?_, ?_, ?_, ?_, w2, w3⟩
  · rw [expandMark_split w m P rest x ok hxt q5.symm]
    unfold expandToken
    rw [q2]
    dsimp only
    unfold tokenPlan
    rw [if_neg (not_not.2 f2), if_pos f1, hnext]
    dsimp only
    rw [fingerPlan_eq v n d m.text t2 h1 hv hpow hd]
    rfl
  · rw [fileOk_skel, w1, ← fileOk_skel]
    exact ok
  · rw [write_events w m.col ⟨n * 2, 4 / v, fingerTexts v m.text t2 n⟩ P rest x ok hcw hxt (by show 2 ≤ n * 2; omega) hinc
      (fun j => shaped_ne_null v _ (gt j).1) (by rw [← q5]; exact hgrid) ?_, hA, List.append_assoc, ← q5]
    · congr 2
      simp only
      rw [hend, hR, List.filter_cons, if_neg (by rw [decide_eq_true_iff]; simp only; linarith), List.filter_eq_self]
      intro e he
      rw [decide_eq_true_iff]
      exact hB e he
    · intro e he hlt
      rw [← q5] at hlt ⊢
      simp only at hlt ⊢
      rw [hend] at hlt
      rw [hR] at he
      rcases List.mem_cons.1 he with rfl | he
      · refine ⟨rfl, n, by omega, ?_⟩
        rw [hd]
      · have := hB e he
        linarith
  · constructor
    · unfold gridNotes
      simp only [List.length_map, List.length_range, Nat.sub_zero]
      rw [hd]; push_cast; ring
    · intro k y hy
      unfold gridNotes at hy
      rw [List.getElem?_map] at hy
      cases hr : (List.range (n * 2 - 0))[k]? with
      | none => simp only [hr] at hy; cases hy
      | some j =>
        obtain ⟨r1, r2⟩ := List.getElem?_eq_some_iff.1 hr
        rw [List.getElem_range] at r2
        simp only [hr, Option.map_some] at hy
        have hy' := (Option.some.inj hy).symm
        subst hy' r2
        have := gt (0 + 1 + k)
        refine ⟨rfl, rfl, shaped_rhythm v (by omega) _ this.1, ?_⟩
        show essence (fingerTexts v m.text t2 n (0 + 1 + k)) = _
        rw [this.2]
        by_cases hk : k % 2 = 0
        · rw [if_pos hk, if_pos (by omega)]
        · rw [if_neg hk, if_neg (by omega)]

-- two eighth notes as a tremolo of sixteenths, with the lines there
example : FingerText 16 (1 / 2) "8c@@16@@".toList ∧ FingerText 16 (1 / 2) "8d@@16@@".toList ∧ isPow2 (16 : Nat) = true ∧
    (let l : List TLine := [⟨true, 0, 1 / 4, ["8c@@16@@".toList]⟩, ⟨true, 1 / 4, 1 / 4, [".".toList]⟩,
      ⟨true, 1 / 2, 1 / 4, ["8d@@16@@".toList]⟩, ⟨true, 3 / 4, 1 / 4, [".".toList]⟩, ⟨true, 1, 1, ["4e".toList]⟩]
    FileOk 1 l ∧ (∀ j : Nat, j < 4 → TimedAt l (0 + j * (4 / 16))) ∧
    columnEvents 0 l = [] ++ ⟨true, 0, "8c@@16@@".toList⟩ :: ⟨true, 0 + 1 / 2, "8d@@16@@".toList⟩ :: [⟨true, 1, "4e".toList⟩]) := by
  refine ⟨⟨[], .div 8, 0, "c".toList, [], [], by show _ > 0; decide, ⟨by unfold Inert; decide, by decide⟩,
      ⟨by unfold Inert; decide, by decide⟩, ⟨by unfold Inert; decide, by decide⟩, Or.inl rfl, by decide, by norm_num [RBase.wholes]⟩,
    ⟨[], .div 8, 0, "d".toList, [], [], by show _ > 0; decide, ⟨by unfold Inert; decide, by decide⟩,
      ⟨by unfold Inert; decide, by decide⟩, ⟨by unfold Inert; decide, by decide⟩, Or.inl rfl, by decide, by norm_num [RBase.wholes]⟩,
    by decide +kernel, ?_⟩
  refine ⟨by unfold FileOk; decide +kernel, by unfold TimedAt; decide +kernel, by decide +kernel⟩

/-! ## Where the code is wrong -/

/-- C51 is false of the code: an eighth note marked as a tremolo of one eighth note makes the next note of the spine the same note. -/
theorem one_note_tremolo_overwrites :
    processTremolos (fun _ => true)
      [⟨true, 0, 1 / 2, ["8c@8@".toList]⟩, ⟨true, 1 / 2, 1 / 2, ["8d".toList]⟩] =
    .ok [⟨true, 0, 1 / 2, ["8c".toList]⟩, ⟨true, 1 / 2, 1 / 2, ["8c".toList]⟩] := by decide +kernel

/-- A tremolo of value zero stops the program. -/
theorem tremolo_zero_crashes :
    processTremolos (fun _ => true) [⟨true, 0, 1, ["4c@0@".toList]⟩] = .error .zeroDivision := by decide +kernel

/-- A slur that starts on a tremolo starts on each of its notes. -/
theorem tremolo_slur_repeated :
    processTremolos (fun _ => true) [⟨true, 0, 1, ["(4c@16@".toList]⟩, ⟨true, 1, 1, ["4d)".toList]⟩] =
    .ok [⟨true, 0, 1 / 4, ["(16cLL".toList]⟩, ⟨true, 1 / 4, 1 / 4, ["(16c".toList]⟩, ⟨true, 1 / 2, 1 / 4, ["(16c".toList]⟩,
      ⟨true, 3 / 4, 1 / 4, ["(16cJJ".toList]⟩, ⟨true, 1, 1, ["4d)".toList]⟩] := by decide +kernel

/-- A tremolo of two notes at the end of the file adds lines after its end, the last with a negative duration. -/
theorem finger_tremolo_lines_past_end :
    processTremolos (fun _ => true) [⟨true, 0, 1 / 2, ["8c@@16@@".toList]⟩, ⟨true, 1 / 2, 1 / 2, ["8d@@16@@".toList]⟩] =
    .ok [⟨true, 0, 1 / 4, ["16cLL".toList]⟩, ⟨true, 1 / 4, 1 / 4, ["16d".toList]⟩, ⟨true, 1 / 2, 1 / 4, ["16c".toList]⟩,
      ⟨true, 3 / 4, 1 / 4, ["16dJJ".toList]⟩, ⟨true, 1, 1 / 4, [".".toList]⟩, ⟨true, 5 / 4, -1 / 4, [".".toList]⟩] := by decide +kernel

end C21
