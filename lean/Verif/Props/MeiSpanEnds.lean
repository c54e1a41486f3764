import Verif.Model.MeiSpanEnds
import Verif.Props.MeiTstamp
import Verif.Lemmas.PyNum
import Verif.Lemmas.Tac
import Mathlib.Data.List.Basic
/-
C94: a spanner that ends at a position of the score still ends there after export to MEI and import.
-/
namespace C21

/-! ### Specification -/

/-- Measures that follow each other without gaps, from `s` on. -/
def Contig : Rat → List SpanMeas → Prop
  | _, [] => True
  | s, m :: ms => m.start = s ∧ 0 ≤ m.len ∧ Contig (s + m.len) ms

/-- The position is in the measure, its two barlines included. -/
def InMeas (e : Rat) (m : SpanMeas) : Prop := m.start ≤ e ∧ e ≤ m.start + m.len

/-- A decimal text (digits, a point, digits) and its value. -/
def DecimalText (t : Str) (v : Rat) : Prop :=
  ∃ a b : Str, a ≠ [] ∧ (∀ c ∈ a, isDig c = true) ∧ (∀ c ∈ b, isDig c = true) ∧ t = a ++ '.' :: b ∧
    v = parseNat a + (parseNat b : Rat) / 10 ^ b.length

/-- Beats that six significant digits tell apart (`tstamp_round_trip_partial`). -/
def FineBeat (offset : Rat) (denom : Nat) : Prop :=
  offset / 4 * denom + 1 < 10 ∧ (offset / 4 * denom + 1 : Rat).den ≤ 130 ∨
  offset / 4 * denom + 1 < 100 ∧ (offset / 4 * denom + 1 : Rat).den ≤ 13

/-- The spanners that end in measure `j`, when one that begins in measure `i` and skips `n` measures ends in measure `i + n`:
in order of the measures in which they begin. -/
def endsIn (spans : List (List SpanEnd)) (j : Nat) : List (Nat × Rat) :=
  (List.range (j + 1)).flatMap fun i =>
    ((spans.getD i []).filter (fun x => decide (i + x.skip = j))).map fun x => (x.spanner, x.off)

/-! ### Waiting ends -/

theorem endsIn_cons (new : List SpanEnd) (rest : List (List SpanEnd)) (j : Nat) :
    endsIn (new :: rest) (j + 1) =
      (new.filter (fun x => decide (x.skip = j + 1))).map endHere ++ endsIn rest j := by
  unfold endsIn
  rw [List.range_succ_eq_map, List.flatMap_cons, List.flatMap_map]
  have e : ∀ (n m k : Nat), (n + 1 + k = m + 1) = (n + k = m) := by intro n m k; apply propext; omega
  simp only [List.getD_cons_zero, Nat.zero_add, List.getD_cons_succ, e]
  rfl

theorem waiting_filter (l : List SpanEnd) (j : Nat) :
    ((l.map waitLess).filter (fun x => decide (x.skip = j + 1))).map endHere =
      (l.filter (fun x => decide (x.skip = j + 2))).map endHere := by
  induction l with
  | nil => rfl
  | cons p l ih =>
    rw [List.map_cons]
    by_cases h2 : p.skip = j + 2
    · rw [List.filter_cons_of_pos (by simp [waitLess, h2]),
        List.filter_cons_of_pos (by simp [h2]), List.map_cons, List.map_cons, ih]
      rfl
    · have h3 : ¬ p.skip - 1 = j + 1 := by omega
      rw [List.filter_cons_of_neg (a := p) (by simp [h2]), List.filter_cons_of_neg (by simp [waitLess, h3]), ih]

theorem new_filter (l : List SpanEnd) (j : Nat) :
    (l.filter (fun x => x.skip != 0)).filter (fun x => decide (x.skip = j + 1)) =
      l.filter (fun x => decide (x.skip = j + 1)) := by
  rw [List.filter_filter]
  apply List.filter_congr
  intro x _
  by_cases h : x.skip = j + 1 <;> simp [h]

theorem due_filter (l : List SpanEnd) (h : ∀ p ∈ l, p.skip ≠ 0) :
    ((l.map waitLess).filter (fun x => x.skip == 0)).map endHere =
      (l.filter (fun x => decide (x.skip = 1))).map endHere := by
  induction l with
  | nil => rfl
  | cons p l ih =>
    have hp := h p (by simp)
    have ih := ih (fun q hq => h q (by simp [hq]))
    rw [List.map_cons]
    by_cases h1 : p.skip = 1
    · rw [List.filter_cons_of_pos (by simp [waitLess, h1]), List.filter_cons_of_pos (by simp [h1]),
        List.map_cons, List.map_cons, ih]
      rfl
    · rw [List.filter_cons_of_neg (a := p) (by simp [h1]), List.filter_cons_of_neg
        (by simp only [waitLess, beq_iff_eq]; omega), ih]

theorem allEnds_get (spans : List (List SpanEnd)) (pending : List SpanEnd) (h : ∀ p ∈ pending, p.skip ≠ 0)
    (j : Nat) (hj : j < spans.length) :
    (allEnds pending spans)[j]? =
      some ((pending.filter (fun x => decide (x.skip = j + 1))).map endHere ++ endsIn spans j) := by
  induction spans generalizing pending j with
  | nil => exact absurd hj (by simp)
  | cons new rest ih =>
    cases j with
    | zero =>
      simp only [allEnds, List.getElem?_cons_zero, measureEnds, due_filter pending h, endsIn, List.range_one,
        List.flatMap_cons, List.flatMap_nil, List.append_nil, List.getD_cons_zero, Nat.zero_add]
      rfl
    | succ j =>
      simp only [allEnds, List.getElem?_cons_succ]
      rw [ih _ _ j (by simpa using hj)]
      · rw [endsIn_cons, ← List.append_assoc]
        simp only [measureEnds, List.filter_append, List.map_append, new_filter]
        rw [waiting_filter pending j]
      · intro p hp
        simp only [measureEnds, List.mem_append, List.mem_filter, bne_iff_ne] at hp
        rcases hp with hp | hp <;> exact hp.2

/-- C94: the reader puts the end of every spanner in the measure that is as many measures after the one it begins in as the
tstamp2 says, at the offset read; nothing else ends there, and the order is that of the beginnings. -/
theorem spanner_ends_placed (spans : List (List SpanEnd)) (j : Nat) (hj : j < spans.length) :
    (allEnds [] spans)[j]? = some (endsIn spans j) := by
  rw [allEnds_get spans [] (by simp) j hj]
  rfl

/-- Three measures; two spanners begin in the first one, and one in the second; all end in the third. -/
example : allEnds [] [[⟨1, 2, 0⟩, ⟨2, 2, 1⟩], [⟨3, 1, 2⟩], [⟨4, 0, 3⟩]] = [[], [], [(1, 0), (2, 1), (3, 2), (4, 3)]] := by
  decide +kernel

theorem allEnds_length (spans : List (List SpanEnd)) (pending : List SpanEnd) :
    (allEnds pending spans).length = spans.length := by
  induction spans generalizing pending with
  | nil => rfl
  | cons new rest ih => simp [allEnds, ih]

/-- C94: an end that skips more measures than there are is lost. -/
theorem end_after_last_measure_lost (spans : List (List SpanEnd)) (i n : Nat)
    (h : ∀ j s, spans[j]? = some s → ∀ x ∈ s, x.spanner = n → j = i ∧ spans.length ≤ i + x.skip) :
    ∀ ends ∈ allEnds [] spans, ∀ x ∈ ends, x.1 ≠ n := by
  intro ends he x hx hn
  obtain ⟨j, hj⟩ := List.mem_iff_getElem?.1 he
  have hlt : j < spans.length := by
    rw [← allEnds_length spans []]
    exact (List.getElem?_eq_some_iff.1 hj).1
  rw [spanner_ends_placed spans j hlt] at hj
  obtain rfl : endsIn spans j = ends := by simpa using hj
  simp only [endsIn, List.mem_flatMap, List.mem_map, List.mem_filter, decide_eq_true_eq] at hx
  obtain ⟨i', _, y, ⟨hy, hs⟩, rfl⟩ := hx
  cases hsp : spans[i']? with
  | none => rw [List.getD_eq_getElem?_getD, hsp] at hy; simp at hy
  | some s =>
    rw [List.getD_eq_getElem?_getD, hsp] at hy
    obtain ⟨rfl, hb⟩ := h i' s hsp y hy hn
    omega

/-! ### The text -/

theorem takeWhile_app (p : Char → Bool) (a : Str) (c : Char) (r : Str) (ha : ∀ x ∈ a, p x = true) (hc : p c = false) :
    (a ++ c :: r).takeWhile p = a ∧ (a ++ c :: r).dropWhile p = c :: r := by
  induction a with
  | nil => simp [hc]
  | cons x a ih =>
    have := ih (fun y hy => ha y (by simp [hy]))
    simp [ha x (by simp), this]

theorem takeWhile_all (p : Char → Bool) (a : Str) (ha : ∀ x ∈ a, p x = true) : a.takeWhile p = a := by
  induction a with
  | nil => rfl
  | cons x a ih => simp [ha x (by simp), ih (fun y hy => ha y (by simp [hy]))]

theorem digit_not_space (c : Char) (h : isDig c = true) : isPySpace c = false := by
  unfold isDig at h
  unfold isPySpace
  simp only [Bool.and_eq_true, decide_eq_true_eq] at h
  simp only [Bool.or_eq_false_iff, Bool.and_eq_false_iff, decide_eq_false_iff_not, beq_eq_false_iff_ne]
  omega

/-- C94: the text of a tstamp2 is taken apart as it was put together. -/
theorem matchTstamp2_text (k : Nat) (a b : Str) (ha : a ≠ []) (hda : ∀ c ∈ a, isDig c = true)
    (hdb : ∀ c ∈ b, isDig c = true) :
    matchTstamp2 (tstamp2Text k (a ++ '.' :: b)) = some (k, a ++ '.' :: b, '.' :: b) := by
  obtain ⟨x, a, rfl⟩ := List.exists_cons_of_ne_nil ha
  have hbeat : beatGroups ((x :: a) ++ '.' :: b) = some ((x :: a) ++ '.' :: b, '.' :: b) := by
    obtain ⟨h1, h2⟩ := takeWhile_app isDig (x :: a) '.' b hda (by decide)
    simp only [beatGroups, h1, h2, takeWhile_all isDig b hdb]
  obtain ⟨h1, h2⟩ := takeWhile_app isDig (natStr k) 'm' ('+' :: ((x :: a) ++ '.' :: b)) (natStr_isDig k) (by decide)
  have htext : tstamp2Text k ((x :: a) ++ '.' :: b) = natStr k ++ 'm' :: '+' :: ((x :: a) ++ '.' :: b) := by
    simp [tstamp2Text]
  have hskip : skipGroup (tstamp2Text k ((x :: a) ++ '.' :: b)) = some (natStr k, (x :: a) ++ '.' :: b) := by
    rw [htext, skipGroup, h1, h2]
    obtain ⟨d, ds, hd⟩ := List.exists_cons_of_ne_nil (natStr_ne_nil k)
    rw [hd]
    have hp : isPySpace '+' = false := by decide
    have hx : isPySpace x = false := digit_not_space x (hda x (by simp))
    simp only [List.dropWhile_cons, hp, List.cons_append, hx, Bool.false_eq_true, if_false]
  simp only [matchTstamp2, hskip, hbeat, parse_natStr]

theorem tstampToOffset_congr (x : Rat) (d1 d2 : Option Nat) (h : d1.getD 4 = d2.getD 4) :
    tstampToOffset x d1 = tstampToOffset x d2 := by
  simp only [tstampToOffset, beatToOffset, h]

theorem readTstamp2_text (fl : Str → Rat) (k : Nat) (t : Str) (v o : Rat) (d : Option Nat) (ht : DecimalText t v)
    (h : tstampToOffset (fl t) d = .ok o) : readTstamp2 fl d (tstamp2Text k t) = (k, o) := by
  obtain ⟨a, b, ha, hda, hdb, rfl, _⟩ := ht
  simp only [readTstamp2, matchTstamp2_text k a b ha hda hdb, beatOffset, List.isEmpty_cons, Bool.false_eq_true, if_false]
  unfold tstampToOffset at h
  cases hb : tstampToBeat (fl (a ++ '.' :: b)) with
  | error e => rw [hb] at h; simp [Except.map] at h
  | ok x =>
    rw [hb] at h
    simp only [Except.map, Except.ok.injEq] at h
    simp only [h]

theorem fine_reads (o x : Rat) (d1 d2 : Option Nat) (hd : d1.getD 4 = d2.getD 4) (h0 : d2 ≠ some 0)
    (hf : FineBeat o (d2.getD 4)) (hx : |x - makeTstamp o d2| ≤ 1 / 10 ^ 9) : tstampToOffset x d1 = .ok o := by
  rw [tstampToOffset_congr x d1 d2 hd]
  exact tstamp_round_trip_partial o x d2 h0 hx hf

/-! ### The measure of the end -/

theorem findEnd_spec (e : Rat) (ms : List SpanMeas) (k : Nat) (h : ∃ m ∈ ms, InMeas e m) :
    ∃ j m, ms[j]? = some m ∧ InMeas e m ∧ (∀ j' m', j' < j → ms[j']? = some m' → ¬ InMeas e m') ∧
      findEnd e ms k = (k + j, some (e - m.start)) := by
  induction ms generalizing k with
  | nil => obtain ⟨m, hm, _⟩ := h; exact absurd hm (by simp)
  | cons m ms ih =>
    by_cases hm : InMeas e m
    · refine ⟨0, m, rfl, hm, by intro j' m' hj; omega, ?_⟩
      unfold findEnd
      rw [if_pos ⟨by linarith [hm.1], by linarith [hm.2]⟩]
      rfl
    · obtain ⟨m', hm', hin⟩ := h
      have hex : ∃ m' ∈ ms, InMeas e m' := by
        rcases List.mem_cons.1 hm' with rfl | hm'
        · exact absurd hin hm
        · exact ⟨m', hm', hin⟩
      obtain ⟨j, n, hj, hn, hfirst, hfind⟩ := ih (k + 1) hex
      refine ⟨j + 1, n, by simpa using hj, hn, ?_, ?_⟩
      · intro j' m'' hlt hget
        cases j' with
        | zero =>
          obtain rfl : m = m'' := by simpa using hget
          exact hm
        | succ j' => exact hfirst j' m'' (by omega) (by simpa using hget)
      · unfold findEnd
        rw [if_neg (fun hh => hm ⟨by linarith [hh.1], by linarith [hh.2]⟩), hfind]
        congr 1
        omega

theorem contig_drop (ms : List SpanMeas) (s : Rat) (i : Nat) (mi : SpanMeas) (hc : Contig s ms) (hi : ms[i]? = some mi) :
    Contig mi.start (ms.drop i) ∧
      s + (ms.map SpanMeas.len).sum = mi.start + ((ms.drop i).map SpanMeas.len).sum := by
  induction ms generalizing s i with
  | nil => simp at hi
  | cons m ms ih =>
    obtain ⟨h1, h2, h3⟩ := hc
    cases i with
    | zero =>
      obtain rfl : m = mi := by simpa using hi
      exact ⟨⟨rfl, h2, h1 ▸ h3⟩, by simp [h1]⟩
    | succ i =>
      obtain ⟨h4, h5⟩ := ih (s + m.len) i h3 (by simpa using hi)
      refine ⟨h4, ?_⟩
      rw [List.map_cons, List.sum_cons, List.drop_succ_cons, ← h5]
      ring

theorem contig_covers (ms : List SpanMeas) (s e : Rat) (hne : ms ≠ []) (hc : Contig s ms) (h1 : s ≤ e)
    (h2 : e ≤ s + (ms.map SpanMeas.len).sum) : ∃ m ∈ ms, InMeas e m := by
  induction ms generalizing s with
  | nil => exact absurd rfl hne
  | cons m ms ih =>
    obtain ⟨h3, h4, h5⟩ := hc
    by_cases h : e ≤ s + m.len
    · exact ⟨m, by simp, by rw [InMeas, h3]; exact ⟨h1, h⟩⟩
    · have hsum : e ≤ s + m.len + (ms.map SpanMeas.len).sum := by
        rw [List.map_cons, List.sum_cons] at h2; linarith
      have hms : ms ≠ [] := by
        rintro rfl
        simp at hsum
        exact h hsum
      obtain ⟨n, hn, hin⟩ := ih (s + m.len) hms h5 (le_of_lt (not_le.1 h)) hsum
      exact ⟨n, by simp [hn], hin⟩

/-- C94, the part that holds: measures without gaps; a spanner that begins in measure `i` and ends at `e`, not before that
measure and not after the last one. When the meter at `e` counts the same beats as the meter of measure `i`, and the beat is
not too fine for six digits, the tstamp2 written is read as a number of measures `k` and an offset such that the end is at `e`,
in the first measure that contains it; and the end is put there. Missing: other meters, gaps (`end_on_barline_of_new_meter`,
`end_after_new_meter`, `end_in_gap`). -/
theorem spanner_end_round_trip_partial (fl : Str → Rat) (meters : List (Rat × Nat)) (ms : List SpanMeas) (s e : Rat)
    (i : Nat) (mi : SpanMeas) (t : Str)
    (hc : Contig s ms) (hi : ms[i]? = some mi) (h1 : mi.start ≤ e) (h2 : e ≤ s + (ms.map SpanMeas.len).sum)
    (hd : (denomAt meters mi.start).getD 4 = (denomAt meters e).getD 4) (h0 : denomAt meters e ≠ some 0)
    (hfine : ∀ m ∈ ms, InMeas e m → FineBeat (e - m.start) ((denomAt meters e).getD 4))
    (ht : DecimalText t (tstamp2FromScore meters ms i e).2)
    (hfl : |fl t - (tstamp2FromScore meters ms i e).2| ≤ 1 / 10 ^ 9) :
    ∃ k m, ms[i + k]? = some m ∧ InMeas e m ∧ (∀ k' m', k' < k → ms[i + k']? = some m' → ¬ InMeas e m') ∧
      readTstamp2 fl (denomAt meters mi.start) (tstamp2Text (tstamp2FromScore meters ms i e).1 t) = (k, e - m.start) ∧
      ∀ (spans : List (List SpanEnd)) (n : Nat), spans.length = ms.length → ⟨n, k, e - m.start⟩ ∈ spans.getD i [] →
        ∃ ends, (allEnds [] spans)[i + k]? = some ends ∧ (n, e - m.start) ∈ ends := by
  obtain ⟨hc', hsum⟩ := contig_drop ms s i mi hc hi
  have hne : ms.drop i ≠ [] := by
    intro h
    have := (List.getElem?_eq_some_iff.1 hi).1
    rw [List.drop_eq_nil_iff] at h
    omega
  obtain ⟨j, m, hj, hin, hfirst, hfind⟩ := findEnd_spec e (ms.drop i) 0 (contig_covers _ _ e hne hc' h1 (hsum ▸ h2))
  rw [List.getElem?_drop] at hj
  have hw : tstamp2FromScore meters ms i e = (j, makeTstamp (e - m.start) (denomAt meters e)) := by
    simp [tstamp2FromScore, hfind]
  rw [hw] at ht hfl
  refine ⟨j, m, hj, hin, ?_, ?_, ?_⟩
  · intro k' m' hlt hget
    exact hfirst k' m' hlt (by rw [List.getElem?_drop]; exact hget)
  · rw [hw]
    exact readTstamp2_text fl j t _ _ _ ht
      (fine_reads _ _ _ _ hd h0 (hfine m (List.mem_of_getElem? hj) hin) hfl)
  · intro spans n hlen hmem
    have hlt : i + j < spans.length := by
      rw [hlen]; exact (List.getElem?_eq_some_iff.1 hj).1
    refine ⟨_, spanner_ends_placed spans (i + j) hlt, ?_⟩
    simp only [endsIn, List.mem_flatMap, List.mem_range, List.mem_map, List.mem_filter, decide_eq_true_eq]
    exact ⟨i, by omega, ⟨n, j, e - m.start⟩, ⟨hmem, rfl⟩, rfl⟩

/-- A hairpin from the first measure of four quarter notes to the middle of the third, in 4/4: 2m+3.0. -/
example :
    Contig 0 [⟨0, 4⟩, ⟨4, 4⟩, ⟨8, 4⟩] ∧
    tstamp2FromScore [(0, 4)] [⟨0, 4⟩, ⟨4, 4⟩, ⟨8, 4⟩] 0 10 = (2, 3) ∧ DecimalText "3.0".toList 3 ∧
    readTstamp2 (fun _ => 3) (denomAt [(0, 4)] 0) "2m+3.0".toList = (2, 2) ∧ (8 : Rat) + 2 = 10 := by
  refine ⟨⟨rfl, by decide, by decide +kernel, by decide, by decide +kernel, by decide, trivial⟩, by decide +kernel,
    ⟨['3'], ['0'], by decide, by decide, by decide, rfl, by decide +kernel⟩, by decide +kernel, by decide +kernel⟩

theorem findEndObj_spec (l : List (Option Rat)) (j k : Nat) (o : Rat) (h : l[j]? = some (some o))
    (hb : ∀ j' < j, l[j']? = some none) : findEndObj l k = (k + j, some o) := by
  induction l generalizing j k with
  | nil => simp at h
  | cons x l ih =>
    cases j with
    | zero =>
      obtain rfl : x = some o := by simpa using h
      rfl
    | succ j =>
      obtain rfl : x = none := by simpa using hb 0 (by omega)
      rw [findEndObj, ih j (k + 1) (by simpa using h) (fun j' hj' => by simpa using hb (j' + 1) (by omega))]
      congr 1
      omega

/-- C94, the part that holds, for a spanner that ends at an object that is not a note: the object is in measure `i + k` of its
part, at offset `o`, in no measure before; the part in which the spanner begins has that measure too. Then the end is read in
measure `i + k` at offset `o`. Missing: other meters, parts with fewer measures (`end_object_error`). -/
theorem spanner_end_object_round_trip_partial (fl : Str → Rat) (meters : List (Rat × Nat)) (inMeas : List (Option Rat))
    (nStart i k : Nat) (si e o : Rat) (t : Str)
    (hin : inMeas[i + k]? = some (some o)) (hb : ∀ k' < k, inMeas[i + k']? = some none) (hn : i + k < nStart)
    (hd : (denomAt meters si).getD 4 = (denomAt meters e).getD 4) (h0 : denomAt meters e ≠ some 0)
    (hfine : FineBeat o ((denomAt meters e).getD 4)) :
    ∃ v, tstamp2FromObject meters nStart inMeas i e = .ok (k, v) ∧
      (DecimalText t v → |fl t - v| ≤ 1 / 10 ^ 9 → readTstamp2 fl (denomAt meters si) (tstamp2Text k t) = (k, o)) := by
  have hf : findEndObj ((inMeas.take nStart).drop i) 0 = (k, some o) := by
    rw [findEndObj_spec _ k 0 o, Nat.zero_add]
    · rw [List.getElem?_drop, List.getElem?_take_of_lt hn]; exact hin
    · intro k' hk'
      rw [List.getElem?_drop, List.getElem?_take_of_lt (by omega)]; exact hb k' hk'
  refine ⟨makeTstamp o (denomAt meters e), by simp only [tstamp2FromObject, hf], ?_⟩
  intro ht hfl
  exact readTstamp2_text fl k t _ _ _ ht (fine_reads _ _ _ _ hd h0 hfine hfl)

theorem findEndObj_none (l : List (Option Rat)) (k : Nat) : (findEndObj l k).2 = none ↔ ∀ x ∈ l, x = none := by
  induction l generalizing k with
  | nil => simp [findEndObj]
  | cons x l ih =>
    cases x with
    | none => rw [findEndObj, ih]; simp
    | some o => simp [findEndObj]

/-- C94: export fails exactly when the end object is in no measure from the start measure on, counting only as many measures as
the part of the beginning has. -/
theorem end_object_error (meters : List (Rat × Nat)) (inMeas : List (Option Rat)) (nStart i : Nat) (e : Rat) :
    (∃ err, tstamp2FromObject meters nStart inMeas i e = .error err) ↔
      ∀ j o, i ≤ j → j < nStart → inMeas[j]? ≠ some (some o) := by
  have key : (∀ x ∈ (inMeas.take nStart).drop i, x = none) ↔
      ∀ j o, i ≤ j → j < nStart → inMeas[j]? ≠ some (some o) := by
    constructor
    · intro h j o h1 h2 h3
      have : some o ∈ (inMeas.take nStart).drop i := by
        apply List.mem_of_getElem? (i := j - i)
        rw [List.getElem?_drop, List.getElem?_take_of_lt (by omega)]
        rw [show i + (j - i) = j by omega]
        exact h3
      simpa using h _ this
    · intro h x hx
      obtain ⟨j, hj⟩ := List.mem_iff_getElem?.1 hx
      rw [List.getElem?_drop] at hj
      cases x with
      | none => rfl
      | some o =>
        have hlt : i + j < nStart := by
          have := (List.getElem?_eq_some_iff.1 hj).1
          rw [List.length_take] at this
          omega
        rw [List.getElem?_take_of_lt hlt] at hj
        exact absurd hj (h (i + j) o (by omega) hlt)
  rw [← key, ← findEndObj_none _ 0]
  cases hf : findEndObj ((inMeas.take nStart).drop i) 0 with
  | mk k r =>
    cases r with
    | none => simp [tstamp2FromObject, hf]
    | some o => simp [tstamp2FromObject, hf]

/-! ### What is false -/

/-- C94 is false when the meter changes: a hairpin over the first measure, 4/4, before a measure in 6/8 ends at the barline. Its
end is counted in eighth notes, 0m+9.0, and read in quarter notes: 8 quarter notes after the beginning of the measure. -/
theorem end_on_barline_of_new_meter :
    tstamp2FromScore [(0, 4), (4, 8)] [⟨0, 4⟩, ⟨4, 3⟩] 0 4 = (0, 9) ∧
    readTstamp2 (fun _ => 9) (denomAt [(0, 4), (4, 8)] 0) "0m+9.0".toList = (0, 8) := by
  decide +kernel

/-- The same for a hairpin that ends in the middle of the measure in 6/8: 1m+4.0 is read as the fourth quarter note. -/
theorem end_after_new_meter :
    tstamp2FromScore [(0, 4), (4, 8)] [⟨0, 4⟩, ⟨4, 3⟩] 0 (4 + 3 / 2) = (1, 4) ∧
    readTstamp2 (fun _ => 4) (denomAt [(0, 4), (4, 8)] 0) "1m+4.0".toList = (1, 3) := by
  decide +kernel

/-- C94 is false for an end after the contents of a measure that is not full: no measure is found, and the end is written as
after the last measure, where it is lost (`end_after_last_measure_lost`); the message says it is put at the start measure. -/
theorem end_in_gap :
    tstamp2FromScore [(0, 4)] [⟨0, 3⟩, ⟨4, 4⟩] 0 (7 / 2) = (2, 1) ∧
    allEnds [] [[⟨1, 2, 0⟩], []] = [[], []] := by
  decide +kernel

/-- C94: a tstamp2 with no beat is read as a beat in the same measure. -/
theorem skip_without_beat (fl : Str → Rat) :
    readTstamp2 fl none "3m+".toList = (0, 2) ∧ readTstamp2 fl none "3m".toList = (0, 2) := by
  constructor
  · have : matchTstamp2 "3m+".toList = some (0, ['3'], []) := by decide +kernel
    simp only [readTstamp2, this, beatOffset, List.isEmpty_nil, if_true]
    decide +kernel
  · have : matchTstamp2 "3m".toList = some (0, ['3'], []) := by decide +kernel
    simp only [readTstamp2, this, beatOffset, List.isEmpty_nil, if_true]
    decide +kernel

end C21
