import Verif.Model.IsoDates
import Verif.Spec.IsoDates
import Verif.Props.Dates
import Verif.Props.Signifier
import Verif.Lemmas.Tac
/-
C44: ISO and EDTF dates.
-/
namespace C21

/-! ## One value -/

theorem parseNat_zeros (k : Nat) (s : Str) : parseNat (List.replicate k '0' ++ s) = parseNat s := by
  induction k with
  | zero => rfl
  | succ k ih =>
    rw [← ih]
    unfold parseNat
    rw [List.replicate_succ, List.cons_append, List.foldl_cons]
    rfl

theorem padZeros_pos (w : Nat) (v : Int) (h : 0 ≤ v) : padZeros w v ≠ [] ∧ (∀ c ∈ padZeros w v, isDig c = true) ∧
    (parseNat (padZeros w v) : Int) = v := by
  unfold padZeros
  rw [if_neg (by omega)]
  refine ⟨?_, ?_, ?_⟩
  · have := natStr_ne_nil v.natAbs
    simp [this]
  · intro c hc
    rcases List.mem_append.1 hc with hc | hc
    · rw [List.eq_of_mem_replicate hc]; decide
    · exact natStr_isDig _ c hc
  · rw [parseNat_zeros, parse_natStr]; omega

theorem padZeros_neg (w : Nat) (v : Int) (h : v < 0) : ∃ r, padZeros w v = '-' :: r := by
  unfold padZeros
  rw [if_pos h]
  exact ⟨_, rfl⟩

theorem isoSuffix_true (e : Option DateErr) : isoSuffix true e = some (isoMark e) := by
  cases e with
  | none => rfl
  | some e => cases e <;> rfl

/-- A piece of an EDTF date. -/
def isoPiece (i : Nat) (v : Int) (e : Option DateErr) : Str := isoNumber i v ++ isoMark e

theorem isoMark_mem {e : Option DateErr} {c : Char} (h : c ∈ isoMark e) : c = '~' ∨ c = '?' := by
  cases e with
  | none => simp [isoMark] at h
  | some e => cases e <;> simp [isoMark] at h <;> simp [h]

theorem isoPiece_mem {i : Nat} {v : Int} {e : Option DateErr} (hv : 0 ≤ v) {c : Char} (h : c ∈ isoPiece i v e) :
    isDig c = true ∨ c = '~' ∨ c = '?' := by
  rcases List.mem_append.1 h with h | h
  · exact Or.inl ((padZeros_pos _ v hv).2.1 c h)
  · exact Or.inr (isoMark_mem h)

theorem padZeros_mem {w : Nat} {v : Int} {c : Char} (h : c ∈ padZeros w v) : isDig c = true ∨ c = '-' := by
  unfold padZeros at h
  have key : ∀ k, c ∈ List.replicate k '0' ++ natStr v.natAbs → isDig c = true := by
    intro k h
    rcases List.mem_append.1 h with h | h
    · rw [List.eq_of_mem_replicate h]; decide
    · exact natStr_isDig _ c h
  split at h
  · rcases List.mem_cons.1 h with h | h
    · exact Or.inr h
    · exact Or.inl (key _ h)
  · exact Or.inl (key _ h)

theorem isoPiece_mem' {i : Nat} {v : Int} {e : Option DateErr} {c : Char} (h : c ∈ isoPiece i v e) :
    isDig c = true ∨ c = '-' ∨ c = '~' ∨ c = '?' := by
  rcases List.mem_append.1 h with h | h
  · rcases padZeros_mem h with h | h
    · exact Or.inl h
    · exact Or.inr (Or.inl h)
  · exact Or.inr (Or.inr (isoMark_mem h))

theorem isDig_T {c : Char} (h : isDig c = true) : c ≠ 'T' ∧ c ≠ ',' ∧ c ≠ '{' ∧ c ≠ '}' ∧ c ≠ '[' ∧ c ≠ ']' := by
  refine ⟨?_, ?_, ?_, ?_, ?_, ?_⟩ <;> (rintro rfl; exact absurd h (by decide))

theorem isoPiece_ne_nil (i : Nat) (v : Int) (e : Option DateErr) : isoPiece i v e ≠ [] := by
  intro h
  have h1 := (List.append_eq_nil_iff.1 h).1
  unfold isoNumber padZeros at h1
  split at h1
  · simp at h1
  · exact natStr_ne_nil _ (List.append_eq_nil_iff.1 h1).2

theorem stripDateError_piece (s : Str) (h : ∀ c ∈ s, isDig c = true) (e : Option DateErr) : stripDateError (s ++ isoMark e) = (s, e) := by
  have hf : s.find? (fun c => c == '~' || c == 'x' || c == '?' || c == 'z') = none := by
    rw [List.find?_eq_none]
    intro c hc
    have f := isDig_facts (h c hc)
    simp [f.2.2.2.2.2.2.2.2.2.1, f.2.2.2.2.2.2.2.2.2.2.1, f.2.2.2.2.2.2.2.2.2.2.2.1, f.2.2.2.2.2.2.2.2.2.2.2.2.1]
  have g : ∀ c, (∀ x ∈ s, x ≠ c) → (s ++ [c]).filter (· != c) = s := by
    intro c hc
    rw [List.filter_append, List.filter_eq_self.2 (by intro x hx; simpa using hc x hx)]
    simp
  unfold stripDateError
  cases e with
  | none => rw [show isoMark none = [] from rfl, List.append_nil, hf]
  | some e =>
    cases e with
    | approximate =>
      rw [show isoMark (some .approximate) = ['~'] from rfl, List.find?_append, hf]
      show ((s ++ ['~']).filter (· != '~'), some DateErr.approximate) = _
      rw [g '~' (fun x hx => (isDig_facts (h x hx)).2.2.2.2.2.2.2.2.2.1)]
    | uncertain =>
      rw [show isoMark (some .uncertain) = ['?'] from rfl, List.find?_append, hf]
      show ((s ++ ['?']).filter (· != '?'), some DateErr.uncertain) = _
      rw [g '?' (fun x hx => (isDig_facts (h x hx)).2.2.2.2.2.2.2.2.2.2.2.1)]

theorem m21Field_piece (i : Nat) (v : Int) (e : Option DateErr) (hv : 0 ≤ v) : m21Field (some (isoPiece i v e)) = some ⟨some v, e⟩ := by
  obtain ⟨h1, h2, h3⟩ := padZeros_pos (if i = 0 then 4 else 2) v hv
  have hs : Signed (isoNumber i v) v := ⟨_, h1, h2, Or.inl ⟨rfl, h3.symm⟩⟩
  unfold m21Field isoPiece
  dsimp only
  rw [stripDateError_piece (isoNumber i v) h2]
  dsimp only
  rw [hs.pyInt]

theorem m21Field_nil : m21Field (some []) = none := rfl

/-! ## One date -/

theorem m21Date_year_none {mo d h mi s : Option Str} {y : Option Str} (hy : m21Field y = none) : m21Date y mo d h mi s = none := by
  unfold m21Date; rw [hy]

theorem m21Date_month_none {y d h mi s : Option Str} {mo : Option Str} (hm : m21Field mo = none) : m21Date y mo d h mi s = none := by
  unfold m21Date; rw [hm]; cases m21Field y <;> rfl

theorem m21Date_day_none {y mo h mi s : Option Str} {d : Option Str} (hd : m21Field d = none) : m21Date y mo d h mi s = none := by
  unfold m21Date; rw [hd]; cases m21Field y <;> cases m21Field mo <;> rfl

theorem m21Date_time {y mo d h mi s : Option Str} {r : Date} (hr : m21Date y mo d h mi s = some r) :
    m21Field h = some r.hour ∧ m21Field mi = some r.minute ∧ m21Field s = some r.second := by
  unfold m21Date at hr
  cases hy : m21Field y <;> cases hmo : m21Field mo <;> cases hd : m21Field d <;> cases hh : m21Field h <;> cases hmi : m21Field mi <;>
    cases hs : m21Field s <;> rw [hy, hmo, hd, hh, hmi, hs] at hr <;> simp at hr
  subst hr
  exact ⟨rfl, rfl, rfl⟩

theorem splitOn_length (c : Char) (s : Str) : (splitOn c s).length = countChar c s + 1 := by
  induction s with
  | nil => rfl
  | cons x xs ih =>
    unfold splitOn
    by_cases h : x = c
    · rw [if_pos h, List.length_cons, ih]
      unfold countChar
      rw [List.filter_cons_of_pos (by simpa using h), List.length_cons]
    · rw [if_neg h]
      have e : countChar c (x :: xs) = countChar c xs := by
        unfold countChar; rw [List.filter_cons_of_neg (by simpa using h)]
      rw [e, ← ih]
      cases hs : splitOn c xs with
      | nil => exact absurd hs (splitOn_ne_nil c xs)
      | cons a b => rfl

/-- A time needs two colons. -/
theorem timePiece_none (t : Str) (h : countChar ':' t ≤ 1) (i : Nat) : timePiece t i = none := by
  unfold timePiece
  by_cases ht : t = []
  · rw [if_pos ht]
  · rw [if_neg ht, if_neg (by rw [splitOn_length]; omega)]

theorem countChar_le_of_splitOn {c k : Char} {s : Str} : ∀ p ∈ splitOn k s, countChar c p ≤ countChar c s := by
  induction s with
  | nil => intro p hp; simp [splitOn] at hp; subst hp; exact Nat.le_refl _
  | cons x xs ih =>
    intro p hp
    have mono : countChar c xs ≤ countChar c (x :: xs) := by
      unfold countChar; rw [List.filter_cons]; split <;> simp
    unfold splitOn at hp
    by_cases h : x = k
    · rw [if_pos h] at hp
      rcases List.mem_cons.1 hp with rfl | hp
      · simp [countChar]
      · exact Nat.le_trans (ih p hp) mono
    · rw [if_neg h] at hp
      cases hs : splitOn k xs with
      | nil => exact absurd hs (splitOn_ne_nil k xs)
      | cons a b =>
        rw [hs] at hp ih
        rcases List.mem_cons.1 hp with rfl | hp
        · have := ih a (by simp)
          unfold countChar at this ⊢
          rw [List.filter_cons, List.filter_cons]
          split <;> simp <;> omega
        · exact Nat.le_trans (ih p (by simp [hp])) mono

theorem isoDateTime_time {s a b : Str} (h : isoDateTime s = some (a, b)) : countChar ':' b ≤ countChar ':' s := by
  unfold isoDateTime at h
  split at h
  · split at h
    · rename_i x y hs
      simp only [Option.some.injEq, Prod.mk.injEq] at h
      rw [← h.2]
      exact countChar_le_of_splitOn (k := 'T') y (by rw [hs]; simp)
    · simp at h
  · split at h
    · simp only [Option.some.injEq, Prod.mk.injEq] at h
      rw [← h.2]; simp [countChar]
    · split at h
      · simp only [Option.some.injEq, Prod.mk.injEq] at h
        rw [← h.2]
      · simp at h

/-- A text with at most one colon has no time. -/
theorem isoRead_no_time {s : Str} {d : Date} (h : isoRead s = some d) (hc : countChar ':' s ≤ 1) :
    d.hour = {} ∧ d.minute = {} ∧ d.second = {} := by
  unfold isoRead at h
  split at h
  · simp at h
  split at h
  · simp at h
  split at h
  · simp at h
  cases hp : isoDateTime s with
  | none => rw [hp] at h; simp at h
  | some p =>
    rw [hp] at h
    dsimp only at h
    have h2 : countChar ':' p.2 ≤ 1 := Nat.le_trans (isoDateTime_time (a := p.1) (b := p.2) hp) hc
    rw [timePiece_none _ h2, timePiece_none _ h2, timePiece_none _ h2] at h
    obtain ⟨h1, h2, h3⟩ := m21Date_time h
    exact ⟨(Option.some.inj h1).symm, (Option.some.inj h2).symm, (Option.some.inj h3).symm⟩

theorem splitOn_cons_sep (c : Char) (r : Str) : splitOn c (c :: r) = [] :: splitOn c r := by
  show (if c = c then [] :: splitOn c r else _) = _
  rw [if_pos rfl]

/-- A text that begins with '-' is not read. -/
theorem isoRead_dash (r : Str) : isoRead ('-' :: r) = none := by
  unfold isoRead
  rw [if_neg (by simp)]
  split
  · rfl
  rw [if_neg (by simp)]
  cases hp : isoDateTime ('-' :: r) with
  | none => rfl
  | some p =>
    dsimp only
    apply m21Date_year_none
    have : ∃ q, p.1 = '-' :: q := by
      unfold isoDateTime at hp
      split at hp
      · split at hp
        · rename_i x y hs
          simp only [Option.some.injEq] at hp
          subst hp
          have : splitOn 'T' ('-' :: r) = match splitOn 'T' r with | [] => [['-']] | h :: t => ('-' :: h) :: t := by
            show (if '-' = 'T' then _ else _) = _
            rw [if_neg (by decide)]
            rfl
          rw [this] at hs
          cases hr : splitOn 'T' r with
          | nil => exact absurd hr (splitOn_ne_nil _ _)
          | cons a b =>
            rw [hr] at hs
            simp only [List.cons.injEq] at hs
            exact ⟨a, hs.1.symm⟩
        · simp at hp
      · split at hp
        · simp only [Option.some.injEq] at hp; subst hp; exact ⟨r, rfl⟩
        · rename_i h1 h2
          rw [if_neg (by simp)] at hp
          simp at hp
    obtain ⟨q, hq⟩ := this
    rw [hq]
    unfold datePiece
    rw [if_neg (by simp), splitOn_cons_sep]
    exact m21Field_nil

/-- Texts of dates without a time. -/
theorem isoRead_plain (s : Str) (hne : s ≠ []) (h : ∀ c ∈ s, c ≠ '/' ∧ c ≠ '{' ∧ c ≠ '[' ∧ c ≠ 'T' ∧ c ≠ ':') :
    isoRead s = m21Date (splitOn '-' s)[0]? (splitOn '-' s)[1]? (splitOn '-' s)[2]? none none none := by
  unfold isoRead
  rw [if_neg hne, if_neg (by rw [List.contains_iff_mem]; intro hm; exact (h _ hm).1 rfl), if_neg]
  · have e : isoDateTime s = some (s, []) := by
      unfold isoDateTime
      rw [if_neg (by rw [List.contains_iff_mem]; intro hm; exact (h _ hm).2.2.2.1 rfl), if_pos]
      simp only [Bool.not_eq_true']
      cases hc : s.contains ':' with
      | false => rfl
      | true => exact absurd rfl (h _ (List.contains_iff_mem.1 hc)).2.2.2.2
    rw [e]
    dsimp only
    unfold datePiece
    rw [if_neg hne, if_neg hne, if_neg hne]
    rfl
  · rintro (h1 | h1)
    · exact (h _ (List.mem_of_mem_head? (by rw [h1]; simp))).2.1 rfl
    · exact (h _ (List.mem_of_mem_head? (by rw [h1]; simp))).2.2.1 rfl

theorem piece_chars {i : Nat} {v : Int} {e : Option DateErr} {c : Char} (h : c ∈ isoPiece i v e) :
    c ≠ '/' ∧ c ≠ '{' ∧ c ≠ '[' ∧ c ≠ 'T' ∧ c ≠ ':' := by
  rcases isoPiece_mem' h with h | rfl | rfl | rfl
  · have f := isDig_facts h
    have g := isDig_T h
    exact ⟨f.2.2.2.2.2.2.1, g.2.2.1, g.2.2.2.2.1, g.1, f.2.2.2.2.2.2.2.1⟩
  all_goals decide

theorem piece_no_dash {i : Nat} {v : Int} {e : Option DateErr} (hv : 0 ≤ v) : '-' ∉ isoPiece i v e := by
  intro h
  rcases isoPiece_mem hv h with h | h | h <;> exact absurd h (by decide)

theorem isoMsgs_cons (i : Nat) (f : DateField) (fs : List DateField) (v : Int) (h : f.value = some v) :
    isoMsgs true i (f :: fs) = (isoMsgs true (i + 1) fs).map (isoPiece i v f.error :: ·) := by
  show (match f.value with | none => _ | some v => _) = _
  rw [h]
  dsimp only
  rw [isoSuffix_true]
  dsimp only
  cases isoMsgs true (i + 1) fs <;> rfl

theorem isoMsgs_stop (i : Nat) (f : DateField) (fs : List DateField) (h : f.value = none) : isoMsgs true i (f :: fs) = some [] := by
  show (match f.value with | none => _ | some v => _) = _
  rw [h]

/-- The texts of dates without hour. -/
theorem isoDate_none (d : Date) (h : d.year.value = none) : isoDate true d = [] := by
  unfold isoDate Date.fields
  rw [isoMsgs_stop _ _ _ h]
  rfl

theorem isoDate_year (d : Date) (y : Int) (h : d.year.value = some y) (h2 : d.month.value = none) :
    isoDate true d = isoPiece 0 y d.year.error := by
  unfold isoDate Date.fields
  rw [isoMsgs_cons _ _ _ y h, isoMsgs_stop _ _ _ h2]
  show isoPiece 0 y d.year.error ++ [] = _
  rw [List.append_nil]

theorem isoDate_month (d : Date) (y m : Int) (h : d.year.value = some y) (h2 : d.month.value = some m) (h3 : d.day.value = none) :
    isoDate true d = isoPiece 0 y d.year.error ++ '-' :: isoPiece 1 m d.month.error := by
  unfold isoDate Date.fields
  rw [isoMsgs_cons _ _ _ y h, isoMsgs_cons _ _ _ m h2, isoMsgs_stop _ _ _ h3]
  show (isoPiece 0 y d.year.error ++ '-' :: isoPiece 1 m d.month.error) ++ [] = _
  rw [List.append_nil]

theorem isoDate_day (d : Date) (y m a : Int) (h : d.year.value = some y) (h2 : d.month.value = some m) (h3 : d.day.value = some a)
    (h4 : d.hour.value = none) :
    isoDate true d = isoPiece 0 y d.year.error ++ '-' :: (isoPiece 1 m d.month.error ++ '-' :: isoPiece 2 a d.day.error) := by
  unfold isoDate Date.fields
  rw [isoMsgs_cons _ _ _ y h, isoMsgs_cons _ _ _ m h2, isoMsgs_cons _ _ _ a h3, isoMsgs_stop _ _ _ h4]
  show (isoPiece 0 y d.year.error ++ '-' :: (isoPiece 1 m d.month.error ++ '-' :: isoPiece 2 a d.day.error)) ++ [] = _
  rw [List.append_nil]

/-- With `edtf` every mark can be written; at most one piece for each value. -/
theorem isoMsgs_total : ∀ (fs : List DateField) (i : Nat), ∃ ms, isoMsgs true i fs = some ms ∧ ms.length ≤ fs.length ∧
    ∀ m ∈ ms, ∃ k v e, m = isoPiece k v e
  | [], _ => ⟨[], rfl, Nat.le_refl _, by simp⟩
  | f :: fs, i => by
    obtain ⟨ms, h1, h2, h3⟩ := isoMsgs_total fs (i + 1)
    cases hv : f.value with
    | none => exact ⟨[], isoMsgs_stop _ _ _ hv, by simp, by simp⟩
    | some v =>
      refine ⟨isoPiece i v f.error :: ms, by rw [isoMsgs_cons _ _ _ v hv, h1]; rfl, by simpa using h2, ?_⟩
      intro m hm
      rcases List.mem_cons.1 hm with rfl | hm
      · exact ⟨_, _, _, rfl⟩
      · exact h3 m hm

theorem joinWith_begins (c : Char) (p : Str) (ms : List Str) : ∃ r, joinWith c (p :: ms) = p ++ r := by
  cases ms with
  | nil => exact ⟨[], by simp [joinWith]⟩
  | cons a b => exact ⟨_, rfl⟩

/-- Every text begins with the year. -/
theorem isoDate_begins (d : Date) (y : Int) (h : d.year.value = some y) : ∃ r, isoDate true d = isoPiece 0 y d.year.error ++ r := by
  obtain ⟨ms, h1, _, _⟩ := isoMsgs_total [d.month, d.day, d.hour, d.minute, d.second] 1
  unfold isoDate Date.fields
  rw [isoMsgs_cons _ _ _ y h, h1]
  obtain ⟨r, hr⟩ := joinWith_begins '-' (isoPiece 0 y d.year.error) (ms.take 3)
  show ∃ r, joinWith '-' (isoPiece 0 y d.year.error :: ms.take 3) ++ _ = _
  rw [hr]
  exact ⟨_, List.append_assoc _ _ _⟩

/-- No text has two colons. -/
theorem isoDate_colons (d : Date) : countChar ':' (isoDate true d) ≤ 1 := by
  obtain ⟨ms, h1, h2, h3⟩ := isoMsgs_total d.fields 0
  have z : ∀ m ∈ ms, countChar ':' m = 0 := by
    intro m hm
    obtain ⟨k, v, e, rfl⟩ := h3 m hm
    apply countChar_zero
    intro hc
    exact (piece_chars hc).2.2.2.2 rfl
  have zj : ∀ ss : List Str, (∀ m ∈ ss, countChar ':' m = 0) → countChar ':' (joinWith '-' ss) = 0 := by
    intro ss hs
    apply countChar_zero
    intro hm
    rcases mem_joinWith '-' ss ':' hm with h | ⟨s, h, hc⟩
    · exact absurd h (by decide)
    · have := hs s h
      unfold countChar at this
      have hp : ':' ∈ s.filter (· == ':') := by rw [List.mem_filter]; exact ⟨hc, by decide⟩
      rw [List.length_eq_zero_iff.1 this] at hp
      exact absurd hp (by simp)
  unfold isoDate
  rw [h1]
  dsimp only
  rw [countChar_append, zj _ (fun m hm => z m (List.mem_of_mem_take hm))]
  have hl : (ms.drop 4).length ≤ 2 := by
    have : d.fields.length = 6 := rfl
    rw [List.length_drop]; omega
  have zd : ∀ m ∈ ms.drop 4, countChar ':' m = 0 := fun m hm => z m (List.mem_of_mem_drop hm)
  split
  · have e : ∀ r, countChar ':' ('T' :: r) = countChar ':' r := by intro r; rfl
    rw [e]
    generalize ms.drop 4 = ts at hl zd
    match ts, hl, zd with
    | [], _, _ => simp [joinWith, countChar]
    | [a], _, zd => have := zd a (by simp); simp [joinWith]; omega
    | [a, b], _, zd =>
      have h1 := zd a (by simp)
      have h2 := zd b (by simp)
      have : joinWith ':' [a, b] = a ++ ([':'] ++ b) := rfl
      rw [this, countChar_append, countChar_append, h1, h2]
      decide
    | _ :: _ :: _ :: _, hl, _ => simp at hl
  · simp [countChar]

theorem chars_append {s t : Str} (hs : ∀ c ∈ s, c ≠ '/' ∧ c ≠ '{' ∧ c ≠ '[' ∧ c ≠ 'T' ∧ c ≠ ':')
    (ht : ∀ c ∈ t, c ≠ '/' ∧ c ≠ '{' ∧ c ≠ '[' ∧ c ≠ 'T' ∧ c ≠ ':') :
    ∀ c ∈ s ++ '-' :: t, c ≠ '/' ∧ c ≠ '{' ∧ c ≠ '[' ∧ c ≠ 'T' ∧ c ≠ ':' := by
  intro c hc
  rcases List.mem_append.1 hc with hc | hc
  · exact hs c hc
  · rcases List.mem_cons.1 hc with rfl | hc
    · decide
    · exact ht c hc

/-- C44. A date written as EDTF and read is the same date exactly if it is a calendar date. -/
theorem iso_roundtrip_partial (d : Date) : isoRead (isoDate true d) = some d ↔ CalendarDate d := by
  constructor
  · intro h
    obtain ⟨t1, t2, t3⟩ := isoRead_no_time h (isoDate_colons d)
    cases hy : d.year.value with
    | none => rw [isoDate_none d hy] at h; simp [isoRead] at h
    | some y =>
      have hy0 : 0 ≤ y := by
        by_contra hn
        obtain ⟨r, hr⟩ := isoDate_begins d y hy
        obtain ⟨q, hq⟩ := padZeros_neg 4 y (by omega)
        have : isoPiece 0 y d.year.error = '-' :: (q ++ isoMark d.year.error) := by
          unfold isoPiece isoNumber; rw [if_pos rfl, hq]; rfl
        rw [hr, this, List.cons_append, isoRead_dash] at h
        simp at h
      have p0 : m21Field (some (isoPiece 0 y d.year.error)) = some d.year := by
        rw [m21Field_piece _ _ _ hy0, ← hy]
      have n0 : '-' ∉ isoPiece 0 y d.year.error := piece_no_dash hy0
      cases hm : d.month.value with
      | none =>
        rw [isoDate_year d y hy hm, isoRead_plain _ (isoPiece_ne_nil _ _ _) (fun c hc => piece_chars hc), splitOn_of_not_mem _ _ n0] at h
        have : m21Date [isoPiece 0 y d.year.error][0]? [isoPiece 0 y d.year.error][1]? [isoPiece 0 y d.year.error][2]? none none none =
            some { year := d.year } := by
          show m21Date (some _) none none none none none = _
          unfold m21Date; rw [p0]; rfl
        rw [this] at h
        have e1 := congrArg Date.month (Option.some.inj h)
        have e2 := congrArg Date.day (Option.some.inj h)
        dsimp only at e1 e2
        refine ⟨⟨y, hy, hy0⟩, ?_, ?_, ?_, ?_, ?_, t1, t2, t3⟩
        · intro v hv; rw [hm] at hv; simp at hv
        · intro v hv; rw [← e2] at hv; simp at hv
        · intro _; rw [← e2]
        · intro _; rw [← e1]
        · intro _; rw [← e2]
      | some m =>
        have hm0 : 0 ≤ m ∨ m < 0 := by omega
        cases ha : d.day.value with
        | none =>
          rw [isoDate_month d y m hy hm ha, isoRead_plain _ (by simp) (chars_append (fun c hc => piece_chars hc) (fun c hc => piece_chars hc)),
            splitOn_append_sep _ _ _ n0] at h
          rcases hm0 with hm0 | hm0
          · rw [splitOn_of_not_mem _ _ (piece_no_dash hm0)] at h
            have : m21Date [isoPiece 0 y d.year.error, isoPiece 1 m d.month.error][0]? [isoPiece 0 y d.year.error, isoPiece 1 m d.month.error][1]?
                [isoPiece 0 y d.year.error, isoPiece 1 m d.month.error][2]? none none none =
                some { year := d.year, month := ⟨some m, d.month.error⟩ } := by
              show m21Date (some _) (some _) none none none none = _
              unfold m21Date; rw [p0, m21Field_piece _ _ _ hm0]; rfl
            rw [this] at h
            have e2 := congrArg Date.day (Option.some.inj h)
            dsimp only at e2
            refine ⟨⟨y, hy, hy0⟩, ?_, ?_, ?_, ?_, ?_, t1, t2, t3⟩
            · intro v hv; rw [hm] at hv; simp only [Option.some.injEq] at hv; omega
            · intro v hv; rw [← e2] at hv; simp at hv
            · intro _; rw [← e2]
            · intro hh; rw [hm] at hh; simp at hh
            · intro _; rw [← e2]
          · exfalso
            obtain ⟨q, hq⟩ := padZeros_neg 2 m hm0
            have e : isoPiece 1 m d.month.error = '-' :: (q ++ isoMark d.month.error) := by
              unfold isoPiece isoNumber; rw [if_neg (by omega), hq]; rfl
            rw [e, splitOn_cons_sep] at h
            have z : some d = none := h.symm.trans (m21Date_month_none rfl)
            simp at z
        | some a =>
          have t1' : d.hour.value = none := by rw [t1]
          rw [isoDate_day d y m a hy hm ha t1', isoRead_plain _ (by simp)
            (chars_append (fun c hc => piece_chars hc) (chars_append (fun c hc => piece_chars hc) (fun c hc => piece_chars hc))),
            splitOn_append_sep _ _ _ n0] at h
          rcases hm0 with hm0 | hm0
          · rw [splitOn_append_sep _ _ _ (piece_no_dash hm0)] at h
            by_cases ha0 : 0 ≤ a
            · refine ⟨⟨y, hy, hy0⟩, ?_, ?_, ?_, ?_, ?_, t1, t2, t3⟩
              · intro v hv; rw [hm] at hv; simp only [Option.some.injEq] at hv; omega
              · intro v hv; rw [ha] at hv; simp only [Option.some.injEq] at hv; omega
              · intro hh; rw [hm] at hh; simp at hh
              · intro hh; rw [hm] at hh; simp at hh
              · intro hh; rw [ha] at hh; simp at hh
            · exfalso
              obtain ⟨q, hq⟩ := padZeros_neg 2 a (by omega)
              have e : isoPiece 2 a d.day.error = '-' :: (q ++ isoMark d.day.error) := by
                unfold isoPiece isoNumber; rw [if_neg (by omega), hq]; rfl
              rw [e, splitOn_cons_sep] at h
              have z : some d = none := h.symm.trans (m21Date_day_none rfl)
              simp at z
          · exfalso
            obtain ⟨q, hq⟩ := padZeros_neg 2 m hm0
            have e : isoPiece 1 m d.month.error = '-' :: (q ++ isoMark d.month.error) := by
              unfold isoPiece isoNumber; rw [if_neg (by omega), hq]; rfl
            rw [e, List.cons_append, splitOn_cons_sep] at h
            have z : some d = none := h.symm.trans (m21Date_month_none rfl)
            simp at z
  · intro h
    obtain ⟨y, hy, hy0⟩ := h.year
    have p0 : m21Field (some (isoPiece 0 y d.year.error)) = some d.year := by
      rw [m21Field_piece _ _ _ hy0, ← hy]
    have n0 : '-' ∉ isoPiece 0 y d.year.error := piece_no_dash hy0
    have fin : ∀ x, (d.year = x.year ∧ d.month = x.month ∧ d.day = x.day ∧ x.hour = {} ∧ x.minute = {} ∧ x.second = {}) → some x = some d := by
      rintro ⟨a, b, c, e, f, g⟩ ⟨h1, h2, h3, h4, h5, h6⟩
      dsimp only at *
      subst h1 h2 h3 h4 h5 h6
      congr 1
      have := h.hour; have := h.minute; have := h.second
      cases d
      simp_all
    cases hm : d.month.value with
    | none =>
      rw [isoDate_year d y hy hm, isoRead_plain _ (isoPiece_ne_nil _ _ _) (fun c hc => piece_chars hc), splitOn_of_not_mem _ _ n0]
      show m21Date (some _) none none none none none = _
      unfold m21Date
      rw [p0]
      apply fin
      refine ⟨rfl, ?_, ?_, rfl, rfl, rfl⟩
      · have := h.monthError hm
        cases hd : d.month; rw [hd] at hm this; simp_all
      · have h1 := h.order hm
        have := h.dayError h1
        cases hd : d.day; rw [hd] at h1 this; simp_all
    | some m =>
      have hm0 := h.month m hm
      have p1 : m21Field (some (isoPiece 1 m d.month.error)) = some d.month := by
        rw [m21Field_piece _ _ _ hm0, ← hm]
      cases ha : d.day.value with
      | none =>
        rw [isoDate_month d y m hy hm ha, isoRead_plain _ (by simp) (chars_append (fun c hc => piece_chars hc) (fun c hc => piece_chars hc)),
          splitOn_append_sep _ _ _ n0, splitOn_of_not_mem _ _ (piece_no_dash hm0)]
        show m21Date (some _) (some _) none none none none = _
        unfold m21Date
        rw [p0, p1]
        apply fin
        refine ⟨rfl, rfl, ?_, rfl, rfl, rfl⟩
        have := h.dayError ha
        cases hd : d.day; rw [hd] at ha this; simp_all
      | some a =>
        have ha0 := h.day a ha
        have t1' : d.hour.value = none := by rw [h.hour]
        rw [isoDate_day d y m a hy hm ha t1', isoRead_plain _ (by simp)
          (chars_append (fun c hc => piece_chars hc) (chars_append (fun c hc => piece_chars hc) (fun c hc => piece_chars hc))),
          splitOn_append_sep _ _ _ n0, splitOn_append_sep _ _ _ (piece_no_dash hm0), splitOn_of_not_mem _ _ (piece_no_dash ha0)]
        show m21Date (some _) (some _) (some _) none none none = _
        unfold m21Date
        rw [p0, p1, m21Field_piece _ _ _ ha0]
        apply fin
        refine ⟨rfl, rfl, ?_, rfl, rfl, rfl⟩
        rw [← ha]

/-- The Ides of March with marks on the year and the day. -/
def sampleCalendar : Date := { year := ⟨some 44, some .uncertain⟩, month := ⟨some 3, none⟩, day := ⟨some 15, some .approximate⟩ }

example : isoDate true sampleCalendar = "0044?-03-15~".toList := by decide +kernel
example : CalendarDate sampleCalendar := (iso_roundtrip_partial _).1 (by decide +kernel)

/-- C44 fails for every date with a time: the hour is joined to the day by '-', and the time is not read. -/
theorem iso_time_lost (d : Date) (h : d.hour.value ≠ none) : isoRead (isoDate true d) ≠ some d := by
  intro e
  have := ((iso_roundtrip_partial d).1 e).hour
  rw [this] at h
  exact h rfl

example : isoDate true (⟨⟨some 1900, none⟩, ⟨some 1, none⟩, ⟨some 2, none⟩, ⟨some 13, none⟩, ⟨some 14, none⟩, ⟨some 15, none⟩⟩ : Date) =
    "1900-01-02-13T14:15".toList := by decide +kernel

/-! ## Date objects -/

theorem calendar_text (d : Date) (h : CalendarDate d) : ∃ pre i v, 0 ≤ v ∧ isoDate true d = pre ++ isoPiece i v d.lastError := by
  obtain ⟨y, hy, hy0⟩ := h.year
  cases hm : d.month.value with
  | none =>
    refine ⟨[], 0, y, hy0, ?_⟩
    rw [isoDate_year d y hy hm]
    unfold Date.lastError
    rw [hm, h.order hm]
    rfl
  | some m =>
    cases ha : d.day.value with
    | none =>
      refine ⟨isoPiece 0 y d.year.error ++ ['-'], 1, m, h.month m hm, ?_⟩
      rw [isoDate_month d y m hy hm ha]
      unfold Date.lastError
      rw [hm, ha]
      simp
    | some a =>
      refine ⟨isoPiece 0 y d.year.error ++ '-' :: (isoPiece 1 m d.month.error ++ ['-']), 2, a, h.day a ha, ?_⟩
      rw [isoDate_day d y m a hy hm ha (by rw [h.hour])]
      unfold Date.lastError
      rw [ha]
      simp

/-- The characters of calendar dates. -/
def isoChar (c : Char) : Prop := isDig c = true ∨ c = '-' ∨ c = '~' ∨ c = '?'

theorem isoChar_ne {c : Char} (h : isoChar c) : c ≠ '/' ∧ c ≠ '.' ∧ c ≠ ',' ∧ c ≠ '{' ∧ c ≠ '}' ∧ c ≠ '[' ∧ c ≠ ']' := by
  rcases h with h | rfl | rfl | rfl
  · have f := isDig_facts h
    have g := isDig_T h
    exact ⟨f.2.2.2.2.2.2.1, f.2.2.2.2.1, g.2.1, g.2.2.1, g.2.2.2.1, g.2.2.2.2.1, g.2.2.2.2.2⟩
  all_goals decide

/-- A text of a calendar date. -/
structure IsoText (s : Str) (d : Date) : Prop where
  read : isoRead s = some d
  ne_nil : s ≠ []
  chars : ∀ c ∈ s, isoChar c

theorem isoChar_join {s t : Str} (hs : ∀ c ∈ s, isoChar c) (ht : ∀ c ∈ t, isoChar c) : ∀ c ∈ s ++ '-' :: t, isoChar c := by
  intro c hc
  rcases List.mem_append.1 hc with hc | hc
  · exact hs c hc
  · rcases List.mem_cons.1 hc with rfl | hc
    · exact Or.inr (Or.inl rfl)
    · exact ht c hc

theorem calendar_iso (d : Date) (h : CalendarDate d) : IsoText (isoDate true d) d := by
  have k : ∀ i v e, ∀ c ∈ isoPiece i v e, isoChar c := fun i v e c hc => isoPiece_mem' hc
  refine ⟨(iso_roundtrip_partial d).2 h, ?_, ?_⟩
  · obtain ⟨pre, i, v, _, e⟩ := calendar_text d h
    rw [e]
    intro hn
    exact isoPiece_ne_nil _ _ _ (List.append_eq_nil_iff.1 hn).2
  · obtain ⟨y, hy, hy0⟩ := h.year
    cases hm : d.month.value with
    | none => rw [isoDate_year d y hy hm]; exact k _ _ _
    | some m =>
      cases ha : d.day.value with
      | none => rw [isoDate_month d y m hy hm ha]; exact isoChar_join (k _ _ _) (k _ _ _)
      | some a =>
        rw [isoDate_day d y m a hy hm ha (by rw [h.hour])]
        exact isoChar_join (k _ _ _) (isoChar_join (k _ _ _) (k _ _ _))

theorem IsoText.no {s : Str} {d : Date} (h : IsoText s d) :
    '/' ∉ s ∧ '.' ∉ s ∧ ',' ∉ s ∧ '{' ∉ s ∧ '}' ∉ s ∧ '[' ∉ s ∧ ']' ∉ s := by
  refine ⟨?_, ?_, ?_, ?_, ?_, ?_, ?_⟩ <;> intro hm <;> have := isoChar_ne (h.chars _ hm) <;> simp at this

theorem isoDates_calendar (ds : List Date) (h : ∀ d ∈ ds, CalendarDate d) : isoDates true ds = some (ds.map (isoDate true)) := by
  induction ds with
  | nil => rfl
  | cons d ds ih =>
    unfold isoDates
    rw [if_neg (calendar_iso d (h d (by simp))).ne_nil, ih (fun x hx => h x (by simp [hx]))]
    rfl

theorem read_all (ds : List Date) (h : ∀ d ∈ ds, CalendarDate d) : (ds.map (isoDate true)).filterMap isoRead = ds := by
  induction ds with
  | nil => rfl
  | cons d ds ih =>
    rw [List.map_cons, List.filterMap_cons, (calendar_iso d (h d (by simp))).read, ih (fun x hx => h x (by simp [hx]))]

theorem dropWhile_not_mem (c : Char) (s : Str) (h : c ∉ s) : s.dropWhile (· == c) = s := by
  cases s with
  | nil => rfl
  | cons x xs =>
    rw [List.dropWhile_cons_of_neg]
    simp only [List.mem_cons, not_or] at h
    simpa using fun e : x = c => h.1 e.symm

theorem stripChar_not_mem (c : Char) (s : Str) (h : c ∉ s) : stripChar c s = s := by
  unfold stripChar
  rw [dropWhile_not_mem c s h, dropWhile_not_mem c s.reverse (by simpa using h), List.reverse_reverse]

theorem stripChar_front (c : Char) (s : Str) (h : c ∉ s) : stripChar c (c :: s) = s := by
  unfold stripChar
  rw [List.dropWhile_cons_of_pos (by simp)]
  exact stripChar_not_mem c s h

theorem stripChar_back (c : Char) (s : Str) (h : c ∉ s) : stripChar c (s ++ [c]) = s := by
  unfold stripChar
  cases s with
  | nil => simp
  | cons x xs =>
    have hx : ¬ (x == c) = true := by
      simp only [List.mem_cons, not_or] at h
      simpa using fun e : x = c => h.1 e.symm
    rw [List.cons_append, List.dropWhile_cons_of_neg (p := fun y => y == c) hx, ← List.cons_append, List.reverse_append]
    show (List.dropWhile (· == c) (c :: (x :: xs).reverse)).reverse = _
    rw [List.dropWhile_cons_of_pos (by simp), dropWhile_not_mem c _ (fun hm => h (List.mem_reverse.1 hm)), List.reverse_reverse]

theorem remove_braces (s : Str) (h : '{' ∉ s ∧ '}' ∉ s ∧ '[' ∉ s ∧ ']' ∉ s) : removeSplitChars ('{' :: (s ++ ['}'])) = s := by
  unfold removeSplitChars
  rw [stripChar_front _ _ (by simp [h.1]), stripChar_back _ _ h.2.1, stripChar_not_mem _ _ h.2.2.1, stripChar_not_mem _ _ h.2.2.2]

theorem remove_brackets (s : Str) (h : '{' ∉ s ∧ '}' ∉ s ∧ '[' ∉ s ∧ ']' ∉ s) : removeSplitChars ('[' :: (s ++ [']'])) = s := by
  unfold removeSplitChars
  rw [stripChar_not_mem '{' _ (by simp [h.1]), stripChar_not_mem '}' _ (by simp [h.2.1]), stripChar_front _ _ (by simp [h.2.2.1]),
    stripChar_back _ _ h.2.2.2]

theorem startsWith_self (p s : Str) : startsWith (p ++ s) p = true :=
  List.isPrefixOf_iff_prefix.2 (List.prefix_append p s)

theorem no_dots {s : Str} (h : '.' ∉ s) : isInfix "..".toList s = false := by
  cases hi : isInfix "..".toList s with
  | false => rfl
  | true =>
    obtain ⟨a, b, rfl⟩ := (isInfix_iff _ _).1 hi
    exact absurd (by simp) h

theorem has_dots (a b : Str) : isInfix "..".toList (a ++ ("..".toList ++ b)) = true :=
  (isInfix_iff _ _).2 ⟨a, b, by simp⟩

/-- The head of a text is not one of the marks. -/
theorem IsoText.head {s : Str} {d : Date} (h : IsoText s d) (r : Str) :
    (s ++ r).head? ≠ some '[' ∧ (s ++ r).head? ≠ some '{' ∧ (s ++ r).head? ≠ some '.' := by
  have hn := h.no
  cases s with
  | nil => exact absurd rfl h.ne_nil
  | cons c cs =>
    simp only [List.mem_cons, not_or] at hn
    refine ⟨?_, ?_, ?_⟩ <;> simp only [List.cons_append, List.head?_cons, ne_eq, Option.some.injEq] <;> intro e <;> subst e <;> simp at hn

theorem not_contains {c : Char} {s : Str} (h : c ∉ s) : s.contains c = false := by
  cases hb : s.contains c with
  | false => rfl
  | true => exact absurd (List.contains_iff_mem.1 hb) h

/-- Lists of dates in brackets or braces. -/
theorem read_list (isAnd : Bool) (ds : List Date) (h : ∀ d ∈ ds, CalendarDate d) :
    edtfRead (if isAnd then '{' :: (joinWith ',' (ds.map (isoDate true)) ++ ['}']) else '[' :: (joinWith ',' (ds.map (isoDate true)) ++ [']'])) =
      some (.selection isAnd ds) := by
  have hj : ∀ x : Char, x ≠ ',' → (∀ d ∈ ds, x ∉ isoDate true d) → x ∉ joinWith ',' (ds.map (isoDate true)) := by
    intro x hx hd hm
    rcases mem_joinWith ',' _ x hm with e | ⟨s, hs, hc⟩
    · exact hx e
    · obtain ⟨d, hdm, rfl⟩ := List.mem_map.1 hs
      exact hd d hdm hc
  have n : ∀ d ∈ ds, _ := fun d hd => (calendar_iso d (h d hd)).no
  have j1 := hj '/' (by decide) (fun d hd => (n d hd).1)
  have j2 := hj '.' (by decide) (fun d hd => (n d hd).2.1)
  have j3 := hj '{' (by decide) (fun d hd => (n d hd).2.2.2.1)
  have j4 := hj '}' (by decide) (fun d hd => (n d hd).2.2.2.2.1)
  have j5 := hj '[' (by decide) (fun d hd => (n d hd).2.2.2.2.2.1)
  have j6 := hj ']' (by decide) (fun d hd => (n d hd).2.2.2.2.2.2)
  have sp : (splitOn ',' (joinWith ',' (ds.map (isoDate true)))).filterMap isoRead = ds := by
    cases hd : ds with
    | nil => rfl
    | cons a b =>
      rw [splitOn_joinWith _ _ (by simp), ← hd, read_all ds h]
      rw [← hd]
      intro p hp
      obtain ⟨d, hdm, rfl⟩ := List.mem_map.1 hp
      exact (n d hdm).2.2.1
  cases isAnd with
  | true =>
    rw [if_pos rfl]
    unfold edtfRead
    rw [if_neg (by simp), if_neg (by rw [countChar_zero _ _ (by simp [j1])]; omega), if_neg (by simp), if_neg (by simp), if_pos (by simp),
      remove_braces _ ⟨j3, j4, j5, j6⟩, sp]
  | false =>
    rw [if_neg (by simp)]
    unfold edtfRead
    rw [if_neg (by simp), if_neg (by rw [countChar_zero _ _ (by simp [j1])]; omega),
      if_neg (by rw [no_dots (by simp [j2])]; simp), if_pos (by simp),
      remove_brackets _ ⟨j3, j4, j5, j6⟩, sp]

theorem read_range {s t : Str} {a b : Date} (hs : IsoText s a) (ht : IsoText t b) : edtfRead (s ++ '/' :: t) = some (.between a b) := by
  have n1 := hs.no
  have n2 := ht.no
  have c1 : countChar '/' (s ++ '/' :: t) = 1 := by
    rw [show '/' :: t = ['/'] ++ t from rfl, countChar_append, countChar_append, countChar_zero _ _ n1.1, countChar_zero _ _ n2.1]
    rfl
  have hh := hs.head ('/' :: t)
  unfold edtfRead
  rw [if_neg (by simp), if_neg (by omega), if_neg (fun h => hh.1 h.1), if_neg hh.1, if_neg hh.2.1,
    if_pos (List.contains_iff_mem.2 (by simp)), if_pos (by rw [no_dots (by simp [n1.2.1, n2.2.1])]; rfl),
    splitOn_append_sep _ _ _ n1.1, splitOn_of_not_mem _ _ n2.1, List.filterMap_cons, hs.read]
  simp only [List.filterMap_cons, ht.read, List.filterMap_nil]
  rfl

theorem read_prior {s : Str} {a : Date} (hs : IsoText s a) : edtfRead ("../".toList ++ s) = some (.relative .prior a) := by
  have n1 := hs.no
  have c1 : countChar '/' ("../".toList ++ s) = 1 := by
    rw [countChar_append, countChar_zero _ _ n1.1]; decide
  have op : openRange ("../".toList ++ s) = some (.prior, s) := by
    unfold openRange
    rw [if_pos (startsWith_self _ _)]
    rfl
  unfold edtfRead
  rw [if_neg (by simp), if_neg (by omega), if_neg (fun h => absurd h.1 (by simp)), if_neg (by simp), if_neg (by simp),
    if_pos (List.contains_iff_mem.2 (by simp)),
    if_neg (by rw [show "../".toList ++ s = [] ++ ("..".toList ++ ('/' :: s)) from rfl, has_dots]; simp), op]
  dsimp only
  rw [not_contains n1.1, if_neg (by simp), hs.read]
  rfl

theorem read_after {s : Str} {a : Date} (hs : IsoText s a) : edtfRead (s ++ "/..".toList) = some (.relative .after a) := by
  have n1 := hs.no
  have c1 : countChar '/' (s ++ "/..".toList) = 1 := by
    rw [countChar_append, countChar_zero _ _ n1.1]; decide
  have hh := hs.head "/..".toList
  have op : openRange (s ++ "/..".toList) = some (.after, s) := by
    unfold openRange
    rw [if_neg, if_pos]
    · rw [List.reverse_append]
      show some (RelDate.after, (List.drop 3 ("../".toList ++ s.reverse)).reverse) = _
      rw [show List.drop 3 ("../".toList ++ s.reverse) = s.reverse from rfl, List.reverse_reverse]
    · rw [List.reverse_append]
      exact startsWith_self _ _
    · intro h
      unfold startsWith at h
      obtain ⟨r, hr⟩ := List.isPrefixOf_iff_prefix.1 h
      exact hh.2.2 (by rw [← hr]; rfl)
  unfold edtfRead
  rw [if_neg (by simp), if_neg (by omega), if_neg (fun h => hh.1 h.1), if_neg hh.1, if_neg hh.2.1,
    if_pos (List.contains_iff_mem.2 (by simp)),
    if_neg (by rw [show s ++ "/..".toList = s ++ ("/".toList ++ "..".toList) from rfl, ← List.append_assoc,
      show (s ++ "/".toList) ++ "..".toList = (s ++ "/".toList) ++ ("..".toList ++ []) by simp, has_dots]; simp), op]
  dsimp only
  rw [not_contains n1.1, if_neg (by simp), hs.read]
  rfl

/-- Single dates, qualified or not. -/
theorem read_one (d : Date) (h : CalendarDate d) (r : Option DateErr) (hr : r = none → d.lastError = none) :
    edtfRead (isoDate true d ++ isoMark r) = some (.single r d) := by
  have ht := calendar_iso d h
  have n := ht.no
  have hh := ht.head (isoMark r)
  have nm : ∀ c, c ≠ '~' → c ≠ '?' → c ∉ isoMark r := by
    intro c h1 h2 hm
    rcases isoMark_mem hm with e | e
    · exact h1 e
    · exact h2 e
  have ns : '/' ∉ isoDate true d ++ isoMark r := by
    intro hm
    rcases List.mem_append.1 hm with hm | hm
    · exact n.1 hm
    · exact nm _ (by decide) (by decide) hm
  have sk : isoSingleKind (isoDate true d ++ isoMark r) = (r, isoDate true d) := by
    unfold isoSingleKind
    cases r with
    | none =>
      obtain ⟨pre, i, v, hv, e⟩ := calendar_text d h
      rw [hr rfl] at e
      obtain ⟨q1, q2, _⟩ := padZeros_pos (if i = 0 then 4 else 2) v hv
      have e2 : isoPiece i v none = isoNumber i v := by unfold isoPiece; simp [isoMark]
      have hl : ∀ c, (isoDate true d).getLast? = some c → isDig c = true := by
        intro c hc
        rw [e, e2, List.getLast?_append_of_ne_nil _ (show isoNumber i v ≠ [] from q1)] at hc
        exact q2 c (List.mem_of_getLast? hc)
      rw [show isoMark none = [] from rfl, List.append_nil, if_neg (fun hc => absurd (hl _ hc) (by decide)),
        if_neg (fun hc => absurd (hl _ hc) (by decide))]
    | some x =>
      cases x with
      | approximate =>
        rw [show isoMark (some .approximate) = ['~'] from rfl, if_pos (by simp), List.dropLast_concat]
      | uncertain =>
        rw [show isoMark (some .uncertain) = ['?'] from rfl, if_neg (by simp), if_pos (by simp), List.dropLast_concat]
  unfold edtfRead
  rw [if_neg (by simp [ht.ne_nil]), if_neg (by rw [countChar_zero _ _ ns]; omega), if_neg (fun h => hh.1 h.1), if_neg hh.1, if_neg hh.2.1,
    if_neg (by rw [not_contains ns]; simp), sk]
  dsimp only
  rw [ht.read]
  rfl

/-- C44. A date object written as EDTF and read is the same object, for everything that EDTF can express. -/
theorem edtf_roundtrip (p : DatePrim) (h : EdtfPrim p) : ∃ s, edtfText p = some s ∧ edtfRead s = some p := by
  cases p with
  | single r d =>
    obtain ⟨h1, rfl, h3⟩ := h
    refine ⟨isoDate true d, ?_, ?_⟩
    · unfold edtfText; dsimp only; rw [isoDates_calendar [d] (by simpa using h1)]; rfl
    · have := read_one d h1 none (fun _ => h3)
      rwa [show isoMark none = [] from rfl, List.append_nil] at this
  | relative r d =>
    obtain ⟨h1, hr⟩ := h
    have e := isoDates_calendar [d] (by simpa using h1)
    rcases hr with rfl | rfl
    · exact ⟨_, by unfold edtfText; dsimp only; rw [e]; rfl, read_prior (calendar_iso d h1)⟩
    · exact ⟨_, by unfold edtfText; dsimp only; rw [e]; rfl, read_after (calendar_iso d h1)⟩
  | between a b =>
    obtain ⟨h1, h2⟩ := h
    have e := isoDates_calendar [a, b] (by simpa using ⟨h1, h2⟩)
    exact ⟨_, by unfold edtfText; dsimp only; rw [e]; rfl, read_range (calendar_iso a h1) (calendar_iso b h2)⟩
  | selection isAnd ds =>
    have e := isoDates_calendar ds h
    refine ⟨_, ?_, read_list isAnd ds h⟩
    unfold edtfText
    dsimp only
    rw [e]

example : EdtfPrim (.selection true [sampleCalendar, { year := ⟨some 1900, none⟩ }]) := by
  intro d hd
  simp only [List.mem_cons, List.not_mem_nil, or_false] at hd
  rcases hd with rfl | rfl <;> exact (iso_roundtrip_partial _).1 (by decide +kernel)
example : edtfText (.selection true [sampleCalendar, { year := ⟨some 1900, none⟩ }]) = some "{0044?-03-15~,1900}".toList := by decide +kernel

/-- C44 fails for qualified dates: that the date is uncertain or approximate is never written. -/
theorem edtf_qualifier_lost (e : DateErr) (d : Date) : edtfText (.single (some e) d) = edtfText (.single none d) := rfl

/-- C44 fails for a mark on the last value: it is read as qualifying the whole date. -/
theorem edtf_mark_moves : edtfRead ((edtfText (.single none { year := ⟨some 1900, some .approximate⟩ })).getD []) =
    some (.single (some .approximate) { year := ⟨some 1900, none⟩ }) := by decide +kernel

/-- C44 fails for "on or before" and "on or after", which are written like "before" and "after". -/
theorem edtf_inclusive_lost (d : Date) : edtfText (.relative .onOrBefore d) = edtfText (.relative .prior d) ∧
    edtfText (.relative .onOrAfter d) = edtfText (.relative .after d) := ⟨rfl, rfl⟩

/-! ## Nested ranges -/

theorem splitDots_append (s t : Str) (hs : '.' ∉ s) (ht : '.' ∉ t) : splitDots (s ++ '.' :: '.' :: t) = [s, t] := by
  have single : ∀ t : Str, '.' ∉ t → splitDots t = [t] := by
    intro t
    induction t with
    | nil => intro _; rfl
    | cons c r ih =>
      intro h
      cases r with
      | nil => rfl
      | cons e r =>
        simp only [List.mem_cons, not_or] at h
        unfold splitDots
        rw [if_neg (fun hh => h.1 hh.1.symm), ih (by simp [h.2.1, h.2.2])]
  induction s with
  | nil =>
    show splitDots ('.' :: '.' :: t) = _
    unfold splitDots
    rw [if_pos ⟨rfl, rfl⟩, single t ht]
  | cons c r ih =>
    simp only [List.mem_cons, not_or] at hs
    cases r with
    | nil =>
      show splitDots (c :: '.' :: ('.' :: t)) = _
      unfold splitDots
      rw [if_neg (fun hh => hs.1 hh.1.symm)]
      have := ih (by simp)
      rw [List.nil_append] at this
      rw [this]
    | cons e r =>
      show splitDots (c :: e :: (r ++ '.' :: '.' :: t)) = _
      unfold splitDots
      rw [if_neg (fun hh => hs.1 hh.1.symm)]
      have := ih hs.2
      rw [List.cons_append] at this
      rw [this]

theorem read_bracket_range {s t : Str} {a b : Date} (hs : IsoText s a) (ht : IsoText t b) :
    edtfRead ('[' :: (s ++ "..".toList ++ t ++ [']'])) = some (.between a b) := by
  have n1 := hs.no
  have n2 := ht.no
  have e : s ++ "..".toList ++ t = s ++ '.' :: '.' :: t := by simp
  rw [e]
  have c1 : countChar '/' ('[' :: (s ++ '.' :: '.' :: t ++ [']'])) = 0 := countChar_zero _ _ (by simp [n1.1, n2.1])
  unfold edtfRead
  rw [if_neg (by simp), if_neg (by omega), if_pos, remove_brackets, splitDots_append _ _ n1.2.1 n2.2.1]
  · simp only [List.filterMap_cons, hs.read, ht.read, List.filterMap_nil]
    rfl
  · refine ⟨?_, ?_, ?_, ?_⟩
    · simp [n1.2.2.2.1, n2.2.2.2.1]
    · simp [n1.2.2.2.2.1, n2.2.2.2.2.1]
    · simp [n1.2.2.2.2.2.1, n2.2.2.2.2.2.1]
    · simp [n1.2.2.2.2.2.2, n2.2.2.2.2.2.2]
  · refine ⟨rfl, ?_⟩
    have := has_dots ('[' :: s) (t ++ [']'])
    simpa using this

/-- One end of a nested range. -/
theorem nested_end (p : DatePrim) (h : EdtfEnd p) : ∃ s, nestedEnd p = some s ∧ edtfRead s = some p := by
  cases p with
  | single r d =>
    obtain ⟨h1, h2⟩ := h
    refine ⟨_, ?_, read_one d h1 r h2⟩
    unfold nestedEnd; dsimp only; rw [isoDates_calendar [d] (by simpa using h1)]; rfl
  | relative r d => exact edtf_roundtrip (.relative r d) h
  | between a b =>
    obtain ⟨h1, h2⟩ := h
    have e := isoDates_calendar [a, b] (by simpa using ⟨h1, h2⟩)
    exact ⟨_, by unfold nestedEnd; dsimp only; rw [e]; rfl, read_bracket_range (calendar_iso a h1) (calendar_iso b h2)⟩
  | selection isAnd ds => exact edtf_roundtrip (.selection isAnd ds) h

/-- C44. A Humdrum range of two date objects, converted to two EDTF dates, gives the two objects back, whatever kinds they are. -/
theorem nested_roundtrip (a b : DatePrim) (ha : PlainPrim a) (hb : PlainPrim b) (ea : EdtfEnd a) (eb : EdtfEnd b) :
    ∃ x y, edtfNested (stringFromRange a b) = .ok (some (x, y)) ∧ edtfRead x = some a ∧ edtfRead y = some b := by
  obtain ⟨x, hx, rx⟩ := nested_end a ea
  obtain ⟨y, hy, ry⟩ := nested_end b eb
  refine ⟨x, y, ?_, rx, ry⟩
  unfold edtfNested
  rw [range_roundtrip a b ha hb]
  dsimp only
  rw [hx, hy]

example : edtfNested "1525^1526-~1594".toList = .ok (some ("[1525..1526]".toList, "1594~".toList)) := by decide +kernel

/-! ## Without EDTF -/

/-- Without EDTF a date with a mark is not written, and any other date is written the same. -/
theorem iso_unmarked (d : Date) (h : CalendarDate d) :
    isoDate false d = if d.year.error = none ∧ d.month.error = none ∧ d.day.error = none then isoDate true d else [] := by
  have cons : ∀ i f fs v, f.value = some v → isoMsgs false i (f :: fs) =
      if f.error = none then (isoMsgs false (i + 1) fs).map (isoPiece i v none :: ·) else none := by
    intro i f fs v hv
    show (match f.value with | none => _ | some v => _) = _
    rw [hv]
    dsimp only
    cases he : f.error with
    | none =>
      rw [if_pos rfl]
      show (match isoMsgs false (i + 1) fs with | none => none | some ms => some ((isoNumber i v ++ []) :: ms)) = _
      cases isoMsgs false (i + 1) fs <;> rfl
    | some e => rw [if_neg (by simp)]; rfl
  have stop : ∀ i f fs, f.value = none → isoMsgs false i (f :: fs) = some [] := by
    intro i f fs hv
    show (match f.value with | none => _ | some v => _) = _
    rw [hv]
  obtain ⟨y, hy, hy0⟩ := h.year
  by_cases e0 : d.year.error = none
  · cases hm : d.month.value with
    | none =>
      rw [if_pos ⟨e0, h.monthError hm, h.dayError (h.order hm)⟩, isoDate_year d y hy hm, e0]
      unfold isoDate Date.fields
      rw [cons _ _ _ y hy, if_pos e0, stop _ _ _ hm]
      show isoPiece 0 y none ++ [] = _
      rw [List.append_nil]
    | some m =>
      by_cases e1 : d.month.error = none
      · cases ha : d.day.value with
        | none =>
          rw [if_pos ⟨e0, e1, h.dayError ha⟩, isoDate_month d y m hy hm ha, e0, e1]
          unfold isoDate Date.fields
          rw [cons _ _ _ y hy, if_pos e0, cons _ _ _ m hm, if_pos e1, stop _ _ _ ha]
          show (isoPiece 0 y none ++ '-' :: isoPiece 1 m none) ++ [] = _
          rw [List.append_nil]
        | some a =>
          have ht : d.hour.value = none := by rw [h.hour]
          by_cases e2 : d.day.error = none
          · rw [if_pos ⟨e0, e1, e2⟩, isoDate_day d y m a hy hm ha ht, e0, e1, e2]
            unfold isoDate Date.fields
            rw [cons _ _ _ y hy, if_pos e0, cons _ _ _ m hm, if_pos e1, cons _ _ _ a ha, if_pos e2, stop _ _ _ ht]
            show (isoPiece 0 y none ++ '-' :: (isoPiece 1 m none ++ '-' :: isoPiece 2 a none)) ++ [] = _
            rw [List.append_nil]
          · rw [if_neg (fun hh => e2 hh.2.2)]
            unfold isoDate Date.fields
            rw [cons _ _ _ y hy, if_pos e0, cons _ _ _ m hm, if_pos e1, cons _ _ _ a ha, if_neg e2]
            rfl
      · rw [if_neg (fun hh => e1 hh.2.1)]
        unfold isoDate Date.fields
        rw [cons _ _ _ y hy, if_pos e0, cons _ _ _ m hm, if_neg e1]
        rfl
  · rw [if_neg (fun hh => e0 hh.1)]
    unfold isoDate Date.fields
    rw [cons _ _ _ y hy, if_neg e0]

/-- C44. The attributes written for a date object without EDTF: the kind of object is told by their names, and the texts read back. -/
theorem iso_attributes (d e : Date) (hd : CalendarDate d) (he : CalendarDate e)
    (md : d.year.error = none ∧ d.month.error = none ∧ d.day.error = none)
    (me : e.year.error = none ∧ e.month.error = none ∧ e.day.error = none) :
    ∃ s t, isoRead s = some d ∧ isoRead t = some e ∧
      isoAttributes (.single none d) = [("isodate", s)] ∧
      isoAttributes (.relative .prior d) = [("notafter", s)] ∧ isoAttributes (.relative .onOrBefore d) = [("notafter", s)] ∧
      isoAttributes (.relative .after d) = [("notbefore", s)] ∧ isoAttributes (.relative .onOrAfter d) = [("notbefore", s)] ∧
      isoAttributes (.between d e) = [("startdate", s), ("enddate", t)] := by
  have h1 : isoDate false d = isoDate true d := by rw [iso_unmarked d hd, if_pos md]
  have h2 : isoDate false e = isoDate true e := by rw [iso_unmarked e he, if_pos me]
  have i1 : isoDates false [d] = some [isoDate true d] := by
    unfold isoDates
    rw [h1, if_neg (calendar_iso d hd).ne_nil]
    rfl
  have i2 : isoDates false [d, e] = some [isoDate true d, isoDate true e] := by
    unfold isoDates
    rw [h1, if_neg (calendar_iso d hd).ne_nil]
    unfold isoDates
    rw [h2, if_neg (calendar_iso e he).ne_nil]
    rfl
  refine ⟨isoDate true d, isoDate true e, (calendar_iso d hd).read, (calendar_iso e he).read, ?_, ?_, ?_, ?_, ?_, ?_⟩ <;> unfold isoAttributes <;> dsimp only
  · rw [i1]
  · rw [i1]
  · rw [i1]
  · rw [i1]
  · rw [i1]
  · rw [i2]

theorem isoDate_empty_iff (d : Date) : isoDate true d = [] ↔ d.year.value = none := by
  constructor
  · intro h
    cases hy : d.year.value with
    | none => rfl
    | some v =>
      exfalso
      obtain ⟨ms, hms, -⟩ := isoMsgs_total [d.month, d.day, d.hour, d.minute, d.second] 1
      have hs : ∃ t, isoSuffix true d.year.error = some t := by cases d.year.error <;> exact ⟨_, rfl⟩
      obtain ⟨t, ht⟩ := hs
      unfold isoDate Date.fields at h
      unfold isoMsgs at h
      rw [hy] at h
      dsimp only at h
      rw [ht] at h
      dsimp only at h
      rw [hms] at h
      dsimp only at h
      have hne : isoNumber 0 v ≠ [] := by
        unfold isoNumber padZeros
        split
        · simp
        · intro hh
          exact natStr_ne_nil _ (List.append_eq_nil_iff.1 hh).2
      have h1 := (List.append_eq_nil_iff.1 h).1
      rw [List.take_succ_cons] at h1
      cases hm : ms.take 3 with
      | nil => rw [hm] at h1; exact hne (List.append_eq_nil_iff.1 h1).1
      | cons a b => rw [hm] at h1; unfold joinWith at h1; simp at h1
  · intro h
    unfold isoDate Date.fields isoMsgs
    rw [h]
    rfl

theorem isoDates_none_iff (ds : List Date) : isoDates true ds = none ↔ ∃ d ∈ ds, d.year.value = none := by
  induction ds with
  | nil => simp [isoDates]
  | cons d ds ih =>
    unfold isoDates
    by_cases h : isoDate true d = []
    · rw [if_pos h]
      exact ⟨fun _ => ⟨d, List.mem_cons_self, (isoDate_empty_iff d).1 h⟩, fun _ => rfl⟩
    · rw [if_neg h]
      have hd : d.year.value ≠ none := fun hh => h ((isoDate_empty_iff d).2 hh)
      cases hi : isoDates true ds with
      | none =>
        obtain ⟨e, he, hy⟩ := ih.1 hi
        exact ⟨fun _ => ⟨e, List.mem_cons_of_mem _ he, hy⟩, fun _ => rfl⟩
      | some ss =>
        constructor
        · intro hh; exact absurd hh (by simp)
        · rintro ⟨e, he, hy⟩
          rcases List.mem_cons.1 he with rfl | he
          · exact absurd hy hd
          · exact absurd (ih.2 ⟨e, he, hy⟩) (by rw [hi]; simp)

theorem isoDates_len (edtf : Bool) (ds : List Date) : ∀ ss, isoDates edtf ds = some ss → ss.length = ds.length := by
  induction ds with
  | nil => intro ss h; cases h; rfl
  | cons d ds ih =>
    intro ss h
    unfold isoDates at h
    split at h
    · exact absurd h (by simp)
    · cases hi : isoDates edtf ds with
      | none => rw [hi] at h; exact absurd h (by simp)
      | some r => rw [hi] at h; cases h; simp [ih r hi]

/-- C44. A date object has no EDTF text exactly if one of its dates has no year: no date is left out silently. -/
theorem edtf_no_text_iff (p : DatePrim) : edtfText p = none ↔ ∃ d ∈ p.allDates, d.year.value = none := by
  rw [← isoDates_none_iff]
  cases hi : isoDates true p.allDates with
  | none =>
    cases p with
    | single r d => unfold edtfText; dsimp only; rw [show isoDates true [d] = none from hi]; simp
    | relative r d => unfold edtfText; dsimp only; rw [show isoDates true [d] = none from hi]; simp
    | between a b => unfold edtfText; dsimp only; rw [show isoDates true [a, b] = none from hi]; simp
    | selection isAnd ds => unfold edtfText; dsimp only; rw [show isoDates true ds = none from hi]; simp
  | some ss =>
    have hl := isoDates_len true _ ss hi
    cases p with
    | single r d =>
      obtain ⟨s, rfl⟩ := List.length_eq_one_iff.1 hl
      unfold edtfText; dsimp only; rw [show isoDates true [d] = some [s] from hi]; simp
    | relative r d =>
      obtain ⟨s, rfl⟩ := List.length_eq_one_iff.1 hl
      unfold edtfText; dsimp only; rw [show isoDates true [d] = some [s] from hi]; cases r <;> simp
    | between a b =>
      obtain ⟨s, t, rfl⟩ := List.length_eq_two.1 hl
      unfold edtfText; dsimp only; rw [show isoDates true [a, b] = some [s, t] from hi]; simp
    | selection isAnd ds => unfold edtfText; dsimp only; rw [show isoDates true ds = some ss from hi]; simp

example : edtfText (.selection false [⟨⟨some 1800, none⟩, {}, {}, {}, {}, {}⟩, {}]) = none := by decide

/-- C44. A single date that is qualified as a whole, and a choice of dates, have no attributes: they need EDTF. -/
theorem iso_attributes_none (e : DateErr) (d : Date) (isAnd : Bool) (ds : List Date) :
    isoAttributes (.single (some e) d) = [] ∧ isoAttributes (.selection isAnd ds) = [] := ⟨rfl, rfl⟩

end C21
