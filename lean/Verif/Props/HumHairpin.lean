import Verif.Model.HumHairpin
import Verif.Props.HumDynam
import Verif.Props.Dates
import Mathlib.Data.List.Range
import Mathlib.Data.List.Pairwise
import Verif.Lemmas.Tac
/-
C103: hairpins in **dynam spines.
-/
namespace C21

/-! ## Specification -/

/-- A hairpin of a part: from the row of its start to the row of its end. -/
structure Pin where
  cresc : Bool
  start : Nat
  stop : Nat
  deriving DecidableEq, Repr

/-- The dynamic marks of a part: those written before, between and after the ends and starts of hairpins of a row. -/
structure PinMarks where
  before : Nat → List Str
  mid : Nat → List Str
  after : Nat → List Str

/-- What is written in a row: the ends of hairpins, then the starts, and marks anywhere. -/
def pinTexts (ps : List Pin) (m : PinMarks) (t : Nat) : List Str :=
  (m.before t ++ (ps.filter fun p => p.stop = t).map (fun p => wedgeText p.cresc false)) ++
  (m.mid t ++ ((ps.filter fun p => p.start = t).map (fun p => wedgeText p.cresc true) ++ m.after t))

/-- The spine with `n` rows. -/
def pinSpine (ps : List Pin) (m : PinMarks) (n : Nat) : List Str := (List.range n).map fun t => dynamRow (pinTexts ps m t)

/-- `str.isalpha` on what is written. -/
structure PinAlpha (alpha : Char → Bool) (m : PinMarks) : Prop where
  before : ∀ t, ∀ w ∈ m.before t, ∀ c ∈ w, alpha c = true
  mid : ∀ t, ∀ w ∈ m.mid t, ∀ c ∈ w, alpha c = true
  after : ∀ t, ∀ w ∈ m.after t, ∀ c ∈ w, alpha c = true
  signs : ∀ c ∈ "<>[] ".toList, alpha c = false

/-- One after the other: each hairpin begins when or after the one before has ended. -/
def PinsInTurn (ps : List Pin) (n : Nat) : Prop :=
  ps.Pairwise (fun p q => p.stop ≤ q.start) ∧ ∀ p ∈ ps, p.start < p.stop ∧ p.stop < n

/-- No mark strictly inside a hairpin. -/
def NoMarksInside (ps : List Pin) (m : PinMarks) : Prop :=
  ∀ p ∈ ps, ∀ t, p.start < t → t < p.stop → m.before t = [] ∧ m.mid t = [] ∧ m.after t = []

/-! ## Lemmas -/

theorem mem_join_iff (ss : List Str) (x : Char) (hx : x ≠ ' ') : x ∈ joinWith ' ' ss ↔ ∃ s ∈ ss, x ∈ s := by
  constructor
  · intro h
    rcases mem_joinWith ' ' ss x h with h | h
    · exact (hx h).elim
    · exact h
  · induction ss with
    | nil => rintro ⟨s, h, _⟩; cases h
    | cons p rest ih =>
      rintro ⟨s, hs, hxs⟩
      cases rest with
      | nil =>
        rw [List.mem_singleton.1 hs] at hxs
        exact hxs
      | cons q rest =>
        rw [joinWith]
        rcases List.mem_cons.1 hs with rfl | hs
        · exact List.mem_append_left _ hxs
        · exact List.mem_append_right _ (List.mem_cons_of_mem _ (ih ⟨s, hs, hxs⟩))

theorem join_append (l r : List Str) : ∃ sep : Str, (sep = [] ∨ sep = [' ']) ∧
    joinWith ' ' (l ++ r) = joinWith ' ' l ++ (sep ++ joinWith ' ' r) := by
  cases r with
  | nil => exact ⟨[], .inl rfl, by simp [joinWith]⟩
  | cons y r =>
    cases l with
    | nil => exact ⟨[], .inl rfl, by simp [joinWith]⟩
    | cons x l =>
      refine ⟨[' '], .inr rfl, ?_⟩
      induction l generalizing x with
      | nil => simp [joinWith]
      | cons z l ih =>
        rw [List.cons_append, List.cons_append, joinWith]
        have := ih z
        rw [List.cons_append] at this
        rw [this, joinWith]
        simp

/-- Nothing of this shape lies across two texts, one without its first and one without its last sign. -/
theorem not_across (s e : Char) (x y m : Str) (hs : s ∉ x) (he : e ∉ y) : ¬ ∃ a b, x ++ y = a ++ (s :: (m ++ [e])) ++ b := by
  rintro ⟨a, b, h⟩
  rw [List.append_assoc] at h
  rcases List.append_eq_append_iff.1 h with ⟨c, h1, h2⟩ | ⟨c, h1, h2⟩
  · exact he (by rw [h2]; simp)
  · cases c with
    | nil => rw [List.nil_append] at h2; exact he (by rw [← h2]; simp)
    | cons z c =>
      rw [List.cons_append, List.cons_append, List.cons.injEq] at h2
      exact hs (by rw [h1, h2.1]; simp)

theorem isInfix_false (pat s : Str) (h : ¬ ∃ a b, s = a ++ pat ++ b) : isInfix pat s = false := by
  cases hi : isInfix pat s with
  | false => rfl
  | true =>
    obtain ⟨a, b, e⟩ := (isInfix_iff pat s).1 hi
    exact (h ⟨a, b, e.symm⟩).elim

theorem pins_trichotomy (ps : List Pin) (h : ps.Pairwise (fun p q => p.stop ≤ q.start)) :
    ∀ p ∈ ps, ∀ q ∈ ps, p = q ∨ p.stop ≤ q.start ∨ q.stop ≤ p.start := by
  induction ps with
  | nil => intro p hp; cases hp
  | cons x l ih =>
    rw [List.pairwise_cons] at h
    intro p hp q hq
    rcases List.mem_cons.1 hp with rfl | hp' <;> rcases List.mem_cons.1 hq with rfl | hq'
    · exact .inl rfl
    · exact .inr (.inl (h.1 q hq'))
    · exact .inr (.inr (h.1 p hp'))
    · exact ih h.2 p hp' q hq'

/-- Reading off what begins where. -/
theorem filterMap_starts {β : Type} (f : Nat → Option β) (g : Pin → β) (n a : Nat) (ps : List Pin)
    (hs : ps.Pairwise (fun p q => p.start < q.start)) (hb : ∀ p ∈ ps, a ≤ p.start ∧ p.start < a + n)
    (h1 : ∀ p ∈ ps, f p.start = some (g p)) (h2 : ∀ i, a ≤ i → i < a + n → (∀ p ∈ ps, p.start ≠ i) → f i = none) :
    (List.range' a n).filterMap f = ps.map g := by
  induction n generalizing a ps with
  | zero =>
    cases ps with
    | nil => rfl
    | cons p ps => have := hb p (by simp); omega
  | succ n ih =>
    rw [List.range'_succ]
    cases ps with
    | nil =>
      rw [List.filterMap_cons_none (h2 a (le_refl _) (by omega) (fun p hp => by cases hp))]
      exact ih (a + 1) [] List.Pairwise.nil (fun p hp => by cases hp) (fun p hp => by cases hp)
        (fun i hi hi2 hh => h2 i (by omega) (by omega) hh)
    | cons p ps =>
      rw [List.pairwise_cons] at hs
      by_cases hp : p.start = a
      · have e := h1 p (by simp)
        rw [hp] at e
        rw [List.filterMap_cons_some e, List.map_cons]
        congr 1
        apply ih (a + 1) ps hs.2
        · intro q hq
          have := hs.1 q hq
          have := hb q (by simp [hq])
          omega
        · intro q hq; exact h1 q (by simp [hq])
        · intro i hi hi2 hh
          apply h2 i (by omega) (by omega)
          intro q hq
          rcases List.mem_cons.1 hq with rfl | hq
          · omega
          · exact hh q hq
      · have hne : ∀ q ∈ p :: ps, q.start ≠ a := by
          intro q hq
          have := (hb p (by simp)).1
          rcases List.mem_cons.1 hq with rfl | hq
          · exact hp
          · have := hs.1 q hq; omega
        rw [List.filterMap_cons_none (h2 a (le_refl _) (by omega) hne)]
        apply ih (a + 1) (p :: ps) (by rw [List.pairwise_cons]; exact hs)
        · intro q hq
          have := hb q hq
          have := hne q hq
          omega
        · exact h1
        · intro i hi hi2 hh; exact h2 i (by omega) (by omega) hh

section
variable {alpha : Char → Bool} {ps : List Pin} {m : PinMarks}

/-- The signs in a row are those of the hairpins. -/
theorem sign_in_row (ha : PinAlpha alpha m) (t : Nat) (x : Char) (hx : x ∈ "<>[]".toList) :
    x ∈ dynamRow (pinTexts ps m t) ↔
      (∃ p ∈ ps, p.stop = t ∧ x ∈ wedgeText p.cresc false) ∨ (∃ p ∈ ps, p.start = t ∧ x ∈ wedgeText p.cresc true) := by
  have hx2 : x ≠ ' ' := by rintro rfl; exact absurd hx (by decide)
  have hal : alpha x = false := ha.signs x (by
    have h4 : x = '<' ∨ x = '>' ∨ x = '[' ∨ x = ']' := by simpa using hx
    rcases h4 with rfl | rfl | rfl | rfl <;> decide)
  have nb : ∀ w ∈ m.before t, x ∉ w := fun w hw h => by have := ha.before t w hw x h; rw [hal] at this; cases this
  have nm : ∀ w ∈ m.mid t, x ∉ w := fun w hw h => by have := ha.mid t w hw x h; rw [hal] at this; cases this
  have na : ∀ w ∈ m.after t, x ∉ w := fun w hw h => by have := ha.after t w hw x h; rw [hal] at this; cases this
  unfold dynamRow
  rw [mem_join_iff _ _ hx2]
  constructor
  · rintro ⟨s, hs, hxs⟩
    simp only [pinTexts, List.mem_append, List.mem_map, List.mem_filter, decide_eq_true_eq] at hs
    rcases hs with (hs | ⟨p, hp, rfl⟩) | (hs | ⟨p, hp, rfl⟩ | hs)
    · exact (nb s hs hxs).elim
    · exact .inl ⟨p, hp.1, hp.2, hxs⟩
    · exact (nm s hs hxs).elim
    · exact .inr ⟨p, hp.1, hp.2, hxs⟩
    · exact (na s hs hxs).elim
  · rintro (⟨p, hp, ht, h⟩ | ⟨p, hp, ht, h⟩)
    · refine ⟨_, ?_, h⟩
      simp only [pinTexts, List.mem_append, List.mem_map, List.mem_filter, decide_eq_true_eq]
      exact .inl (.inr ⟨p, ⟨hp, ht⟩, rfl⟩)
    · refine ⟨_, ?_, h⟩
      simp only [pinTexts, List.mem_append, List.mem_map, List.mem_filter, decide_eq_true_eq]
      exact .inr (.inr (.inl ⟨p, ⟨hp, ht⟩, rfl⟩))

theorem mem_wedge_start (c : Bool) (x : Char) : x ∈ wedgeText c true ↔ (x = '<' ∧ c = true) ∨ (x = '>' ∧ c = false) := by
  cases c <;> simp [wedgeText]

theorem mem_wedge_stop (c : Bool) (x : Char) : x ∈ wedgeText c false ↔ (x = '[' ∧ c = true) ∨ (x = ']' ∧ c = false) := by
  cases c <;> simp [wedgeText]

theorem lt_in_row (ha : PinAlpha alpha m) (t : Nat) : '<' ∈ dynamRow (pinTexts ps m t) ↔ ∃ p ∈ ps, p.start = t ∧ p.cresc = true := by
  rw [sign_in_row ha t '<' (by decide)]
  simp [mem_wedge_start, mem_wedge_stop]

theorem gt_in_row (ha : PinAlpha alpha m) (t : Nat) : '>' ∈ dynamRow (pinTexts ps m t) ↔ ∃ p ∈ ps, p.start = t ∧ p.cresc = false := by
  rw [sign_in_row ha t '>' (by decide)]
  simp [mem_wedge_start, mem_wedge_stop]

theorem stop_in_row (ha : PinAlpha alpha m) (t : Nat) (c : Bool) (x : Char) (hx : wedgeText c false = [x]) :
    x ∈ dynamRow (pinTexts ps m t) ↔ ∃ p ∈ ps, p.stop = t ∧ p.cresc = c := by
  cases c
  · cases hx
    rw [sign_in_row ha t ']' (by decide)]
    simp [mem_wedge_start, mem_wedge_stop]
  · cases hx
    rw [sign_in_row ha t '[' (by decide)]
    simp [mem_wedge_start, mem_wedge_stop]

/-- The signs of a row are not read as a hairpin of one token. -/
theorem not_own (ha : PinAlpha alpha m) (t : Nat) (s e : Char) (mid : Str) (hs : s = '<' ∨ s = '>') (he : e = '[' ∨ e = ']') :
    isInfix (s :: (mid ++ [e])) ((dynamRow (pinTexts ps m t)).filter fun c => !alpha c) = false := by
  apply isInfix_false
  unfold dynamRow pinTexts
  obtain ⟨sep, hsep, hj⟩ := join_append
    (m.before t ++ (ps.filter fun p => p.stop = t).map (fun p => wedgeText p.cresc false))
    (m.mid t ++ ((ps.filter fun p => p.start = t).map (fun p => wedgeText p.cresc true) ++ m.after t))
  rw [hj, List.filter_append]
  apply not_across
  · intro h
    rw [List.mem_filter] at h
    have hs2 : s ≠ ' ' := by rcases hs with rfl | rfl <;> decide
    obtain ⟨w, hw, hws⟩ := (mem_join_iff _ _ hs2).1 h.1
    have h2 : alpha s = false := by simpa using h.2
    rcases List.mem_append.1 hw with hw | hw
    · have := ha.before t w hw s hws; rw [h2] at this; cases this
    · obtain ⟨p, -, rfl⟩ := List.mem_map.1 hw
      rw [mem_wedge_stop] at hws
      rcases hs with rfl | rfl <;> simp at hws
  · intro h
    rw [List.mem_filter] at h
    have he2 : e ≠ ' ' := by rcases he with rfl | rfl <;> decide
    have h2 : alpha e = false := by simpa using h.2
    rcases List.mem_append.1 h.1 with h3 | h3
    · rcases hsep with rfl | rfl
      · cases h3
      · exact he2 (List.mem_singleton.1 h3)
    · obtain ⟨w, hw, hws⟩ := (mem_join_iff _ _ he2).1 h3
      rcases List.mem_append.1 hw with hw | hw
      · have := ha.mid t w hw e hws; rw [h2] at this; cases this
      · rcases List.mem_append.1 hw with hw | hw
        · obtain ⟨p, -, rfl⟩ := List.mem_map.1 hw
          rw [mem_wedge_start] at hws
          rcases he with rfl | rfl <;> simp at hws
        · have := ha.after t w hw e hws; rw [h2] at this; cases this

end

/-- The end is found behind empty rows. -/
theorem hairpinEnd_empty (alpha : Char → Bool) (stop : Char) (k : Nat) (row : Str) (rest : List Str) (h : stop ∈ row) :
    hairpinEnd alpha stop (List.replicate k [] ++ row :: rest) = some k := by
  induction k with
  | zero => simp [hairpinEnd, h]
  | succ k ih => simp [List.replicate_succ, hairpinEnd, ih]

theorem spine_get (ps : List Pin) (m : PinMarks) (n t : Nat) (h : t < n) :
    (pinSpine ps m n).getD t [] = dynamRow (pinTexts ps m t) := by
  simp [pinSpine, h]

theorem spine_drop (ps : List Pin) (m : PinMarks) (n a b : Nat) (h1 : a ≤ b) (h2 : b < n)
    (he : ∀ t, a ≤ t → t < b → dynamRow (pinTexts ps m t) = []) :
    ∃ rest, (pinSpine ps m n).drop a = List.replicate (b - a) [] ++ dynamRow (pinTexts ps m b) :: rest := by
  refine ⟨(pinSpine ps m n).drop (b + 1), ?_⟩
  have hlen : (pinSpine ps m n).length = n := by simp [pinSpine]
  have hget : ∀ t (ht : t < (pinSpine ps m n).length), (pinSpine ps m n)[t] = dynamRow (pinTexts ps m t) := by
    intro t ht; simp [pinSpine]
  obtain ⟨d, rfl⟩ := Nat.exists_eq_add_of_le h1
  clear h1
  induction d generalizing a with
  | zero =>
    rw [Nat.add_zero, Nat.sub_self, List.replicate_zero, List.nil_append, List.drop_eq_getElem_cons (by omega), hget]
  | succ d ih =>
    rw [List.drop_eq_getElem_cons (by omega), hget, he a (le_refl _) (by omega)]
    have := ih (a + 1) (by omega) (fun t h1 h2 => he t (by omega) (by omega))
    have e1 : a + 1 + d = a + (d + 1) := by omega
    rw [e1] at this
    rw [this]
    have e2 : a + (d + 1) - a = (a + (d + 1) - (a + 1)) + 1 := by omega
    rw [e2, List.replicate_succ]
    rfl

/-! ## Theorems -/

/-- C103. Hairpins one after the other come back from row to row, whatever marks stand at their ends or between them, if
no mark stands strictly inside one. -/
theorem hairpins_round_trip_partial (alpha : Char → Bool) (ps : List Pin) (m : PinMarks) (n : Nat) (ha : PinAlpha alpha m)
    (hp : PinsInTurn ps n) (hm : NoMarksInside ps m) :
    readPins alpha (pinSpine ps m n) = ps.map fun p => (p.cresc, p.start, .row p.stop) := by
  have htri := pins_trichotomy ps hp.1
  have hlen : (pinSpine ps m n).length = n := by simp [pinSpine]
  have alt : alpha '<' = false := ha.signs _ (by decide)
  have agt : alpha '>' = false := ha.signs _ (by decide)
  unfold readPins
  rw [hlen, List.range_eq_range']
  apply filterMap_starts
  · apply hp.1.imp_of_mem
    intro p q hpm hqm h
    have := (hp.2 p hpm).1
    omega
  · intro p hpm
    have := hp.2 p hpm
    omega
  · intro p hpm
    obtain ⟨h1, h2⟩ := hp.2 p hpm
    rw [spine_get ps m n p.start (by omega)]
    -- the rows inside are empty
    have hempty : ∀ t, p.start + 1 ≤ t → t < p.stop → dynamRow (pinTexts ps m t) = [] := by
      intro t ht1 ht2
      obtain ⟨e1, e2, e3⟩ := hm p hpm t (by omega) ht2
      have f1 : (ps.filter fun q => q.stop = t) = [] := by
        rw [List.filter_eq_nil_iff]
        intro q hq
        have := htri p hpm q hq
        have := hp.2 q hq
        simp only [decide_eq_true_eq]
        rintro rfl
        rcases htri p hpm q hq with rfl | h | h <;> omega
      have f2 : (ps.filter fun q => q.start = t) = [] := by
        rw [List.filter_eq_nil_iff]
        intro q hq
        have := hp.2 q hq
        simp only [decide_eq_true_eq]
        rintro rfl
        rcases htri p hpm q hq with rfl | h | h <;> omega
      simp [pinTexts, e1, e2, e3, f1, f2, dynamRow, joinWith]
    obtain ⟨rest, hdrop⟩ := spine_drop ps m n (p.start + 1) p.stop (by omega) h2 hempty
    rw [hdrop]
    have uniq : ∀ q ∈ ps, q.start = p.start → q = p := by
      intro q hq hs
      have := hp.2 q hq
      rcases htri p hpm q hq with h | h | h
      · exact h.symm
      · omega
      · omega
    have hend : ∀ x, wedgeText p.cresc false = [x] →
        hairpinEnd alpha x (List.replicate (p.stop - (p.start + 1)) [] ++ dynamRow (pinTexts ps m p.stop) :: rest) =
          some (p.stop - (p.start + 1)) := by
      intro x hx
      exact hairpinEnd_empty _ _ _ _ _ ((stop_in_row ha p.stop p.cresc x hx).2 ⟨p, hpm, rfl, rfl⟩)
    have hrow : p.start + 1 + (p.stop - (p.start + 1)) = p.stop := by omega
    cases hc : p.cresc with
    | true =>
      have hlt : ((dynamRow (pinTexts ps m p.start)).filter fun c => !alpha c).contains '<' = true := by
        simp only [List.contains_iff_mem, List.mem_filter]
        exact ⟨(lt_in_row ha p.start).2 ⟨p, hpm, rfl, hc⟩, by simp [alt]⟩
      have n1 := not_own (ps := ps) ha p.start '<' '[' [] (.inl rfl) (.inl rfl)
      have n2 := not_own (ps := ps) ha p.start '<' '[' [' '] (.inl rfl) (.inl rfl)
      simp only [List.nil_append, List.cons_append] at n1 n2
      simp only [readPin, hlt, if_true, pinTo, n1, n2, Bool.or_self, Bool.false_eq_true, if_false,
        hend '[' (by rw [hc]; rfl), Option.map_some, PinEnd.shift, hrow]
    | false =>
      have hlt : ((dynamRow (pinTexts ps m p.start)).filter fun c => !alpha c).contains '<' = false := by
        rw [Bool.eq_false_iff]
        simp only [ne_eq, List.contains_iff_mem, List.mem_filter, not_and]
        intro h
        obtain ⟨q, hq, hs, hqc⟩ := (lt_in_row ha p.start).1 h
        rw [uniq q hq hs, hc] at hqc
        cases hqc
      have hgt : ((dynamRow (pinTexts ps m p.start)).filter fun c => !alpha c).contains '>' = true := by
        simp only [List.contains_iff_mem, List.mem_filter]
        exact ⟨(gt_in_row ha p.start).2 ⟨p, hpm, rfl, hc⟩, by simp [agt]⟩
      have n1 := not_own (ps := ps) ha p.start '>' ']' [] (.inr rfl) (.inr rfl)
      have n2 := not_own (ps := ps) ha p.start '>' ']' [' '] (.inr rfl) (.inr rfl)
      simp only [List.nil_append, List.cons_append] at n1 n2
      simp only [readPin, hlt, hgt, if_true, pinTo, n1, n2, Bool.or_self, Bool.false_eq_true, if_false,
        hend ']' (by rw [hc]; rfl), Option.map_some, PinEnd.shift, hrow]
  · intro i _ hi hno
    rw [spine_get ps m n i (by omega)]
    have hlt : ((dynamRow (pinTexts ps m i)).filter fun c => !alpha c).contains '<' = false := by
      rw [Bool.eq_false_iff]
      simp only [ne_eq, List.contains_iff_mem, List.mem_filter, not_and]
      intro h
      obtain ⟨q, hq, hs, hqc⟩ := (lt_in_row ha i).1 h
      exact (hno q hq hs).elim
    have hgt : ((dynamRow (pinTexts ps m i)).filter fun c => !alpha c).contains '>' = false := by
      rw [Bool.eq_false_iff]
      simp only [ne_eq, List.contains_iff_mem, List.mem_filter, not_and]
      intro h
      obtain ⟨q, hq, hs, hqc⟩ := (gt_in_row ha i).1 h
      exact (hno q hq hs).elim
    simp only [readPin, hlt, hgt, Bool.false_eq_true, if_false, Option.map_none]

theorem hairpinEnd_blocked (alpha : Char → Bool) (stop : Char) (pre : List Str) (row : Str) (rest : List Str)
    (h1 : ∀ r ∈ pre, stop ∉ r) (h2 : stop ∉ row) (h3 : ∃ c ∈ row, alpha c = true) :
    hairpinEnd alpha stop (pre ++ row :: rest) = none := by
  induction pre with
  | nil =>
    have h4 : (row.any fun c => alpha c || c == '<' || c == '>') = true := by
      obtain ⟨c, hc, ha⟩ := h3
      exact List.any_eq_true.2 ⟨c, hc, by simp [ha]⟩
    simp only [List.nil_append, hairpinEnd, List.contains_iff_mem, h2, if_false, h4, if_true]
  | cons r pre ih =>
    have h0 : stop ∉ r := h1 r (by simp)
    simp only [List.cons_append, hairpinEnd, List.contains_iff_mem, h0, if_false,
      ih fun q hq => h1 q (List.mem_cons_of_mem _ hq)]
    split <;> rfl

/-- C103, false of the code for every hairpin with a mark strictly inside: it comes back as a word, not as a hairpin. -/
theorem mark_inside_hairpin_loses_it (alpha : Char → Bool) (ps : List Pin) (m : PinMarks) (n : Nat) (ha : PinAlpha alpha m)
    (hp : PinsInTurn ps n) (p : Pin) (hpm : p ∈ ps) (t : Nat) (ht1 : p.start < t) (ht2 : t < p.stop) (w : Str)
    (hw : w ∈ m.before t ++ m.mid t ++ m.after t) (hw2 : w ≠ []) :
    (p.cresc, p.start, .word) ∈ readPins alpha (pinSpine ps m n) ∧
    ∀ k, (p.cresc, p.start, .row k) ∉ readPins alpha (pinSpine ps m n) := by
  have htri := pins_trichotomy ps hp.1
  have hlen : (pinSpine ps m n).length = n := by simp [pinSpine]
  have alt : alpha '<' = false := ha.signs _ (by decide)
  have agt : alpha '>' = false := ha.signs _ (by decide)
  obtain ⟨h1, h2⟩ := hp.2 p hpm
  have uniq : ∀ q ∈ ps, q.start = p.start → q = p := by
    intro q hq hs
    have := hp.2 q hq
    rcases htri p hpm q hq with h | h | h
    · exact h.symm
    · omega
    · omega
  have hsp : (pinSpine ps m n).drop (p.start + 1) =
      ((pinSpine ps m n).drop (p.start + 1)).take (t - (p.start + 1)) ++ dynamRow (pinTexts ps m t) ::
        (pinSpine ps m n).drop (t + 1) := by
    have e1 := (List.take_append_drop (t - (p.start + 1)) ((pinSpine ps m n).drop (p.start + 1))).symm
    rw [List.drop_drop, show p.start + 1 + (t - (p.start + 1)) = t by omega,
      List.drop_eq_getElem_cons (i := t) (by omega)] at e1
    have e2 : (pinSpine ps m n)[t]'(by omega) = dynamRow (pinTexts ps m t) := by simp [pinSpine]
    rw [e2] at e1
    exact e1
  have hstop : ∀ x, wedgeText p.cresc false = [x] → ∀ u, p.start < u → u < p.stop → x ∉ dynamRow (pinTexts ps m u) := by
    intro x hx u hu1 hu2 hin
    obtain ⟨q, hq, hqs, -⟩ := (stop_in_row ha u p.cresc x hx).1 hin
    have := hp.2 q hq
    rcases htri p hpm q hq with rfl | h | h <;> omega
  have halpha : ∃ c ∈ dynamRow (pinTexts ps m t), alpha c = true := by
    obtain ⟨c, hc⟩ := List.exists_mem_of_ne_nil w hw2
    have hmem : w ∈ pinTexts ps m t := by
      simp only [List.mem_append] at hw
      simp only [pinTexts, List.mem_append]
      tauto
    have hal : alpha c = true := by
      simp only [List.mem_append] at hw
      rcases hw with (hw | hw) | hw
      · exact ha.before t w hw c hc
      · exact ha.mid t w hw c hc
      · exact ha.after t w hw c hc
    have hsp : c ≠ ' ' := by
      rintro rfl
      have := ha.signs ' ' (by decide)
      rw [hal] at this; cases this
    exact ⟨c, (mem_join_iff _ _ hsp).2 ⟨w, hmem, hc⟩, hal⟩
  have hend : ∀ x, wedgeText p.cresc false = [x] → hairpinEnd alpha x ((pinSpine ps m n).drop (p.start + 1)) = none := by
    intro x hx
    rw [hsp]
    apply hairpinEnd_blocked
    · intro r hr
      obtain ⟨i, hi, rfl⟩ := List.mem_iff_getElem.1 hr
      simp only [List.length_take, List.length_drop, hlen] at hi
      have : (List.take (t - (p.start + 1)) ((pinSpine ps m n).drop (p.start + 1)))[i]'(by simp [hlen]; omega) =
          dynamRow (pinTexts ps m (p.start + 1 + i)) := by simp [pinSpine]
      rw [this]
      exact hstop x hx _ (by omega) (by omega)
    · exact hstop x hx t ht1 ht2
    · exact halpha
  have main : readPin alpha (dynamRow (pinTexts ps m p.start)) ((pinSpine ps m n).drop (p.start + 1)) =
      some (p.cresc, .word) := by
    cases hc : p.cresc with
    | true =>
      have hlt : ((dynamRow (pinTexts ps m p.start)).filter fun c => !alpha c).contains '<' = true := by
        simp only [List.contains_iff_mem, List.mem_filter]
        exact ⟨(lt_in_row ha p.start).2 ⟨p, hpm, rfl, hc⟩, by simp [alt]⟩
      have n1 := not_own (ps := ps) ha p.start '<' '[' [] (.inl rfl) (.inl rfl)
      have n2 := not_own (ps := ps) ha p.start '<' '[' [' '] (.inl rfl) (.inl rfl)
      simp only [List.nil_append, List.cons_append] at n1 n2
      simp only [readPin, hlt, if_true, pinTo, n1, n2, Bool.or_self, Bool.false_eq_true, if_false,
        hend '[' (by rw [hc]; rfl)]
    | false =>
      have hlt : ((dynamRow (pinTexts ps m p.start)).filter fun c => !alpha c).contains '<' = false := by
        rw [Bool.eq_false_iff]
        simp only [ne_eq, List.contains_iff_mem, List.mem_filter, not_and]
        intro h
        obtain ⟨q, hq, hs, hqc⟩ := (lt_in_row ha p.start).1 h
        rw [uniq q hq hs, hc] at hqc
        cases hqc
      have hgt : ((dynamRow (pinTexts ps m p.start)).filter fun c => !alpha c).contains '>' = true := by
        simp only [List.contains_iff_mem, List.mem_filter]
        exact ⟨(gt_in_row ha p.start).2 ⟨p, hpm, rfl, hc⟩, by simp [agt]⟩
      have n1 := not_own (ps := ps) ha p.start '>' ']' [] (.inr rfl) (.inr rfl)
      have n2 := not_own (ps := ps) ha p.start '>' ']' [' '] (.inr rfl) (.inr rfl)
      simp only [List.nil_append, List.cons_append] at n1 n2
      simp only [readPin, hlt, hgt, if_true, pinTo, n1, n2, Bool.or_self, Bool.false_eq_true, if_false,
        hend ']' (by rw [hc]; rfl)]
  constructor
  · unfold readPins
    rw [List.mem_filterMap]
    exact ⟨p.start, by simp [hlen]; omega, by rw [spine_get ps m n p.start (by omega), main]; rfl⟩
  · intro k hk
    unfold readPins at hk
    rw [List.mem_filterMap] at hk
    obtain ⟨i, hi, h⟩ := hk
    cases hr : readPin alpha ((pinSpine ps m n).getD i []) ((pinSpine ps m n).drop (i + 1)) with
    | none => rw [hr] at h; cases h
    | some r =>
      rw [hr] at h
      simp only [Option.map_some, Option.some.injEq, Prod.mk.injEq] at h
      obtain ⟨-, rfl, h3⟩ := h
      rw [spine_get ps m n p.start (by omega), main] at hr
      cases hr
      cases h3

/-! ### Examples -/

/-- A crescendo from row 0 to row 2, a diminuendo from there to row 5, a crescendo from 7 to 8; marks at rows 0, 2, 6. -/
def pinsEx : List Pin := [⟨true, 0, 2⟩, ⟨false, 2, 5⟩, ⟨true, 7, 8⟩]

def pinMarksEx : PinMarks :=
  ⟨fun t => if t = 0 then ["p".toList] else [], fun t => if t = 2 then ["mf".toList] else [],
   fun t => if t = 6 then ["pp".toList] else []⟩

theorem pinEx_ok : PinAlpha alphaEx pinMarksEx ∧ PinsInTurn pinsEx 10 ∧ NoMarksInside pinsEx pinMarksEx := by
  refine ⟨⟨?_, ?_, ?_, by decide⟩, ⟨by decide, by decide⟩, ?_⟩
  · intro t w hw
    by_cases h : t = 0
    · subst h; revert w; decide
    · simp [pinMarksEx, h] at hw
  · intro t w hw
    by_cases h : t = 2
    · subst h; revert w; decide
    · simp [pinMarksEx, h] at hw
  · intro t w hw
    by_cases h : t = 6
    · subst h; revert w; decide
    · simp [pinMarksEx, h] at hw
  · intro p hp t h1 h2
    simp only [pinsEx, List.mem_cons, List.not_mem_nil, or_false] at hp
    have : t ≠ 0 ∧ t ≠ 2 ∧ t ≠ 6 := by rcases hp with rfl | rfl | rfl <;> simp at h1 h2 <;> omega
    simp [pinMarksEx, this]

example : pinSpine pinsEx pinMarksEx 9 =
    ["p <".toList, [], "[ mf >".toList, [], [], "]".toList, "pp".toList, "<".toList, "[".toList] := by decide +kernel

example : readPins alphaEx (pinSpine pinsEx pinMarksEx 10) = [(true, 0, .row 2), (false, 2, .row 5), (true, 7, .row 8)] := by
  decide +kernel

/-- A crescendo with a mark in the middle, as it is often written, becomes a word. -/
theorem mark_in_crescendo : readPins alphaEx ["p <".toList, "mf".toList, "[ f".toList] = [(true, 0, .word)] := by decide +kernel

/-- C103, false of the code: of a crescendo and a diminuendo that start together in a part, only the crescendo is read. -/
theorem opposite_hairpins_one_lost : readPins alphaEx ["< >".toList, [], "[ ]".toList] = [(true, 0, .row 2)] := by decide +kernel

/-- C103, false of the code: of two crescendos that start together, on two staves of a part, one is read. -/
theorem two_crescendos_one_lost : readPins alphaEx ["< <".toList, "[".toList, "[".toList] = [(true, 0, .row 1)] := by
  decide +kernel

/-- C103, false of the code: a crescendo that starts when another ends, on a later staff of the part, becomes a hairpin
of its first note. -/
theorem start_before_stop_shrinks :
    readPins alphaEx ["<".toList, "< [".toList, "[".toList] = [(true, 0, .row 1), (true, 1, .own)] := by decide +kernel

/-- C103, false of the code: overlapping hairpins on two staves of a part: the first becomes a word. -/
theorem overlapping_hairpins_word :
    readPins alphaEx ["<".toList, ">".toList, "[".toList, "]".toList] = [(true, 0, .word), (false, 1, .row 3)] := by
  decide +kernel

end C21
