import Verif.Spec.Barlines
import Verif.Lemmas.Tac
/-
C46: barline styles survive export and import. C47: combining barline styles.
-/
namespace C21

/-! ## The number does not matter -/

theorem isInfix_skip (p : Str) (hp : p ≠ []) (a t : Str) (h : ∀ c ∈ a, c ∉ p) : isInfix p (a ++ t) = isInfix p t := by
  induction a with
  | nil => rfl
  | cons x xs ih =>
    rw [List.cons_append]
    unfold isInfix
    rw [ih (fun c hc => h c (List.mem_cons_of_mem _ hc))]
    cases p with
    | nil => exact absurd rfl hp
    | cons q qs =>
      have hq : (q == x) = false := by
        have := h x List.mem_cons_self
        simp only [List.mem_cons, not_or] at this
        simpa using fun e => this.1 e.symm
      rw [List.isPrefixOf, hq]
      cases t <;> rfl

theorem isInfix_num {n : Str} (hn : BarNumber n) (p : Str) (hp : p ≠ []) (hs : ∀ c ∈ p, c ∈ ['|', '!', '\'', '`', '-', '.', ':', ';', 'y']) (k : Nat)
    (t : Str) : isInfix p (List.replicate k '=' ++ n ++ t) = isInfix p (List.replicate k '=' ++ t) := by
  have he : '=' ∉ p := fun h => absurd (hs _ h) (by decide)
  rw [isInfix_skip p hp _ t, isInfix_skip p hp _ t]
  · intro c hc
    rw [List.eq_of_mem_replicate hc]; exact he
  · intro c hc
    rcases List.mem_append.1 hc with hc | hc
    · rw [List.eq_of_mem_replicate hc]; exact he
    · intro hcp
      have := hs c hcp
      have h2 := hn c hc
      simp only [List.mem_cons, List.not_mem_nil, or_false, not_or] at this h2
      rcases this with h | h | h | h | h | h | h | h | h
      · exact h2.1 h
      · exact h2.2.1 h
      · exact h2.2.2.2.1 h
      · exact h2.2.2.2.2.1 h
      · exact h2.2.2.2.2.2.1 h
      · exact h2.2.2.2.2.2.2.1 h
      · exact h2.2.2.2.2.2.2.2.1 h
      · exact h2.2.2.2.2.2.2.2.2.1 h
      · exact h2.2.2.2.2.2.2.2.2.2 h

theorem isInfix_eqs (s : Str) (h : '=' ∉ s) : isInfix ['=', '='] ('=' :: s) = false := by
  unfold isInfix
  have h1 := isInfix_skip ['=', '='] (by simp) s [] (by
    intro c hc
    simp only [List.mem_cons, List.not_mem_nil, or_false, or_self]
    rintro rfl; exact h hc)
  rw [List.append_nil] at h1
  rw [h1]
  cases s with
  | nil => rfl
  | cons x xs =>
    have : ('=' == x) = false := by
      simpa using fun (e : '=' = x) => h (e ▸ List.mem_cons_self)
    simp [List.isPrefixOf, isInfix, this]

theorem startsWith_eqs (s : Str) (h : '=' ∉ s) : startsWith ('=' :: s) ['=', '='] = false := by
  unfold startsWith
  cases s with
  | nil => rfl
  | cons x xs =>
    have : ('=' == x) = false := by
      simpa using fun (e : '=' = x) => h (e ▸ List.mem_cons_self)
    simp [List.isPrefixOf, this]

theorem isInfix_num1 {n : Str} (hn : BarNumber n) (t : Str) (p : Str) (hp : p ≠ []) (hs : ∀ c ∈ p, c ∈ ['|', '!', '\'', '`', '-', '.', ':', ';', 'y']) :
    isInfix p ('=' :: (n ++ t)) = isInfix p ('=' :: t) := isInfix_num hn p hp hs 1 t

theorem isInfix_num2 {n : Str} (hn : BarNumber n) (t : Str) (p : Str) (hp : p ≠ []) (hs : ∀ c ∈ p, c ∈ ['|', '!', '\'', '`', '-', '.', ':', ';', 'y']) :
    isInfix p ('=' :: '=' :: (n ++ t)) = isInfix p ('=' :: '=' :: t) := isInfix_num hn p hp hs 2 t

theorem BarNumber.eq_not_mem {n : Str} (hn : BarNumber n) : '=' ∉ n := fun h => hn _ h (by decide)

theorem barType_num {n t : Str} (hn : BarNumber n) (ht : '=' ∉ t) : barTypeOfText ('=' :: (n ++ t)) = barTypeOfText ('=' :: t) := by
  have e : '=' ∉ n ++ t := by
    intro h; rcases List.mem_append.1 h with h | h
    · exact hn.eq_not_mem h
    · exact ht h
  unfold barTypeOfText
  rw [isInfix_eqs _ e, isInfix_eqs _ ht]
  simp only [isInfix_num1 hn t ['|', '|'] (by decide) (by decide), isInfix_num1 hn t ['!', '!'] (by decide) (by decide),
    isInfix_num1 hn t ['!', '|'] (by decide) (by decide), isInfix_num1 hn t ['|', '!'] (by decide) (by decide),
    isInfix_num1 hn t ['\''] (by decide) (by decide), isInfix_num1 hn t ['`'] (by decide) (by decide), isInfix_num1 hn t ['-'] (by decide) (by decide),
    isInfix_num1 hn t ['|'] (by decide) (by decide), isInfix_num1 hn t ['!'] (by decide) (by decide), isInfix_num1 hn t ['.'] (by decide) (by decide),
    isInfix_num1 hn t [':'] (by decide) (by decide)]

theorem hasEnd_num {n t : Str} (hn : BarNumber n) : hasEndRepeat ('=' :: (n ++ t)) = hasEndRepeat ('=' :: t) := by
  unfold hasEndRepeat
  rw [isInfix_num1 hn t [':', '|'] (by decide) (by decide), isInfix_num1 hn t [':', '!'] (by decide) (by decide)]

theorem hasStart_num {n t : Str} (hn : BarNumber n) : hasStartRepeat ('=' :: (n ++ t)) = hasStartRepeat ('=' :: t) := by
  unfold hasStartRepeat
  rw [isInfix_num1 hn t ['|', ':'] (by decide) (by decide), isInfix_num1 hn t ['!', ':'] (by decide) (by decide)]

theorem repeatType_num {n t : Str} (hn : BarNumber n) (ht : '=' ∉ t) (d : Side) :
    repeatTypeOfText ('=' :: (n ++ t)) d = repeatTypeOfText ('=' :: t) d := by
  cases d <;> unfold repeatTypeOfText <;> dsimp only <;>
  rw [barType_num hn ht, isInfix_num1 hn t [':', '!', '|', '!', ':'] (by decide) (by decide),
    isInfix_num1 hn t [':', '|', '!', '|', ':'] (by decide) (by decide), isInfix_num1 hn t [':', '|', '|', ':'] (by decide) (by decide),
    isInfix_num1 hn t [':', '!', ':'] (by decide) (by decide), isInfix_num1 hn t [':', '|', ':'] (by decide) (by decide)]
  · rw [hasStart_num hn]
  · rw [hasEnd_num hn]

theorem barOfText_num {n t : Str} (hn : BarNumber n) (ht : '=' ∉ t) (d : Side) : barOfText ('=' :: (n ++ t)) d = barOfText ('=' :: t) d := by
  cases d <;> unfold barOfText <;> dsimp only <;> rw [barType_num hn ht, hasEnd_num hn, hasStart_num hn, repeatType_num hn ht]

theorem withFermata_num {n t : Str} (hn : BarNumber n) (r : Bar) : withFermata ('=' :: (n ++ t)) r = withFermata ('=' :: t) r := by
  unfold withFermata
  rw [isInfix_num1 hn t [';'] (by decide) (by decide), isInfix_num1 hn t ['y', 'y'] (by decide) (by decide)]

theorem import_num {n t : Str} (hn : BarNumber n) (ht : '=' ∉ t) : importBarline ('=' :: (n ++ t)) = importBarline ('=' :: t) := by
  have e : '=' ∉ n ++ t := by
    intro h; rcases List.mem_append.1 h with h | h
    · exact hn.eq_not_mem h
    · exact ht h
  have hf : firstPassBars ('=' :: (n ++ t)) = firstPassBars ('=' :: t) := by
    unfold firstPassBars
    rw [startsWith_eqs _ e, startsWith_eqs _ ht, barOfText_num hn ht, barOfText_num hn ht, hasStart_num hn]
  unfold importBarline remadeRight remadeLeft
  rw [hf]
  simp only [withFermata_num hn, hasStart_num hn, hasEnd_num hn]

theorem import_final {n t : Str} (hn : BarNumber n) : importBarline ('=' :: '=' :: (n ++ t)) = importBarline ('=' :: '=' :: t) := by
  have hf : firstPassBars ('=' :: '=' :: (n ++ t)) = firstPassBars ('=' :: '=' :: t) := rfl
  unfold importBarline remadeRight remadeLeft withFermata hasStartRepeat hasEndRepeat
  rw [hf, isInfix_num2 hn t [';'] (by decide) (by decide), isInfix_num2 hn t ['y', 'y'] (by decide) (by decide),
    isInfix_num2 hn t [':', '|'] (by decide) (by decide), isInfix_num2 hn t [':', '!'] (by decide) (by decide),
    isInfix_num2 hn t ['|', ':'] (by decide) (by decide), isInfix_num2 hn t ['!', ':'] (by decide) (by decide)]

theorem styleText_member : ∀ s ∈ measureStyles, ∃ t, styleText s = some t ∧ (s ≠ ⟨.final, .notRepeat⟩ → '=' ∉ t.toList) ∧
    (s = ⟨.final, .notRepeat⟩ → t = "=") := by
  have h : measureStyles.all (fun s => match styleText s with
      | none => false
      | some t => (decide (s ≠ ⟨.final, .notRepeat⟩ → '=' ∉ t.toList)) && decide (s = ⟨.final, .notRepeat⟩ → t.toList = ['='])) = true := by decide +kernel
  intro s hs
  have := List.all_eq_true.1 h s hs
  cases ht : styleText s with
  | none => rw [ht] at this; simp at this
  | some t =>
    rw [ht] at this
    dsimp only at this
    rw [Bool.and_eq_true, decide_eq_true_eq, decide_eq_true_eq] at this
    exact ⟨t, rfl, this.1, fun hs => String.toList_inj.1 (this.2 hs)⟩

/-- The number of a measure has no influence on how its barline is read. -/
theorem barline_number {n : Str} (hn : BarNumber n) (s : MStyle) (hs : s ∈ measureStyles) (f : Ferm) :
    (createBarToken n s f).map importBarline = (lastBarToken s f).map importBarline := by
  obtain ⟨t, ht, h1, h2⟩ := styleText_member s hs
  have hf : '=' ∉ (fermText f).toList := by cases f <;> decide
  unfold createBarToken lastBarToken barStyleText
  rw [ht]
  simp only [Option.map_some, Option.some.injEq]
  unfold barToken
  by_cases h0 : n = []
  · rw [if_neg (by simpa using h0)]
  rw [if_pos h0]
  by_cases hfin : s = ⟨.final, .notRepeat⟩
  · rw [h2 hfin]
    cases f with
    | no =>
      rw [if_pos (by decide)]
      have := import_final (t := []) hn
      rw [List.append_nil] at this
      exact this
    | fermata => rw [if_neg (by decide), if_pos (by decide)]; exact import_final hn
    | above => rw [if_neg (by decide), if_pos (by decide)]; exact import_final hn
    | below => rw [if_neg (by decide), if_pos (by decide)]; exact import_final hn
  · have he : '=' ∉ t.toList ++ (fermText f).toList := by
      intro h; rcases List.mem_append.1 h with h | h
      · exact h1 hfin h
      · exact hf h
    rw [if_neg (by intro h; rw [h] at he; exact he List.mem_cons_self), if_neg]
    · exact import_num hn he
    · intro h
      cases hx : t.toList ++ (fermText f).toList with
      | nil => rw [hx] at h; exact absurd h (by decide)
      | cons x xs =>
        rw [hx] at h he
        simp only [startsWith, List.isPrefixOf, Bool.and_eq_true, beq_iff_eq] at h
        exact he (h.1 ▸ List.mem_cons_self)

/-! ## C46 -/

/-- The two barlines, read as a measure style. -/
theorem C46_table : ∀ s ∈ measureStyles, ∀ f ∈ [Ferm.no, .fermata, .above, .below],
    ∃ p, (lastBarToken s f).bind importBarline = some p ∧ (p.1.pause = true ↔ f ≠ .no) ∧ (p.1.dir = some .stop ↔ s.ends) ∧
      (p.2 ≠ none ↔ s.starts) ∧ ((∀ l, p.2 = some l → l.dir = some .start)) ∧
      ((∃ a b, styleOfBar p.2 = some a ∧ styleOfBar (some p.1) = some b ∧ combineStyles a b = some s) ↔ StyleSurvives s) := by
  have key : measureStyles.all (fun s => [Ferm.no, .fermata, .above, .below].all (fun f =>
      match (lastBarToken s f).bind importBarline with
      | none => false
      | some p => decide (p.1.pause = true ↔ f ≠ .no) && decide (p.1.dir = some .stop ↔ s.ends) && decide (p.2 ≠ none ↔ s.starts) &&
          (p.2.all (fun l => decide (l.dir = some .start))) &&
          decide ((match styleOfBar p.2, styleOfBar (some p.1) with
            | some a, some b => combineStyles a b
            | _, _ => none) = some s ↔ StyleSurvives s))) = true := by decide +kernel
  intro s hs f hf
  have h := List.all_eq_true.1 (List.all_eq_true.1 key s hs) f hf
  cases hp : (lastBarToken s f).bind importBarline with
  | none => rw [hp] at h; simp at h
  | some p =>
    rw [hp] at h
    dsimp only at h
    simp only [Bool.and_eq_true, decide_eq_true_eq] at h
    refine ⟨p, rfl, h.1.1.1.1, h.1.1.1.2, h.1.1.2, ?_, ?_⟩
    · intro l hl
      have := h.1.2
      rw [hl] at this
      simpa using this
    · rw [← h.2]
      constructor
      · rintro ⟨a, b, ha, hb, hc⟩
        rw [ha, hb]; exact hc
      · intro hc
        cases ha : styleOfBar p.2 with
        | none => rw [ha] at hc; simp at hc
        | some a =>
          cases hb : styleOfBar (some p.1) with
          | none => rw [ha, hb] at hc; simp at hc
          | some b => rw [ha, hb] at hc; exact ⟨a, b, rfl, rfl, hc⟩

theorem ferm_mem (f : Ferm) : f ∈ [Ferm.no, .fermata, .above, .below] := by cases f <;> decide

/-- C46: every exportable style is written, whatever the measure number, as a barline that is read without error: it has a fermata exactly if
one was written, it ends (starts) a repeat exactly if the style does, and the two barlines combine to the same style exactly for the styles
that survive. -/
theorem style_roundtrip_partial {n : Str} (hn : BarNumber n) (s : MStyle) (hs : s ∈ measureStyles) (f : Ferm) :
    ∃ tok r l, createBarToken n s f = some tok ∧ importBarline tok = some (r, l) ∧ (r.pause = true ↔ f ≠ .no) ∧
      (r.dir = some .stop ↔ s.ends) ∧ (l ≠ none ↔ s.starts) ∧ (∀ b, l = some b → b.dir = some .start) ∧
      ((∃ a b, styleOfBar l = some a ∧ styleOfBar (some r) = some b ∧ combineStyles a b = some s) ↔ StyleSurvives s) := by
  obtain ⟨⟨r, l⟩, hp, h⟩ := C46_table s hs f (ferm_mem f)
  have hnum := barline_number hn s hs f
  cases hl : lastBarToken s f with
  | none => rw [hl] at hp; simp at hp
  | some t0 =>
    rw [hl] at hp hnum
    cases ht : createBarToken n s f with
    | none => rw [ht] at hnum; simp at hnum
    | some tok =>
      rw [ht] at hnum
      simp only [Option.map_some, Option.some.injEq] at hnum
      exact ⟨tok, r, l, rfl, hnum.trans hp, h⟩

example : BarNumber "124a".toList ∧ createBarToken "124a".toList ⟨.lightHeavyLight, .both⟩ .fermata = some "=124a:|!|:;".toList := by
  constructor
  · unfold BarNumber; decide
  · decide

theorem bars_all (P : Bar → Prop) [DecidablePred P]
    (h : ([none, some RepDir.start, some .stop].all fun d => [BarType.regular, .dotted, .dashed, .heavy, .double, .final, .heavyLight, .heavyHeavy, .tick,
      .short, .none].all fun t => [true, false].all fun p => decide (P ⟨d, t, p⟩)) = true) : ∀ b, P b := by
  rintro ⟨d, t, p⟩
  have hd : d ∈ [none, some RepDir.start, some .stop] := by
    rcases d with _ | d
    · decide
    · cases d <;> decide
  have h1 := List.all_eq_true.1 h d hd
  have h2 := List.all_eq_true.1 h1 t (by cases t <;> decide)
  have h3 := List.all_eq_true.1 h2 p (by cases p <;> decide)
  simpa using h3

/-- All the barlines. -/
def allBars : List Bar :=
  [none, some RepDir.start, some .stop].flatMap fun d => [BarType.regular, .dotted, .dashed, .heavy, .double, .final, .heavyLight, .heavyHeavy, .tick,
      .short, .none].flatMap fun t => [⟨d, t, true⟩, ⟨d, t, false⟩]

theorem mem_allBars (b : Bar) : b ∈ allBars := bars_all (fun b => b ∈ allBars) (by decide +kernel) b

theorem bars_all2 (P : Bar → Bar → Prop) [∀ a b, Decidable (P a b)] (h : (allBars.all fun a => allBars.all fun b => decide (P a b)) = true) (a b : Bar) :
    P a b := by
  have h1 := List.all_eq_true.1 h a (mem_allBars a)
  have h2 := List.all_eq_true.1 h1 b (mem_allBars b)
  simpa using h2

/-- The style and fermata written between two barlines. -/
def writtenStyle (r l : Option Bar) : Option (MStyle × Ferm) :=
  match styleOfBar l, styleOfBar r with
  | some a, some b =>
    match combineStyles a b with
    | some s => some (s, combineFerm (fermOfBar l) (fermOfBar r))
    | none => none
  | _, _ => none

theorem getMeasureStyle_mem {v : VStyle} {m : MType} {s : MStyle} (h : getMeasureStyle v m = some s) : s ∈ measureStyles := by
  unfold getMeasureStyle at h
  split at h
  · next hm => cases h; exact hm
  · cases h

theorem combineStyles_mem {a b s : MStyle} (h : combineStyles a b = some s) : s ∈ measureStyles := by
  unfold combineStyles at h
  split at h
  · split at h <;> exact getMeasureStyle_mem h
  · exact getMeasureStyle_mem h

theorem export_written (n : Str) (r l : Option Bar) : exportBarline n r l = (writtenStyle r l).bind (fun p => createBarToken n p.1 p.2) := by
  unfold exportBarline writtenStyle
  cases styleOfBar l with
  | none => rfl
  | some a =>
    cases styleOfBar r with
    | none => rfl
    | some b =>
      dsimp only
      cases combineStyles a b <;> rfl

theorem export_import {n : Str} (hn : BarNumber n) (r l : Option Bar) :
    (exportBarline n r l).bind importBarline = ((writtenStyle r l).bind (fun p => lastBarToken p.1 p.2)).bind importBarline := by
  rw [export_written]
  cases hw : writtenStyle r l with
  | none => rfl
  | some p =>
    dsimp only [Option.bind_some]
    have hm : p.1 ∈ measureStyles := by
      unfold writtenStyle at hw
      cases ha : styleOfBar l with
      | none => rw [ha] at hw; simp at hw
      | some a =>
        cases hb : styleOfBar r with
        | none => rw [ha, hb] at hw; simp at hw
        | some b =>
          rw [ha, hb] at hw
          dsimp only at hw
          cases hc : combineStyles a b with
          | none => rw [hc] at hw; simp at hw
          | some s => rw [hc] at hw; cases hw; exact combineStyles_mem hc
    have h := barline_number hn p.1 hm p.2
    cases h1 : createBarToken n p.1 p.2 <;> cases h2 : lastBarToken p.1 p.2 <;> rw [h1, h2] at h <;> simp_all

/-- The left barline that is read is none or the usual start of a repeat. -/
theorem import_left {t : Str} {r : Bar} {l : Option Bar} (h : importBarline t = some (r, l)) : l = none ∨ l = some ⟨some .start, .heavyLight, false⟩ := by
  unfold importBarline at h
  obtain ⟨p, hp, he⟩ := Option.map_eq_some_iff.1 h
  have hl : remadeLeft t p.2 = l := congrArg Prod.snd he
  rw [← hl]
  unfold remadeLeft
  by_cases hs : hasStartRepeat t = true
  · rw [if_pos hs]; exact Or.inr rfl
  · rw [if_neg hs]
    left
    unfold firstPassBars at hp
    split at hp
    · cases hp; rfl
    · split at hp
      · cases hp
      · first
          | (cases hp; rfl)
          | (rw [if_neg hs] at hp; cases hp; rfl)

/-- C46, from the side of the score: a right barline and the left barline after it come back from Humdrum as they were exactly if they are among
those that survive, whatever the measure number. -/
theorem bars_roundtrip_partial {n : Str} (hn : BarNumber n) (r : Bar) (l : Option Bar) :
    (exportBarline n (some r) l).bind importBarline = some (r, l) ↔ BarsSurvive r l := by
  rw [export_import hn]
  cases l with
  | none =>
    exact bars_all (fun r => ((writtenStyle (some r) none).bind (fun p => lastBarToken p.1 p.2)).bind importBarline = some (r, none) ↔
      BarsSurvive r none) (by decide +kernel) r
  | some l =>
    by_cases hl : l = ⟨some .start, .heavyLight, false⟩
    · subst hl
      exact bars_all (fun r => ((writtenStyle (some r) (some ⟨some .start, .heavyLight, false⟩)).bind (fun p => lastBarToken p.1 p.2)).bind importBarline =
        some (r, some ⟨some .start, .heavyLight, false⟩) ↔ BarsSurvive r (some ⟨some .start, .heavyLight, false⟩)) (by decide +kernel) r
    · constructor
      · intro h
        obtain ⟨t, -, ht⟩ := Option.bind_eq_some_iff.1 h
        rcases import_left ht with h | h
        · cases h
        · exact absurd (Option.some.inj h) hl
      · rintro (⟨h, -⟩ | ⟨h, -⟩)
        · cases h
        · exact absurd (Option.some.inj h) hl

example : BarsSurvive ⟨some .stop, .final, true⟩ (some ⟨some .start, .heavyLight, false⟩) := by decide

/-- The converter of one barline text keeps the style of a repeat; it is the second pass over the measure that loses it. -/
theorem repeat_style_lost (n : Str) (hn : BarNumber n) :
    barOfText ('=' :: (n ++ ":||".toList)) .right = some ⟨some .stop, .double, false⟩ ∧
    importBarline ('=' :: (n ++ ":||".toList)) = some (⟨some .stop, .final, false⟩, none) := by
  rw [barOfText_num hn (by decide), import_num hn (by decide)]
  decide +kernel

/-- A negative measure number makes the barline invisible. -/
theorem negative_number_invisible : createBarToken "-1".toList ⟨.regular, .notRepeat⟩ .no = some "=-1".toList ∧
    importBarline "=-1".toList = some (⟨none, .none, false⟩, none) := by decide +kernel

/-- Each of the two barlines read from the text of a style, by the converter of one barline text, combine to that style, except the dashed one. -/
theorem text_sides {n : Str} (hn : BarNumber n) (s : MStyle) (hs : s ∈ measureStyles) (t : String) (ht : styleText s = some t)
    (hfin : s ≠ ⟨.final, .notRepeat⟩) :
    ∃ r l, barOfText ('=' :: (n ++ t.toList)) .right = some r ∧ barOfText ('=' :: (n ++ t.toList)) .left = some l ∧
      ((∃ a b, styleOfBar l = some a ∧ styleOfBar r = some b ∧ combineStyles a b = some s) ↔ s.v ≠ .dashed) := by
  obtain ⟨t', ht', h1, -⟩ := styleText_member s hs
  have : t' = t := Option.some.inj (ht'.symm.trans ht)
  subst this
  rw [barOfText_num hn (h1 hfin), barOfText_num hn (h1 hfin)]
  have key : measureStyles.all (fun s => match styleText s with
      | none => false
      | some t => match barOfText ('=' :: t.toList) .right, barOfText ('=' :: t.toList) .left with
        | some r, some l => match styleOfBar l, styleOfBar r with
          | some a, some b => decide (combineStyles a b = some s ↔ s.v ≠ .dashed)
          | _, _ => false
        | _, _ => false) = true := by decide +kernel
  have h := List.all_eq_true.1 key s hs
  rw [ht] at h
  dsimp only at h
  cases hr : barOfText ('=' :: t'.toList) .right with
  | none => rw [hr] at h; simp at h
  | some r =>
    cases hl : barOfText ('=' :: t'.toList) .left with
    | none => rw [hr, hl] at h; simp at h
    | some l =>
      rw [hr, hl] at h
      dsimp only at h
      refine ⟨r, l, rfl, rfl, ?_⟩
      cases ha : styleOfBar l with
      | none => rw [ha] at h; simp at h
      | some a =>
        cases hb : styleOfBar r with
        | none => rw [ha, hb] at h; simp at h
        | some b =>
          rw [ha, hb] at h
          dsimp only at h
          rw [decide_eq_true_eq] at h
          rw [← h]
          constructor
          · rintro ⟨a', b', h1, h2, h3⟩
            cases h1; cases h2; exact h3
          · intro h3; exact ⟨a, b, rfl, rfl, h3⟩

/-! ## C47 -/

/-- Which barlines have a style: all plain ones, and the repeats of a type that Humdrum can write. -/
theorem styleOfBar_fails (b : Bar) : styleOfBar (some b) = none ↔ b.dir ≠ none ∧ ¬ RepeatType b.type :=
  bars_all (fun b => styleOfBar (some b) = none ↔ b.dir ≠ none ∧ ¬ RepeatType b.type) (by decide +kernel) b

/-- C47: with a right barline that does not start a repeat and a left barline that does not end one, the two styles can be combined exactly if
it is not the case that a start of a repeat meets a dotted, tick, short or invisible barline (a heavy one wins over all but the invisible). -/
theorem combine_fails_iff (r l : Bar) (hr : r.dir ≠ some .start) (hl : l.dir ≠ some .stop) (a b : MStyle)
    (ha : styleOfBar (some l) = some a) (hb : styleOfBar (some r) = some b) :
    combineStyles a b = none ↔ l.dir = some .start ∧ r.dir = none ∧ ¬ RepeatType r.type ∧ (l.type ≠ .heavy ∨ r.type = .none) := by
  have key := bars_all2 (fun r l => r.dir ≠ some .start ∧ l.dir ≠ some .stop ∧ styleOfBar (some l) ≠ none ∧ styleOfBar (some r) ≠ none →
      ((styleOfBar (some l)).bind (fun a => (styleOfBar (some r)).bind (combineStyles a)) = none ↔
        l.dir = some .start ∧ r.dir = none ∧ ¬ RepeatType r.type ∧ (l.type ≠ .heavy ∨ r.type = .none))) (by decide +kernel) r l ⟨hr, hl, by rw [ha]; simp, by rw [hb]; simp⟩
  rw [ha, hb] at key
  exact key

example : styleOfBar (some ⟨some .start, .heavyLight, false⟩) = some ⟨.heavyLight, .forward⟩ ∧ styleOfBar (some ⟨none, .double, false⟩) = some ⟨.double, .notRepeat⟩ ∧
    combineStyles ⟨.heavyLight, .forward⟩ ⟨.double, .notRepeat⟩ = some ⟨.heavyLight, .forward⟩ := by decide +kernel

/-- The full statement of C47 is false: a start of a repeat after a dotted barline cannot be exported. -/
theorem combine_fails (n : Str) : exportBarline n (some ⟨none, .dotted, false⟩) (some ⟨some .start, .heavyLight, false⟩) = none := by
  rw [export_written]
  have : writtenStyle (some ⟨none, .dotted, false⟩) (some ⟨some .start, .heavyLight, false⟩) = none := by decide +kernel
  rw [this]; rfl

theorem getMeasureStyle_eq {v : VStyle} {m : MType} {s : MStyle} (h : getMeasureStyle v m = some s) : s = ⟨v, m⟩ := by
  unfold getMeasureStyle at h
  split at h <;> cases h; rfl

/-- C47: a combination ends and starts a repeat exactly if a backward repeat meets a forward repeat, for all styles of the two sides. -/
theorem combine_both_partial (a b s : MStyle) (ha : a.m ≠ .both) (hb : b.m ≠ .both) (h : combineStyles a b = some s) :
    s.m = .both ↔ b.m = .backward ∧ a.m = .forward := by
  unfold combineStyles at h
  split at h
  · next h1 =>
    split at h
    · next h2 => rw [getMeasureStyle_eq h]; simp [h1, h2]
    · next h2 => rw [getMeasureStyle_eq h]; simp [h2]
  · next h1 =>
    rw [getMeasureStyle_eq h]
    have : mMax a.m b.m ≠ .both := by unfold mMax; split <;> assumption
    simp [h1, this]

/-- C47: no repeat is lost and none appears: if the left barline does not end a repeat and the right barline does not start one, the combination
ends a repeat exactly if the right barline does, and starts one exactly if the left barline does. -/
theorem combine_keeps_repeats (a b s : MStyle) (ha : ¬ a.ends) (hb : ¬ b.starts) (h : combineStyles a b = some s) :
    (s.ends ↔ b.ends) ∧ (s.starts ↔ a.starts) := by
  obtain ⟨av, am⟩ := a
  obtain ⟨bv, bm⟩ := b
  unfold combineStyles at h
  cases am <;> cases bm <;> simp [MStyle.ends, MStyle.starts] at ha hb <;> simp [mMax, MType.rank] at h <;> rw [getMeasureStyle_eq h] <;>
    simp [MStyle.ends, MStyle.starts]

/-- C47: where the end of a repeat meets the start of another and their styles are made of single strokes (and differ), the style written is
the one drawn by both together, strokes of the same kind merged; the only exception is heavy before heavy-light. -/
theorem combo_strokes : ∀ a ∈ [VStyle.regular, .heavy, .heavyLight, .final], ∀ b ∈ [VStyle.regular, .heavy, .heavyLight, .final], a ≠ b →
    (strokes (comboBoth a b) = mergeStrokes (strokes a ++ strokes b) ↔ ¬ (a = .heavy ∧ b = .heavyLight)) := by decide

/-- C47: in the other cases the style of the end of the repeat is written, unless it is a regular one. -/
theorem combo_first (a b : VStyle) (h : a = .double ∨ a = .heavyHeavy ∨ b = .double ∨ b = .heavyHeavy) (ha : a ≠ .invisible) (hb : b ≠ .invisible) :
    comboBoth a b = if a = .regular then b else a := by
  cases a <;> cases b <;> simp at h ha hb <;> rfl

/-- Combining with a side that has no barline of its own (a regular one) changes nothing. -/
theorem combine_regular (s : MStyle) (hs : s ∈ measureStyles) : combineStyles ⟨.regular, .notRepeat⟩ s = some s := by
  have key : measureStyles.all (fun s => decide (combineStyles ⟨.regular, .notRepeat⟩ s = some s)) = true := by decide +kernel
  simpa using List.all_eq_true.1 key s hs

end C21
