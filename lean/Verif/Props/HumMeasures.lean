import Verif.Model.HumMeasures
import Verif.Props.Barlines
import Verif.Lemmas.PyNum
import Verif.Lemmas.Tac
/-
C107: measures and their numbers in Humdrum.
-/
namespace C21

/-! ## Specification -/

/-- A measure with its number kept: not negative, and at most one small letter. -/
structure GoodMeasure (m : MeasIn) : Prop where
  num : 0 ≤ m.num
  suffix : m.suffix = [] ∨ ∃ c, 97 ≤ c.toNat ∧ c.toNat ≤ 122 ∧ m.suffix = [c]
  style : m.style ∈ measureStyles
  dur : m.dur ≠ 0
  noBars : ∀ l ∈ m.lines, l.isBar = false
  data : ∃ d, MLine.data d ∈ m.lines

/-- The measures as they should be read, the first starting at `t`. -/
def expectedMeasures : Rat → List MeasIn → List MeasOut
  | _, [] => []
  | t, m :: ms => ⟨m.num.natAbs, m.suffix, t, dataOf m.lines⟩ :: expectedMeasures (t + (dataOf m.lines).sum) ms

/-! ## Numbers -/

theorem firstDigits_skip (a s : Str) (h : ∀ c ∈ a, isDig c = false) : firstDigits [] (a ++ s) = firstDigits [] s := by
  induction a with
  | nil => rfl
  | cons x a ih =>
    rw [List.cons_append, firstDigits, h x (by simp), if_neg (by simp), if_pos rfl]
    exact ih (fun c hc => h c (List.mem_cons_of_mem _ hc))

theorem digitsLetter_skip (a s : Str) (h : ∀ c ∈ a, isDig c = false) : digitsLetter [] (a ++ s) = digitsLetter [] s := by
  induction a with
  | nil => rfl
  | cons x a ih =>
    rw [List.cons_append, digitsLetter, h x (by simp), if_neg (by simp), if_neg (by simp)]
    exact ih (fun c hc => h c (List.mem_cons_of_mem _ hc))

theorem firstDigits_run (ds acc s : Str) (h : ∀ c ∈ ds, isDig c = true) :
    firstDigits acc (ds ++ s) = firstDigits (acc ++ ds) s := by
  induction ds generalizing acc with
  | nil => simp
  | cons x ds ih =>
    rw [List.cons_append, firstDigits, h x (by simp), if_pos rfl, ih _ (fun c hc => h c (List.mem_cons_of_mem _ hc))]
    simp

theorem digitsLetter_run (ds acc s : Str) (h : ∀ c ∈ ds, isDig c = true) :
    digitsLetter acc (ds ++ s) = digitsLetter (acc ++ ds) s := by
  induction ds generalizing acc with
  | nil => simp
  | cons x ds ih =>
    rw [List.cons_append, digitsLetter, h x (by simp), if_pos rfl, ih _ (fun c hc => h c (List.mem_cons_of_mem _ hc))]
    simp

theorem readNumber_none (s : Str) (h : ∀ c ∈ s, isDig c = false) : readNumber s = (0, []) := by
  unfold readNumber
  have h1 := digitsLetter_skip s [] h
  have h2 := firstDigits_skip s [] h
  rw [List.append_nil] at h1 h2
  rw [h1, h2]
  rfl

theorem readNumber_letter (a s : Str) (k : Nat) (c : Char) (h : ∀ c ∈ a, isDig c = false) (hc : smallLetter c = true) :
    readNumber (a ++ (natStr k ++ c :: s)) = (k, [c]) := by
  unfold readNumber
  rw [digitsLetter_skip a _ h, digitsLetter_run _ _ _ (natStr_isDig k), digitsLetter]
  have hd : isDig c = false := by
    unfold smallLetter at hc
    unfold isDig
    simp at hc ⊢
    omega
  have hn : ([] ++ natStr k ≠ []) := by simpa using natStr_ne_nil k
  rw [hd, if_neg (by simp), if_pos (by simp [hc, natStr_ne_nil])]
  simp [parse_natStr]

theorem readNumber_plain (a s : Str) (k : Nat) (h : ∀ c ∈ a, isDig c = false) (hs : ∀ c ∈ s, isDig c = false)
    (hc : ∀ c, s.head? = some c → smallLetter c = false) : readNumber (a ++ (natStr k ++ s)) = (k, []) := by
  unfold readNumber
  rw [digitsLetter_skip a _ h, digitsLetter_run _ _ _ (natStr_isDig k), firstDigits_skip a _ h,
    firstDigits_run _ _ _ (natStr_isDig k)]
  simp only [List.nil_append]
  cases s with
  | nil =>
    rw [digitsLetter, firstDigits, if_neg (natStr_ne_nil k)]
    simp [parse_natStr]
  | cons c s =>
    have hd := hs c (by simp)
    have h1 := digitsLetter_skip s [] (fun x hx => hs x (List.mem_cons_of_mem _ hx))
    rw [List.append_nil] at h1
    rw [digitsLetter, hd, if_neg (by simp), if_neg (by simp [hc c rfl]), h1, firstDigits, hd, if_neg (by simp),
      if_neg (natStr_ne_nil k)]
    simp [digitsLetter, parse_natStr]

theorem style_chars : ∀ s ∈ measureStyles, ∃ t, styleText s = some t ∧ ∀ c ∈ t.toList, isDig c = false ∧ smallLetter c = false := by
  have h : measureStyles.all (fun s => match styleText s with
      | none => false
      | some t => t.toList.all (fun c => !isDig c && !smallLetter c)) = true := by decide +kernel
  intro s hs
  have := List.all_eq_true.1 h s hs
  cases ht : styleText s with
  | none => rw [ht] at this; simp at this
  | some t =>
    rw [ht] at this
    refine ⟨t, rfl, ?_⟩
    intro c hc
    have := List.all_eq_true.1 this c hc
    simpa using this

/-- The number of the token of a barline: what stands before and after it. -/
theorem token_parts (n : Str) (hn : n ≠ []) (s : MStyle) (hs : s ∈ measureStyles) (f : Ferm) :
    ∃ t a z, createBarToken n s f = some t ∧ t = a ++ (n ++ z) ∧ (∀ c ∈ a, c = '=') ∧
      ∀ c ∈ z, isDig c = false ∧ smallLetter c = false := by
  obtain ⟨t, ht, hc⟩ := style_chars s hs
  have hf : ∀ c ∈ (fermText f).toList, isDig c = false ∧ smallLetter c = false := by cases f <;> decide
  have hall : ∀ c ∈ t.toList ++ (fermText f).toList, isDig c = false ∧ smallLetter c = false := by
    intro c h
    rcases List.mem_append.1 h with h | h
    · exact hc c h
    · exact hf c h
  unfold createBarToken barStyleText
  rw [ht]
  simp only [Option.map_some, Option.some.injEq]
  unfold barToken
  rw [if_pos hn]
  by_cases h1 : t.toList ++ (fermText f).toList = ['=']
  · rw [if_pos h1]
    exact ⟨_, ['=', '='], [], rfl, by simp, by simp, by simp⟩
  · rw [if_neg h1]
    by_cases h2 : startsWith (t.toList ++ (fermText f).toList) ['=', ';'] = true
    · rw [if_pos h2]
      exact ⟨_, ['=', '='], _, rfl, rfl, by simp, fun c h => hall c (List.mem_of_mem_drop h)⟩
    · rw [if_neg h2]
      exact ⟨_, ['='], _, rfl, rfl, by simp, hall⟩

theorem no_number_token (s : MStyle) (hs : s ∈ measureStyles) (f : Ferm) :
    ∃ t, createBarToken [] s f = some t ∧ ∀ c ∈ t, isDig c = false := by
  obtain ⟨t, ht, hc⟩ := style_chars s hs
  have hf : ∀ c ∈ (fermText f).toList, isDig c = false ∧ smallLetter c = false := by cases f <;> decide
  unfold createBarToken barStyleText
  rw [ht]
  refine ⟨_, rfl, ?_⟩
  intro c h
  simp only [barToken] at h
  rw [if_neg (by simp), List.mem_cons, List.mem_append] at h
  rcases h with rfl | h | h
  · decide
  · exact (hc c h).1
  · exact (hf c h).1

/-- **C107** The number of a measure and a suffix of one small letter are read from its barline, whatever its style. -/
theorem number_round_trip (k : Nat) (suffix : Str) (hsuf : suffix = [] ∨ ∃ c, 97 ≤ c.toNat ∧ c.toNat ≤ 122 ∧ suffix = [c])
    (s : MStyle) (hs : s ∈ measureStyles) (f : Ferm) :
    (createBarToken (measureNumText (k : Int) suffix) s f).map readNumber = some (k, suffix) := by
  have hk : intStr (k : Int) = natStr k := by
    unfold intStr
    rw [if_neg (by omega)]
    rfl
  unfold measureNumText
  rw [hk]
  by_cases h0 : natStr k ++ suffix = ['0']
  · rw [if_pos h0]
    obtain ⟨t, ht, hd⟩ := no_number_token s hs f
    rw [ht]
    simp only [Option.map_some, Option.some.injEq]
    rw [readNumber_none t hd]
    have hk0 : natStr k = ['0'] ∧ suffix = [] := by
      cases hn : natStr k with
      | nil => exact absurd hn (natStr_ne_nil k)
      | cons x l =>
        rw [hn] at h0
        simp at h0
        rw [h0.1, h0.2.1]
        exact ⟨rfl, h0.2.2⟩
    have : k = 0 := by
      apply natStr_inj k 0
      rw [hk0.1]
      decide
    rw [this, hk0.2]
  · rw [if_neg h0]
    obtain ⟨t, a, z, ht, htt, ha, hz⟩ := token_parts (natStr k ++ suffix) (by simp [natStr_ne_nil]) s hs f
    rw [ht, htt]
    simp only [Option.map_some, Option.some.injEq]
    have ha' : ∀ c ∈ a, isDig c = false := by
      intro c hc; rw [ha c hc]; decide
    rcases hsuf with rfl | ⟨c, h1, h2, rfl⟩
    · rw [List.append_nil]
      apply readNumber_plain a z k ha' (fun c hc => (hz c hc).1)
      intro c hc
      exact (hz c (List.mem_of_head? hc)).2
    · rw [List.append_assoc]
      exact readNumber_letter a z k c ha' (by unfold smallLetter; simp; omega)

/-- **C107 (disagreement)** Of a longer suffix only the first small letter is read; a suffix that starts with another
character is lost. -/
theorem suffix_cut (k : Nat) (c : Char) (more : Str) (hd : ∀ x ∈ c :: more, isDig x = false) (s : MStyle)
    (hs : s ∈ measureStyles) (f : Ferm) :
    (createBarToken (measureNumText (k : Int) (c :: more)) s f).map readNumber =
      some (k, if 97 ≤ c.toNat ∧ c.toNat ≤ 122 then [c] else []) := by
  have hk : intStr (k : Int) = natStr k := by
    unfold intStr
    rw [if_neg (by omega)]
    rfl
  unfold measureNumText
  rw [hk]
  have h0 : natStr k ++ c :: more ≠ ['0'] := by
    intro h
    cases hn : natStr k with
    | nil => exact natStr_ne_nil k hn
    | cons x l => rw [hn] at h; simp at h
  rw [if_neg h0]
  obtain ⟨t, a, z, ht, htt, ha, hz⟩ := token_parts (natStr k ++ c :: more) (by simp) s hs f
  rw [ht, htt]
  simp only [Option.map_some, Option.some.injEq]
  have ha' : ∀ c ∈ a, isDig c = false := by
    intro c hc; rw [ha c hc]; decide
  rw [List.append_assoc, List.cons_append]
  by_cases hl : 97 ≤ c.toNat ∧ c.toNat ≤ 122
  · rw [if_pos hl]
    exact readNumber_letter a _ k c ha' (by unfold smallLetter; simp; omega)
  · rw [if_neg hl]
    apply readNumber_plain a _ k ha'
    · intro x hx
      rw [List.mem_cons, List.mem_append] at hx
      rcases hx with rfl | hx | hx
      · exact hd x (by simp)
      · exact hd x (by simp [hx])
      · exact (hz x hx).1
    · intro x hx
      simp at hx
      subst hx
      unfold smallLetter
      simp
      omega

/-- **C107 (disagreement)** The sign of a negative number is lost. -/
theorem negative_number_positive (k : Nat) (s : MStyle) (hs : s ∈ measureStyles) (f : Ferm) :
    (createBarToken (measureNumText (-(k + 1 : Nat) : Int) []) s f).map readNumber = some (k + 1, []) := by
  have hk : intStr (-(k + 1 : Nat) : Int) = '-' :: natStr (k + 1) := by
    unfold intStr
    rw [if_pos (by omega)]
    rfl
  unfold measureNumText
  rw [hk, List.append_nil]
  rw [if_neg (by intro h; injection h with h; exact absurd h (by decide))]
  obtain ⟨t, a, z, ht, htt, ha, hz⟩ := token_parts ('-' :: natStr (k + 1)) (by simp) s hs f
  rw [ht, htt]
  simp only [Option.map_some, Option.some.injEq]
  have : a ++ ('-' :: natStr (k + 1) ++ z) = (a ++ ['-']) ++ (natStr (k + 1) ++ z) := by simp
  rw [this]
  apply readNumber_plain
  · intro c hc
    rw [List.mem_append] at hc
    rcases hc with hc | hc
    · rw [ha c hc]; decide
    · simp at hc; rw [hc]; decide
  · exact fun c hc => (hz c hc).1
  · intro c hc
    exact (hz c (List.mem_of_head? hc)).2

/-! ## Measures -/

/-- Barlines with the lines after them. -/
def flatSegs (segs : List (Str × List MLine)) : List MLine := segs.flatMap fun p => .bar p.1 :: p.2

def measItem (t : Rat) (p : Str × List MLine) : List MeasOut :=
  if p.2.any MLine.isData then [⟨(readNumber p.1).1, (readNumber p.1).2, t, dataOf p.2⟩] else []

def measItems : Rat → List (Str × List MLine) → List MeasOut
  | _, [] => []
  | t, p :: segs => measItem t p ++ measItems (t + (dataOf p.2).sum) segs

theorem takeWhile_seg (a : List MLine) (segs : List (Str × List MLine)) (ha : ∀ l ∈ a, l.isBar = false) :
    (a ++ flatSegs segs).takeWhile (fun l => !l.isBar) = a ∧
    (a ++ flatSegs segs).dropWhile (fun l => !l.isBar) = flatSegs segs := by
  induction a with
  | nil =>
    cases segs with
    | nil => exact ⟨rfl, rfl⟩
    | cons p segs => exact ⟨rfl, rfl⟩
  | cons x a ih =>
    have hx := ha x (by simp)
    have := ih (fun l hl => ha l (List.mem_cons_of_mem _ hl))
    rw [List.cons_append, List.takeWhile_cons, List.dropWhile_cons]
    simp [hx, this.1, this.2]

theorem dataOf_append (a b : List MLine) : dataOf (a ++ b) = dataOf a ++ dataOf b := List.filterMap_append ..

theorem readFrom_step (all before : List MLine) (cur : MLine) (a : List MLine) (segs : List (Str × List MLine))
    (ha : ∀ l ∈ a, l.isBar = false) :
    readFrom all before cur (a ++ flatSegs segs) =
      (if a.any MLine.isData then
        [⟨(measureNumber all (if (before ++ [cur]).any MLine.isData then cur else all.headD .other)).1,
          (measureNumber all (if (before ++ [cur]).any MLine.isData then cur else all.headD .other)).2,
          (dataOf before).sum, dataOf a⟩] else []) ++
      (match segs with
       | [] => []
       | p :: segs => readFrom all (before ++ cur :: a) (.bar p.1) (p.2 ++ flatSegs segs)) := by
  obtain ⟨h1, h2⟩ := takeWhile_seg a segs ha
  rw [readFrom]
  simp only [h1]
  cases segs with
  | nil =>
    have : (a ++ flatSegs []).dropWhile (fun l => !l.isBar) = [] := h2
    split
    · rw [List.append_nil]
    · rename_i b r h
      rw [this] at h; cases h
  | cons p segs =>
    split
    · rename_i h
      rw [h2] at h; cases h
    · rename_i b r h
      rw [h2] at h
      have : flatSegs (p :: segs) = .bar p.1 :: (p.2 ++ flatSegs segs) := rfl
      rw [this] at h
      injection h with hb hr
      rw [← hb, ← hr]

theorem readFrom_segs (all before : List MLine) (t : Str) (a : List MLine) (segs : List (Str × List MLine))
    (ha : ∀ l ∈ a, l.isBar = false) (hs : ∀ p ∈ segs, ∀ l ∈ p.2, l.isBar = false)
    (hb : before.any MLine.isData = true) :
    readFrom all before (.bar t) (a ++ flatSegs segs) = measItems (dataOf before).sum ((t, a) :: segs) := by
  induction segs generalizing before t a with
  | nil =>
    rw [readFrom_step all before _ a [] ha]
    have : (before ++ [MLine.bar t]).any MLine.isData = true := by rw [List.any_append, hb]; rfl
    rw [this]
    simp only [if_true]
    rfl
  | cons p segs ih =>
    rw [readFrom_step all before _ a _ ha]
    have : (before ++ [MLine.bar t]).any MLine.isData = true := by rw [List.any_append, hb]; rfl
    rw [this]
    simp only [if_true]
    rw [ih (before ++ .bar t :: a) p.1 p.2 (hs p (by simp)) (fun q hq => hs q (List.mem_cons_of_mem _ hq))
      (by rw [List.any_append, hb]; rfl)]
    rw [measItems]
    congr 1
    rw [dataOf_append]
    have : dataOf (MLine.bar t :: a) = dataOf a := rfl
    rw [this, List.sum_append]
    rfl

theorem export_segs (ms : List MeasIn) (h : ∀ m ∈ ms, GoodMeasure m) :
    ∃ segs : List (Str × List MLine), exportMeasures ms = some (flatSegs segs) ∧
      List.Forall₂ (fun m p => p.2 = m.lines ∧ readNumber p.1 = (m.num.natAbs, m.suffix)) ms segs := by
  induction ms with
  | nil => exact ⟨[], rfl, List.Forall₂.nil⟩
  | cons m ms ih =>
    obtain ⟨segs, h1, h2⟩ := ih (fun x hx => h x (List.mem_cons_of_mem _ hx))
    have hm := h m (by simp)
    have hr := number_round_trip m.num.natAbs m.suffix hm.suffix m.style hm.style m.ferm
    have hn : ((m.num.natAbs : Nat) : Int) = m.num := Int.natAbs_of_nonneg hm.num
    rw [hn] at hr
    cases ht : createBarToken (measureNumText m.num m.suffix) m.style m.ferm with
    | none => rw [ht] at hr; cases hr
    | some t =>
      rw [ht] at hr
      simp only [Option.map_some, Option.some.injEq] at hr
      refine ⟨(t, m.lines) :: segs, ?_, List.Forall₂.cons ⟨rfl, hr⟩ h2⟩
      have hne : ¬ (m.lines = [] ∨ m.dur = 0) := by
        intro hor
        rcases hor with h | h
        · obtain ⟨d, hd⟩ := hm.data
          rw [h] at hd; cases hd
        · exact hm.dur h
      rw [exportMeasures, exportMeasure, if_neg hne, ht, h1]
      rfl

theorem seg_expected (ms : List MeasIn) (segs : List (Str × List MLine)) (last : Str) (h : ∀ m ∈ ms, GoodMeasure m)
    (hf : List.Forall₂ (fun m p => p.2 = m.lines ∧ readNumber p.1 = (m.num.natAbs, m.suffix)) ms segs) (t : Rat) :
    measItems t (segs ++ [(last, [.other])]) = expectedMeasures t ms := by
  induction hf generalizing t with
  | nil => rfl
  | cons hp _ ih =>
    rename_i m p ms segs hf
    obtain ⟨d, hd⟩ := (h m (by simp)).data
    rw [List.cons_append, measItems, ih (fun x hx => h x (List.mem_cons_of_mem _ hx)), expectedMeasures, measItem, hp.1, hp.2,
      if_pos (by rw [List.any_eq_true]; exact ⟨_, hd, rfl⟩)]
    rfl

theorem firstBar_header (k : Nat) (t : Str) (ls : List MLine) :
    firstBarNumber (List.replicate k .other ++ .bar t :: ls) = readNumber t := by
  induction k with
  | zero => rfl
  | succ k ih => exact ih

theorem replicate_no_data (k : Nat) : (List.replicate k MLine.other).any MLine.isData = false := by
  induction k with
  | zero => rfl
  | succ k ih => rw [List.replicate_succ, List.any_cons, ih]; rfl

theorem replicate_dataOf (k : Nat) : dataOf (List.replicate k MLine.other) = [] := by
  induction k with
  | zero => rfl
  | succ k ih => exact ih

/-- The lines of a file, once the barlines are known. -/
theorem read_segs (header : Nat) (t : Str) (a : List MLine) (segs : List (Str × List MLine))
    (ha : ∀ l ∈ a, l.isBar = false) (hs : ∀ p ∈ segs, ∀ l ∈ p.2, l.isBar = false)
    (hd : a.any MLine.isData = true) :
    readMeasures header (List.replicate (header + 1) .other ++ flatSegs ((t, a) :: segs)) = measItems 0 ((t, a) :: segs) := by
  have hsplit : List.replicate (header + 1) MLine.other ++ flatSegs ((t, a) :: segs) =
      List.replicate header .other ++ (.other :: flatSegs ((t, a) :: segs)) := by
    rw [show header + 1 = header + 1 from rfl, List.replicate_succ']
    simp
  generalize hall : List.replicate (header + 1) MLine.other ++ flatSegs ((t, a) :: segs) = all at *
  have hhead : all.headD .other = .other := by rw [← hall]; rfl
  have hfirst : firstBarNumber all = readNumber t := by
    rw [← hall]; exact firstBar_header _ t _
  unfold readMeasures
  have h1 : all.drop header = .other :: flatSegs ((t, a) :: segs) := by
    rw [hsplit, List.drop_left' (by simp)]
  have h2 : all.take header = List.replicate header .other := by
    rw [hsplit, List.take_left' (by simp)]
  rw [h1, h2]
  simp only
  have hstep := readFrom_step all (List.replicate header .other) .other [] ((t, a) :: segs) (by intro l hl; cases hl)
  rw [List.nil_append] at hstep
  rw [hstep]
  simp only [List.any_nil, Bool.false_eq_true, if_false, List.nil_append]
  rw [readFrom_step all _ _ a segs ha]
  have hno : (List.replicate header MLine.other ++ [MLine.other] ++ [MLine.bar t]).any MLine.isData = false := by
    rw [List.any_append, List.any_append, replicate_no_data]; rfl
  rw [hno, hd]
  simp only [if_true, Bool.false_eq_true, if_false]
  rw [hhead]
  have hz : dataOf (List.replicate header MLine.other ++ [MLine.other]) = [] := by
    rw [dataOf_append, replicate_dataOf]; rfl
  rw [hz]
  simp only [measureNumber, hfirst, List.sum_nil]
  rw [measItems, measItem, hd, if_pos rfl]
  congr 1
  cases segs with
  | nil => rfl
  | cons p segs =>
    simp only
    rw [readFrom_segs all _ p.1 p.2 segs (hs p (by simp)) (fun q hq => hs q (List.mem_cons_of_mem _ hq))
      (by rw [List.any_append, List.any_cons, hd]; simp)]
    congr 1
    rw [dataOf_append, hz, List.nil_append]
    have : dataOf (MLine.bar t :: a) = dataOf a := rfl
    rw [this, zero_add]

/-- **C107 (partial)** A score's measures are read back, each with its number, suffix, start and contents, if every
one has a length and data, and its number is not negative with at most one small letter after it, whatever the
styles of the barlines.
Missing: see the other theorems. -/
theorem measures_round_trip_partial (header : Nat) (ms : List MeasIn) (last : Str) (hne : ms ≠ [])
    (h : ∀ m ∈ ms, GoodMeasure m) :
    (exportFile header ms last).map (readMeasures header) = some (expectedMeasures 0 ms) := by
  obtain ⟨segs, h1, h2⟩ := export_segs ms h
  unfold exportFile
  rw [h1]
  simp only [Option.map_some, Option.some.injEq]
  have hflat : List.replicate (header + 1) MLine.other ++ flatSegs segs ++ [.bar last, .other] =
      List.replicate (header + 1) .other ++ flatSegs (segs ++ [(last, [.other])]) := by
    unfold flatSegs
    rw [List.flatMap_append, List.append_assoc]
    rfl
  rw [hflat]
  have hno : ∀ p ∈ segs ++ [(last, [MLine.other])], ∀ l ∈ p.2, l.isBar = false := by
    intro p hp l hl
    rw [List.mem_append] at hp
    rcases hp with hp | hp
    · have hex : ∃ m ∈ ms, p.2 = m.lines := by
        clear h1 hflat h hne
        induction h2 with
        | nil => cases hp
        | cons hq _ ih =>
          rw [List.mem_cons] at hp
          rcases hp with rfl | hp
          · exact ⟨_, by simp, hq.1⟩
          · obtain ⟨m, hm, hmp⟩ := ih hp
            exact ⟨m, List.mem_cons_of_mem _ hm, hmp⟩
      obtain ⟨m, hm, hmp⟩ := hex
      rw [hmp] at hl
      exact (h m hm).noBars l hl
    · simp at hp
      subst hp
      simp at hl
      rw [hl]; rfl
  have hexp := seg_expected ms segs last h h2 0
  cases h2 with
  | nil => exact absurd rfl hne
  | cons hp hrest =>
    rename_i m p ms segs
    rw [← hexp]
    obtain ⟨t, a⟩ := p
    obtain ⟨d, hd⟩ := (h m (by simp)).data
    rw [List.cons_append] at hno ⊢
    apply read_segs header t a
    · exact hno (t, a) (by simp)
    · exact fun q hq => hno q (List.mem_cons_of_mem _ hq)
    · rw [List.any_eq_true]
      have : a = m.lines := hp.1
      exact ⟨_, by rw [this]; exact hd, rfl⟩

example : GoodMeasure ⟨12, ['a'], ⟨.final, .notRepeat⟩, .fermata, 4, [.other, .data 3, .data 1]⟩ :=
  ⟨by decide, Or.inr ⟨'a', by decide, by decide, rfl⟩, by decide, by decide +kernel, by decide, ⟨3, by decide⟩⟩

example : (exportFile 2 [⟨0, [], ⟨.regular, .notRepeat⟩, .no, 1, [.data 1]⟩,
    ⟨12, ['a'], ⟨.final, .notRepeat⟩, .fermata, 4, [.other, .data 3, .data 1]⟩] "==".toList).map (readMeasures 2) =
    some [⟨0, [], 0, [1]⟩, ⟨12, ['a'], 1, [3, 1]⟩] := by decide +kernel

/-- **C107 (disagreement)** A measure of length 0 (with grace notes only, say) has no barline: its lines are read as
part of the measure before it. -/
theorem zero_length_measure_joined (header : Nat) (ms : List MeasIn) (m z : MeasIn) (ms' : List MeasIn) (last : Str)
    (hm : GoodMeasure m) (hz : z.dur = 0) :
    (exportFile header (ms ++ m :: z :: ms') last).map (readMeasures header) =
      (exportFile header (ms ++ { m with lines := m.lines ++ z.lines } :: ms') last).map (readMeasures header) := by
  have key : exportMeasures (m :: z :: ms') = exportMeasures ({ m with lines := m.lines ++ z.lines } :: ms') := by
    have hml : m.lines ≠ [] := by
      obtain ⟨d, hd⟩ := hm.data
      intro h; rw [h] at hd; cases hd
    rw [exportMeasures, exportMeasures, exportMeasures, exportMeasure, exportMeasure, exportMeasure,
      if_neg (by intro h; rcases h with h | h; exact hml h; exact hm.dur h), if_pos (Or.inr hz),
      if_neg (by intro h; rcases h with h | h; exact hml (List.append_eq_nil_iff.1 h).1; exact hm.dur h)]
    simp only
    cases createBarToken (measureNumText m.num m.suffix) m.style m.ferm with
    | none => cases exportMeasures ms' <;> rfl
    | some t =>
      cases exportMeasures ms' with
      | none => rfl
      | some l => simp
  have : ∀ ms, exportMeasures (ms ++ m :: z :: ms') =
      exportMeasures (ms ++ { m with lines := m.lines ++ z.lines } :: ms') := by
    intro ms
    induction ms with
    | nil => exact key
    | cons x ms ih => rw [List.cons_append, List.cons_append, exportMeasures, exportMeasures, ih]
  unfold exportFile
  rw [this ms]

/-- **C107 (disagreement)** When the first measure of a file has no data it is passed over, and the first that has
gets its number. -/
theorem empty_first_number (header : Nat) (t t' : Str) (d : Rat) :
    readMeasures header (List.replicate (header + 1) .other ++
      [.bar t, .other, .bar t', .data d, .bar "==".toList, .other]) =
      [⟨(readNumber t).1, (readNumber t).2, 0, [d]⟩] := by
  have hsplit : List.replicate (header + 1) MLine.other ++ flatSegs [(t, [.other]), (t', [.data d]), ("==".toList, [.other])] =
      List.replicate header .other ++ (.other :: flatSegs [(t, [.other]), (t', [.data d]), ("==".toList, [.other])]) := by
    rw [List.replicate_succ']
    simp
  have hfl : [.bar t, .other, .bar t', .data d, .bar "==".toList, .other] =
      flatSegs [(t, [.other]), (t', [.data d]), ("==".toList, [.other])] := rfl
  rw [hfl]
  generalize hall : List.replicate (header + 1) MLine.other ++
    flatSegs [(t, [.other]), (t', [.data d]), ("==".toList, [.other])] = all at *
  have hhead : all.headD .other = .other := by rw [← hall]; rfl
  have hfirst : firstBarNumber all = readNumber t := by
    rw [← hall]; exact firstBar_header _ t _
  unfold readMeasures
  have h1 : all.drop header = .other :: flatSegs [(t, [.other]), (t', [.data d]), ("==".toList, [.other])] := by
    rw [hsplit, List.drop_left' (by simp)]
  have h2 : all.take header = List.replicate header .other := by
    rw [hsplit, List.take_left' (by simp)]
  rw [h1, h2]
  simp only
  have hstep := readFrom_step all (List.replicate header .other) .other []
    [(t, [.other]), (t', [.data d]), ("==".toList, [.other])] (by intro l hl; cases hl)
  rw [List.nil_append] at hstep
  rw [hstep]
  simp only [List.any_nil, Bool.false_eq_true, if_false, List.nil_append]
  rw [readFrom_step all _ _ [.other] _ (by decide)]
  simp only
  rw [readFrom_step all _ _ [.data d] _ (by intro l hl; simp at hl; rw [hl]; rfl)]
  simp only
  rw [readFrom_step all _ _ [.other] _ (by decide)]
  have hno : (List.replicate header MLine.other ++ [MLine.other] ++ MLine.bar t :: [MLine.other] ++
      [MLine.bar t']).any MLine.isData = false := by
    rw [List.any_append, List.any_append, List.any_append, replicate_no_data]; rfl
  rw [hno, hhead]
  have hz : dataOf (List.replicate header MLine.other ++ [MLine.other] ++ MLine.bar t :: [MLine.other]) = [] := by
    rw [dataOf_append, dataOf_append, replicate_dataOf]; rfl
  rw [hz]
  simp [MLine.isData, measureNumber, hfirst, dataOf]

/-- **C107** Data before the first barline is a measure of its own, without a number (0 in music21). -/
theorem upbeat_unnumbered (header : Nat) (a : List MLine) (d : Rat) (segs : List (Str × List MLine))
    (ha : ∀ l ∈ a, l.isBar = false) (hs : ∀ p ∈ segs, ∀ l ∈ p.2, l.isBar = false) :
    readMeasures header (List.replicate (header + 1) .other ++ (.data d :: a ++ flatSegs segs)) =
      ⟨0, [], 0, d :: dataOf a⟩ :: measItems (d + (dataOf a).sum) segs := by
  have hsplit : List.replicate (header + 1) MLine.other ++ (.data d :: a ++ flatSegs segs) =
      List.replicate header .other ++ (.other :: (.data d :: a ++ flatSegs segs)) := by
    rw [List.replicate_succ']
    simp
  generalize hall : List.replicate (header + 1) MLine.other ++ (.data d :: a ++ flatSegs segs) = all at *
  have hhead : all.headD .other = .other := by rw [← hall]; rfl
  have hfirst : firstBarNumber all = (0, []) := by
    rw [← hall]
    have : ∀ k, firstBarNumber (List.replicate k .other ++ (.data d :: a ++ flatSegs segs)) = (0, []) := by
      intro k
      induction k with
      | zero => rfl
      | succ k ih => exact ih
    exact this _
  unfold readMeasures
  have h1 : all.drop header = .other :: (.data d :: a ++ flatSegs segs) := by
    rw [hsplit, List.drop_left' (by simp)]
  have h2 : all.take header = List.replicate header .other := by
    rw [hsplit, List.take_left' (by simp)]
  rw [h1, h2]
  simp only
  have ha' : ∀ l ∈ MLine.data d :: a, l.isBar = false := by
    intro l hl
    rw [List.mem_cons] at hl
    rcases hl with rfl | hl
    · rfl
    · exact ha l hl
  rw [readFrom_step all _ _ (.data d :: a) segs ha']
  have hno : (List.replicate header MLine.other ++ [MLine.other]).any MLine.isData = false := by
    rw [List.any_append, replicate_no_data]; rfl
  rw [hno, hhead, replicate_dataOf]
  have hd : (MLine.data d :: a).any MLine.isData = true := rfl
  rw [hd]
  simp only [if_true, Bool.false_eq_true, if_false, measureNumber, hfirst, List.sum_nil, List.cons_append,
    List.nil_append]
  have hdata : dataOf (.data d :: a) = d :: dataOf a := rfl
  rw [hdata]
  congr 1
  cases segs with
  | nil => rfl
  | cons p segs =>
    simp only
    rw [readFrom_segs all _ p.1 p.2 segs (hs p (by simp)) (fun q hq => hs q (List.mem_cons_of_mem _ hq))
      (by rw [List.any_append, List.any_cons, List.any_cons]; simp [MLine.isData])]
    congr 1
    rw [dataOf_append, replicate_dataOf]
    have : dataOf (MLine.other :: .data d :: a) = d :: dataOf a := rfl
    rw [this, List.nil_append, List.sum_cons]

end C21
