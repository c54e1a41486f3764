import Verif.Spec.Sections
import Verif.Props.IsoDates
import Verif.Lemmas.Tac
/-
C39: the section names generated for repeat endings. C66: repeat endings survive export and import.
-/
namespace C21

theorem ofNat_letter (i : Nat) (h : i < 26) : (Char.ofNat (65 + i)).toNat = 65 + i := by
  have : ∀ i < 26, (Char.ofNat (65 + i)).toNat = 65 + i := by decide
  exact this i h

/-- C39: name generation turns each name into the next and never fails on a name it produced. -/
theorem increment_sectionName (k : Nat) : incrementName (sectionName k) = .ok (sectionName (k + 1)) := by
  have hk : k % 26 < 26 := Nat.mod_lt _ (by decide)
  have hc := ofNat_letter (k % 26) hk
  unfold sectionName
  rw [List.replicate_succ]
  unfold incrementName
  dsimp only
  rw [if_neg (by rw [hc]; omega), if_neg (by simp)]
  by_cases hz : k % 26 = 25
  · rw [if_pos (by rw [hz]), List.length_replicate]
    have h1 : (k + 1) / 26 = k / 26 + 1 := by omega
    have h2 : (k + 1) % 26 = 0 := by omega
    rw [h1, h2]
  · have hne : Char.ofNat (65 + k % 26) ≠ 'Z' := by
      intro h
      have := congrArg Char.toNat h
      rw [hc] at this
      have hz' : ('Z' : Char).toNat = 90 := rfl
      omega
    rw [if_neg hne, List.length_replicate, hc]
    have h1 : (k + 1) / 26 = k / 26 := by omega
    have h2 : (k + 1) % 26 = k % 26 + 1 := by omega
    rw [h1, h2]
    rfl

/-- C39: the names are all different. -/
theorem sectionName_inj {i j : Nat} (h : sectionName i = sectionName j) : i = j := by
  unfold sectionName at h
  have hl := congrArg List.length h
  simp only [List.length_replicate] at hl
  have hh := congrArg List.head? h
  simp only [List.replicate_succ, List.head?_cons, Option.some.injEq] at hh
  have hm := congrArg Char.toNat hh
  rw [ofNat_letter _ (Nat.mod_lt _ (by decide)), ofNat_letter _ (Nat.mod_lt _ (by decide))] at hm
  omega

example : sectionName 0 = "A".toList ∧ sectionName 25 = "Z".toList ∧ sectionName 26 = "AA".toList ∧ sectionName 53 = "BBB".toList := by decide

/-! ## All scores -/

theorem rbStep_ok (v : RBVars) (k : Nat) (hv : v.name = sectionName k) (m : RBMeasure) :
    ∃ ls v', rbStep v m = .ok (ls, v') ∧
      ((v'.name = sectionName k ∧ ∀ n, SecLabel.section n ∉ ls) ∨ (v'.name = sectionName (k + 1) ∧ ls = [.section (sectionName (k + 1))])) := by
  have hb : ∀ f s, ∃ ls v', (Except.ok (startBracket v m f s) : Except PyErr _) = .ok (ls, v') ∧
      ((v'.name = sectionName k ∧ ∀ n, SecLabel.section n ∉ ls) ∨ (v'.name = sectionName (k + 1) ∧ ls = [.section (sectionName (k + 1))])) := by
    intro f s
    exact ⟨_, _, rfl, Or.inl ⟨hv, by intro n; simp⟩⟩
  have hn : ∃ ls v', nextSection v = .ok (ls, v') ∧
      ((v'.name = sectionName k ∧ ∀ n, SecLabel.section n ∉ ls) ∨ (v'.name = sectionName (k + 1) ∧ ls = [.section (sectionName (k + 1))])) := by
    unfold nextSection
    rw [hv, increment_sectionName]
    exact ⟨_, _, rfl, Or.inr ⟨rfl, rfl⟩⟩
  unfold rbStep
  split
  · split
    · exact ⟨_, _, rfl, Or.inl ⟨hv, by intro n; simp⟩⟩
    · split
      · exact hb _ _
      · split
        · exact hb _ _
        · split <;> exact hb _ _
  · split
    · exact ⟨_, _, rfl, Or.inl ⟨hv, by intro n; simp⟩⟩
    · split
      · exact hb _ _
      · split
        · exact ⟨_, _, rfl, Or.inl ⟨hv, by intro n; simp⟩⟩
        · split
          · exact ⟨_, _, rfl, Or.inl ⟨hv, by intro n; simp⟩⟩
          · exact hn
  · split
    · exact hb _ _
    · split
      · exact hb _ _
      · split
        · exact hb _ _
        · split
          · exact hb _ _
          · exact hn

theorem sectionNames_cons (ls : List SecLabel) (rest : List (List SecLabel)) : sectionNames (ls :: rest) =
    ls.filterMap SecLabel.sectionOnly ++ sectionNames rest := by
  unfold sectionNames
  rw [List.flatten_cons, List.filterMap_append]

theorem rbLoop_ok (ms : List RBMeasure) : ∀ (v : RBVars) (k : Nat), v.name = sectionName k →
    ∃ ls, rbLoop v ms = .ok ls ∧ ls.length = ms.length ∧ ∃ n, sectionNames ls = (List.range' (k + 1) n).map sectionName := by
  induction ms with
  | nil => intro v k _; exact ⟨[], rfl, rfl, 0, rfl⟩
  | cons m ms ih =>
    intro v k hv
    obtain ⟨ls, v', h, hc⟩ := rbStep_ok v k hv m
    rw [rbLoop, h]
    dsimp only
    rcases hc with ⟨hv', hls⟩ | ⟨hv', hls⟩
    · obtain ⟨rest, hr, hlen, n, hn⟩ := ih v' k hv'
      refine ⟨ls :: rest, by rw [hr], by rw [List.length_cons, List.length_cons, hlen], n, ?_⟩
      rw [sectionNames_cons, hn]
      have : ls.filterMap SecLabel.sectionOnly = ([] : List Str) := by
        rw [List.filterMap_eq_nil_iff]
        intro x hx
        cases x with
        | «section» n => exact absurd hx (hls n)
        | ending _ _ => rfl
      rw [this]; rfl
    · obtain ⟨rest, hr, hlen, n, hn⟩ := ih v' (k + 1) hv'
      refine ⟨ls :: rest, by rw [hr], by rw [List.length_cons, List.length_cons, hlen], n + 1, ?_⟩
      rw [sectionNames_cons, hn, hls, List.range'_succ]
      rfl

theorem sectionName_range_nodup (a n : Nat) : ((List.range' a n).map sectionName).Nodup :=
  List.Nodup.map (fun _ _ h => sectionName_inj h) List.nodup_range'

/-- C39: for every sequence of measures, legal or not, the export of the repeat brackets succeeds, and no section name is used twice. -/
theorem sections_distinct (ms : List RBMeasure) : ∃ ls, exportSections ms = .ok ls ∧ ls.length = ms.length ∧ (sectionNames ls).Nodup ∧
    ∃ n, sectionNames ls = (List.range n).map sectionName := by
  unfold exportSections
  split
  · refine ⟨_, rfl, by simp, ?_⟩
    have : sectionNames (ms.map (fun _ => [])) = [] := by
      unfold sectionNames
      rw [List.filterMap_eq_nil_iff]
      intro x hx
      simp at hx
    rw [this]
    exact ⟨List.nodup_nil, 0, rfl⟩
  · obtain ⟨ls, h, hlen, n, hn⟩ := rbLoop_ok ms ⟨.noEndings, ['A'], 1⟩ 0 rfl
    rw [h]
    dsimp only
    cases ls with
    | nil =>
      refine ⟨[], rfl, hlen, List.nodup_nil, 0, rfl⟩
    | cons l rest =>
      have e : sectionNames (addFirst (.section ['A']) (l :: rest)) = (List.range (n + 1)).map sectionName := by
        show sectionNames ((SecLabel.section ['A'] :: l) :: rest) = _
        rw [sectionNames_cons, List.filterMap_cons_some (f := SecLabel.sectionOnly) (b := ['A']) rfl, List.cons_append, ← sectionNames_cons, hn,
          List.range_eq_range', List.range'_succ, List.map_cons]
        rfl
      refine ⟨_, rfl, hlen, ?_, n + 1, e⟩
      rw [e, List.range_eq_range']
      exact sectionName_range_nodup _ _

/-! ## C66 -/

theorem sectionName_letter (k : Nat) : ∀ c ∈ sectionName k, 65 ≤ c.toNat ∧ c.toNat ≤ 90 := by
  intro c hc
  rw [List.eq_of_mem_replicate hc, ofNat_letter _ (Nat.mod_lt _ (by decide))]
  have : k % 26 < 26 := Nat.mod_lt _ (by decide)
  omega

theorem letter_facts {c : Char} (h : 65 ≤ c.toNat ∧ c.toNat ≤ 90) : isDig c = false ∧ c ≠ '[' := by
  constructor
  · unfold isDig
    have : ¬ c.toNat ≤ 57 := by omega
    simp [this]
  · rintro rfl
    have : ('[' : Char).toNat = 91 := rfl
    omega

theorem section_text_facts (k : Nat) : ('*' :: '>' :: sectionName k).contains '[' = false ∧ endsInDigit ('*' :: '>' :: sectionName k) = false := by
  constructor
  · rw [not_contains]
    intro h
    rcases List.mem_cons.1 h with h | h
    · exact absurd h (by decide)
    rcases List.mem_cons.1 h with h | h
    · exact absurd h (by decide)
    · exact (letter_facts (sectionName_letter k _ h)).2 rfl
  · unfold endsInDigit
    have hl : ('*' :: '>' :: sectionName k).getLast? = some (Char.ofNat (65 + k % 26)) := by
      unfold sectionName
      rw [List.replicate_succ', show ('*' :: '>' :: (List.replicate (k / 26) (Char.ofNat (65 + k % 26)) ++ [Char.ofNat (65 + k % 26)])) =
        ('*' :: '>' :: List.replicate (k / 26) (Char.ofNat (65 + k % 26))) ++ [Char.ofNat (65 + k % 26)] from rfl, List.getLast?_append]
      rfl
    rw [hl]
    exact (letter_facts (sectionName_letter k _ (by unfold sectionName; rw [List.replicate_succ]; exact List.mem_cons_self))).1

theorem intStr_nat (n : Int) (h : 1 ≤ n) : intStr n = natStr n.toNat := by
  unfold intStr
  rw [if_neg (by omega)]
  congr 1
  omega

theorem endsInDigit_nat (s : Str) (n : Nat) : endsInDigit (s ++ natStr n) = true := by
  unfold endsInDigit
  rw [List.getLast?_append]
  cases h : (natStr n).getLast? with
  | none => exact absurd (List.getLast?_eq_none_iff.1 h) (natStr_ne_nil n)
  | some c => exact natStr_isDig n c (List.mem_of_getLast? h)

theorem trailing_nat (k n : Nat) : trailingDigits (sectionName k ++ natStr n) = natStr n := by
  unfold trailingDigits
  rw [List.reverse_append, List.takeWhile_append_of_pos (by intro c hc; exact natStr_isDig n c (List.mem_reverse.1 hc))]
  have : (sectionName k).reverse.takeWhile isDig = [] := by
    unfold sectionName
    rw [List.reverse_replicate, List.replicate_succ, List.takeWhile_cons_of_neg]
    rw [(letter_facts (sectionName_letter k _ (by unfold sectionName; rw [List.replicate_succ]; exact List.mem_cons_self))).1]
    simp
  rw [this, List.append_nil, List.reverse_reverse]

/-- The reader is at the start of a segment, outside of an ending or in the ending of number `n`. -/
structure SecCorr (k : Nat) (prev : Option Int) (id : Nat) (v : SecVars) : Prop where
  made : v.made = id
  plain : v.plain = '*' :: '>' :: sectionName k
  none : prev = none → v.label = '*' :: '>' :: sectionName k ∧ v.endNum = 0
  some : ∀ n, prev = some n → 1 ≤ n ∧ v.label = '*' :: '>' :: (sectionName k ++ natStr n.toNat) ∧ v.endNum = n.toNat ∧ ∃ i, v.cur = some (i, n.toNat)

theorem endingNumber_plain {k : Nat} {v : SecVars} (h : v.label = '*' :: '>' :: sectionName k) : endingNumber v = none := by
  unfold endingNumber
  rw [if_neg]
  rintro ⟨-, h2, -⟩
  rw [h] at h2
  have h3 := (section_text_facts k).2
  have e : endsInDigit ('*' :: '>' :: sectionName k) = endsInDigit (sectionName k) := by
    unfold endsInDigit
    rw [show '*' :: '>' :: sectionName k = ['*', '>'] ++ sectionName k from rfl, List.getLast?_append]
    unfold sectionName
    rw [List.replicate_succ']
    simp
  rw [e] at h3
  rw [show List.drop 2 ('*' :: '>' :: sectionName k) = sectionName k from rfl, h3] at h2
  exact absurd h2 (by simp)

theorem endingNumber_ending {k n : Nat} {v : SecVars} (h : v.label = '*' :: '>' :: (sectionName k ++ natStr n)) (hp : v.plain = '*' :: '>' :: sectionName k) :
    endingNumber v = some n := by
  unfold endingNumber
  rw [if_pos, h]
  · show some (parseNat (trailingDigits (sectionName k ++ natStr n))) = _
    rw [trailing_nat, parse_natStr]
  · rw [h, hp]
    refine ⟨by simp, endsInDigit_nat _ _, by simp, ?_⟩
    exact startsWith_self ('*' :: '>' :: sectionName k) (natStr n)

/-- The labels as texts. -/
def labelTexts (ls : List (List SecLabel)) : List (List Str) := ls.map (·.map SecLabel.text)

theorem plain_rest {k : Nat} (n : Nat) : ∀ (ev : RBVars) (iv : SecVars), ev.state = .noEndings → iv.label = '*' :: '>' :: sectionName k → iv.endNum = 0 →
    iv.cur = none → ∀ (ms : List RBMeasure) (ls : List (List SecLabel)) (bs : List (Option (Nat × Nat))),
    rbLoop ev ms = .ok ls → importSections iv (labelTexts ls) = .ok bs →
    rbLoop ev (List.replicate n ⟨false, false, false, []⟩ ++ ms) = .ok (List.replicate n [] ++ ls) ∧
      importSections iv (labelTexts (List.replicate n [] ++ ls)) = .ok (List.replicate n none ++ bs) := by
  intro ev iv hs hl he hc ms ls bs h1 h2
  induction n with
  | zero => exact ⟨h1, h2⟩
  | succ n ih =>
    constructor
    · rw [List.replicate_succ, List.cons_append, rbLoop]
      have : rbStep ev ⟨false, false, false, []⟩ = .ok ([], ev) := by unfold rbStep; rw [hs]; rfl
      rw [this]
      dsimp only
      rw [ih.1]
      rfl
    · rw [List.replicate_succ, List.cons_append]
      show importSections iv ([] :: labelTexts (List.replicate n [] ++ ls)) = _
      rw [importSections]
      have : measureStep iv = .ok (none, iv) := by
        unfold measureStep
        rw [endingNumber_plain hl]
        obtain ⟨a, b, c, d, e⟩ := iv
        simp only at he hc
        subst he; subst hc; rfl
      rw [List.foldl_nil, this]
      dsimp only
      rw [ih.2]
      rfl

theorem bracket_rest {k : Nat} (name : Str) (n : Nat) : ∀ (ev : RBVars) (iv : SecVars) (num i : Nat), ev.state = (if n = 0 then .finished else .inBracket) →
    iv.label = '*' :: '>' :: (sectionName k ++ natStr num) → iv.plain = '*' :: '>' :: sectionName k → iv.endNum = num →
    iv.cur = some (i, num) → ∀ (ms : List RBMeasure) (ls : List (List SecLabel)) (bs : List (Option (Nat × Nat))),
    rbLoop { ev with state := .finished } ms = .ok ls → importSections iv (labelTexts ls) = .ok bs →
    rbLoop ev (bracketRest name n ++ ms) = .ok (List.replicate n [] ++ ls) ∧
      importSections iv (labelTexts (List.replicate n [] ++ ls)) = .ok (List.replicate n (some (i, num)) ++ bs) := by
  induction n with
  | zero =>
    intro ev iv num i hs hl hp he hc ms ls bs h1 h2
    rw [if_pos rfl] at hs
    have : ({ ev with state := .finished } : RBVars) = ev := by obtain ⟨a, b, c⟩ := ev; simp only at hs; rw [hs]
    rw [this] at h1
    exact ⟨h1, h2⟩
  | succ n ih =>
    intro ev iv num i hs hl hp he hc ms ls bs h1 h2
    rw [if_neg (by omega)] at hs
    constructor
    · rw [bracketRest, List.cons_append, rbLoop]
      by_cases h0 : n = 0
      · have : rbStep ev ⟨true, false, decide (n = 0), name⟩ = .ok ([], { ev with state := .finished }) := by
          unfold rbStep; rw [hs]; simp [h0]
        rw [this]
        dsimp only
        rw [(ih { ev with state := .finished } iv num i (by rw [if_pos h0]) hl hp he hc ms ls bs h1 h2).1]
        rfl
      · have : rbStep ev ⟨true, false, decide (n = 0), name⟩ = .ok ([], ev) := by
          unfold rbStep; rw [hs]; simp [h0]
        rw [this]
        dsimp only
        rw [(ih ev iv num i (by rw [if_neg h0]; exact hs) hl hp he hc ms ls bs h1 h2).1]
        rfl
    · rw [List.replicate_succ, List.cons_append]
      show importSections iv ([] :: labelTexts (List.replicate n [] ++ ls)) = _
      rw [importSections]
      have : measureStep iv = .ok (some (i, num), iv) := by
        unfold measureStep
        rw [endingNumber_ending hl hp]
        dsimp only
        rw [if_neg (by simp [he]), hc]
      rw [List.foldl_nil, this]
      dsimp only
      have key := (ih { ev with state := (if n = 0 then .finished else .inBracket) } iv num i rfl hl hp he hc ms ls bs h1 h2).2
      rw [key]
      rfl

/-- The state of the writer between two segments. -/
structure WriterAt (k : Nat) (prev : Option Int) (v : RBVars) : Prop where
  name : v.name = sectionName k
  none : prev = none → v.state = .noEndings
  some : ∀ n, prev = some n → v.state = .finished ∧ v.fallback = n + 1

theorem segs_roundtrip (segs : List Seg) : ∀ (k : Nat) (prev : Option Int) (id : Nat) (ev : RBVars) (iv : SecVars), NumbersOk prev segs →
    WriterAt k prev ev → SecCorr k prev id iv →
    ∃ ls, rbLoop ev (segs.flatMap Seg.measures) = .ok ls ∧ importSections iv (labelTexts ls) = .ok (bracketsOf prev id segs) := by
  induction segs with
  | nil => intro k prev id ev iv _ _ _; exact ⟨[], rfl, rfl⟩
  | cons sg segs ih =>
    intro k prev id ev iv hok hw hc
    rw [List.flatMap_cons]
    cases sg with
    | plain n =>
      have hok' : NumbersOk none segs := by cases prev <;> exact hok
      show ∃ ls, rbLoop ev (List.replicate (n + 1) ⟨false, false, false, []⟩ ++ _) = _ ∧ _
      cases prev with
      | none =>
        obtain ⟨hl, he⟩ := hc.none rfl
        have hc' : SecCorr k none id { iv with endNum := 0, cur := none } :=
          ⟨hc.made, hc.plain, fun _ => ⟨hl, rfl⟩, fun n hn => absurd hn (by simp)⟩
        obtain ⟨ls, h1, h2⟩ := ih k none id ev { iv with endNum := 0, cur := none } hok' hw hc'
        obtain ⟨h3, h4⟩ := plain_rest (k := k) n ev { iv with endNum := 0, cur := none } (hw.none rfl) hl rfl rfl _ ls _ h1 h2
        have hstep : rbStep ev ⟨false, false, false, []⟩ = .ok ([], ev) := by unfold rbStep; rw [hw.none rfl]; rfl
        refine ⟨[] :: (List.replicate n [] ++ ls), ?_, ?_⟩
        · rw [List.replicate_succ, List.cons_append, rbLoop, hstep]
          dsimp only
          rw [h3]
        · show importSections iv ([] :: labelTexts (List.replicate n [] ++ ls)) = _
          rw [importSections]
          have : measureStep iv = .ok (none, { iv with endNum := 0, cur := none }) := by
            unfold measureStep; rw [endingNumber_plain hl]
          rw [List.foldl_nil, this]
          dsimp only
          rw [h4]
          rfl
      | some p =>
        obtain ⟨hs, hf⟩ := hw.some p rfl
        have hstep : rbStep ev ⟨false, false, false, []⟩ = .ok ([.section (sectionName (k + 1))], ⟨.noEndings, sectionName (k + 1), ev.fallback⟩) := by
          unfold rbStep; rw [hs]
          simp only [Bool.and_false, Bool.false_eq_true, if_false]
          unfold nextSection
          rw [hw.name, increment_sectionName]
        have hfold : ([SecLabel.section (sectionName (k + 1))].map SecLabel.text).foldl labelStep iv =
            { iv with label := '*' :: '>' :: sectionName (k + 1), plain := '*' :: '>' :: sectionName (k + 1) } := by
          show labelStep iv ('*' :: '>' :: sectionName (k + 1)) = _
          unfold labelStep
          rw [(section_text_facts (k + 1)).1, (section_text_facts (k + 1)).2]
          simp
        have hc' : SecCorr (k + 1) none id { iv with label := '*' :: '>' :: sectionName (k + 1), plain := '*' :: '>' :: sectionName (k + 1), endNum := 0, cur := none } :=
          ⟨hc.made, rfl, fun _ => ⟨rfl, rfl⟩, fun n hn => absurd hn (by simp)⟩
        obtain ⟨ls, h1, h2⟩ := ih (k + 1) none id ⟨.noEndings, sectionName (k + 1), ev.fallback⟩ _ hok' ⟨rfl, fun _ => rfl, fun n hn => absurd hn (by simp)⟩ hc'
        obtain ⟨h3, h4⟩ := plain_rest (k := k + 1) n ⟨.noEndings, sectionName (k + 1), ev.fallback⟩ _ rfl rfl rfl rfl _ ls _ h1 h2
        refine ⟨[.section (sectionName (k + 1))] :: (List.replicate n [] ++ ls), ?_, ?_⟩
        · rw [List.replicate_succ, List.cons_append, rbLoop, hstep]
          dsimp only
          rw [h3]
        · show importSections iv (([SecLabel.section (sectionName (k + 1))].map SecLabel.text) :: labelTexts (List.replicate n [] ++ ls)) = _
          rw [importSections, hfold]
          have : measureStep { iv with label := '*' :: '>' :: sectionName (k + 1), plain := '*' :: '>' :: sectionName (k + 1) } =
              .ok (none, { iv with label := '*' :: '>' :: sectionName (k + 1), plain := '*' :: '>' :: sectionName (k + 1), endNum := 0, cur := none }) := by
            unfold measureStep
            rw [endingNumber_plain (k := k + 1) rfl]
          rw [this]
          dsimp only
          rw [h4]
          rfl
    | bracket name n =>
      have hok' : 1 ≤ numberOf prev name ∧ prev ≠ some (numberOf prev name) ∧ NumbersOk (some (numberOf prev name)) segs := by cases prev <;> exact hok
      obtain ⟨hnum, hne, hrest⟩ := hok'
      generalize hN : numberOf prev name = N at *
      have hstep : rbStep ev ⟨true, true, decide (n = 0), name⟩ =
          .ok ([.ending (sectionName k) N], ⟨if n = 0 then .finished else .inBracket, sectionName k, N + 1⟩) := by
        unfold rbStep
        cases prev with
        | none =>
          have hb : bracketNumber name 1 = N := hN
          rw [hw.none rfl]
          by_cases h0 : n = 0
          · simp [h0, startBracket, hb, hw.name]
          · simp [h0, startBracket, hb, hw.name]
        | some p =>
          obtain ⟨hs, hf⟩ := hw.some p rfl
          have hb : bracketNumber name ev.fallback = N := by rw [hf]; exact hN
          rw [hs]
          by_cases h0 : n = 0
          · simp [h0, startBracket, hb, hw.name]
          · simp [h0, startBracket, hb, hw.name]
      have htext : (SecLabel.ending (sectionName k) N).text = '*' :: '>' :: (sectionName k ++ natStr N.toNat) := by
        unfold SecLabel.text; dsimp only; rw [intStr_nat N hnum]
      have hfold : ([SecLabel.ending (sectionName k) N].map SecLabel.text).foldl labelStep iv =
          { iv with label := '*' :: '>' :: (sectionName k ++ natStr N.toNat) } := by
        show labelStep iv (SecLabel.ending (sectionName k) N).text = _
        rw [htext]
        unfold labelStep
        have hb : ('*' :: '>' :: (sectionName k ++ natStr N.toNat)).contains '[' = false := by
          rw [not_contains]
          intro h
          rcases List.mem_cons.1 h with h | h
          · exact absurd h (by decide)
          rcases List.mem_cons.1 h with h | h
          · exact absurd h (by decide)
          rcases List.mem_append.1 h with h | h
          · exact (letter_facts (sectionName_letter k _ h)).2 rfl
          · exact absurd (natStr_isDig _ _ h) (by decide)
        have he : endsInDigit ('*' :: '>' :: (sectionName k ++ natStr N.toNat)) = true := endsInDigit_nat ('*' :: '>' :: sectionName k) N.toNat
        rw [hb, he]
        simp
      have hmeas : measureStep { iv with label := '*' :: '>' :: (sectionName k ++ natStr N.toNat) } =
          .ok (some (id, N.toNat), ⟨'*' :: '>' :: (sectionName k ++ natStr N.toNat), '*' :: '>' :: sectionName k, N.toNat, some (id, N.toNat), id + 1⟩) := by
        unfold measureStep
        rw [endingNumber_ending (k := k) (n := N.toNat) (v := { iv with label := '*' :: '>' :: (sectionName k ++ natStr N.toNat) }) rfl hc.plain]
        dsimp only
        rw [if_pos, hc.made, hc.plain]
        cases prev with
        | none => rw [(hc.none rfl).2]; omega
        | some p =>
          obtain ⟨hp1, -, hp2, -⟩ := hc.some p rfl
          rw [hp2]
          intro h
          apply hne
          congr 1
          omega
      have hc' : SecCorr k (some N) (id + 1) ⟨'*' :: '>' :: (sectionName k ++ natStr N.toNat), '*' :: '>' :: sectionName k, N.toNat, some (id, N.toNat), id + 1⟩ :=
        ⟨rfl, rfl, fun h => absurd h (by simp), fun m hm => by cases hm; exact ⟨hnum, rfl, rfl, id, rfl⟩⟩
      obtain ⟨ls, h1, h2⟩ := ih k (some N) (id + 1) ⟨.finished, sectionName k, N + 1⟩ _ hrest ⟨rfl, fun h => absurd h (by simp), fun m hm => by cases hm; exact ⟨rfl, rfl⟩⟩ hc'
      obtain ⟨h3, h4⟩ := bracket_rest (k := k) name n ⟨if n = 0 then .finished else .inBracket, sectionName k, N + 1⟩ _ N.toNat id rfl rfl rfl rfl rfl _ ls _ h1 h2
      refine ⟨[.ending (sectionName k) N] :: (List.replicate n [] ++ ls), ?_, ?_⟩
      · show rbLoop ev (⟨true, true, decide (n = 0), name⟩ :: (bracketRest name n ++ _)) = _
        rw [rbLoop, hstep]
        dsimp only
        rw [h3]
      · show importSections iv (([SecLabel.ending (sectionName k) N].map SecLabel.text) :: labelTexts (List.replicate n [] ++ ls)) = _
        rw [importSections, hfold, hmeas]
        dsimp only
        rw [h4]
        have : bracketsOf prev id (.bracket name n :: segs) = List.replicate (n + 1) (some (id, N.toNat)) ++ bracketsOf (some N) (id + 1) segs := by
          rw [← hN]; cases prev <;> rfl
        rw [this]
        rfl

theorem import_unlabelled (n : Nat) : ∀ v : SecVars, v.label = [] → importSections v (List.replicate n []) = .ok (List.replicate n none) := by
  induction n with
  | zero => intro v _; rfl
  | succ n ih =>
    intro v hv
    rw [List.replicate_succ, importSections, List.foldl_nil]
    have : measureStep v = .ok (none, { v with endNum := 0, cur := none }) := by
      unfold measureStep endingNumber
      rw [if_neg (fun h => h.1 hv)]
    rw [this]
    dsimp only
    rw [ih]
    · rfl
    · exact hv

theorem brackets_none (segs : List Seg) : ∀ (prev : Option Int) (id : Nat), (segs.flatMap Seg.measures).any (·.inB) = false →
    bracketsOf prev id segs = List.replicate (segs.flatMap Seg.measures).length none := by
  induction segs with
  | nil => intro prev id _; rfl
  | cons sg segs ih =>
    intro prev id h
    rw [List.flatMap_cons] at h ⊢
    rw [List.any_append, Bool.or_eq_false_iff] at h
    cases sg with
    | plain n =>
      have : bracketsOf prev id (.plain n :: segs) = List.replicate (n + 1) none ++ bracketsOf none id segs := by cases prev <;> rfl
      rw [this, ih none id h.2, List.length_append, List.replicate_append_replicate]
      simp [Seg.measures]
    | bracket name n => exact absurd h.1 (by simp [Seg.measures])

/-- C66: repeat brackets survive export and import: whatever the sequence of measures without bracket and of brackets (of any length, with any names, as
long as the numbers are from 1 and neighbouring brackets have different numbers), reading the section names written puts each measure into the bracket it
was in, and each bracket has its number. -/
theorem endings_roundtrip_partial (segs : List Seg) (h : NumbersOk none segs) :
    ∃ ls, exportSections (segs.flatMap Seg.measures) = .ok ls ∧ importSections {} (labelTexts ls) = .ok (bracketsOf none 0 segs) := by
  unfold exportSections
  by_cases hany : (segs.flatMap Seg.measures).any (·.inB) = true
  · rw [hany]
    simp only [Bool.not_true, Bool.false_eq_true, if_false]
    obtain ⟨ls, h1, h2⟩ := segs_roundtrip segs 0 none 0 ⟨.noEndings, ['A'], 1⟩ (labelStep {} ['*', '>', 'A']) h
      ⟨rfl, fun _ => rfl, fun n hn => absurd hn (by simp)⟩ ⟨rfl, rfl, fun _ => ⟨rfl, rfl⟩, fun n hn => absurd hn (by simp)⟩
    rw [h1]
    refine ⟨_, rfl, ?_⟩
    cases ls with
    | nil =>
      exact h2
    | cons l rest => exact h2
  · have hf : (segs.flatMap Seg.measures).any (·.inB) = false := by simpa using hany
    rw [hf]
    refine ⟨_, rfl, ?_⟩
    have : labelTexts ((segs.flatMap Seg.measures).map (fun _ => [])) = List.replicate (segs.flatMap Seg.measures).length [] := by
      unfold labelTexts
      rw [List.map_map]
      exact List.map_const' ..
    rw [this, import_unlabelled _ _ rfl, brackets_none segs none 0 hf]

example : NumbersOk none [.plain 3, .bracket "1".toList 1, .bracket "2".toList 0, .plain 7, .bracket "prima".toList 0, .bracket "".toList 2] ∧
    exportSections ([Seg.plain 0, .bracket "1".toList 1, .bracket "2".toList 0, .plain 0].flatMap Seg.measures) =
      .ok [[.section "A".toList], [.ending "A".toList 1], [], [.ending "A".toList 2], [.section "B".toList]] := by
  constructor
  · unfold NumbersOk NumbersOk NumbersOk NumbersOk NumbersOk NumbersOk NumbersOk
    decide
  · decide +kernel

/-- Neighbouring brackets with the same number become one: the full statement of C66 is false. -/
theorem endings_same_number_merge : ∃ ls, exportSections ([Seg.bracket "1".toList 0, .bracket "1".toList 0].flatMap Seg.measures) = .ok ls ∧
    importSections {} (labelTexts ls) = .ok [some (0, 1), some (0, 1)] := ⟨_, rfl, by decide +kernel⟩

/-- A bracket named 0 is written, but the file cannot be read. -/
theorem ending_zero_crashes : ∃ ls, exportSections ([Seg.bracket "0".toList 0].flatMap Seg.measures) = .ok ls ∧
    importSections {} (labelTexts ls) = .error .indexError := ⟨_, rfl, by decide +kernel⟩

end C21
