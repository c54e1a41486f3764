import Verif.Props.Slur
/-
C26: what the analysis records on the tokens.
-/
namespace C21

/-- The part of a key before its number. -/
def keyStem (key : Str) : Str := key.takeWhile (fun c => !isDig c)

theorem keyStem_numberTag (tag : Str) (h : ∀ c ∈ tag, isDig c = false) (n : Int) : keyStem (numberTag tag n) = tag := by
  have base : ∀ l : Str, (∀ c ∈ l.head?, isDig c = true) → keyStem (tag ++ l) = tag := by
    intro l hl
    unfold keyStem
    rw [List.takeWhile_append_of_pos (by intro c hc; simp [h c hc])]
    cases l with
    | nil => simp
    | cons c l => simp [hl c (by simp)]
  unfold numberTag
  split
  · rename_i hn
    obtain ⟨m, rfl⟩ := Int.eq_ofNat_of_zero_le (by omega : 0 ≤ n)
    apply base
    intro c hc
    have : intStr (Int.ofNat m) = natStr m := rfl
    rw [show ((m : Int)) = Int.ofNat m from rfl, this] at hc
    exact natStr_isDig m c (List.mem_of_mem_head? hc)
  · have := base [] (by simp)
    simpa using this

theorem numberTag_inj (tag : Str) (n m : Int) (hn : 1 ≤ n) (hm : 1 ≤ m) (h : numberTag tag n = numberTag tag m) : n = m := by
  obtain ⟨a, rfl⟩ := Int.eq_ofNat_of_zero_le (by omega : 0 ≤ n)
  obtain ⟨b, rfl⟩ := Int.eq_ofNat_of_zero_le (by omega : 0 ≤ m)
  unfold numberTag at h
  have i1 : ∀ m : Nat, intStr (m : Int) = natStr m := fun m => rfl
  split at h <;> split at h
  · rw [i1, i1] at h
    have := List.append_cancel_left h
    have := congrArg parseNat this
    rw [parse_natStr, parse_natStr] at this
    omega
  · rw [i1] at h
    have := List.append_cancel_left (h.trans (List.append_nil tag).symm)
    exact absurd this (natStr_ne_nil a)
  · rw [i1] at h
    have := List.append_cancel_left ((List.append_nil tag).trans h)
    exact absurd this.symm (natStr_ne_nil b)
  · omega

theorem numberTag_ne (a b : Str) (ha : ∀ c ∈ a, isDig c = false) (hb : ∀ c ∈ b, isDig c = false) (hab : a ≠ b) (n m : Int) :
    numberTag a n ≠ numberTag b m := by
  intro h
  have := congrArg keyStem h
  rw [keyStem_numberTag a ha, keyStem_numberTag b hb] at this
  exact hab this

/-- A plain key is the tag numbered 1. -/
theorem numberTag_one (a : Str) : numberTag a 1 = a := rfl

/-- Tags used in the code. -/
def plain (k : SlurKind) (s : String) : Str := k.prefix ++ s.toList

theorem setAuto_get (P : AutoParams) (t t' : TokId) (key key' : Str) (v : SlurVal) :
    setAuto P t key v t' key' = if t' = t ∧ key' = key then some v else P t' key' := rfl

section
variable (k : SlurKind) (op : TokId → Nat) (time : TokId → Rat) (P : AutoParams) (s e t : TokId)

/-- What one link writes, for a key with the given stem and number. -/
theorem linkEndpoints_get (a : Str) (ha : ∀ c ∈ a, isDig c = false) (n : Int) :
    linkEndpoints k op time P s e t (numberTag a n) =
      if t = e ∧ numberTag a n = k.prefix ++ "EndCount".toList then some (.int (getAutoInt P e (k.prefix ++ "EndCount".toList) + 1))
      else if t = e ∧ numberTag a n = numberTag (k.prefix ++ "StartNumber".toList) (getAutoInt P e (k.prefix ++ "EndCount".toList) + 1) then
        some (.int ((op s : Int) - (getAutoInt P s (k.prefix ++ "StartCount".toList) + 1) + 1))
      else if t = e ∧ numberTag a n = "id".toList then some (.tok e)
      else if t = e ∧ numberTag a n = numberTag (k.prefix ++ "StartId".toList) (getAutoInt P e (k.prefix ++ "EndCount".toList) + 1) then some (.tok s)
      else if t = s ∧ numberTag a n = k.prefix ++ "StartCount".toList then some (.int (getAutoInt P s (k.prefix ++ "StartCount".toList) + 1))
      else if t = s ∧ numberTag a n = numberTag (k.prefix ++ "Duration".toList) ((op s : Int) - (getAutoInt P s (k.prefix ++ "StartCount".toList) + 1) + 1) then
        some (.rat (time e - time s))
      else if t = s ∧ numberTag a n = k.prefix ++ "EndNumber".toList then some (.int (getAutoInt P e (k.prefix ++ "EndCount".toList) + 1))
      else if t = s ∧ numberTag a n = "id".toList then some (.tok s)
      else if t = s ∧ numberTag a n = numberTag (k.prefix ++ "EndId".toList) ((op s : Int) - (getAutoInt P s (k.prefix ++ "StartCount".toList) + 1) + 1) then
        some (.tok e)
      else P t (numberTag a n) := by
  unfold linkEndpoints
  simp only [setAuto_get]

theorem noDig (k : SlurKind) (x : String) (hx : ∀ c ∈ x.toList, isDig c = false) : ∀ c ∈ k.prefix ++ x.toList, isDig c = false := by
  intro c hc
  rw [List.mem_append] at hc
  rcases hc with hc | hc
  · revert hc; revert c; cases k <;> decide
  · exact hx c hc

/-- Keys with different stems are different. -/
theorem stem_ne (x y : String) (hx : ∀ c ∈ x.toList, isDig c = false) (hy : ∀ c ∈ y.toList, isDig c = false) (h : x.toList ≠ y.toList) (n m : Int) :
    numberTag (k.prefix ++ x.toList) n ≠ numberTag (k.prefix ++ y.toList) m :=
  numberTag_ne _ _ (noDig k x hx) (noDig k y hy) (fun e => h (List.append_cancel_left e)) n m

theorem id_ne (x : String) (hx : ∀ c ∈ x.toList, isDig c = false) (n : Int) : numberTag (k.prefix ++ x.toList) n ≠ "id".toList := by
  have := numberTag_ne (k.prefix ++ x.toList) "id".toList (noDig k x hx) (by decide) (by cases k <;> simp [SlurKind.prefix]) n 1
  rwa [numberTag_one] at this

theorem get_endCount : getAutoInt (linkEndpoints k op time P s e) t (k.prefix ++ "EndCount".toList) =
    if t = e then getAutoInt P t (k.prefix ++ "EndCount".toList) + 1 else getAutoInt P t (k.prefix ++ "EndCount".toList) := by
  have h := linkEndpoints_get k op time P s e t (k.prefix ++ "EndCount".toList) (noDig k _ (by decide)) 1
  have n := stem_ne k "EndCount"
  have n1 := n "StartNumber" (by decide) (by decide) (by decide) 1
  have n2 := n "StartId" (by decide) (by decide) (by decide) 1
  have n3 := n "StartCount" (by decide) (by decide) (by decide) 1 1
  have n4 := n "Duration" (by decide) (by decide) (by decide) 1
  have n5 := n "EndNumber" (by decide) (by decide) (by decide) 1 1
  have n6 := n "EndId" (by decide) (by decide) (by decide) 1
  have n7 := id_ne k "EndCount" (by decide) 1
  simp only [numberTag_one] at h n1 n2 n3 n4 n5 n6 n7
  simp only [n1, n2, n3, n4, n5, n6, n7, and_false, if_false, and_true] at h
  unfold getAutoInt at h ⊢
  rw [h]
  by_cases ht : t = e
  · subst ht; simp
  · simp [ht]

theorem get_startCount : getAutoInt (linkEndpoints k op time P s e) t (k.prefix ++ "StartCount".toList) =
    if t = s then getAutoInt P t (k.prefix ++ "StartCount".toList) + 1 else getAutoInt P t (k.prefix ++ "StartCount".toList) := by
  have h := linkEndpoints_get k op time P s e t (k.prefix ++ "StartCount".toList) (noDig k _ (by decide)) 1
  have n := stem_ne k "StartCount"
  have n1 := n "StartNumber" (by decide) (by decide) (by decide) 1
  have n2 := n "StartId" (by decide) (by decide) (by decide) 1
  have n3 := n "EndCount" (by decide) (by decide) (by decide) 1 1
  have n4 := n "Duration" (by decide) (by decide) (by decide) 1
  have n5 := n "EndNumber" (by decide) (by decide) (by decide) 1 1
  have n6 := n "EndId" (by decide) (by decide) (by decide) 1
  have n7 := id_ne k "StartCount" (by decide) 1
  simp only [numberTag_one] at h n1 n2 n3 n4 n5 n6 n7
  simp only [n1, n2, n3, n4, n5, n6, n7, and_false, if_false, and_true] at h
  unfold getAutoInt at h ⊢
  rw [h]
  by_cases ht : t = s
  · subst ht; simp
  · simp [ht]

theorem get_startId (n : Int) (hn : 1 ≤ n) (hc : 0 ≤ getAutoInt P e (k.prefix ++ "EndCount".toList)) :
    linkEndpoints k op time P s e t (numberTag (k.prefix ++ "StartId".toList) n) =
    if t = e ∧ n = getAutoInt P e (k.prefix ++ "EndCount".toList) + 1 then some (.tok s)
    else P t (numberTag (k.prefix ++ "StartId".toList) n) := by
  have h := linkEndpoints_get k op time P s e t (k.prefix ++ "StartId".toList) (noDig k _ (by decide)) n
  have m := stem_ne k "StartId"
  have n1 := m "StartNumber" (by decide) (by decide) (by decide) n
  have n2 := m "StartCount" (by decide) (by decide) (by decide) n 1
  have n3 := m "EndCount" (by decide) (by decide) (by decide) n 1
  have n4 := m "Duration" (by decide) (by decide) (by decide) n
  have n5 := m "EndNumber" (by decide) (by decide) (by decide) n 1
  have n6 := m "EndId" (by decide) (by decide) (by decide) n
  have n7 := id_ne k "StartId" (by decide) n
  simp only [numberTag_one] at n2 n3 n5 n7
  simp only [n1, n2, n3, n4, n5, n6, n7, and_false, if_false] at h
  rw [h]
  have : numberTag (k.prefix ++ "StartId".toList) n = numberTag (k.prefix ++ "StartId".toList) (getAutoInt P e (k.prefix ++ "EndCount".toList) + 1) ↔
      n = getAutoInt P e (k.prefix ++ "EndCount".toList) + 1 :=
    ⟨fun h => numberTag_inj _ _ _ hn (by omega) h, fun h => by rw [← h]⟩
  simp only [this]

theorem get_startNumber (n : Int) (hn : 1 ≤ n) (hc : 0 ≤ getAutoInt P e (k.prefix ++ "EndCount".toList)) :
    linkEndpoints k op time P s e t (numberTag (k.prefix ++ "StartNumber".toList) n) =
    if t = e ∧ n = getAutoInt P e (k.prefix ++ "EndCount".toList) + 1 then
      some (.int ((op s : Int) - getAutoInt P s (k.prefix ++ "StartCount".toList)))
    else P t (numberTag (k.prefix ++ "StartNumber".toList) n) := by
  have h := linkEndpoints_get k op time P s e t (k.prefix ++ "StartNumber".toList) (noDig k _ (by decide)) n
  have m := stem_ne k "StartNumber"
  have n1 := m "StartId" (by decide) (by decide) (by decide) n
  have n2 := m "StartCount" (by decide) (by decide) (by decide) n 1
  have n3 := m "EndCount" (by decide) (by decide) (by decide) n 1
  have n4 := m "Duration" (by decide) (by decide) (by decide) n
  have n5 := m "EndNumber" (by decide) (by decide) (by decide) n 1
  have n6 := m "EndId" (by decide) (by decide) (by decide) n
  have n7 := id_ne k "StartNumber" (by decide) n
  simp only [numberTag_one] at n2 n3 n5 n7
  simp only [n1, n2, n3, n4, n5, n6, n7, and_false, if_false] at h
  rw [h]
  have : numberTag (k.prefix ++ "StartNumber".toList) n = numberTag (k.prefix ++ "StartNumber".toList) (getAutoInt P e (k.prefix ++ "EndCount".toList) + 1) ↔
      n = getAutoInt P e (k.prefix ++ "EndCount".toList) + 1 :=
    ⟨fun h => numberTag_inj _ _ _ hn (by omega) h, fun h => by rw [← h]⟩
  simp only [this]
  have : (op s : Int) - (getAutoInt P s (k.prefix ++ "StartCount".toList) + 1) + 1 = (op s : Int) - getAutoInt P s (k.prefix ++ "StartCount".toList) := by ring
  rw [this]

/-- A key whose stem is none of those written is left alone. -/
theorem get_other (a : Str) (ha : ∀ c ∈ a, isDig c = false) (n : Int) (h0 : a ≠ "id".toList)
    (h : ∀ x ∈ ["EndCount".toList, "StartNumber".toList, "StartId".toList, "StartCount".toList, "Duration".toList, "EndNumber".toList, "EndId".toList], a ≠ k.prefix ++ x) :
    linkEndpoints k op time P s e t (numberTag a n) = P t (numberTag a n) := by
  rw [linkEndpoints_get k op time P s e t a ha n]
  have nn : ∀ x ∈ ["EndCount".toList, "StartNumber".toList, "StartId".toList, "StartCount".toList, "Duration".toList, "EndNumber".toList, "EndId".toList],
      ∀ m, numberTag a n ≠ numberTag (k.prefix ++ x) m := by
    intro x hx m
    refine numberTag_ne a _ ha ?_ (h x hx) n m
    have : ∀ c ∈ x, isDig c = false := by
      revert x; decide
    intro c hc
    rw [List.mem_append] at hc
    rcases hc with hc | hc
    · revert hc; revert c; cases k <;> decide
    · exact this c hc
  have n0 : numberTag a n ≠ "id".toList := by
    have := numberTag_ne a "id".toList ha (by decide) h0 n 1
    rwa [numberTag_one] at this
  have n1 := nn "EndCount".toList (by decide) 1
  have n2 := nn "StartNumber".toList (by decide)
  have n3 := nn "StartId".toList (by decide)
  have n4 := nn "StartCount".toList (by decide) 1
  have n5 := nn "Duration".toList (by decide)
  have n6 := nn "EndNumber".toList (by decide) 1
  have n7 := nn "EndId".toList (by decide)
  simp only [numberTag_one] at n1 n4 n6
  simp only [n0, n1, n2, n3, n4, n5, n6, n7, and_false, if_false]

end

/-- Nothing recorded yet. -/
def noParams : AutoParams := fun _ _ => none

theorem record_counts (k : SlurKind) (op : TokId → Nat) (time : TokId → Rat) (links : List (TokId × TokId)) (t : TokId) :
    getAutoInt (recordLinks k op time links noParams) t (k.prefix ++ "EndCount".toList) = ((links.map (·.2)).count t : Int) ∧
    getAutoInt (recordLinks k op time links noParams) t (k.prefix ++ "StartCount".toList) = ((links.map (·.1)).count t : Int) := by
  induction links using List.reverseRecOn with
  | nil => exact ⟨rfl, rfl⟩
  | append_singleton links l ih =>
    have e : recordLinks k op time (links ++ [l]) noParams = linkEndpoints k op time (recordLinks k op time links noParams) l.1 l.2 := by
      unfold recordLinks; rw [List.foldl_append]; rfl
    rw [e, get_endCount, get_startCount, ih.1, ih.2]
    simp only [List.map_append, List.count_append, List.map_cons, List.map_nil, List.count_cons, List.count_nil]
    constructor
    · by_cases h : t = l.2
      · subst h; simp
      · have : l.2 ≠ t := fun e => h e.symm
        simp [h, this]
    · by_cases h : t = l.1
      · subst h; simp
      · have : l.1 ≠ t := fun e => h e.symm
        simp [h, this]

/-- C26. Every link can be read back from its end: the `n`-th link (n = 1, 2, …) that ends on a token is found under number
`n` on that token, with the token it starts on, and the number of links ending on a token is recorded there. The start
number is the number of opening marks of the start token less the links already made from it. -/
theorem slur_recorded (op : TokId → Nat) (time : TokId → Rat) (pre post : List (TokId × TokId)) (s e : TokId) :
    getSlurStartToken (recordLinks .slur op time (pre ++ (s, e) :: post) noParams) e ((pre.map (·.2)).count e + 1 : Nat) = some s ∧
    getSlurStartNumber (recordLinks .slur op time (pre ++ (s, e) :: post) noParams) e ((pre.map (·.2)).count e + 1 : Nat) =
      (op s : Int) - (pre.map (·.1)).count s ∧
    getAutoInt (recordLinks .slur op time (pre ++ (s, e) :: post) noParams) e "slurEndCount".toList =
      (((pre ++ (s, e) :: post).map (·.2)).count e : Nat) := by
  refine ⟨?_, ?_, (record_counts .slur op time _ e).1⟩
  all_goals
    induction post using List.reverseRecOn with
    | nil =>
      have eq : recordLinks .slur op time (pre ++ [(s, e)]) noParams = linkEndpoints .slur op time (recordLinks .slur op time pre noParams) s e := by
        unfold recordLinks; rw [List.foldl_append]; rfl
      have c1 := (record_counts .slur op time pre e).1
      have c2 := (record_counts .slur op time pre s).2
      rw [eq]
      first
      | (unfold getSlurStartToken
         have := get_startId .slur op time (recordLinks .slur op time pre noParams) s e e ((pre.map (·.2)).count e + 1 : Nat) (by omega) (by omega)
         rw [c1, if_pos ⟨rfl, by simp⟩] at this
         rw [show "slurStartId".toList = SlurKind.slur.prefix ++ "StartId".toList from rfl, this])
      | (unfold getSlurStartNumber getAutoInt
         have := get_startNumber .slur op time (recordLinks .slur op time pre noParams) s e e ((pre.map (·.2)).count e + 1 : Nat) (by omega) (by omega)
         rw [c1, if_pos ⟨rfl, by simp⟩, c2] at this
         rw [show "slurStartNumber".toList = SlurKind.slur.prefix ++ "StartNumber".toList from rfl, this])
    | append_singleton post l ih =>
      have eq : recordLinks .slur op time (pre ++ (s, e) :: (post ++ [l])) noParams =
          linkEndpoints .slur op time (recordLinks .slur op time (pre ++ (s, e) :: post) noParams) l.1 l.2 := by
        rw [show pre ++ (s, e) :: (post ++ [l]) = (pre ++ (s, e) :: post) ++ [l] by simp]
        unfold recordLinks; rw [List.foldl_append]; rfl
      have c1 := (record_counts .slur op time (pre ++ (s, e) :: post) l.2).1
      have hne : ¬ (e = l.2 ∧ (((pre.map (·.2)).count e + 1 : Nat) : Int) = ((pre ++ (s, e) :: post).map (·.2)).count l.2 + 1) := by
        rintro ⟨h1, h2⟩
        rw [← h1] at h2
        simp only [List.map_append, List.map_cons, List.count_append, List.count_cons_self] at h2
        omega
      rw [eq]
      first
      | (unfold getSlurStartToken at ih ⊢
         have := get_startId .slur op time (recordLinks .slur op time (pre ++ (s, e) :: post) noParams) l.1 l.2 e ((pre.map (·.2)).count e + 1 : Nat) (by omega) (by omega)
         rw [c1, if_neg hne] at this
         rw [show "slurStartId".toList = SlurKind.slur.prefix ++ "StartId".toList from rfl] at ih ⊢
         rw [this]; exact ih)
      | (unfold getSlurStartNumber getAutoInt at ih ⊢
         have := get_startNumber .slur op time (recordLinks .slur op time (pre ++ (s, e) :: post) noParams) l.1 l.2 e ((pre.map (·.2)).count e + 1 : Nat) (by omega) (by omega)
         rw [c1, if_neg hne] at this
         rw [show "slurStartNumber".toList = SlurKind.slur.prefix ++ "StartNumber".toList from rfl] at ih ⊢
         rw [this]; exact ih)

theorem record_other (k : SlurKind) (op : TokId → Nat) (time : TokId → Rat) (links : List (TokId × TokId)) (t : TokId) (a : Str)
    (ha : ∀ c ∈ a, isDig c = false) (n : Int) (h0 : a ≠ "id".toList)
    (h : ∀ x ∈ ["EndCount".toList, "StartNumber".toList, "StartId".toList, "StartCount".toList, "Duration".toList, "EndNumber".toList, "EndId".toList], a ≠ k.prefix ++ x) :
    recordLinks k op time links noParams t (numberTag a n) = none := by
  induction links using List.reverseRecOn with
  | nil => rfl
  | append_singleton links l ih =>
    have e : recordLinks k op time (links ++ [l]) noParams = linkEndpoints k op time (recordLinks k op time links noParams) l.1 l.2 := by
      unfold recordLinks; rw [List.foldl_append]; rfl
    rw [e, get_other k op time _ l.1 l.2 t a ha n h0 h, ih]

/-- C26 is false in the other direction: the end of a slur can never be read from its start, whatever was linked, nor
either end of a phrase: the readers use other keys than the analysis. -/
theorem slur_end_never_found (op : TokId → Nat) (time : TokId → Rat) (links : List (TokId × TokId)) (t : TokId) (n : Int) :
    getSlurEndToken (recordLinks .slur op time links noParams) t n = none ∧
    getPhraseStartToken (recordLinks .phrase op time links noParams) t n = none ∧
    getPhraseEndToken (recordLinks .phrase op time links noParams) t n = none := by
  refine ⟨?_, ?_, ?_⟩
  · unfold getSlurEndToken
    rw [record_other .slur op time links t "slurEnd".toList (by decide) n (by decide) (by decide)]
  · unfold getPhraseStartToken
    rw [record_other .phrase op time links t "phraseStart".toList (by decide) n (by decide) (by decide)]
  · unfold getPhraseEndToken
    rw [record_other .phrase op time links t "phraseEnd".toList (by decide) n (by decide) (by decide)]

/-- Two slurs from one note, one into it. -/
example : let P := recordLinks .slur (fun _ => 2) (fun t => t.1) [((0, 0), (1, 0)), ((0, 0), (2, 0)), ((1, 0), (2, 0))] noParams
    getSlurStartToken P (2, 0) 1 = some (0, 0) ∧ getSlurStartToken P (2, 0) 2 = some (1, 0) ∧ getSlurStartNumber P (1, 0) 1 = 2 := by
  decide +kernel

/-- The start number is wrong when the slurs of a note have different elision levels: here the first mark `(` is linked first, and
recorded as mark number 2. -/
theorem slur_number_wrong :
    ∃ S, spineSlurs .slur [] (slurRows [["(&(4c"], ["4d)"], ["4e&)"]]) [] [] = .ok S ∧
      S.links.head? = some (((0, 0), 0), ((1, 0), 0)) ∧
      getSlurStartNumber (recordLinks .slur (fun _ => 2) (fun t => t.1) (S.links.map (fun l => (l.1.1, l.2.1))) noParams) (1, 0) 1 = 2 := by
  refine ⟨_, rfl, rfl, ?_⟩
  decide +kernel

/-- An unmatched slur end in a second ending should be recognised as coming from before the first one: the label before it starts
ending 2, and the line before that label is in ending 1. It is not, because the label looked up is the last of the file. -/
theorem second_ending_missed :
    endingNumbers 0 [none, some "*>A".toList, none, some "*>A1".toList, none, some "*>A2".toList, none, some "*>B".toList, none] =
      [0, 0, 0, 1, 1, 2, 2, 0, 0] ∧
    endsEndingBack [none, some "*>A".toList, none, some "*>A1".toList, none, some "*>A2".toList, none, some "*>B".toList, none] 6 = false ∧
    endsEndingBack [none, some "*>A".toList, none, some "*>A1".toList, none, some "*>A2".toList, none] 6 = true := by
  decide +kernel

end C21
