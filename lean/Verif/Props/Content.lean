import Verif.Model.Content
import Verif.Spec.Content
import Verif.Props.Pitch
import Verif.Props.Recip
import Verif.Lemmas.Tac
import Mathlib.Data.List.Induction
import Mathlib.Data.Finset.Card
import Mathlib.Data.Finset.Range
namespace C21

/-! ## C30: rests -/

theorem takeWhile_run (p : Char → Bool) (pre w suf : Str) (hpre : ∀ c ∈ pre, p c = false) (hw : ∀ c ∈ w, p c = true)
    (hsuf : ∀ c, suf.head? = some c → p c = false) :
    ((pre ++ w ++ suf).dropWhile (fun c => !p c)).takeWhile p = if w = [] then ((suf.dropWhile (fun c => !p c)).takeWhile p) else w := by
  have h1 : (pre ++ w ++ suf).dropWhile (fun c => !p c) = (w ++ suf).dropWhile (fun c => !p c) := by
    rw [List.append_assoc]
    induction pre with
    | nil => rfl
    | cons c cs ih =>
      rw [List.cons_append, List.dropWhile_cons, if_pos (by simp [hpre c (by simp)])]
      exact ih (fun c hc => hpre c (by simp [hc]))
  rw [h1]
  cases w with
  | nil => rfl
  | cons c cs =>
    rw [if_neg (by simp), List.cons_append, List.dropWhile_cons, if_neg (by simp [hw c (by simp)])]
    rw [← List.cons_append, List.takeWhile_append_of_pos hw]
    cases suf with
    | nil => simp
    | cons d ds => simp [hsuf d rfl]

theorem kern_natural_letters (p : Pitch) (h : p.alter = 0) :
    p.kern ≠ [] ∧ ∀ c ∈ p.kern, isPitchLetter c = true := by
  obtain ⟨i, o, a⟩ := p
  simp only at h; subst h
  have hL : ∀ i : Fin 7, isPitchLetter (stepLower i) = true ∧ isPitchLetter (stepUpper i) = true := by decide
  simp only [Pitch.kern]
  by_cases ho : o ≥ 4
  · rw [if_pos ho]
    refine ⟨?_, ?_⟩
    · simp; omega
    · intro c hc
      simp at hc
      rw [hc.2]; exact (hL i).1
  · rw [if_neg ho]
    refine ⟨?_, ?_⟩
    · simp; omega
    · intro c hc
      simp at hc
      rw [hc.2]; exact (hL i).2

theorem firstPitch_kern (p : Pitch) (h : p.alter = 0) (pre suf : Str) (hpre : ∀ c ∈ pre, isPitchLetter c = false)
    (hsuf : ∀ c, suf.head? = some c → isPitchLetter c = false) :
    firstPitch (pre ++ p.kern ++ suf) = some p.kern := by
  obtain ⟨h1, h2⟩ := kern_natural_letters p h
  unfold firstPitch
  rw [takeWhile_run _ _ _ _ hpre h2 hsuf, if_neg h1]
  cases hk : p.kern with
  | nil => exact absurd hk h1
  | cons c cs => rfl

/-- C30. A rest with a pitch, whatever surrounds the pitch, is moved to the staff line at the pitch, or the one next to it. -/
theorem rest_placed (p : Pitch) (hp : p.alter = 0) (ho : 0 ≤ p.octave) (pre suf : Str) (hpre : ∀ c ∈ pre, isPitchLetter c = false)
    (hsuf : ∀ c, suf.head? = some c → isPitchLetter c = false) (baseline : Int) (dur : Rat) :
    ∃ s, restShift (pre ++ p.kern ++ suf) baseline dur = some s ∧
      RestPlaced (p.base7 - (baseline + 4)) (dur > 1) s := by
  have hb : kernToBase7 p.kern = p.base7 := by
    have := kern_base7 p [] [] [] (by simp [PitchInert]) (by simp [PitchInert]) (Or.inl rfl)
    simpa using this
  have hnn : ¬ p.base7 < 0 := by simp only [Pitch.base7]; omega
  unfold restShift
  rw [firstPitch_kern p hp pre suf hpre hsuf]
  dsimp only
  rw [hb, if_neg hnn]
  refine ⟨_, rfl, ?_, ?_, ?_⟩
  · intro h
    rw [if_neg (by omega)]
  · intro h hl
    rw [if_pos (by omega), if_pos hl]; omega
  · intro h hl
    rw [if_pos (by omega), if_neg hl]; omega

/-- C30. The displacement is even and at most one step from that of the letters of the token, for any text. -/
theorem rest_even (text : Str) (baseline : Int) (dur : Rat) (s : Int) (h : restShift text baseline dur = some s) :
    s % 2 = 0 ∧ ∃ letters, firstPitch text = some letters ∧ (s - (kernToBase7 letters - (baseline + 4))).natAbs ≤ 1 := by
  unfold restShift at h
  cases hf : firstPitch text with
  | none => rw [hf] at h; exact absurd h (by simp)
  | some letters =>
    rw [hf] at h
    dsimp only at h
    by_cases hn : kernToBase7 letters < 0
    · rw [if_pos hn] at h; exact absurd h (by simp)
    rw [if_neg hn] at h
    have h := Option.some.inj h
    by_cases hd : (kernToBase7 letters - baseline + 100) % 2 ≠ 0
    · rw [if_pos hd] at h
      by_cases hl : dur > 1
      · rw [if_pos hl] at h; exact ⟨by omega, letters, rfl, by omega⟩
      · rw [if_neg hl] at h; exact ⟨by omega, letters, rfl, by omega⟩
    · rw [if_neg hd] at h
      exact ⟨by omega, letters, rfl, by omega⟩

/-- A rest with no pitch letters is not moved. -/
theorem rest_unplaced (text : Str) (h : ∀ c ∈ text, isPitchLetter c = false) (baseline : Int) (dur : Rat) :
    restShift text baseline dur = none := by
  have : firstPitch text = none := by
    unfold firstPitch
    have := takeWhile_run isPitchLetter text [] [] h (by simp) (by simp)
    simp only [List.append_nil] at this
    rw [this]
    simp
  unfold restShift; rw [this]

/-- The clefs of the interpretations of the file before a line. -/
def interpsBefore : List RestLine → List (Nat × Str)
  | [] => []
  | .interp toks :: ls => toks ++ interpsBefore ls
  | _ :: ls => interpsBefore ls

theorem startsWith_prefix (s p : Str) : startsWith s p = true ↔ p <+: s := by
  unfold startsWith; exact List.isPrefixOf_iff_prefix

theorem clefOf_snoc (i : Nat) (before : List (Nat × Str)) (t : Nat × Str) :
    clefOf i (before ++ [t]) = if t.1 = i ∧ "*clef".toList <+: t.2 then t.2 else clefOf i before := by
  unfold clefOf
  rw [List.filter_append]
  by_cases h : t.1 = i ∧ "*clef".toList <+: t.2
  · rw [if_pos h]
    have : [t].filter (fun t => decide (t.1 = i ∧ "*clef".toList <+: t.2)) = [t] := by
      simp only [List.filter_cons]; rw [if_pos (by simpa using h)]; rfl
    rw [this]; simp
  · rw [if_neg h]
    have : [t].filter (fun t => decide (t.1 = i ∧ "*clef".toList <+: t.2)) = [] := by
      simp only [List.filter_cons]; rw [if_neg (by simpa using h)]; rfl
    rw [this]; simp

theorem restClefs_spec (toks before : List (Nat × Str)) (b : Nat → Int) (h : ∀ i, b i = kernClefToBaseline (clefOf i before)) (i : Nat) :
    restClefs toks b i = kernClefToBaseline (clefOf i (before ++ toks)) := by
  induction toks generalizing before b with
  | nil => simpa [restClefs] using h i
  | cons t ts ih =>
    unfold restClefs
    rw [List.foldl_cons]
    have := ih (before ++ [t]) (if startsWith t.2 "*clef".toList then (fun i => if i = t.1 then kernClefToBaseline t.2 else b i) else b) ?_
    · rw [List.append_assoc] at this
      exact this
    · intro j
      rw [clefOf_snoc]
      by_cases hs : startsWith t.2 "*clef".toList = true
      · rw [if_pos hs]
        have hp := (startsWith_prefix _ _).1 hs
        by_cases hj : j = t.1
        · rw [if_pos hj, if_pos ⟨hj.symm, hp⟩]
        · rw [if_neg hj, if_neg (fun e => hj e.1.symm)]; exact h j
      · rw [if_neg hs]
        have hp : ¬ "*clef".toList <+: t.2 := fun e => hs ((startsWith_prefix _ _).2 e)
        rw [if_neg (fun e => hp e.2)]; exact h j

theorem restLines_spec (ls : List RestLine) (before : List (Nat × Str)) (b : Nat → Int)
    (h : ∀ i, b i = kernClefToBaseline (clefOf i before)) (i : Nat) (toks : List (Nat × Str × Rat)) (hi : ls[i]? = some (.data toks)) :
    (restLines ls b)[i]? = some (toks.map (fun t =>
      if 'r' ∈ t.2.1 then restShift t.2.1 (kernClefToBaseline (clefOf t.1 (before ++ interpsBefore (ls.take i)))) t.2.2 else none)) := by
  induction ls generalizing before b i with
  | nil => simp at hi
  | cons l ls ih =>
    cases i with
    | zero =>
      simp only [List.getElem?_cons_zero, Option.some.injEq] at hi
      subst hi
      simp only [restLines, List.getElem?_cons_zero, List.take_zero, interpsBefore, List.append_nil, Option.some.injEq]
      apply List.map_congr_left
      intro t _
      unfold restTok isRestText
      rw [h t.1]
      simp [List.contains_iff_mem]
    | succ i =>
      rw [List.getElem?_cons_succ] at hi
      cases l with
      | interp ts =>
        simp only [restLines, List.getElem?_cons_succ, List.take_succ_cons, interpsBefore]
        rw [ih (before ++ ts) (restClefs ts b) (restClefs_spec ts before b h) i hi]
        simp only [List.append_assoc]
      | data ts =>
        simp only [restLines, List.getElem?_cons_succ, List.take_succ_cons, interpsBefore]
        exact ih before b h i hi
      | other =>
        simp only [restLines, List.getElem?_cons_succ, List.take_succ_cons, interpsBefore]
        exact ih before b h i hi

/-- C30. In a file every rest is placed by the last clef before it in its track (a treble clef if none), and nothing else is moved. -/
theorem rest_positions (ls : List RestLine) (i : Nat) (toks : List (Nat × Str × Rat)) (hi : ls[i]? = some (.data toks)) :
    (restPositions ls)[i]? = some (toks.map (fun t =>
      if 'r' ∈ t.2.1 then restShift t.2.1 (kernClefToBaseline (clefOf t.1 (interpsBefore (ls.take i)))) t.2.2 else none)) := by
  have := restLines_spec ls [] (fun _ => kernClefToBaseline "*clefG2".toList) (by intro i; rfl) i toks hi
  rw [List.nil_append] at this; exact this

example : restPositions [.interp [(1, "*clefF4".toList), (2, "*".toList)], .data [(1, "4rD".toList, 1), (2, "4rb".toList, 1), (2, "2rcc".toList, 2)],
    .interp [(1, "*clefC3".toList)], .data [(1, "4rc".toList, 1)]] =
    [[], [some 0, some 0, some 0], [], [some 0]] := by decide +kernel

example : restShift "4rD".toList (kernClefToBaseline "*clefF4".toList) 1 = some 0 := by decide +kernel

/-- C30. A rest moved an even number of steps by a score is written so that it is read back moved by that number of steps. -/
theorem rest_roundtrip_partial (s lowestLine : Int) (hs : s ≠ 0) (he : s % 2 = 0) (hr : 0 ≤ lowestLine + 3 + s ∧ lowestLine + 3 + s < 119)
    (pre suf : Str) (hpre : ∀ c ∈ pre, isPitchLetter c = false) (hsuf : ∀ c, suf.head? = some c → isPitchLetter c = false) (dur : Rat) :
    ∃ t, restPostfix s lowestLine = .ok t ∧ restShift (pre ++ t ++ suf) (lowestLine - 1) dur = some s := by
  have hi : ((lowestLine + 3 + s) % 7).toNat < 7 := by omega
  have hp : lowestLine + 4 + s - 1 = Pitch.base7 ⟨⟨((lowestLine + 3 + s) % 7).toNat, hi⟩, (lowestLine + 3 + s) / 7, 0⟩ := by
    simp only [Pitch.base7]; omega
  unfold restPostfix
  rw [if_neg hs, hp, base7_roundtrip _ _ (by omega)]
  refine ⟨_, rfl, ?_⟩
  obtain ⟨r, h1, h2, _⟩ := rest_placed ⟨⟨((lowestLine + 3 + s) % 7).toNat, hi⟩, (lowestLine + 3 + s) / 7, 0⟩ rfl
    (by show 0 ≤ (lowestLine + 3 + s) / 7; omega) pre suf hpre hsuf (lowestLine - 1) dur
  rw [h1]
  rw [← hp] at h2
  rw [h2 (by omega)]
  congr 1; omega

/-- C30. A rest moved to a space does not come back: the statement without `he` is false. -/
theorem rest_roundtrip_wrong : restPostfix 1 31 = .ok "cc".toList ∧ restShift "4rcc".toList 30 1 = some 2 := by
  constructor <;> decide +kernel

/-! ## C57: repeated text -/

theorem isIjStart_iff (t : Str) : isIjStart t = true ↔ ijOpens t := by
  simp [isIjStart, ijOpens, or_assoc]

theorem isIjEnd_iff (t : Str) : isIjEnd t = true ↔ ijCloses t := by
  simp [isIjEnd, ijCloses, or_assoc]

/-- The text of a token of each kind. -/
theorem ij_kinds (t : Str) : (ijOpens t → ¬ ijCloses t ∧ ¬ isSyllable t ∧ tokIsNull t = false ∧ tokIsInterpretation t = true) ∧
    (ijCloses t → ¬ isSyllable t ∧ tokIsNull t = false ∧ tokIsInterpretation t = true) ∧
    (isSyllable t ↔ tokIsNull t = false ∧ tokIsInterpretation t = false ∧ tokIsData t = true) := by
  refine ⟨?_, ?_, ?_⟩
  · intro h
    simp only [ijOpens, List.mem_cons, List.not_mem_nil, or_false] at h
    rcases h with rfl | rfl | rfl <;> decide
  · intro h
    simp only [ijCloses, List.mem_cons, List.not_mem_nil, or_false] at h
    rcases h with rfl | rfl | rfl <;> decide
  · have e1 := startsWith_prefix t "*".toList
    have e2 := startsWith_prefix t "!".toList
    have e3 := startsWith_prefix t "=".toList
    unfold isSyllable tokIsNull tokIsData tokIsInterpretation tokIsComment tokIsBarline
    rw [← e1, ← e2, ← e3]
    constructor
    · rintro ⟨h1, h2, h3, h4⟩
      have g1 : t ≠ "*".toList := by rintro rfl; exact h2 (by decide)
      have g2 : t ≠ "!".toList := by rintro rfl; exact h3 (by decide)
      simp only [Bool.not_eq_true] at h2 h3 h4
      simp only [beq_eq_false_iff_ne.2 h1, beq_eq_false_iff_ne.2 g1, beq_eq_false_iff_ne.2 g2, h2, h3, h4]
      simp
    · rintro ⟨h1, h2, h3⟩
      simp only [Bool.or_eq_false_iff, beq_eq_false_iff_ne] at h1
      simp only [Bool.and_eq_true, Bool.not_eq_true'] at h3
      exact ⟨h1.1.1, ne_true_of_eq_false h2, ne_true_of_eq_false h3.1.2, ne_true_of_eq_false h3.2⟩

/-- The marks that a token of a spine should get. -/
def IjRight (before after : List Str) (t : Str) (m : IjMark) : Prop :=
  (m.ij = true ↔ isSyllable t ∧ inRepeat before) ∧
  (m.begins = true ↔ isSyllable t ∧ beginsRepeat before) ∧
  (m.ends = true ↔ isSyllable t ∧ inRepeat before ∧ closesNext after)

theorem filter_snoc {α} (p : α → Bool) (l : List α) (a : α) : (l ++ [a]).filter p = if p a then l.filter p ++ [a] else l.filter p := by
  rw [List.filter_append]
  by_cases h : p a = true
  · simp [h]
  · simp [h]

theorem inRepeat_snoc (l : List Str) (t : Str) :
    inRepeat (l ++ [t]) ↔ ijOpens t ∨ (¬ ijCloses t ∧ inRepeat l) := by
  unfold inRepeat
  rw [filter_snoc]
  by_cases h1 : ijOpens t
  · simp [h1]
  · by_cases h2 : ijCloses t
    · simp [h1, h2]
    · simp [h1, h2]

theorem beginsRepeat_snoc (l : List Str) (t : Str) :
    beginsRepeat (l ++ [t]) ↔ ijOpens t ∨ (¬ ijCloses t ∧ ¬ isSyllable t ∧ beginsRepeat l) := by
  unfold beginsRepeat
  rw [filter_snoc]
  by_cases h1 : ijOpens t
  · simp [h1]
  · by_cases h2 : ijCloses t
    · simp [h1, h2]
    · by_cases h3 : isSyllable t
      · simp [h1, h2, h3]
      · simp [h1, h2, h3]

theorem closesNext_snoc (l : List Str) (t : Str) :
    closesNext (l ++ [t]) ↔ closesNext l ∨ (ijCloses t ∧ ∀ u ∈ l, ¬ ijCloses u ∧ ¬ isSyllable u) := by
  unfold closesNext
  rw [List.filter_append]
  by_cases he : l.filter (fun t => decide (ijCloses t ∨ isSyllable t)) = []
  · rw [he, List.nil_append]
    have hall : ∀ u ∈ l, ¬ ijCloses u ∧ ¬ isSyllable u := by
      intro u hu
      have := List.filter_eq_nil_iff.1 he u hu
      simpa [not_or] using this
    by_cases h : ijCloses t
    · simp only [List.filter_cons, h, true_or, decide_true, if_true, List.filter_nil, List.head?_cons, true_and]
      constructor
      · intro _; exact Or.inr hall
      · intro _; exact ⟨t, rfl, h⟩
    · constructor
      · rintro ⟨u, hu, hc⟩
        by_cases hs : isSyllable t
        · simp [h, hs] at hu; subst hu; exact absurd hc h
        · simp [h, hs] at hu
      · rintro (⟨u, hu, _⟩ | ⟨hc, _⟩)
        · simp at hu
        · exact absurd hc h
  · obtain ⟨x, xs, hx⟩ := List.exists_cons_of_ne_nil he
    rw [hx]
    have hmem : x ∈ l ∧ (ijCloses x ∨ isSyllable x) := by
      have : x ∈ l.filter (fun t => decide (ijCloses t ∨ isSyllable t)) := by rw [hx]; simp
      simpa using this
    constructor
    · rintro ⟨u, hu, hc⟩; exact Or.inl ⟨u, by simpa using hu, hc⟩
    · rintro (⟨u, hu, hc⟩ | ⟨_, hall⟩)
      · exact ⟨u, by simpa using hu, hc⟩
      · have := hall x hmem.1
        rcases hmem.2 with h | h
        · exact absurd h this.1
        · exact absurd h this.2

theorem begins_in (l : List Str) (h : beginsRepeat l) : inRepeat l := by
  induction l using List.reverseRecOn with
  | nil => obtain ⟨t, h, _⟩ := h; simp at h
  | append_singleton l t ih =>
    rw [beginsRepeat_snoc] at h
    rw [inRepeat_snoc]
    rcases h with h | ⟨h1, _, h3⟩
    · exact Or.inl h
    · exact Or.inr ⟨h1, ih h3⟩

/-- What holds after the tokens `pre`. -/
structure IjInv (pre : List Str) (S : IjSt) (marks : List IjMark) : Prop where
  len : marks.length = pre.length
  state : S.ijstate = true ↔ inRepeat pre
  start : S.startij = true ↔ beginsRepeat pre
  last : ∀ j, S.last = some j ↔ (∃ t, pre[j]? = some t ∧ isSyllable t ∧ inRepeat (pre.take j) ∧
    ∀ u ∈ pre.drop (j + 1), ¬ ijCloses u ∧ ¬ isSyllable u)
  marks : ∀ (j : Nat) (t : Str) (m : IjMark), pre[j]? = some t → marks[j]? = some m → IjRight (pre.take j) (pre.drop (j + 1)) t m

theorem IjInv.nil : IjInv [] ⟨false, false, none⟩ [] := by
  refine ⟨rfl, ?_, ?_, ?_, ?_⟩
  · simp [inRepeat]
  · simp [beginsRepeat]
  · simp
  · simp

def IjMark.no : IjMark := ⟨false, false, false⟩

theorem ijTok_open (S : IjSt) (marks : List IjMark) (i : Nat) (t : Str) (h : ijOpens t) :
    ijTok S marks i t = ({ S with startij := true, ijstate := true }, marks ++ [.no]) := by
  obtain ⟨_, _, h3, h4⟩ := (ij_kinds t).1 h
  unfold ijTok
  rw [h3, h4, (isIjStart_iff t).2 h]; rfl

theorem ijTok_close (S : IjSt) (marks : List IjMark) (i : Nat) (t : Str) (h : ijCloses t) :
    ijTok S marks i t = (⟨false, false, none⟩,
      (match S.last with
        | some j => marks.modify j (fun m => { m with ends := true })
        | none => marks) ++ [.no]) := by
  obtain ⟨_, h3, h4⟩ := (ij_kinds t).2.1 h
  have h5 : isIjStart t = false := by
    by_contra hc
    exact ((ij_kinds t).1 ((isIjStart_iff t).1 (by simpa using hc))).1 h
  unfold ijTok
  rw [h3, h4, h5, (isIjEnd_iff t).2 h]
  cases S.last <;> rfl

theorem ijTok_syllable (S : IjSt) (marks : List IjMark) (i : Nat) (t : Str) (h : isSyllable t) :
    ijTok S marks i t = if S.ijstate then (⟨true, false, some i⟩, marks ++ [⟨true, S.startij, false⟩]) else (S, marks ++ [.no]) := by
  obtain ⟨h1, h2, h3⟩ := (ij_kinds t).2.2.1 h
  unfold ijTok
  rw [h1, h2, h3]; rfl

theorem ijTok_other (S : IjSt) (marks : List IjMark) (i : Nat) (t : Str) (h1 : ¬ ijOpens t) (h2 : ¬ ijCloses t) (h3 : ¬ isSyllable t) :
    ijTok S marks i t = (S, marks ++ [.no]) := by
  unfold ijTok
  by_cases c1 : tokIsNull t = true
  · rw [if_pos c1]; rfl
  rw [if_neg c1]
  by_cases c2 : tokIsInterpretation t = true
  · rw [if_pos c2, if_neg (fun e => h1 ((isIjStart_iff t).1 e)), if_neg (fun e => h2 ((isIjEnd_iff t).1 e))]; rfl
  rw [if_neg c2]
  by_cases c3 : tokIsData t = true
  · exact absurd ((ij_kinds t).2.2.2 ⟨by simpa using c1, by simpa using c2, c3⟩) h3
  · rw [if_neg c3]; rfl

theorem snoc_get {α} (l : List α) (a : α) (j : Nat) (t : α) (h : (l ++ [a])[j]? = some t) :
    (j < l.length ∧ l[j]? = some t ∧ (l ++ [a]).take j = l.take j ∧ (l ++ [a]).drop (j + 1) = l.drop (j + 1) ++ [a]) ∨
    (j = l.length ∧ t = a ∧ (l ++ [a]).take j = l ∧ (l ++ [a]).drop (j + 1) = []) := by
  by_cases hj : j < l.length
  · left
    refine ⟨hj, ?_, List.take_append_of_le_length (by omega), List.drop_append_of_le_length (by omega)⟩
    rwa [List.getElem?_append_left hj] at h
  · right
    have hl : j < (l ++ [a]).length := (List.getElem?_eq_some_iff.1 h).1
    simp only [List.length_append, List.length_singleton] at hl
    have hj : j = l.length := by omega
    subst hj
    simp at h
    exact ⟨rfl, h.symm, by simp, by simp⟩

/-- Marks of earlier tokens are unchanged by a token that does not close. -/
theorem IjRight.keep {before after : List Str} {t u : Str} {m : IjMark} (h : IjRight before after t m) (hu : ¬ ijCloses u) :
    IjRight before (after ++ [u]) t m := by
  obtain ⟨h1, h2, h3⟩ := h
  refine ⟨h1, h2, ?_⟩
  rw [h3, closesNext_snoc]
  simp [hu]

/-- One more token. -/
theorem IjInv.step {pre : List Str} {S : IjSt} {marks : List IjMark} (h : IjInv pre S marks) (t : Str) :
    IjInv (pre ++ [t]) (ijTok S marks marks.length t).1 (ijTok S marks marks.length t).2 := by
  have hnot : ∀ (m : IjMark) (S' : IjSt), ¬ isSyllable t → m = .no → ¬ ijCloses t →
      (∀ j, S'.last = some j ↔ S.last = some j) → (S'.ijstate = true ↔ inRepeat (pre ++ [t])) →
      (S'.startij = true ↔ beginsRepeat (pre ++ [t])) → IjInv (pre ++ [t]) S' (marks ++ [m]) := by
    intro m S' hns hm hnc hl hst hbg
    refine ⟨by simp [h.len], hst, hbg, ?_, ?_⟩
    · intro j
      rw [hl, h.last]
      constructor
      · rintro ⟨u, hu, hs, hi, ha⟩
        have hj : j < pre.length := (List.getElem?_eq_some_iff.1 hu).1
        refine ⟨u, by rw [List.getElem?_append_left hj]; exact hu, hs, ?_, ?_⟩
        · rw [List.take_append_of_le_length (by omega)]; exact hi
        · rw [List.drop_append_of_le_length (by omega)]
          intro v hv
          rcases List.mem_append.1 hv with hv | hv
          · exact ha v hv
          · rw [List.mem_singleton.1 hv]; exact ⟨hnc, hns⟩
      · rintro ⟨u, hu, hs, hi, ha⟩
        rcases snoc_get _ _ _ _ hu with ⟨_, hg, e1, e2⟩ | ⟨_, e, _, _⟩
        · rw [e1] at hi; rw [e2] at ha
          exact ⟨u, hg, hs, hi, fun v hv => ha v (by simp [hv])⟩
        · subst e; exact absurd hs hns
    · intro j u m' hu hm'
      rcases snoc_get _ _ _ _ hu with ⟨hj, hg, e1, e2⟩ | ⟨hj, e, e1, e2⟩
      · rw [List.getElem?_append_left (by rw [h.len]; exact hj)] at hm'
        rw [e1, e2]
        exact (h.marks j u m' hg hm').keep hnc
      · subst e
        rw [hj, ← h.len] at hm'
        simp at hm'
        subst hm'; subst hm
        refine ⟨?_, ?_, ?_⟩ <;> simp [IjMark.no, hns]
  by_cases h1 : ijOpens t
  · rw [ijTok_open _ _ _ _ h1]
    obtain ⟨g1, g2, _, _⟩ := (ij_kinds t).1 h1
    refine hnot _ _ g2 rfl g1 (fun j => Iff.rfl) ?_ ?_
    · rw [inRepeat_snoc]; simp [h1]
    · rw [beginsRepeat_snoc]; simp [h1]
  by_cases h2 : ijCloses t
  · rw [ijTok_close _ _ _ _ h2]
    obtain ⟨g1, _, _⟩ := (ij_kinds t).2.1 h2
    have hlen : (match S.last with
        | some j => marks.modify j (fun m => { m with ends := true })
        | none => marks).length = pre.length := by
      cases S.last <;> simp [h.len]
    refine ⟨by simp [hlen], ?_, ?_, ?_, ?_⟩
    · rw [inRepeat_snoc]; simp [h1, h2]
    · rw [beginsRepeat_snoc]; simp [h1, h2]
    · intro j
      constructor
      · intro e; cases e
      · rintro ⟨u, hu, hs, hi, ha⟩
        rcases snoc_get _ _ _ _ hu with ⟨_, hg, e1, e2⟩ | ⟨_, e, _, _⟩
        · rw [e2] at ha
          exact absurd h2 (ha t (by simp)).1
        · subst e; exact absurd hs g1
    · intro j u m' hu hm'
      rcases snoc_get _ _ _ _ hu with ⟨hj, hg, e1, e2⟩ | ⟨hj, e, e1, e2⟩
      · dsimp only at hm'
        rw [List.getElem?_append_left (by rw [hlen]; exact hj)] at hm'
        rw [e1, e2]
        -- the mark before
        have hjm : j < marks.length := by rw [h.len]; exact hj
        obtain ⟨r1, r2, r3⟩ := h.marks j u marks[j] hg (List.getElem?_eq_getElem hjm)
        have hl := h.last j
        have hlj : S.last = some j ↔ isSyllable u ∧ inRepeat (pre.take j) ∧ ∀ v ∈ pre.drop (j + 1), ¬ ijCloses v ∧ ¬ isSyllable v := by
          rw [hl]
          constructor
          · rintro ⟨u', hu', hr⟩
            rw [hg] at hu'; cases hu'; exact hr
          · intro hr; exact ⟨u, hg, hr⟩
        have hm2 : m' = { marks[j] with ends := marks[j].ends || decide (S.last = some j) } := by
          cases hS : S.last with
          | none =>
            rw [hS] at hm'
            rw [List.getElem?_eq_getElem hjm] at hm'
            cases hm'; simp
          | some k =>
            rw [hS] at hm'
            rw [List.getElem?_modify, List.getElem?_eq_getElem hjm] at hm'
            by_cases hk : k = j
            · subst hk; simp at hm'; rw [← hm']; simp
            · simp [hk] at hm'; rw [← hm']; simp [hk]
        subst hm2
        refine ⟨r1, r2, ?_⟩
        rw [closesNext_snoc]
        simp only [Bool.or_eq_true, decide_eq_true_eq, r3, hlj, h2, true_and]
        constructor
        · rintro (⟨a, b, c⟩ | ⟨a, b, c⟩)
          · exact ⟨a, b, Or.inl c⟩
          · exact ⟨a, b, Or.inr c⟩
        · rintro ⟨a, b, c | c⟩
          · exact Or.inl ⟨a, b, c⟩
          · exact Or.inr ⟨a, b, c⟩
      · subst e
        rw [hj, ← hlen] at hm'
        simp at hm'
        subst hm'
        refine ⟨?_, ?_, ?_⟩ <;> simp [IjMark.no, g1]
  by_cases h3 : isSyllable t
  · rw [ijTok_syllable _ _ _ _ h3]
    by_cases hst : S.ijstate = true
    · rw [if_pos hst]
      have hin := h.state.1 hst
      refine ⟨by simp [h.len], ?_, ?_, ?_, ?_⟩
      · rw [inRepeat_snoc]; simp [h2, hin]
      · rw [beginsRepeat_snoc]; simp [h1, h3]
      · intro j
        simp only [Option.some.injEq]
        constructor
        · rintro rfl
          rw [h.len]
          exact ⟨t, by simp, h3, by simpa using hin, by simp⟩
        · rintro ⟨u, hu, hs, hi, ha⟩
          rcases snoc_get _ _ _ _ hu with ⟨_, hg, e1, e2⟩ | ⟨hj, e, _, _⟩
          · rw [e2] at ha
            exact absurd h3 (ha t (by simp)).2
          · rw [hj, h.len]
      · intro j u m' hu hm'
        rcases snoc_get _ _ _ _ hu with ⟨hj, hg, e1, e2⟩ | ⟨hj, e, e1, e2⟩
        · dsimp only at hm'
          rw [List.getElem?_append_left (by rw [h.len]; exact hj)] at hm'
          rw [e1, e2]
          exact (h.marks j u m' hg hm').keep h2
        · rw [e1, e2]
          rw [hj, ← h.len] at hm'
          simp at hm'
          subst hm'
          subst e
          refine ⟨by simp [h3, hin], ?_, ?_⟩
          · simp [h3, h.start]
          · simp [closesNext]
    · rw [if_neg hst]
      have hout : ¬ inRepeat pre := fun e => hst (h.state.2 e)
      refine ⟨by simp [h.len], ?_, ?_, ?_, ?_⟩
      · rw [inRepeat_snoc]; simp [h1, hout, hst]
      · rw [beginsRepeat_snoc]
        have : S.startij ≠ true := fun e => hout (begins_in _ (h.start.1 e))
        simp [h1, h3, this]
      · intro j
        have hno : S.last ≠ some j := by
          intro e
          obtain ⟨u, hu, hs, hi, ha⟩ := (h.last j).1 e
          -- no mark after j can be open or close unless open: then still in the region
          apply hout
          have hj : j < pre.length := (List.getElem?_eq_some_iff.1 hu).1
          have hsplit : pre = pre.take j ++ [u] ++ pre.drop (j + 1) := by
            rw [← List.take_append_drop j pre]
            conv_lhs => rw [List.take_append_drop]
            rw [List.take_append_drop, List.append_assoc, List.singleton_append]
            rw [(List.getElem?_eq_some_iff.1 hu).2.symm, List.getElem_cons_drop, List.take_append_drop]
          rw [hsplit]
          have hgen : ∀ l : List Str, (∀ v ∈ l, ¬ ijCloses v ∧ ¬ isSyllable v) → inRepeat (pre.take j ++ [u] ++ l) := by
            intro l
            induction l using List.reverseRecOn with
            | nil =>
              intro _
              rw [List.append_nil, inRepeat_snoc]
              exact Or.inr ⟨fun e => ((ij_kinds u).2.1 e).1 hs, hi⟩
            | append_singleton l x ih =>
              intro hl
              rw [← List.append_assoc, inRepeat_snoc]
              exact Or.inr ⟨(hl x (by simp)).1, ih (fun v hv => hl v (by simp [hv]))⟩
          exact hgen _ ha
        constructor
        · intro e; exact absurd e hno
        · rintro ⟨u, hu, hs, hi, ha⟩
          rcases snoc_get _ _ _ _ hu with ⟨_, hg, e1, e2⟩ | ⟨hj, e, e1, _⟩
          · rw [e2] at ha
            exact absurd h3 (ha t (by simp)).2
          · rw [e1] at hi; exact absurd hi hout
      · intro j u m' hu hm'
        rcases snoc_get _ _ _ _ hu with ⟨hj, hg, e1, e2⟩ | ⟨hj, e, e1, e2⟩
        · dsimp only at hm'
          rw [List.getElem?_append_left (by rw [h.len]; exact hj)] at hm'
          rw [e1, e2]
          exact (h.marks j u m' hg hm').keep h2
        · rw [e1, e2]
          rw [hj, ← h.len] at hm'
          simp at hm'
          subst hm'
          refine ⟨by simp [hout, IjMark.no], ?_, by simp [hout, IjMark.no]⟩
          have : ¬ beginsRepeat pre := fun e => hout (begins_in _ e)
          simp [this, IjMark.no]
  · rw [ijTok_other _ _ _ _ h1 h2 h3]
    refine hnot _ _ h3 rfl h2 (fun j => Iff.rfl) ?_ ?_
    · rw [inRepeat_snoc, h.state]; simp [h1, h2]
    · rw [beginsRepeat_snoc, h.start]; simp [h1, h2, h3]

theorem ijToks_inv (ts pre : List Str) (S : IjSt) (marks : List IjMark) (h : IjInv pre S marks) :
    ∃ S', IjInv (pre ++ ts) S' (ijToks ts S marks) := by
  induction ts generalizing pre S marks with
  | nil => exact ⟨S, by simpa [ijToks] using h⟩
  | cons t ts ih =>
    obtain ⟨S', hS⟩ := ih (pre ++ [t]) _ _ (h.step t)
    exact ⟨S', by simpa [ijToks] using hS⟩

/-- C57. In a spine of lyrics, a syllable is marked as repeated text exactly if the last mark before it opens repeated text; as its
beginning exactly if no syllable comes between; and as its end exactly if no syllable comes between it and the closing mark. -/
theorem text_repetition (toks : List Str) (i : Nat) (t : Str) (hi : toks[i]? = some t) :
    ∃ m, (ijSpine toks)[i]? = some m ∧ IjRight (toks.take i) (toks.drop (i + 1)) t m := by
  obtain ⟨S, h⟩ := ijToks_inv toks [] _ _ IjInv.nil
  rw [List.nil_append] at h
  have hlt : i < toks.length := (List.getElem?_eq_some_iff.1 hi).1
  have hm : i < (ijToks toks ⟨false, false, none⟩ []).length := by rw [h.len]; exact hlt
  exact ⟨_, List.getElem?_eq_getElem hm, h.marks i t _ hi (List.getElem?_eq_getElem hm)⟩

theorem filter_none {α} (p : α → Bool) (l : List α) (h : ∀ a ∈ l, p a = false) : l.filter p = [] := by
  rw [List.filter_eq_nil_iff]; intro a ha; simp [h a ha]

/-- C57. In repeated text that is opened and closed, with no other mark inside, every syllable is marked, exactly the first is the
beginning and exactly the last is the end. -/
theorem repetition_bracketed_partial (pre body post : List Str) (o c : Str) (ho : ijOpens o) (hc : ijCloses c)
    (hb : ∀ u ∈ body, ¬ ijOpens u ∧ ¬ ijCloses u) (i : Nat) (t : Str) (hi : body[i]? = some t) (ht : isSyllable t) :
    ∃ m, (ijSpine (pre ++ [o] ++ body ++ [c] ++ post))[pre.length + 1 + i]? = some m ∧ m.ij = true ∧
      (m.begins = true ↔ ∀ u ∈ body.take i, ¬ isSyllable u) ∧
      (m.ends = true ↔ ∀ u ∈ body.drop (i + 1), ¬ isSyllable u) := by
  have hlt : i < body.length := (List.getElem?_eq_some_iff.1 hi).1
  have hget : (pre ++ [o] ++ body ++ [c] ++ post)[pre.length + 1 + i]? = some t := by
    rw [List.append_assoc, List.append_assoc, List.append_assoc, List.getElem?_append_right (by omega)]
    have : pre.length + 1 + i - pre.length = i + 1 := by omega
    rw [this, List.singleton_append, List.getElem?_cons_succ, List.getElem?_append_left hlt]; exact hi
  have htake : (pre ++ [o] ++ body ++ [c] ++ post).take (pre.length + 1 + i) = pre ++ [o] ++ body.take i := by
    rw [List.append_assoc (pre ++ [o] ++ body), List.append_assoc (pre ++ [o])]
    have : pre.length + 1 + i = (pre ++ [o]).length + i := by simp
    rw [this, List.take_length_add_append, List.take_append_of_le_length (by omega)]
  have hdrop : (pre ++ [o] ++ body ++ [c] ++ post).drop (pre.length + 1 + i + 1) = body.drop (i + 1) ++ [c] ++ post := by
    rw [List.append_assoc (pre ++ [o] ++ body), List.append_assoc (pre ++ [o])]
    have : pre.length + 1 + i + 1 = (pre ++ [o]).length + (i + 1) := by simp; omega
    rw [this, List.drop_length_add_append, List.drop_append_of_le_length (by omega), List.append_assoc]
  obtain ⟨m, hm, r1, r2, r3⟩ := text_repetition _ _ _ hget
  rw [htake] at r1 r2 r3
  rw [hdrop] at r3
  have hin : inRepeat (pre ++ [o] ++ body.take i) := by
    have hgen : ∀ l : List Str, (∀ v ∈ l, ¬ ijOpens v ∧ ¬ ijCloses v) → inRepeat (pre ++ [o] ++ l) := by
      intro l
      induction l using List.reverseRecOn with
      | nil => intro _; rw [List.append_nil, inRepeat_snoc]; exact Or.inl ho
      | append_singleton l x ih =>
        intro hl
        rw [← List.append_assoc, inRepeat_snoc]
        exact Or.inr ⟨(hl x (by simp)).2, ih (fun v hv => hl v (by simp [hv]))⟩
    exact hgen _ (fun v hv => hb v (List.mem_of_mem_take hv))
  refine ⟨m, hm, r1.2 ⟨ht, hin⟩, ?_, ?_⟩
  · rw [r2]
    have hgen : ∀ l : List Str, (∀ v ∈ l, ¬ ijOpens v ∧ ¬ ijCloses v) →
        (beginsRepeat (pre ++ [o] ++ l) ↔ ∀ u ∈ l, ¬ isSyllable u) := by
      intro l
      induction l using List.reverseRecOn with
      | nil => intro _; rw [List.append_nil, beginsRepeat_snoc]; simp [ho]
      | append_singleton l x ih =>
        intro hl
        rw [← List.append_assoc, beginsRepeat_snoc, ih (fun v hv => hl v (by simp [hv]))]
        have := hl x (by simp)
        constructor
        · rintro (h | ⟨_, h2, h3⟩)
          · exact absurd h this.1
          · intro u hu
            rcases List.mem_append.1 hu with hu | hu
            · exact h3 u hu
            · rw [List.mem_singleton.1 hu]; exact h2
        · intro h
          exact Or.inr ⟨this.2, h x (by simp), fun u hu => h u (by simp [hu])⟩
    have := hgen (body.take i) (fun v hv => hb v (List.mem_of_mem_take hv))
    rw [this]; simp [ht]
  · rw [r3]
    have hcn : closesNext (body.drop (i + 1) ++ [c] ++ post) ↔ ∀ u ∈ body.drop (i + 1), ¬ isSyllable u := by
      have hnc : ∀ u ∈ body.drop (i + 1), ¬ ijCloses u := fun u hu => (hb u (List.mem_of_mem_drop hu)).2
      generalize body.drop (i + 1) = l at hnc
      unfold closesNext
      induction l with
      | nil => simp [hc]
      | cons x xs ih =>
        have hx := hnc x (by simp)
        by_cases hs : isSyllable x
        · simp [hx, hs]
        · have := ih (fun u hu => hnc u (by simp [hu]))
          simp only [List.cons_append, List.filter_cons, hx, hs, or_self, decide_false, Bool.false_eq_true, if_false]
          refine Iff.trans this ?_
          simp [hs]
    rw [hcn]
    exact ⟨fun h => h.2.2, fun h => ⟨ht, hin, h⟩⟩

example : (ijSpine ["**text".toList, "A".toList, "*ij".toList, "ve".toList, ".".toList, "Ma-".toList, "-ri-".toList, "*Xij".toList, "-a".toList]).map
    (fun m => (m.ij, m.begins, m.ends)) = [(false, false, false), (false, false, false), (false, false, false), (true, true, false),
      (false, false, false), (true, false, false), (true, false, true), (false, false, false), (false, false, false)] := by decide +kernel

/-- C57. Repeated text that is not closed has a beginning and no end: the original claim is false of it. -/
theorem repetition_unclosed : (ijSpine ["**text".toList, "*ij".toList, "ve".toList, "*-".toList]).map (fun m => (m.begins, m.ends)) =
    [(false, false), (false, false), (true, false), (false, false)] := by decide +kernel

/-- C57. Repeated text with two opening marks has two beginnings and one end. -/
theorem repetition_nested : (ijSpine ["*ij".toList, "a".toList, "*italic".toList, "b".toList, "*Xitalic".toList, "*Xij".toList]).map
    (fun m => (m.begins, m.ends)) = [(false, false), (true, false), (false, false), (true, true), (false, false), (false, false)] := by
  decide +kernel

/-! ## C54: rhythmic scaling -/

theorem digitsHead_natStr (n : Nat) (rest : Str) (hr : ∀ c, rest.head? = some c → isDig c = false) :
    digitsHead (natStr n ++ rest) = some (n, rest) := by
  unfold digitsHead
  have h1 : (natStr n ++ rest).takeWhile isDig = natStr n := by
    rw [List.takeWhile_append_of_pos (fun c hc => natStr_isDig n c hc)]
    cases rest with
    | nil => simp
    | cons c cs => simp [hr c rfl]
  have h2 : (natStr n ++ rest).dropWhile isDig = rest := by
    rw [List.dropWhile_append_of_pos (fun c hc => natStr_isDig n c hc)]
    cases rest with
    | nil => simp
    | cons c cs => simp [hr c rfl]
  rw [h1, h2]
  cases hn : natStr n with
  | nil => exact absurd hn (natStr_ne_nil n)
  | cons c cs =>
    dsimp only
    rw [← hn, parse_natStr]

/-- C54. `*rscale:a/b` stands for a/b, and `*rscale:a` for a. -/
theorem rscale_value (a b : Nat) (hb : b ≠ 0) :
    rscaleValue ("*rscale:".toList ++ natStr a ++ '/' :: natStr b) = .ok ((a : Rat) / b) ∧
    rscaleValue ("*rscale:".toList ++ natStr a) = .ok a := by
  have hd : ∀ x : Str, ("*rscale:".toList ++ x).drop 8 = x := fun x => rfl
  constructor
  · unfold rscaleValue
    rw [List.append_assoc, hd, digitsHead_natStr a _ (by simp; decide)]
    have := digitsHead_natStr b [] (by simp)
    rw [List.append_nil] at this
    simp only [this]
    rw [if_neg hb]
  · unfold rscaleValue
    rw [hd]
    have := digitsHead_natStr a [] (by simp)
    rw [List.append_nil] at this
    rw [this]

/-- The scale given by an interpretation. -/
def scaleMark (t : Nat × Str) : Option (Nat × Rat) :=
  if "*rscale:".toList <+: t.2 then
    match rscaleValue t.2 with
    | .ok v => some (t.1, v)
    | .error _ => none
  else none

/-- The scales given by the interpretations of a file. -/
def scalesOf : List RscaleLine → List (Nat × Rat)
  | [] => []
  | .interp toks :: ls =>
    toks.filterMap scaleMark ++ scalesOf ls
  | _ :: ls => scalesOf ls

theorem scalesOf_interp (ts : List (Nat × Str)) (ls : List RscaleLine) :
    scalesOf (.interp ts :: ls) = scalesOf [.interp ts] ++ scalesOf ls := by
  show _ ++ scalesOf ls = (_ ++ scalesOf []) ++ scalesOf ls
  rw [show scalesOf [] = [] from rfl, List.append_nil]

/-- What should be shown for a token of a track with a scale. -/
def scaledVis (scale : Rat) (text : Str) (duration : Rat) (kern : Bool) : Option Str :=
  if scale ≠ 1 ∧ kern = true ∧ tokIsNull text = false ∧ 0 ≤ duration then
    some (durationToRecip (tokenDurationNoDots text duration * scale) ++ List.replicate (tokenDotCount text) '.')
  else none

/-- The counter is the number of tracks with a scale. -/
structure RscaleInv (N : Nat) (before : List (Nat × Rat)) (S : RscaleSt) : Prop where
  scale : ∀ i, S.scale i = scaleOf i before
  above : ∀ i, N ≤ i → S.scale i = 1
  count : S.active = ((Finset.range N).filter (fun i => S.scale i ≠ 1)).card

theorem scaleOf_snoc (i : Nat) (before : List (Nat × Rat)) (t : Nat × Rat) :
    scaleOf i (before ++ [t]) = if t.1 = i then t.2 else scaleOf i before := by
  unfold scaleOf
  rw [filter_snoc]
  by_cases h : t.1 = i
  · simp [h]
  · simp [h]

theorem RscaleInv.set {N : Nat} {before : List (Nat × Rat)} {S : RscaleSt} (h : RscaleInv N before S) (track : Nat) (v : Rat)
    (ht : track < N) : RscaleInv N (before ++ [(track, v)]) (S.set track v) := by
  have hsc : ∀ i, (S.set track v).scale i = if i = track then v else S.scale i := by
    intro i
    unfold RscaleSt.set
    by_cases h1 : v = 1
    · rw [if_pos h1]
      by_cases h2 : S.scale track ≠ 1
      · rw [if_pos h2]; simp [h1]
      · rw [if_neg h2]
        by_cases hi : i = track
        · subst hi; simp at h2; simp [h1, h2]
        · simp [hi]
    · rw [if_neg h1]
  refine ⟨?_, ?_, ?_⟩
  · intro i
    rw [hsc, scaleOf_snoc]
    by_cases hi : i = track
    · simp [hi]
    · rw [if_neg hi, if_neg (fun e => hi e.symm), h.scale]
  · intro i hi
    rw [hsc, if_neg (by omega)]; exact h.above i hi
  · have hf : (Finset.range N).filter (fun i => (S.set track v).scale i ≠ 1) =
        if v = 1 then ((Finset.range N).filter (fun i => S.scale i ≠ 1)).erase track
        else insert track ((Finset.range N).filter (fun i => S.scale i ≠ 1)) := by
      ext i
      by_cases hv : v = 1
      · rw [if_pos hv]
        simp only [Finset.mem_filter, Finset.mem_range, Finset.mem_erase, hsc]
        by_cases hi : i = track
        · simp [hi, hv]
        · simp [hi]
      · rw [if_neg hv]
        simp only [Finset.mem_filter, Finset.mem_range, Finset.mem_insert, hsc]
        by_cases hi : i = track
        · simp [hi, hv, ht]
        · simp [hi]
    rw [hf]
    unfold RscaleSt.set
    have hmem : track ∈ (Finset.range N).filter (fun i => S.scale i ≠ 1) ↔ S.scale track ≠ 1 := by simp [ht]
    by_cases h1 : v = 1
    · rw [if_pos h1, if_pos h1]
      by_cases h2 : S.scale track ≠ 1
      · rw [if_pos h2, Finset.card_erase_of_mem (hmem.2 h2)]
        have : 0 < ((Finset.range N).filter (fun i => S.scale i ≠ 1)).card := Finset.card_pos.2 ⟨_, hmem.2 h2⟩
        have hc := h.count
        dsimp only
        omega
      · rw [if_neg h2, Finset.erase_eq_of_notMem (fun e => h2 (hmem.1 e))]; exact h.count
    · rw [if_neg h1, if_neg h1]
      by_cases h2 : S.scale track = 1
      · dsimp only
        rw [if_pos h2, Finset.card_insert_of_notMem (fun e => (hmem.1 e) h2), h.count]; rfl
      · dsimp only
        rw [if_neg h2, Finset.insert_eq_of_mem (hmem.2 h2)]; exact h.count

/-- All tracks of a file are below `N`. -/
def tracksBelow (N : Nat) (ls : List RscaleLine) : Prop := ∀ toks, .interp toks ∈ ls → ∀ t ∈ toks, t.1 < N

theorem rscaleInterp_inv (toks : List (Nat × Str)) (N : Nat) (before : List (Nat × Rat)) (S S' : RscaleSt) (h : RscaleInv N before S)
    (hN : ∀ t ∈ toks, t.1 < N) (hr : rscaleInterp toks S = .ok S') :
    RscaleInv N (before ++ scalesOf [.interp toks]) S' := by
  induction toks generalizing before S with
  | nil =>
    have hr := Except.ok.inj hr
    subst hr
    rw [show scalesOf [.interp []] = [] from rfl, List.append_nil]; exact h
  | cons t ts ih =>
    simp only [rscaleInterp] at hr
    have e : ∀ l, scalesOf [.interp l] = l.filterMap scaleMark := fun l => by
      show l.filterMap scaleMark ++ [] = _; rw [List.append_nil]
    rw [e] at ih ⊢
    rw [List.filterMap_cons]
    by_cases hs : startsWith t.2 "*rscale:".toList = true
    · rw [if_pos hs] at hr
      have hp := (startsWith_prefix _ _).1 hs
      cases hv : rscaleValue t.2 with
      | error e => rw [hv] at hr; exact absurd hr (by simp)
      | ok v =>
        rw [hv] at hr
        have := ih (before ++ [(t.1, v)]) _ (h.set t.1 v (hN t (by simp))) (fun u hu => hN u (by simp [hu])) hr
        have hm : scaleMark t = some (t.1, v) := by unfold scaleMark; rw [if_pos hp, hv]
        rw [hm]
        rw [List.append_assoc, List.singleton_append] at this
        exact this
    · rw [if_neg hs] at hr
      have hp : ¬ "*rscale:".toList <+: t.2 := fun e => hs ((startsWith_prefix _ _).2 e)
      have hm : scaleMark t = none := by unfold scaleMark; rw [if_neg hp]
      rw [hm]
      exact ih before S h (fun u hu => hN u (by simp [hu])) hr

theorem rscaleTok_spec (S : RscaleSt) (t : Nat × Str × Rat × Bool) :
    rscaleTok S t = scaledVis (S.scale t.1) t.2.1 t.2.2.1 t.2.2.2 := by
  unfold rscaleTok scaledVis
  by_cases h1 : S.scale t.1 = 1
  · simp [h1]
  · rw [if_neg h1]
    cases h2 : t.2.2.2 with
    | false => simp
    | true =>
      cases h3 : tokIsNull t.2.1 with
      | true => simp
      | false =>
        by_cases h4 : t.2.2.1 < 0
        · simp [h4]
        · have : 0 ≤ t.2.2.1 := not_lt.1 h4
          simp [h1, h4, this]

theorem rscaleLines_spec (ls : List RscaleLine) (N : Nat) (before : List (Nat × Rat)) (S : RscaleSt) (h : RscaleInv N before S)
    (hN : tracksBelow N ls) (r : List (List (Option Str))) (hr : rscaleLines ls S = .ok r) (i : Nat)
    (toks : List (Nat × Str × Rat × Bool)) (hi : ls[i]? = some (.data toks)) :
    r[i]? = some (toks.map (fun t => scaledVis (scaleOf t.1 (before ++ scalesOf (ls.take i))) t.2.1 t.2.2.1 t.2.2.2)) := by
  induction ls generalizing before S r i with
  | nil => simp at hi
  | cons l ls ih =>
    have hN' : tracksBelow N ls := fun ts hts => hN ts (by simp [hts])
    cases l with
    | interp ts =>
      simp only [rscaleLines] at hr
      cases hI : rscaleInterp ts S with
      | error e => rw [hI] at hr; exact absurd hr (by simp)
      | ok S1 =>
        rw [hI] at hr
        dsimp only at hr
        cases hL : rscaleLines ls S1 with
        | error e => rw [hL] at hr; exact absurd hr (by simp)
        | ok r1 =>
          rw [hL] at hr
          cases hr
          cases i with
          | zero => simp at hi
          | succ i =>
            rw [List.getElem?_cons_succ] at hi ⊢
            have := ih (before ++ scalesOf [.interp ts]) S1
              (rscaleInterp_inv ts N before S S1 h (hN ts (by simp)) hI) hN' r1 hL i hi
            rw [this, List.take_succ_cons, scalesOf_interp ts (ls.take i)]
            simp only [List.append_assoc]
    | data ts =>
      simp only [rscaleLines] at hr
      cases hL : rscaleLines ls S with
      | error e => rw [hL] at hr; exact absurd hr (by simp)
      | ok r1 =>
        rw [hL] at hr
        cases hr
        cases i with
        | zero =>
          simp only [List.getElem?_cons_zero, Option.some.injEq, RscaleLine.data.injEq] at hi
          subst hi
          simp only [List.getElem?_cons_zero, List.take_zero, scalesOf, List.append_nil, Option.some.injEq]
          by_cases ha : S.active = 0
          · rw [if_pos ha]
            apply List.map_congr_left
            intro t _
            have hsc : S.scale t.1 = 1 := by
              by_contra hne
              by_cases hlt : t.1 < N
              · have hc := h.count
                rw [ha] at hc
                have hz : ((Finset.range N).filter (fun i => S.scale i ≠ 1)).card = 0 := by exact_mod_cast hc.symm
                rw [Finset.card_eq_zero] at hz
                have : t.1 ∈ (Finset.range N).filter (fun i => S.scale i ≠ 1) := by simp [hlt, hne]
                rw [hz] at this
                simp at this
              · exact hne (h.above _ (by omega))
            rw [← h.scale, hsc]; simp [scaledVis]
          · rw [if_neg ha]
            apply List.map_congr_left
            intro t _
            rw [rscaleTok_spec, h.scale]
        | succ i =>
          rw [List.getElem?_cons_succ] at hi ⊢
          exact ih before S h hN' r1 hL i hi
    | other =>
      simp only [rscaleLines] at hr
      cases hL : rscaleLines ls S with
      | error e => rw [hL] at hr; exact absurd hr (by simp)
      | ok r1 =>
        rw [hL] at hr
        cases hr
        cases i with
        | zero => simp at hi
        | succ i =>
          rw [List.getElem?_cons_succ] at hi ⊢
          exact ih before S h hN' r1 hL i hi

theorem exists_bound (ls : List RscaleLine) : ∃ N, tracksBelow N ls := by
  induction ls with
  | nil => exact ⟨0, by intro _ h; simp at h⟩
  | cons l ls ih =>
    obtain ⟨N, hN⟩ := ih
    have hle : ∀ M, N ≤ M → tracksBelow M ls := fun M hM ts hts t ht => Nat.lt_of_lt_of_le (hN ts hts t ht) hM
    cases l with
    | interp ts =>
      obtain ⟨M, hM⟩ : ∃ M, ∀ t ∈ ts, t.1 < M := by
        clear hN hle
        induction ts with
        | nil => exact ⟨0, by simp⟩
        | cons t ts ih =>
          obtain ⟨M, hM⟩ := ih
          refine ⟨max M (t.1 + 1), ?_⟩
          intro u hu
          rcases List.mem_cons.1 hu with rfl | hu
          · omega
          · have := hM u hu; omega
      refine ⟨max N M, ?_⟩
      intro us hus
      rcases List.mem_cons.1 hus with e | hus
      · cases e
        intro t ht
        have := hM t ht; omega
      · exact hle _ (by omega) us hus
    | data ts =>
      refine ⟨N, fun us hus => ?_⟩
      rcases List.mem_cons.1 hus with e | hus
      · cases e
      · exact hN us hus
    | other =>
      refine ⟨N, fun us hus => ?_⟩
      rcases List.mem_cons.1 hus with e | hus
      · cases e
      · exact hN us hus

theorem RscaleInv.init (N : Nat) : RscaleInv N [] ⟨0, fun _ => 1⟩ := by
  refine ⟨fun i => rfl, fun i _ => rfl, ?_⟩
  simp

/-- C54. Every note gets the rhythm to show from the last scale given in its own track, and notes in tracks without a scale get none:
the counter of scaled tracks never hides a scale. -/
theorem rscale_shown (ls : List RscaleLine) (r : List (List (Option Str))) (hr : rscale ls = .ok r) (i : Nat)
    (toks : List (Nat × Str × Rat × Bool)) (hi : ls[i]? = some (.data toks)) :
    r[i]? = some (toks.map (fun t => scaledVis (scaleOf t.1 (scalesOf (ls.take i))) t.2.1 t.2.2.1 t.2.2.2)) := by
  obtain ⟨N, hN⟩ := exists_bound ls
  have := rscaleLines_spec ls N [] _ (RscaleInv.init N) hN r hr i toks hi
  rw [List.nil_append] at this; exact this

/-- C54. Reading any interpretations keeps the counter equal to the number of tracks whose scale is not 1. -/
theorem rscale_counter (lines : List (List (Nat × Str))) (N : Nat) (hN : ∀ toks ∈ lines, ∀ t ∈ toks, t.1 < N) (S : RscaleSt)
    (hr : lines.foldlM (fun S toks => rscaleInterp toks S) ⟨0, fun _ => 1⟩ = .ok S) :
    S.active = ((Finset.range N).filter (fun i => S.scale i ≠ 1)).card := by
  have gen : ∀ (lines : List (List (Nat × Str))) (before : List (Nat × Rat)) (S0 : RscaleSt), RscaleInv N before S0 →
      (∀ toks ∈ lines, ∀ t ∈ toks, t.1 < N) → lines.foldlM (fun S toks => rscaleInterp toks S) S0 = .ok S →
      ∃ b, RscaleInv N b S := by
    intro lines
    induction lines with
    | nil => intro b S0 h _ hr; cases hr; exact ⟨b, h⟩
    | cons toks lines ih =>
      intro b S0 h hN hr
      rw [List.foldlM_cons] at hr
      cases hI : rscaleInterp toks S0 with
      | error e => rw [hI] at hr; cases hr
      | ok S1 =>
        rw [hI] at hr
        exact ih _ S1 (rscaleInterp_inv toks N b S0 S1 h (hN toks (by simp)) hI) (fun t ht => hN t (by simp [ht])) hr
  obtain ⟨b, h⟩ := gen lines [] _ (RscaleInv.init N) hN hr
  exact h.count

/-- C54. The rhythm shown stands for the scaled duration, when the scaled undotted rhythm has no dots itself. -/
theorem rscale_duration_partial (b : RBase) (dots : Nat) (pre suf : Str) (scale : Rat) (s : RBase) (hv : s.Valid)
    (hp : Inert pre) (hs : Inert suf) (hscale : s.wholes = b.wholes * scale) (htext : durationToRecip (4 * s.wholes) = s.text)
    (hne : scale ≠ 1) (hb : 0 ≤ b.wholes) (hnull : tokIsNull (pre ++ b.text ++ List.replicate dots '.' ++ suf) = false) :
    ∃ vis, scaledVis scale (pre ++ b.text ++ List.replicate dots '.' ++ suf) (4 * b.wholes * (2 - 1 / 2 ^ dots)) true = some vis ∧
      recipToDuration vis = .ok (4 * b.wholes * (2 - 1 / 2 ^ dots) * scale) := by
  have hdots : tokenDotCount (pre ++ b.text ++ List.replicate dots '.' ++ suf) = dots := by
    rw [tokenDotCount_eq]
    obtain ⟨bt1, bt2, _⟩ := base_text_chars b
    have hsub : firstSub (pre ++ b.text ++ List.replicate dots '.' ++ suf) = pre ++ b.text ++ List.replicate dots '.' ++ suf := by
      have := firstSub_append (pre ++ b.text ++ List.replicate dots '.' ++ suf) [] (by
        simp only [List.mem_append, not_or]
        exact ⟨⟨⟨fun h => (hp _ h).2.2.1 rfl, bt2⟩, fun h => absurd (List.eq_of_mem_replicate h) (by decide)⟩,
          fun h => (hs _ h).2.2.1 rfl⟩) (Or.inl rfl)
      rw [List.append_nil] at this; exact this
    rw [hsub]
    simp only [countChar_append, countChar_replicate, countChar_zero _ _ bt1,
      countChar_zero _ _ (fun h => (hp _ h).2.1 rfl), countChar_zero _ _ (fun h => (hs _ h).2.1 rfl)]
    omega
  have hpow : (1 : Rat) / 2 ^ dots ≤ 1 := by
    have h1 : (1 : Rat) ≤ 2 ^ dots := one_le_pow₀ (by norm_num)
    have h2 : (0 : Rat) < 2 ^ dots := by linarith
    have h3 : (1 : Rat) / 2 ^ dots * 2 ^ dots = 1 := by field_simp
    by_contra hc
    have hc : 1 < (1 : Rat) / 2 ^ dots := not_le.1 hc
    nlinarith
  have hdur : (0 : Rat) ≤ 4 * b.wholes * (2 - 1 / 2 ^ dots) := by
    apply mul_nonneg
    · linarith
    · linarith
  unfold scaledVis
  rw [if_pos ⟨hne, rfl, hnull, hdur⟩]
  have hn := tokenNoDots_spec (pre ++ b.text ++ List.replicate dots '.' ++ suf) (4 * b.wholes)
  rw [hdots] at hn
  rw [hn, hdots]
  have e : 4 * b.wholes * scale = 4 * s.wholes := by rw [hscale]; ring
  rw [e, htext]
  refine ⟨_, rfl, ?_⟩
  have := dotted_duration [] s dots [] [] hv (by simp [Inert]) (by simp [Inert]) (Or.inl rfl)
  rw [List.nil_append, List.append_nil, List.append_nil] at this
  rw [this, hscale]
  congr 1; ring

example : scaledVis 2 "8.cc#L".toList (3 / 4) true = some "4.".toList ∧
    scaledVis (3 / 2) "4c".toList 1 true = some "4.".toList := by decide +kernel

/-- C54. A scale that gives dots to a note that has dots is shown wrong: a dotted quarter scaled by 3/2 lasts 9/4, and is shown as
a quarter with two dots, 7/4. -/
theorem rscale_dots_wrong : scaledVis (3 / 2) "4.c".toList (3 / 2) true = some "4..".toList ∧
    recipToDuration "4..".toList = .ok (7 / 4) := by
  constructor <;> decide +kernel

example : rscale [.interp [(1, "*rscale:2".toList), (2, "*".toList)], .data [(1, "4c".toList, 1, true), (2, "4c".toList, 1, true)],
    .interp [(1, "*rscale:1".toList), (2, "*rscale:1/2".toList)], .data [(1, "4c".toList, 1, true), (2, "4.c".toList, 3 / 2, true)]] =
    .ok [[], [some "2".toList, none], [], [none, some "8.".toList]] := by decide +kernel

/-! ## C31: spine colors -/

theorem ColorSt.row_put (S : ColorSt) (a b : Nat) (v : Str) : (S.put a b v).row = S.row := rfl

theorem colorTok_row (S : ColorSt) (t : Nat × Nat × Str) : (colorTok S t).row = S.row := by
  have hf : ∀ (l : List Nat) (S : ColorSt) (c : Str), (l.foldl (fun S z => S.put t.1 z c) S).row = S.row := by
    intro l
    induction l with
    | nil => intro S c; rfl
    | cons z zs ih => intro S c; rw [List.foldl_cons, ih]; rfl
  unfold colorTok
  dsimp only
  split
  · split
    · split
      · rfl
      · split
        · rw [hf]; rfl
        · rfl
    · rfl
  · rfl

theorem initColors_row (toks : List (Nat × Nat × Str)) (i : Nat) : (initColors toks).row i = 0 := by
  have : ∀ (toks : List (Nat × Nat × Str)) (S : ColorSt), (toks.foldl colorTok S).row = S.row := by
    intro toks
    induction toks with
    | nil => intro S; rfl
    | cons t ts ih => intro S; rw [List.foldl_cons, ih, colorTok_row]
  unfold initColors
  rw [this]; rfl

/-- C31 is false of the code: all tracks always have the same colors. -/
theorem color_tracks_equal (toks : List (Nat × Nat × Str)) (a b sub : Nat) :
    (initColors toks).get a sub = (initColors toks).get b sub := by
  unfold ColorSt.get
  rw [initColors_row, initColors_row]

/-- C31, negation: a color given in track 1 only is the color of track 2. -/
theorem color_leaks : (initColors [(1, 0, "*color:red".toList)]).get 2 0 = "red".toList ∧
    colorOf 2 0 [(1, 0, "red".toList)] = [] := by
  constructor <;> decide +kernel

/-- The color marks of the tokens before the music. -/
def colorMarks (toks : List (Nat × Nat × Str)) : List (Nat × Nat × Str) :=
  toks.filterMap (fun t => if "*color:".toList <+: t.2.2 then some (t.1, t.2.1, t.2.2.drop 7) else none)

theorem colorOf_snoc (track sub : Nat) (marks : List (Nat × Nat × Str)) (m : Nat × Nat × Str) :
    colorOf track sub (marks ++ [m]) =
      if m.1 = track ∧ (m.2.1 = sub ∨ m.2.1 = 0 ∨ (m.2.1 = 1 ∧ sub = 0)) then m.2.2 else colorOf track sub marks := by
  unfold colorOf
  rw [filter_snoc]
  by_cases h : m.1 = track ∧ (m.2.1 = sub ∨ m.2.1 = 0 ∨ (m.2.1 = 1 ∧ sub = 0))
  · rw [if_pos (by simpa using h), if_pos h]; simp
  · rw [if_neg (by simpa using h), if_neg h]

theorem put_all (l : List Nat) (S : ColorSt) (tr : Nat) (c : Str) (r i : Nat) :
    (l.foldl (fun S z => S.put tr z c) S).heap r i = if r = S.row tr ∧ i ∈ l then c else S.heap r i := by
  induction l generalizing S with
  | nil => simp
  | cons z zs ih =>
    rw [List.foldl_cons, ih]
    simp only [ColorSt.put, List.mem_cons]
    by_cases h1 : r = S.row tr
    · by_cases h2 : i ∈ zs
      · simp [h1, h2]
      · by_cases h3 : i = z
        · simp [h1, h3]
        · simp [h1, h2, h3]
    · simp [h1]

theorem takeWhile_id (s : Str) (h : '\n' ∉ s) : s.takeWhile (· != '\n') = s := by
  have := List.takeWhile_append_of_pos (p := fun c => c != '\n') (l₁ := s) (l₂ := []) (by
    intro c hc
    simp only [bne_iff_ne, ne_eq]
    rintro rfl; exact h hc)
  simpa using this

/-- C31. When all color marks before the music are in one track (and its subspines are fewer than 30), every subspine of that track
has the color of the last mark that is for it. -/
theorem color_single_track_partial (toks : List (Nat × Nat × Str)) (track sub : Nat) (hs : sub < 30)
    (ht : ∀ t ∈ toks, "*color:".toList <+: t.2.2 → t.1 = track ∧ t.2.1 < 30 ∧ '\n' ∉ t.2.2) :
    (initColors toks).get track sub = colorOf track sub (colorMarks toks) := by
  induction toks using List.reverseRecOn with
  | nil => rfl
  | append_singleton toks t ih =>
    have ih := ih (fun u hu => ht u (by simp [hu]))
    unfold initColors at ih ⊢
    rw [List.foldl_append, List.foldl_cons, List.foldl_nil]
    unfold colorMarks at ih ⊢
    rw [List.filterMap_append]
    have hrow : ∀ i, (toks.foldl colorTok ColorSt.init).row i = 0 := initColors_row toks
    generalize toks.foldl colorTok ColorSt.init = S at ih hrow
    by_cases hp : "*color:".toList <+: t.2.2
    · obtain ⟨h1, h2, h3⟩ := ht t (by simp) hp
      have hst := (startsWith_prefix t.2.2 "*color:".toList).2 hp
      have hfm : [t].filterMap (fun t => if "*color:".toList <+: t.2.2 then some (t.1, t.2.1, t.2.2.drop 7) else none) =
          [(t.1, t.2.1, t.2.2.drop 7)] := by
        simp only [List.filterMap_cons, List.filterMap_nil]; rw [if_pos hp]
      rw [hfm, colorOf_snoc]
      have hdr : (t.2.2.drop 7).takeWhile (· != '\n') = t.2.2.drop 7 := takeWhile_id _ (fun e => h3 (List.mem_of_mem_drop e))
      unfold colorTok
      rw [if_pos hst]
      dsimp only
      rw [if_pos h2, hdr]
      unfold ColorSt.get at ih ⊢
      by_cases c1 : t.2.1 = 1
      · rw [if_pos c1]
        simp only [ColorSt.put, hrow, h1, c1] at ih ⊢
        by_cases c2 : sub = 0
        · simp [c2]
        · by_cases c3 : sub = 1
          · simp [c3]
          · rw [if_neg (by omega), if_neg (by omega), if_neg (by omega)]; exact ih
      · rw [if_neg c1]
        by_cases c0 : t.2.1 = 0
        · rw [if_pos c0]
          rw [put_all]
          have hr2 : ∀ z, (List.foldl (fun S z => S.put t.1 z (t.2.2.drop 7)) (S.put t.1 t.2.1 (t.2.2.drop 7)) z).row track = 0 := by
            intro z
            have : ∀ (l : List Nat) (S : ColorSt), (l.foldl (fun S z => S.put t.1 z (t.2.2.drop 7)) S).row = S.row := by
              intro l
              induction l with
              | nil => intro S; rfl
              | cons z zs ih => intro S; rw [List.foldl_cons, ih]; rfl
            rw [this]; exact hrow track
          rw [hr2]
          rw [if_pos (show t.1 = track ∧ _ from ⟨h1, Or.inr (Or.inl c0)⟩)]
          simp only [ColorSt.put, hrow, c0]
          by_cases c3 : sub = 0
          · subst c3; simp
          · rw [if_pos]
            refine ⟨trivial, ?_⟩
            rw [List.mem_drop_iff_getElem]
            exact ⟨sub - 1, by simp; omega, by simp; omega⟩
        · rw [if_neg c0]
          simp only [ColorSt.put, hrow, h1] at ih ⊢
          by_cases c2 : sub = t.2.1
          · simp [c2]
          · rw [if_neg (fun e => c2 e.2), if_neg (by omega)]; exact ih
    · have hst : ¬ startsWith t.2.2 "*color:".toList = true := fun e => hp ((startsWith_prefix _ _).1 e)
      have hfm : [t].filterMap (fun t => if "*color:".toList <+: t.2.2 then some (t.1, t.2.1, t.2.2.drop 7) else none) =
          ([] : List (Nat × Nat × Str)) := by
        simp only [List.filterMap_cons, List.filterMap_nil]; rw [if_neg hp]
      rw [hfm, List.append_nil]
      unfold colorTok
      rw [if_neg hst]
      exact ih

example : (initColors [(1, 0, "*color:red".toList), (1, 2, "*color:blue".toList), (2, 0, "*clefG2".toList)]).get 1 2 = "blue".toList ∧
    (initColors [(1, 0, "*color:red".toList), (1, 2, "*color:blue".toList)]).get 1 3 = "red".toList := by
  constructor <;> decide +kernel

end C21
