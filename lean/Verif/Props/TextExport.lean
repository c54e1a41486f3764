import Verif.Props.Text
/-
Property theorems for exported text (C48) and tempo text (C49).
-/
namespace C21
open HumParamSet

/-! ## C48: exported text cannot break the line structure -/

theorem cleanChar_safe (c x : Char) (hx : x ∈ cleanChar c) :
    x ≠ ':' ∧ x ≠ '\t' ∧ x ≠ '\n' ∧ x ≠ '\r' ∧ x ≠ Char.ofNat 11 ∧ x ≠ Char.ofNat 12 ∧ x ≠ nbsp := by
  unfold cleanChar at hx
  split at hx
  · revert x; decide
  split at hx
  · revert x; decide
  split at hx
  · revert x; decide
  split at hx
  · revert x; decide
  · next h1 h2 h3 h4 =>
    simp only [List.mem_cons, List.not_mem_nil, or_false] at hx
    subst hx
    simp only [Bool.or_eq_true, decide_eq_true_eq, not_or] at h4
    exact ⟨h2, h4.1.1.1, h3, h4.1.1.2, h4.1.2, h4.2, h1⟩

theorem mem_strip (s : Str) (x : Char) (h : x ∈ strip s) : x ∈ s := by
  unfold strip at h
  rw [List.mem_reverse] at h
  have h1 := (List.dropWhile_sublist isPySpace).mem h
  rw [List.mem_reverse] at h1
  exact (List.dropWhile_sublist isPySpace).mem h1

/-- C48. Whatever the text, the cleaned text has no colon, tab, line break or non-breaking space. -/
theorem clean_no_separators (s : Str) (x : Char) (hx : x ∈ cleanSpacesAndColons s) :
    x ≠ ':' ∧ x ≠ '\t' ∧ x ≠ '\n' ∧ x ≠ '\r' ∧ x ≠ Char.ofNat 11 ∧ x ≠ Char.ofNat 12 ∧ x ≠ nbsp := by
  have := mem_strip _ _ hx
  obtain ⟨c, _, hc⟩ := List.mem_flatMap.1 this
  exact cleanChar_safe c x hc

/-- A color that may be put in a layout parameter. -/
def SafeColor (style : Option TextStyle) : Prop :=
  ∀ st, style = some st → ∀ col, st.color = some col →
    ':' ∉ col ∧ '\t' ∉ col ∧ '\n' ∉ col ∧ '\r' ∉ col

/-- The optional parameters (between the namespace and the text) as a list of pieces. -/
theorem styles_pieces (placement : Option Str) (style : Option TextStyle) (hc : SafeColor style) :
    ∃ pieces : List Str,
      textPlacement placement style ++ textStyles style = pieces.flatMap (fun p => ':' :: p) ∧
      (∀ p ∈ pieces, ':' ∉ p ∧ '\t' ∉ p ∧ '\n' ∉ p ∧ '\r' ∉ p ∧ (nameValue p).1 ≠ "t".toList) := by
  have hp : textPlacement placement style = [] ∨ textPlacement placement style = ":a".toList ∨
      textPlacement placement style = ":b".toList ∨ textPlacement placement style = ":c".toList := by
    unfold textPlacement
    simp only
    repeat' split
    all_goals simp
  have hf : ∀ st, textFont st = [] ∨ textFont st = ":Bi".toList ∨ textFont st = ":i".toList ∨
      textFont st = ":B".toList := by
    intro st; unfold textFont; simp only
    repeat' split
    all_goals simp
  have hj : ∀ st, textJustify st = [] ∨ textJustify st = ":rj".toList ∨ textJustify st = ":cj".toList := by
    intro st; unfold textJustify
    repeat' split
    all_goals simp
  have seg : ∀ (x : Str) (opts : List Str), (∀ p ∈ opts, ':' ∉ p ∧ '\t' ∉ p ∧ '\n' ∉ p ∧ '\r' ∉ p ∧
      (nameValue p).1 ≠ "t".toList) → (x = [] ∨ ∃ p ∈ opts, x = ':' :: p) →
      ∃ ps : List Str, x = ps.flatMap (fun p => ':' :: p) ∧ ∀ p ∈ ps, ':' ∉ p ∧ '\t' ∉ p ∧ '\n' ∉ p ∧
        '\r' ∉ p ∧ (nameValue p).1 ≠ "t".toList := by
    intro x opts ho hx
    rcases hx with h | ⟨p, hp, rfl⟩
    · exact ⟨[], by simp [h], by simp⟩
    · exact ⟨[p], by simp, by intro q hq; simp at hq; subst hq; exact ho _ hp⟩
  obtain ⟨p1, e1, s1⟩ := seg (textPlacement placement style) ["a".toList, "b".toList, "c".toList]
    (by decide) (by rcases hp with h | h | h | h <;> simp [h])
  cases style with
  | none => exact ⟨p1, by simp [e1, textStyles], s1⟩
  | some st =>
    obtain ⟨p2, e2, s2⟩ := seg (textFont st) ["Bi".toList, "i".toList, "B".toList]
      (by decide) (by rcases hf st with h | h | h | h <;> simp [h])
    obtain ⟨p3, e3, s3⟩ := seg (textJustify st) ["rj".toList, "cj".toList]
      (by decide) (by rcases hj st with h | h | h <;> simp [h])
    have h4 : ∃ ps : List Str, textColor st = ps.flatMap (fun p => ':' :: p) ∧
        ∀ p ∈ ps, ':' ∉ p ∧ '\t' ∉ p ∧ '\n' ∉ p ∧ '\r' ∉ p ∧ (nameValue p).1 ≠ "t".toList := by
      unfold textColor
      split
      · next c cs hcol =>
        have h := hc st rfl _ hcol
        refine ⟨["color=".toList ++ (c :: cs)], by simp, ?_⟩
        intro p hp
        simp only [List.mem_cons, List.not_mem_nil, or_false] at hp
        subst hp
        refine ⟨?_, ?_, ?_, ?_, ?_⟩
        · intro hm; rcases List.mem_append.1 hm with h' | h'
          · revert h'; decide
          · exact h.1 h'
        · intro hm; rcases List.mem_append.1 hm with h' | h'
          · revert h'; decide
          · exact h.2.1 h'
        · intro hm; rcases List.mem_append.1 hm with h' | h'
          · revert h'; decide
          · exact h.2.2.1 h'
        · intro hm; rcases List.mem_append.1 hm with h' | h'
          · revert h'; decide
          · exact h.2.2.2 h'
        · have : "color=".toList ++ (c :: cs) = "color".toList ++ '=' :: (c :: cs) := by simp
          rw [this, nameValue, splitFirst_append _ _ _ (by decide)]
          show "color".toList ≠ "t".toList
          decide
      · exact ⟨[], by simp, by simp⟩
    obtain ⟨p4, e4, s4⟩ := h4
    refine ⟨p1 ++ p2 ++ p3 ++ p4, ?_, ?_⟩
    · simp only [textStyles, List.flatMap_append, ← e1, ← e2, ← e3, ← e4, List.append_assoc]
    · intro p hp
      simp only [List.mem_append] at hp
      rcases hp with ((h | h) | h) | h
      · exact s1 p h
      · exact s2 p h
      · exact s3 p h
      · exact s4 p h

theorem splitOn_pieces (c : Char) (head : Str) (ps : List Str) (hh : c ∉ head) (h : ∀ p ∈ ps, c ∉ p) :
    splitOn c (head ++ ps.flatMap (fun p => c :: p)) = head :: ps := by
  induction ps generalizing head with
  | nil => simpa using splitOn_of_not_mem c head hh
  | cons p rest ih =>
    simp only [List.flatMap_cons, List.cons_append]
    rw [splitOn_append_sep _ _ _ hh, ih p (h p (by simp)) (fun q hq => h q (by simp [hq]))]

/-- C48. The layout parameter exported for any text is a single token of a single line, and is parsed as
`LO:TX` with exactly one text parameter, in last place, holding the cleaned text. -/
theorem textLayout_parses (content : Str) (placement : Option Str) (style : Option TextStyle)
    (hc : SafeColor style) (out : Str) (h : textLayoutParameter content placement style = some out) :
    '\t' ∉ out ∧ '\n' ∉ out ∧ '\r' ∉ out ∧
    ∃ (ps : List (Str × Str)) (c : Str), translateSMUFL content = some c ∧
      ({} : HumParamSet).readString out =
        ⟨"LO".toList, "TX".toList, ps ++ [("t".toList, cleanSpacesAndColons c)]⟩ ∧
      ∀ p ∈ ps, p.1 ≠ "t".toList := by
  unfold textLayoutParameter at h
  cases ht : translateSMUFL content with
  | none => simp [ht] at h
  | some c =>
    rw [ht] at h
    simp only [Option.map_some, Option.some.injEq] at h
    obtain ⟨pieces, hpe, hps⟩ := styles_pieces placement style hc
    have hout : out = "!LO".toList ++ ("TX".toList :: pieces ++ ["t=".toList ++ cleanSpacesAndColons c]).flatMap
        (fun p => ':' :: p) := by
      rw [← h]
      simp only [List.flatMap_append, List.flatMap_cons, ← hpe]
      simp [List.append_assoc]
    have hcl := clean_no_separators c
    have mem_out : ∀ x, x ∈ out → x ∈ "!LO:TX:t=".toList ∨ (∃ p ∈ pieces, x ∈ p) ∨
        x ∈ cleanSpacesAndColons c := by
      intro x hx
      rw [hout] at hx
      rcases List.mem_append.1 hx with h1 | h1
      · left
        have hall : ∀ y ∈ "!LO".toList, y ∈ "!LO:TX:t=".toList := by decide
        exact hall _ h1
      · obtain ⟨p, hp, hxp⟩ := List.mem_flatMap.1 h1
        simp only [List.mem_append, List.mem_cons, List.not_mem_nil, or_false] at hp
        rcases hp with (rfl | hp) | rfl
        · left
          have hall : ∀ y ∈ ':' :: "TX".toList, y ∈ "!LO:TX:t=".toList := by decide
          exact hall _ hxp
        · rcases List.mem_cons.1 hxp with e | e
          · left; subst e; decide
          · exact Or.inr (Or.inl ⟨p, hp, e⟩)
        · rcases List.mem_cons.1 hxp with e | e
          · left; subst e; decide
          · rcases List.mem_append.1 e with e | e
            · left
              have hall : ∀ y ∈ "t=".toList, y ∈ "!LO:TX:t=".toList := by decide
              exact hall _ e
            · exact Or.inr (Or.inr e)
    refine ⟨?_, ?_, ?_, ?_⟩
    · intro hm
      rcases mem_out _ hm with h1 | ⟨p, hp, h1⟩ | h1
      · revert h1; decide
      · exact (hps p hp).2.1 h1
      · exact (hcl _ h1).2.1 rfl
    · intro hm
      rcases mem_out _ hm with h1 | ⟨p, hp, h1⟩ | h1
      · revert h1; decide
      · exact (hps p hp).2.2.1 h1
      · exact (hcl _ h1).2.2.1 rfl
    · intro hm
      rcases mem_out _ hm with h1 | ⟨p, hp, h1⟩ | h1
      · revert h1; decide
      · exact (hps p hp).2.2.2.1 h1
      · exact (hcl _ h1).2.2.2.1 rfl
    · refine ⟨pieces.map nameValue, c, rfl, ?_, ?_⟩
      · have hsk : skipBangs out = "LO".toList ++ ("TX".toList :: pieces ++
            ["t=".toList ++ cleanSpacesAndColons c]).flatMap (fun p => ':' :: p) := by
          rw [hout]
          exact skipBangs_layout 1 _ ⟨'L', _, rfl, by decide⟩
        have hsp : splitOn ':' (skipBangs out) = "LO".toList :: ("TX".toList :: pieces ++
            ["t=".toList ++ cleanSpacesAndColons c]) := by
          rw [hsk]
          apply splitOn_pieces _ _ _ (by decide)
          intro p hp
          simp only [List.cons_append, List.mem_append, List.mem_cons, List.not_mem_nil, or_false] at hp
          rcases hp with rfl | hp | rfl
          · decide
          · exact (hps p hp).1
          · intro hm
            rcases List.mem_append.1 hm with e | e
            · revert e; decide
            · exact (hcl _ e).1 rfl
        have hlast : nameValue ("t=".toList ++ cleanSpacesAndColons c) = ("t".toList, cleanSpacesAndColons c) := by
          have : "t=".toList ++ cleanSpacesAndColons c = "t".toList ++ '=' :: cleanSpacesAndColons c := by simp
          rw [this, nameValue, splitFirst_append _ _ _ (by decide)]
        unfold readString
        rw [hsp]
        cases pieces with
        | nil => simp only [List.nil_append, List.cons_append, List.map_cons, List.map_nil, hlast]
        | cons q qs =>
          simp only [List.cons_append, List.map_cons, List.map_append, List.map_nil, List.nil_append, hlast]
      · intro p hp
        obtain ⟨q, hq, rfl⟩ := List.mem_map.1 hp
        exact (hps q hq).2.2.2.2

example : textLayoutParameter "a:\tb".toList (some "above".toList)
    (some { fontStyle := some "italic".toList, color := some "red".toList }) =
    some "!LO:TX:a:i:color=red:t=a&colon; b".toList := by decide +kernel

/-- The hypothesis on colors is needed: a color is exported without cleaning. -/
theorem textLayout_color_unsafe :
    ∃ out, textLayoutParameter "x".toList none (some { color := some "a\tb".toList }) = some out ∧
      '\t' ∈ out := ⟨_, rfl, by decide +kernel⟩

/-! ### Text content survives export and import -/

theorem unescape_nbsp (rest : Str) :
    unescapeGo 0 ("&nbsp;".toList ++ rest) = nbsp :: unescapeGo 0 rest := rfl

theorem unescape_colon (rest : Str) :
    unescapeGo 0 ("&colon;".toList ++ rest) = ':' :: unescapeGo 0 rest := rfl

/-- What un-escaping leaves of one exported character. -/
def unescaped (c : Char) : Str :=
  if c = '\n' then ['\\', 'n']
  else if c = '\t' || c = '\r' || c = Char.ofNat 11 || c = Char.ofNat 12 then [' '] else [c]

theorem unescape_char (c : Char) (h : c ≠ '&') (rest : Str) :
    unescapeGo 0 (cleanChar c ++ rest) = unescaped c ++ unescapeGo 0 rest := by
  have single : ∀ x : Char, x ≠ '&' → ∀ rest, unescapeGo 0 (x :: rest) = x :: unescapeGo 0 rest := by
    intro x hx rest
    have hx' : ('&' == x) = false := by simpa using fun e : '&' = x => hx e.symm
    simp [unescapeGo, List.isPrefixOf, hx']
  by_cases h1 : c = nbsp
  · subst h1; rfl
  by_cases h2 : c = ':'
  · subst h2; rfl
  by_cases h3 : c = '\n'
  · subst h3
    show unescapeGo 0 ('\\' :: 'n' :: rest) = _
    rw [single _ (by decide), single _ (by decide)]
    rfl
  unfold cleanChar unescaped
  simp only [h1, h2, h3, if_false]
  split
  · exact single _ (by decide) _
  · exact single _ h _

theorem unescape_clean (s : Str) (h : '&' ∉ s) :
    unescapeGo 0 (s.flatMap cleanChar) = s.flatMap unescaped := by
  induction s with
  | nil => rfl
  | cons c cs ih =>
    simp only [List.mem_cons, not_or] at h
    simp only [List.flatMap_cons]
    rw [unescape_char c (fun e => h.1 e.symm), ih h.2]

theorem replace_newlines (s : Str) (h : '\\' ∉ s) :
    replaceGo ['\\', 'n'] ['\n'] 0 (s.flatMap (fun c => if c = '\n' then ['\\', 'n'] else [c])) = s := by
  induction s with
  | nil => rfl
  | cons c cs ih =>
    simp only [List.mem_cons, not_or] at h
    simp only [List.flatMap_cons]
    by_cases hc : c = '\n'
    · subst hc
      simp [replaceGo, List.isPrefixOf, ih h.2]
    · have hx : ('\\' == c) = false := by simpa using fun e : '\\' = c => h.1 e
      simp [hc, replaceGo, List.isPrefixOf, hx, ih h.2]

theorem dropWhile_head {p : Char → Bool} {s : Str} (h : ∀ c, s.head? = some c → p c = false) :
    s.dropWhile p = s := by
  cases s with
  | nil => rfl
  | cons c cs => simp [h c rfl]

theorem strip_id (s : Str) (h1 : ∀ c, s.head? = some c → isPySpace c = false)
    (h2 : ∀ c, s.getLast? = some c → isPySpace c = false) : strip s = s := by
  unfold strip
  rw [dropWhile_head h1, dropWhile_head (by intro c hc; rw [List.head?_reverse] at hc; exact h2 c hc)]
  simp

/-- C48. A text without '&', backslash or tab-like control characters, which neither begins nor ends with
white space (other than line breaks and non-breaking spaces), is recovered exactly by the importer. -/
theorem text_roundtrip_partial (s : Str) (h1 : '&' ∉ s) (h2 : '\\' ∉ s)
    (h3 : ∀ c ∈ s, c ≠ '\t' ∧ c ≠ '\r' ∧ c ≠ Char.ofNat 11 ∧ c ≠ Char.ofNat 12)
    (h4 : ∀ c, s.head? = some c → isPySpace c = false ∨ c = nbsp ∨ c = '\n')
    (h5 : ∀ c, s.getLast? = some c → isPySpace c = false ∨ c = nbsp ∨ c = '\n') :
    importText (cleanSpacesAndColons s) = s := by
  have hne : ∀ c, cleanChar c ≠ [] := by
    intro c; unfold cleanChar; repeat' split
    all_goals simp
  have good : ∀ c, c ∈ s → (isPySpace c = false ∨ c = nbsp ∨ c = '\n') →
      (∀ x, (cleanChar c).head? = some x → isPySpace x = false) ∧
      (∀ x, (cleanChar c).getLast? = some x → isPySpace x = false) := by
    intro c hcs hc
    unfold cleanChar
    split
    · decide +kernel
    split
    · decide +kernel
    split
    · decide +kernel
    split
    · next hh =>
      exfalso
      have := h3 c hcs
      simp [this] at hh
    · next a b d e =>
      rcases hc with hc | hc | hc
      · simp [hc]
      · exact absurd hc a
      · exact absurd hc d
  have hstrip : cleanSpacesAndColons s = s.flatMap cleanChar := by
    unfold cleanSpacesAndColons
    cases hs : s with
    | nil => decide
    | cons a as =>
      apply strip_id
      · intro x hx
        simp only [List.flatMap_cons] at hx
        rw [List.head?_append] at hx
        cases hh : (cleanChar a).head? with
        | none => simp at hh; exact absurd hh (hne a)
        | some y =>
          rw [hh] at hx
          simp only [Option.some_or, Option.some.injEq] at hx
          subst hx
          exact (good a (by simp [hs]) (h4 a (by simp [hs]))).1 _ hh
      · intro x hx
        obtain ⟨l, z, hl⟩ : ∃ l z, a :: as = l ++ [z] :=
          ⟨(a :: as).dropLast, (a :: as).getLast (by simp), (List.dropLast_concat_getLast (by simp)).symm⟩
        rw [hl] at hx
        simp only [List.flatMap_append, List.flatMap_cons, List.flatMap_nil, List.append_nil] at hx
        rw [List.getLast?_append] at hx
        cases hh : (cleanChar z).getLast? with
        | none => simp at hh; exact absurd hh (hne z)
        | some y =>
          rw [hh] at hx
          simp only [Option.some_or, Option.some.injEq] at hx
          subst hx
          exact (good z (by simp [hs, hl]) (h5 z (by simp [hs, hl]))).2 _ hh
  rw [importText, hstrip, unescape_clean s h1, replaceAll]
  have : s.flatMap unescaped =
      s.flatMap (fun c => if c = '\n' then ['\\', 'n'] else [c]) := by
    clear hstrip h4 h5 good
    induction s with
    | nil => rfl
    | cons a as ih =>
      simp only [List.mem_cons, not_or] at h1 h2
      simp only [List.flatMap_cons]
      rw [ih h1.2 h2.2 (fun c hc => h3 c (by simp [hc]))]
      have := h3 a (by simp)
      simp [unescaped, this]
  rw [this, replace_newlines s h2]

example : importText (cleanSpacesAndColons "Allegro: con\nbrio".toList) = "Allegro: con\nbrio".toList := by
  decide +kernel

/-- The exclusion of '&' is needed: a text that already looks escaped is changed by the trip. -/
theorem text_roundtrip_fails_on_entities :
    importText (cleanSpacesAndColons "a&colon;b".toList) = "a:b".toList := by decide +kernel

/-! ## C49: tempo text conversion -/

/-- The characters skipped after a note glyph. -/
def isDotOrThin (c : Char) : Bool := isThin c || c == smuflDot

theorem scanDots_none_iff (s : Str) : scanDots s = none ↔ ∀ c ∈ s, isDotOrThin c = true := by
  induction s with
  | nil => simp [scanDots]
  | cons c cs ih =>
    simp only [scanDots, List.mem_cons, forall_eq_or_imp]
    by_cases h1 : isThin c = true
    · have hd : isDotOrThin c = true := by simp [isDotOrThin, h1]
      simp [h1, hd, ih]
    · simp only [h1, if_false, Bool.false_eq_true]
      by_cases h2 : c = smuflDot
      · have hd : isDotOrThin c = true := by simp [isDotOrThin, h2]
        rw [if_pos h2]; simp [hd, ih]
      · simp [h2, isDotOrThin, h1]

theorem scanDots_some (s : Str) (n : Nat) (d : Str) (h : scanDots s = some (n, d)) :
    n ≤ s.length ∧ (∀ c ∈ s.take n, isDotOrThin c = true) ∧ ∀ x ∈ d, x ∈ "-dot".toList := by
  induction s generalizing n d with
  | nil => simp [scanDots] at h
  | cons c cs ih =>
    simp only [scanDots] at h
    split at h
    · next h1 =>
      cases hr : scanDots cs with
      | none => simp [hr] at h
      | some r =>
        obtain ⟨m, e⟩ := r
        simp only [hr, Option.map_some, Option.some.injEq, Prod.mk.injEq] at h
        obtain ⟨rfl, rfl⟩ := h
        have := ih m e hr
        refine ⟨by simpa using this.1, ?_, this.2.2⟩
        simp only [List.take_succ_cons, List.mem_cons, forall_eq_or_imp]
        exact ⟨by simp [isDotOrThin, h1], this.2.1⟩
    · split at h
      · next h1 h2 =>
        cases hr : scanDots cs with
        | none => simp [hr] at h
        | some r =>
          obtain ⟨m, e⟩ := r
          simp only [hr, Option.map_some, Option.some.injEq, Prod.mk.injEq] at h
          obtain ⟨rfl, rfl⟩ := h
          have := ih m e hr
          refine ⟨by simpa using this.1, ?_, ?_⟩
          · simp only [List.take_succ_cons, List.mem_cons, forall_eq_or_imp]
            exact ⟨by simp [isDotOrThin, h2], this.2.1⟩
          · intro x hx
            rcases List.mem_append.1 hx with h' | h'
            · exact h'
            · exact this.2.2 x h'
      · simp only [Option.some.injEq, Prod.mk.injEq] at h
        obtain ⟨rfl, rfl⟩ := h
        simp

theorem smuflName_not_dot (c : Char) (h : (smuflName c).isSome) : isDotOrThin c = false := by
  have hm : c ∈ smuflNoteNames.map (·.1) := by
    simp only [smuflName] at h
    revert h
    generalize smuflNoteNames = l
    induction l with
    | nil => simp
    | cons p ps ih =>
      intro h
      simp only [List.lookup] at h
      split at h
      · next he => simp only [beq_iff_eq] at he; simp [he]
      · simp only [List.map_cons, List.mem_cons]; exact Or.inr (ih h)
  have hall : ∀ x ∈ smuflNoteNames.map (·.1), isDotOrThin x = false := by decide +kernel
  exact hall c hm

/-- The texts on which the conversion raises IndexError: a note glyph followed, up to the end of the text,
only by augmentation dots and thin spaces. -/
def EndsInGlyph (text : Str) : Prop :=
  ∃ pre g run, text = pre ++ g :: run ∧ (smuflName g).isSome ∧ ∀ c ∈ run, isDotOrThin c = true

theorem translateGo_none_iff (skip : Nat) (s : Str) :
    translateGo skip s = none ↔ EndsInGlyph (s.drop skip) := by
  induction s generalizing skip with
  | nil =>
    cases skip <;> simp [translateGo, EndsInGlyph]
  | cons c cs ih =>
    cases skip with
    | succ k => simpa [translateGo] using ih k
    | zero =>
      have cons_iff : smuflName c = none → (EndsInGlyph (c :: cs) ↔ EndsInGlyph cs) := by
        intro hn
        constructor
        · rintro ⟨pre, g, run, e, hg, hr⟩
          cases pre with
          | nil =>
            simp only [List.nil_append, List.cons.injEq] at e
            rw [← e.1, hn] at hg; simp at hg
          | cons p ps =>
            simp only [List.cons_append, List.cons.injEq] at e
            exact ⟨ps, g, run, e.2, hg, hr⟩
        · rintro ⟨pre, g, run, e, hg, hr⟩
          exact ⟨c :: pre, g, run, by simp [e], hg, hr⟩
      simp only [translateGo, List.drop_zero]
      cases hn : smuflName c with
      | some name =>
        simp only
        cases hs : scanDots cs with
        | none =>
          simp only [true_iff]
          exact ⟨[], c, cs, rfl, by simp [hn], (scanDots_none_iff cs).1 hs⟩
        | some r =>
          obtain ⟨n, d⟩ := r
          have hsd := scanDots_some cs n d hs
          simp only [Option.map_eq_none_iff, ih n]
          constructor
          · rintro ⟨pre, g, run, e, hg, hr⟩
            refine ⟨c :: (cs.take n ++ pre), g, run, ?_, hg, hr⟩
            have ht := List.take_append_drop n cs
            rw [e] at ht
            rw [List.cons_append, List.append_assoc, ht]
          · rintro ⟨pre, g, run, e, hg, hr⟩
            cases pre with
            | nil =>
              simp only [List.nil_append, List.cons.injEq] at e
              have : scanDots cs = none := (scanDots_none_iff cs).2 (by rw [e.2]; exact hr)
              rw [this] at hs; simp at hs
            | cons p ps =>
              simp only [List.cons_append, List.cons.injEq] at e
              -- the glyph g is not among the skipped characters
              have hgd := smuflName_not_dot g hg
              have hlen : n ≤ ps.length := by
                rcases Nat.lt_or_ge ps.length n with hlt | hge
                · exfalso
                  have hmem : g ∈ cs.take n := by
                    rw [e.2, List.take_append]
                    apply List.mem_append.2
                    right
                    rw [show n - ps.length = (n - ps.length - 1) + 1 by omega, List.take_succ_cons]
                    simp
                  have := hsd.2.1 g hmem
                  rw [hgd] at this; simp at this
                · exact hge
              refine ⟨ps.drop n, g, run, ?_, hg, hr⟩
              rw [e.2, List.drop_append_of_le_length hlen]
      | none =>
        simp only
        rw [cons_iff hn]
        have ih0 := ih 0
        simp only [List.drop_zero] at ih0
        split
        · exact ih0
        · split <;> simp [ih0]

/-- C49. The conversion raises exactly on the texts that end in a note glyph (with dots or thin spaces). -/
theorem translateSMUFL_raises_iff (text : Str) : translateSMUFL text = none ↔ EndsInGlyph text := by
  unfold translateSMUFL
  split
  · have := translateGo_none_iff 0 text
    simpa using this
  · next h =>
    simp only [reduceCtorEq, false_iff]
    rintro ⟨pre, g, run, e, hg, _⟩
    apply h
    rw [List.any_eq_true]
    exact ⟨g, by simp [e], hg⟩

/-- C49 (proved part). On every other text the conversion returns; a text without note glyphs is unchanged.
Missing from the full property: texts ending in a glyph, on which the code raises
(`translateSMUFL_not_total`). -/
theorem translateSMUFL_total_partial (text : Str) :
    (¬ EndsInGlyph text → ∃ out, translateSMUFL text = some out) ∧
    ((∀ c ∈ text, smuflName c = none) → translateSMUFL text = some text) := by
  constructor
  · intro h
    cases ht : translateSMUFL text with
    | none => exact absurd ((translateSMUFL_raises_iff text).1 ht) h
    | some o => exact ⟨o, rfl⟩
  · intro h
    unfold translateSMUFL
    rw [if_neg]
    rw [List.any_eq_true]
    rintro ⟨c, hc, hs⟩
    rw [h c hc] at hs
    exact absurd hs (by decide)

/-- C49, the part that is false: a text consisting of a quarter-note glyph makes the exporter raise. -/
theorem translateSMUFL_not_total : translateSMUFL [Char.ofNat 0xECA5] = none := by decide +kernel

/-- C49. A converted text contains no note glyph any more. -/
theorem translateSMUFL_no_glyph (text out : Str) (h : translateSMUFL text = some out) :
    ∀ c ∈ out, smuflName c = none := by
  have names : ∀ c name, smuflName c = some name → ∀ x ∈ name, smuflName x = none := by
    intro c name hn
    have : (c, name) ∈ smuflNoteNames := by
      simp only [smuflName] at hn
      revert hn
      generalize smuflNoteNames = l
      induction l with
      | nil => simp
      | cons p ps ih =>
        intro h
        simp only [List.lookup] at h
        split at h
        · next he =>
          simp only [beq_iff_eq] at he
          simp only [Option.some.injEq] at h
          simp [he, ← h]
        · simp [ih h]
    have hall : ∀ p ∈ smuflNoteNames, ∀ x ∈ p.2, smuflName x = none := by decide +kernel
    exact hall _ this
  have go : ∀ s skip o, translateGo skip s = some o → ∀ c ∈ o, smuflName c = none := by
    intro s
    induction s with
    | nil => intro skip o h; cases skip <;> simp [translateGo] at h <;> simp [h]
    | cons c cs ih =>
      intro skip o h
      cases skip with
      | succ k => exact ih k o (by simpa [translateGo] using h)
      | zero =>
        simp only [translateGo] at h
        cases hn : smuflName c with
        | some name =>
          rw [hn] at h
          simp only at h
          cases hs : scanDots cs with
          | none => rw [hs] at h; simp at h
          | some r =>
            obtain ⟨n, d⟩ := r
            rw [hs] at h
            simp only at h
            cases hg : translateGo n cs with
            | none => rw [hg] at h; simp at h
            | some o' =>
              rw [hg] at h
              simp only [Option.map_some, Option.some.injEq] at h
              subst h
              intro x hx
              simp only [List.cons_append, List.mem_cons, List.mem_append, List.append_assoc] at hx
              rcases hx with rfl | hx | hx | rfl | hx
              · decide +kernel
              · exact names c name hn x hx
              · have := (scanDots_some cs n d hs).2.2 x hx
                have hall : ∀ y ∈ "-dot".toList, smuflName y = none := by decide +kernel
                exact hall x this
              · decide +kernel
              · exact ih n o' hg x hx
        | none =>
          rw [hn] at h
          simp only at h
          split at h
          · exact ih 0 o h
          · split at h
            · cases hg : translateGo 0 cs with
              | none => rw [hg] at h; simp at h
              | some o' =>
                rw [hg] at h
                simp only [Option.map_some, Option.some.injEq] at h
                subst h
                intro x hx
                rcases List.mem_cons.1 hx with rfl | hx
                · decide +kernel
                · exact ih 0 o' hg x hx
            · cases hg : translateGo 0 cs with
              | none => rw [hg] at h; simp at h
              | some o' =>
                rw [hg] at h
                simp only [Option.map_some, Option.some.injEq] at h
                subst h
                intro x hx
                rcases List.mem_cons.1 hx with rfl | hx
                · exact hn
                · exact ih 0 o' hg x hx
  unfold translateSMUFL at h
  split at h
  · exact go text 0 out h
  · next hany =>
    simp only [Option.some.injEq] at h
    subst h
    intro c hc
    cases hn : smuflName c with
    | none => rfl
    | some n => exact absurd (List.any_eq_true.2 ⟨c, hc, by simp [hn]⟩) hany

example : translateSMUFL ([Char.ofNat 0xECA5, smuflDot] ++ " = 60".toList) =
    some "[quarter-dot] = 60".toList := by decide +kernel

end C21
