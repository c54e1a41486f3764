import Verif.Model.HumLyrics
import Verif.Lemmas.Tac
import Verif.Props.Signifier
import Mathlib.Data.List.Nodup
import Mathlib.Data.List.Sort
/-
C105: lyrics in **text spines.
-/
namespace C21

/-! ## Specification -/

/-- A syllable that can be told from its surroundings: no blanks, no backslash, no HTML entity, no hyphen
at its ends. -/
def GoodWord (w : Str) : Prop :=
  w ≠ [] ∧ (∀ c ∈ w, isPySpace c = false ∧ c ≠ '\\' ∧ c ≠ '&') ∧ w.head? ≠ some '-' ∧ w.getLast? ≠ some '-'

/-- Syllables of one note: the first may end a word, the last may begin one, between them are whole words; the
ones after the first do not start with an apostrophe. -/
def GoodSyllables (ss : List Syllable) : Prop :=
  ss ≠ [] ∧ (∀ s ∈ ss, GoodWord s.1) ∧ (∀ s ∈ ss.tail, (s.2 = .single ∨ s.2 = .begins) ∧ s.1.head? ≠ some '\'') ∧
  (∀ s ∈ ss.dropLast, s.2 = .single ∨ s.2 = .ends)

/-- The text of a lyric can stand in a field: it is not a single point and does not start with `!` or `*`. -/
def GoodField (ss : List Syllable) : Prop :=
  ss ≠ [(['.'], .single)] ∧
  ∀ a, ss.head? = some a → a.2 = .single ∨ a.2 = .begins → a.1.head? ≠ some '!' ∧ a.1.head? ≠ some '*'

/-! ## One lyric -/

/-- A syllable with its hyphens. -/
def rawSyl (s : Syllable) : Str :=
  (if s.2 = .middle ∨ s.2 = .ends then ['-'] else []) ++ s.1 ++ (if s.2 = .begins ∨ s.2 = .middle then ['-'] else [])

theorem rawText_join (ss : List Syllable) (h1 : ∀ s ∈ ss.tail, s.2 = .single ∨ s.2 = .begins)
    (h2 : ∀ s ∈ ss.dropLast, s.2 = .single ∨ s.2 = .ends) : rawText ss = joinWith ' ' (ss.map rawSyl) := by
  cases ss with
  | nil => rfl
  | cons a rest =>
    induction rest generalizing a with
    | nil => rfl
    | cons b r ih =>
      have ha : a.2 = .single ∨ a.2 = .ends := h2 a (by simp)
      have hb : b.2 = .single ∨ b.2 = .begins := h1 b (by simp)
      have := ih b (fun s hs => h1 s (by simp at hs ⊢; exact Or.inr hs)) (fun s hs => h2 s (by
        rw [List.dropLast_cons_of_ne_nil (by simp)]; exact List.mem_cons_of_mem _ hs))
      have eb : (if b.2 = Syllabic.middle ∨ b.2 = Syllabic.ends then ['-'] else []) = ([] : Str) := by
        rcases hb with hb | hb <;> rw [hb] <;> rfl
      have ea : (if a.2 = Syllabic.begins ∨ a.2 = Syllabic.middle then ['-'] else []) = ([] : Str) := by
        rcases ha with ha | ha <;> rw [ha] <;> rfl
      rw [List.map_cons, List.map_cons, joinWith, ← List.map_cons, ← this]
      unfold rawText rawSyl
      have hl : (a :: b :: r).getLast? = (b :: r).getLast? := by simp [List.getLast?_cons_cons]
      rw [hl]
      cases hz : (b :: r).getLast? with
      | none => simp at hz
      | some z =>
        simp only [List.head?_cons, eb, ea]
        unfold lyricText
        simp [joinWith]

theorem parse_rawSyl (s : Syllable) (h : GoodWord s.1) : parseSyllable (rawSyl s) = s := by
  obtain ⟨w, sy⟩ := s
  obtain ⟨h0, -, h1, h2⟩ := h
  simp only at h0 h1 h2
  obtain ⟨c, cs, rfl⟩ := List.exists_cons_of_ne_nil h0
  have hc : c ≠ '-' := fun e => h1 (by rw [e]; rfl)
  cases sy with
  | single =>
    have : rawSyl (c :: cs, .single) = c :: cs := by simp [rawSyl]
    rw [this, parseSyllable, if_neg (by simpa using hc), if_neg h2]
  | begins =>
    have : rawSyl (c :: cs, .begins) = c :: cs ++ ['-'] := by simp [rawSyl]
    rw [this, parseSyllable, if_neg (by simpa using hc), if_pos (by rw [List.getLast?_concat]), List.dropLast_concat]
  | middle =>
    have : rawSyl (c :: cs, .middle) = '-' :: (c :: cs ++ ['-']) := by simp [rawSyl]
    rw [this, parseSyllable, if_pos List.head?_cons, if_pos (by rw [← List.cons_append, List.getLast?_concat]), List.tail_cons,
      List.dropLast_concat]
  | ends =>
    have : rawSyl (c :: cs, .ends) = '-' :: c :: cs := by simp [rawSyl]
    rw [this, parseSyllable, if_pos List.head?_cons, if_neg (by rw [List.getLast?_cons_cons]; exact h2), List.tail_cons]

theorem rawSyl_word (s : Syllable) (h : GoodWord s.1) :
    rawSyl s ≠ [] ∧ ∀ c ∈ rawSyl s, isPySpace c = false ∧ c ≠ '\\' := by
  obtain ⟨h0, h1, -, -⟩ := h
  refine ⟨by simp [rawSyl, h0], ?_⟩
  intro c hc
  unfold rawSyl at hc
  rw [List.mem_append, List.mem_append] at hc
  rcases hc with (hc | hc) | hc
  · split at hc
    · simp at hc; rw [hc]; decide
    · simp at hc
  · exact ⟨(h1 c hc).1, (h1 c hc).2.1⟩
  · split at hc
    · simp at hc; rw [hc]; decide
    · simp at hc

theorem splitBlanks_word (w : Str) (h : ∀ c ∈ w, isPySpace c = false) (rest : Str) :
    splitBlanks (w ++ ' ' :: rest) = w :: splitBlanks rest ∧ splitBlanks w = [w] := by
  induction w with
  | nil => exact ⟨by rw [List.nil_append, splitBlanks, if_pos (by decide)], rfl⟩
  | cons c cs ih =>
    obtain ⟨i1, i2⟩ := ih (fun x hx => h x (List.mem_cons_of_mem _ hx))
    have hc := h c (by simp)
    constructor
    · rw [List.cons_append, splitBlanks, if_neg (by rw [hc]; simp), i1]
    · rw [splitBlanks, if_neg (by rw [hc]; simp), i2]

theorem splitBlanks_join (ws : List Str) (hne : ws ≠ []) (h : ∀ w ∈ ws, ∀ c ∈ w, isPySpace c = false) :
    splitBlanks (joinWith ' ' ws) = ws := by
  induction ws with
  | nil => exact absurd rfl hne
  | cons w ws ih =>
    cases ws with
    | nil => exact (splitBlanks_word w (h w (by simp)) []).2
    | cons v vs =>
      rw [joinWith, (splitBlanks_word w (h w (by simp)) _).1, ih (by simp) (fun x hx => h x (List.mem_cons_of_mem _ hx))]

theorem cleanSpaces_join (ws : List Str) (h : ∀ w ∈ ws, w ≠ [] ∧ ∀ c ∈ w, isPySpace c = false) :
    cleanSpaces (joinWith ' ' ws) = joinWith ' ' ws := by
  cases ws with
  | nil => decide
  | cons w ws =>
    unfold cleanSpaces
    rw [splitBlanks_join _ (by simp) (fun w hw => (h w hw).2), List.filter_eq_self.2]
    intro x hx
    simp [(h x hx).1]

theorem elideGo_word (w : Str) (h : ∀ c ∈ w, isPySpace c = false) (y : Char) (r : Str) (hy : y ≠ '\'') :
    elideGo (w ++ ' ' :: y :: r) = w :: elideGo (y :: r) ∧ elideGo w = [w] := by
  have hb : ∀ c, isPySpace c = false → ¬ (c = ' ' ∨ c = nbsp) := by
    rintro c hc (rfl | rfl) <;> exact absurd hc (by decide)
  induction w with
  | nil => exact ⟨by rw [List.nil_append, elideGo, if_pos ⟨Or.inl rfl, hy⟩], rfl⟩
  | cons c cs ih =>
    obtain ⟨i1, i2⟩ := ih (fun x hx => h x (List.mem_cons_of_mem _ hx))
    have hc := hb c (h c (by simp))
    constructor
    · cases cs with
      | nil =>
        rw [List.nil_append] at i1
        rw [List.cons_append, List.nil_append, elideGo, if_neg (fun e => hc e.1), i1]; rfl
      | cons d ds =>
        rw [List.cons_append] at i1
        rw [List.cons_append, List.cons_append, elideGo, if_neg (fun e => hc e.1), i1]; rfl
    · cases cs with
      | nil => rfl
      | cons d ds => rw [elideGo, if_neg (fun e => hc e.1), i2]; rfl

theorem elideGo_join (w : Str) (ws : List Str) (h0 : ∀ c ∈ w, isPySpace c = false)
    (h : ∀ v ∈ ws, v ≠ [] ∧ v.head? ≠ some '\'' ∧ ∀ c ∈ v, isPySpace c = false) :
    elideGo (joinWith ' ' (w :: ws)) = w :: ws := by
  induction ws generalizing w with
  | nil => exact (elideGo_word w h0 'x' [] (by decide)).2
  | cons v vs ih =>
    obtain ⟨v0, v1, v2⟩ := h v (by simp)
    obtain ⟨c, cs, rfl⟩ := List.exists_cons_of_ne_nil v0
    have := ih (c :: cs) v2 (fun x hx => h x (List.mem_cons_of_mem _ hx))
    have e : ∃ r, joinWith ' ' ((c :: cs) :: vs) = c :: r := by
      cases vs with
      | nil => exact ⟨cs, rfl⟩
      | cons x xs => exact ⟨cs ++ ' ' :: joinWith ' ' (x :: xs), rfl⟩
    obtain ⟨r, hr⟩ := e
    rw [joinWith, hr, (elideGo_word w h0 c r (fun e => v1 (by rw [e]; rfl))).1, ← hr, this]

theorem replace_newline (s : Str) (h : '\\' ∉ s) : replaceAll ['\\', 'n'] ['\n'] s = s := by
  unfold replaceAll
  induction s with
  | nil => rfl
  | cons a t ih =>
    have ha : a ≠ '\\' := fun e => h (by rw [e]; simp)
    rw [replaceGo, if_neg (by simp [List.isPrefixOf, Ne.symm ha]), ih (fun hm => h (List.mem_cons_of_mem _ hm))]

theorem elide_join (w : Str) (ws : List Str) (h0 : w ≠ [] ∧ ∀ c ∈ w, isPySpace c = false ∧ c ≠ '\\')
    (h : ∀ v ∈ ws, v ≠ [] ∧ v.head? ≠ some '\'' ∧ ∀ c ∈ v, isPySpace c = false ∧ c ≠ '\\') :
    elide (joinWith ' ' (w :: ws)) = w :: ws := by
  obtain ⟨c, cs, rfl⟩ := List.exists_cons_of_ne_nil h0.1
  have e : joinWith ' ' ((c :: cs) :: ws) = c :: joinWith ' ' (cs :: ws) := by
    cases ws with
    | nil => rfl
    | cons x xs => rfl
  rw [e]
  unfold elide
  simp only
  rw [elideGo_join cs ws (fun x hx => (h0.2 x (List.mem_cons_of_mem _ hx)).1)
    (fun v hv => ⟨(h v hv).1, (h v hv).2.1, fun x hx => ((h v hv).2.2 x hx).1⟩)]
  show List.map _ ((c :: cs) :: ws) = _
  have : ∀ l : List Str, (∀ v ∈ l, '\\' ∉ v) → l.map (replaceAll ['\\', 'n'] ['\n']) = l := by
    intro l hl
    induction l with
    | nil => rfl
    | cons v vs ih =>
      rw [List.map_cons, replace_newline v (hl v (by simp)), ih (fun x hx => hl x (List.mem_cons_of_mem _ hx))]
  apply this
  intro v hv
  rw [List.mem_cons] at hv
  rcases hv with rfl | hv
  · exact fun hm => (h0.2 _ hm).2 rfl
  · exact fun hm => ((h v hv).2.2 _ hm).2 rfl

/-- C105, one lyric: the syllables of a note, elided or not, come back with their texts and places in words. -/
theorem lyric_round_trip_partial (ss : List Syllable) (h : GoodSyllables ss) (hf : GoodField ss) :
    readLyric (lyricToken ss) = some ss := by
  obtain ⟨hne, hw, ht, hd⟩ := h
  obtain ⟨a, rest, rfl⟩ := List.exists_cons_of_ne_nil hne
  have hword := fun s hs => rawSyl_word s (hw s hs)
  have hraw := rawText_join (a :: rest) (fun s hs => (ht s hs).1) hd
  have hclean : cleanSpaces (rawText (a :: rest)) = joinWith ' ' ((a :: rest).map rawSyl) := by
    rw [hraw, cleanSpaces_join]
    intro w hw'
    rw [List.mem_map] at hw'
    obtain ⟨s, hs, rfl⟩ := hw'
    exact ⟨(hword s hs).1, fun c hc => ((hword s hs).2 c hc).1⟩
  have hel : elide (joinWith ' ' ((a :: rest).map rawSyl)) = (a :: rest).map rawSyl := by
    rw [List.map_cons]
    apply elide_join _ _ (hword a (by simp))
    intro v hv
    rw [List.mem_map] at hv
    obtain ⟨s, hs, rfl⟩ := hv
    have h1 := hword s (List.mem_cons_of_mem _ hs)
    refine ⟨h1.1, ?_, h1.2⟩
    have h2 := ht s (by simpa using hs)
    have hs0 := (hw s (List.mem_cons_of_mem _ hs)).1
    obtain ⟨c, cs, hc⟩ := List.exists_cons_of_ne_nil hs0
    have hh := h2.2
    rw [hc] at hh
    rcases h2.1 with e | e <;> simp [rawSyl, e, hc] <;> simpa using hh
  have hparse : ((a :: rest).map rawSyl).map parseSyllable = a :: rest := by
    rw [List.map_map]
    have : ∀ l : List Syllable, (∀ s ∈ l, GoodWord s.1) → l.map (parseSyllable ∘ rawSyl) = l := by
      intro l hl
      induction l with
      | nil => rfl
      | cons s l ih =>
        rw [List.map_cons, ih (fun x hx => hl x (List.mem_cons_of_mem _ hx)), Function.comp, parse_rawSyl s (hl s (by simp))]
    exact this _ hw
  -- the first character of the text
  obtain ⟨c, cs, hc⟩ := List.exists_cons_of_ne_nil (hword a (by simp)).1
  have hhead : ∃ r, joinWith ' ' ((a :: rest).map rawSyl) = c :: r := by
    rw [List.map_cons, hc]
    cases rest.map rawSyl with
    | nil => exact ⟨cs, rfl⟩
    | cons x xs => exact ⟨cs ++ ' ' :: joinWith ' ' (x :: xs), rfl⟩
  obtain ⟨r, hr⟩ := hhead
  have hcne : ¬ (c = '!' ∨ c = '*') := by
    have ha0 := (hw a (by simp)).1
    obtain ⟨d, ds, hd'⟩ := List.exists_cons_of_ne_nil ha0
    have h2 := hf.2 a rfl
    rw [hd'] at h2
    unfold rawSyl at hc
    rw [hd'] at hc
    cases hs : a.2 with
    | single =>
      rw [hs] at hc h2
      have := h2 (Or.inl rfl)
      simp at hc this
      rw [← hc.1]
      rintro (e | e)
      · exact this.1 e
      · exact this.2 e
    | begins =>
      rw [hs] at hc h2
      have := h2 (Or.inr rfl)
      simp at hc this
      rw [← hc.1]
      rintro (e | e)
      · exact this.1 e
      · exact this.2 e
    | middle => rw [hs] at hc; simp at hc; rw [← hc.1]; decide
    | ends => rw [hs] at hc; simp at hc; rw [← hc.1]; decide
  have htok : lyricToken (a :: rest) = joinWith ' ' ((a :: rest).map rawSyl) := by
    unfold lyricToken
    rw [hclean, hr]
    simp only [hcne, if_false]
    simp
  rw [htok]
  unfold readLyric
  have hnull : ¬ (joinWith ' ' ((a :: rest).map rawSyl) = ['.'] ∨ joinWith ' ' ((a :: rest).map rawSyl) = []) := by
    rintro (e | e)
    · have h3 := hparse
      rw [← hel, e] at h3
      have : (elide ['.']).map parseSyllable = [(['.'], Syllabic.single)] := by decide
      rw [this] at h3
      exact hf.1 h3.symm
    · rw [hr] at e; simp at e
  rw [if_neg hnull, hel, hparse]

/-! ## The verses of a note -/

/-- The verse at a position. -/
def verseAt (vs : List (Option NoteLyric)) (j : Nat) : Option NoteLyric := (vs[j]?).join

theorem verseAt_pad (vs : List (Option NoteLyric)) (k j : Nat) :
    verseAt (vs ++ List.replicate k none) j = verseAt vs j := by
  unfold verseAt
  by_cases h : j < vs.length
  · rw [List.getElem?_append_left h]
  · rw [List.getElem?_append_right (by omega), List.getElem?_replicate, List.getElem?_eq_none (by omega : vs.length ≤ j)]
    split <;> rfl

theorem verseAt_set (vs : List (Option NoteLyric)) (l : NoteLyric) (i j : Nat) (hi : i < vs.length) :
    verseAt (vs.set i (some l)) j = if j = i then some l else verseAt vs j := by
  unfold verseAt
  rw [List.getElem?_set]
  by_cases h : i = j
  · subst h; simp [hi]
  · rw [if_neg h, if_neg (fun e => h e.symm)]

theorem verseAt_place (vs : List (Option NoteLyric)) (l : NoteLyric) (j : Nat) :
    verseAt (placeVerse vs l) j = if l.number = (j : Int) + 1 then some l else verseAt vs j := by
  unfold placeVerse
  by_cases h1 : l.number = vs.length + 1
  · rw [if_pos h1]
    by_cases hj : j = vs.length
    · rw [if_pos (by rw [h1, hj]), hj]; simp [verseAt]
    · rw [if_neg (by rw [h1]; omega)]
      unfold verseAt
      by_cases h : j < vs.length
      · rw [List.getElem?_append_left h]
      · rw [List.getElem?_eq_none (by simp; omega), List.getElem?_eq_none (by omega : vs.length ≤ j)]
  · rw [if_neg h1]
    by_cases h2 : 0 < l.number ∧ l.number < vs.length
    · rw [if_pos h2, verseAt_set _ _ _ _ (by omega)]
      by_cases hj : l.number = (j : Int) + 1
      · rw [if_pos hj, if_pos (by omega)]
      · rw [if_neg hj, if_neg (by omega)]
    · rw [if_neg h2]
      by_cases h3 : l.number > 0
      · rw [if_pos h3, verseAt_set _ _ _ _ (by simp; omega), verseAt_pad]
        by_cases hj : l.number = (j : Int) + 1
        · rw [if_pos hj, if_pos (by omega)]
        · rw [if_neg hj, if_neg (by omega)]
      · rw [if_neg h3, if_neg (by omega)]

theorem orderVerses_spec (ls : List NoteLyric) (h : ∀ l ∈ ls, l.number ≤ 100) (vs : List (Option NoteLyric)) :
    ∃ vs', orderVerses vs ls = some vs' ∧
      ∀ j, verseAt vs' j = ((ls.reverse.find? fun l => l.number = (j : Int) + 1).or (verseAt vs j)) := by
  induction ls generalizing vs with
  | nil => exact ⟨vs, rfl, fun j => rfl⟩
  | cons l ls ih =>
    obtain ⟨vs', e, hv⟩ := ih (fun x hx => h x (List.mem_cons_of_mem _ hx)) (placeVerse vs l)
    refine ⟨vs', by rw [orderVerses, if_neg (by have := h l (by simp); omega), e], ?_⟩
    intro j
    rw [hv j, verseAt_place, List.reverse_cons, List.find?_append]
    by_cases hj : l.number = (j : Int) + 1
    · simp [hj]
    · simp [hj]

/-- The token for a verse or for its absence. -/
def verseTok (v : Option NoteLyric) : Str :=
  match v with
  | some l => lyricToken l.syllables
  | none => ['.']

theorem putVerse_spec (cols : List (Option Str)) (k : Nat) (tok : Str) (h : k ≤ cols.length) :
    setVerse cols k tok = cols.take k ++ some tok :: cols.drop (k + 1) := by
  unfold setVerse
  by_cases h1 : k = cols.length
  · rw [if_pos h1, h1, List.take_length, List.drop_eq_nil_of_le (by omega)]
  · rw [if_neg h1, if_pos (by omega), List.set_eq_take_append_cons_drop, if_pos (by omega)]

theorem setVerses_spec (vs : List (Option NoteLyric)) (k : Nat) (cols : List (Option Str)) (h : k ≤ cols.length) :
    (vs.zipIdx k).foldl (fun cols v =>
        setVerse cols v.2 (match v.1 with | some l => lyricToken l.syllables | none => ['.'])) cols =
      cols.take k ++ vs.map (fun v => some (verseTok v)) ++ cols.drop (k + vs.length) := by
  induction vs generalizing k cols with
  | nil => simp
  | cons v vs ih =>
    rw [List.zipIdx_cons, List.foldl_cons]
    show (vs.zipIdx (k + 1)).foldl _ (setVerse cols k (verseTok v)) = _
    rw [putVerse_spec cols k _ h]
    have hlen : (cols.take k).length = k := by simp; omega
    rw [ih (k + 1) _ (by simp; omega)]
    have e1 : (cols.take k ++ some (verseTok v) :: cols.drop (k + 1)).take (k + 1) =
        cols.take k ++ [some (verseTok v)] := by
      rw [List.take_append, hlen, List.take_of_length_le (by omega)]
      simp
    have e2 : (cols.take k ++ some (verseTok v) :: cols.drop (k + 1)).drop (k + 1 + vs.length) =
        cols.drop (k + (v :: vs).length) := by
      rw [List.drop_append, hlen, List.drop_eq_nil_of_le (by omega), List.nil_append,
        show k + 1 + vs.length - k = vs.length + 1 by omega, List.drop_succ_cons, List.drop_drop]
      congr 1
      simp; omega
    rw [e1, e2]
    simp

theorem addLyrics_spec (ls : List NoteLyric) (h : ∀ l ∈ ls, l.number ≤ 100) (cols : List (Option Str)) :
    ∃ vs, (∀ j, verseAt vs j = ls.reverse.find? fun l => l.number = (j : Int) + 1) ∧
      addLyrics cols ls = vs.map (fun v => some (verseTok v)) ++ cols.drop vs.length := by
  cases ls with
  | nil => exact ⟨[], fun j => rfl, by simp [addLyrics]⟩
  | cons l ls =>
    obtain ⟨vs, e, hv⟩ := orderVerses_spec (l :: ls) h []
    refine ⟨vs, fun j => by rw [hv j]; simp [verseAt], ?_⟩
    unfold addLyrics
    simp only [e]
    have := setVerses_spec vs 0 cols (by omega)
    simp only [List.take_zero, List.nil_append, Nat.zero_add] at this
    exact this

/-! ## What is read from the verse fields -/

theorem mem_readVersesFrom (n : Nat) (fs : List Str) (l : NoteLyric) :
    l ∈ readVersesFrom n fs ↔
      ∃ (j : Nat) (f : Str), fs[j]? = some f ∧ readLyric f = some l.syllables ∧ l.number = (n : Int) + j + 1 := by
  induction fs generalizing n with
  | nil => simp [readVersesFrom]
  | cons f fs ih =>
    rw [readVersesFrom]
    cases hr : readLyric f with
    | none =>
      simp only
      rw [ih]
      constructor
      · rintro ⟨j, g, h1, h2, h3⟩
        exact ⟨j + 1, g, by simpa using h1, h2, by rw [h3]; push_cast; ring⟩
      · rintro ⟨j, g, h1, h2, h3⟩
        cases j with
        | zero => simp at h1; rw [← h1, hr] at h2; cases h2
        | succ j => exact ⟨j, g, by simpa using h1, h2, by rw [h3]; push_cast; ring⟩
    | some ss =>
      simp only [List.mem_cons]
      rw [ih]
      constructor
      · rintro (rfl | ⟨j, g, h1, h2, h3⟩)
        · exact ⟨0, f, rfl, hr, by simp⟩
        · exact ⟨j + 1, g, by simpa using h1, h2, by rw [h3]; push_cast; ring⟩
      · rintro ⟨j, g, h1, h2, h3⟩
        cases j with
        | zero =>
          left
          simp at h1
          rw [← h1, hr] at h2
          cases l
          simp at h2 h3
          rw [h2, h3]
        | succ j => exact Or.inr ⟨j, g, by simpa using h1, h2, by rw [h3]; push_cast; ring⟩

theorem readVersesFrom_sorted (n : Nat) (fs : List Str) :
    (readVersesFrom n fs).Pairwise fun a b => a.number < b.number := by
  induction fs generalizing n with
  | nil => exact List.Pairwise.nil
  | cons f fs ih =>
    rw [readVersesFrom]
    cases readLyric f with
    | none => exact ih _
    | some ss =>
      simp only [List.pairwise_cons]
      refine ⟨?_, ih _⟩
      intro l hl
      rw [mem_readVersesFrom] at hl
      obtain ⟨j, g, -, -, h⟩ := hl
      rw [h]; push_cast; omega

theorem readLyric_null : readLyric ['.'] = none := rfl

/-- The lyrics a note can have: verse numbers from 1 to 100, all texts readable. -/
def GoodLyrics (ls : List NoteLyric) : Prop :=
  ∀ l ∈ ls, 0 < l.number ∧ l.number ≤ 100 ∧ GoodSyllables l.syllables ∧ GoodField l.syllables

theorem mem_read_fields (count : Nat) (ls : List NoteLyric) (h : GoodLyrics ls) (l : NoteLyric) :
    l ∈ readVerses (verseFields count (addLyrics [] ls)) ↔
      ls.reverse.find? (fun x => x.number = l.number) = some l := by
  obtain ⟨vs, hv, e⟩ := addLyrics_spec ls (fun l hl => (h l hl).2.1) []
  unfold readVerses
  rw [mem_readVersesFrom, e]
  unfold verseFields
  have hmap : (List.map (fun c => c.getD ['.']) (List.map (fun v => some (verseTok v)) vs ++ List.drop vs.length []))
      = vs.map verseTok := by simp
  rw [hmap]
  constructor
  · rintro ⟨j, f, h1, h2, h3⟩
    by_cases hj : j < vs.length
    · rw [List.getElem?_append_left (by simpa using hj), List.getElem?_map] at h1
      have hvj := hv j
      unfold verseAt at hvj
      rw [List.getElem?_eq_getElem hj] at h1 hvj
      simp at h1
      cases hx : vs[j] with
      | none => rw [hx] at h1; rw [← h1] at h2; exact absurd (readLyric_null.symm.trans h2) (by simp)
      | some x =>
        rw [hx] at h1 hvj
        have hx2 : (ls.reverse.find? fun l => l.number = (j : Int) + 1) = some x := by rw [← hvj]; rfl
        have hxm : x ∈ ls := by
          have := List.mem_of_find?_eq_some hx2
          simpa using this
        have hxn : x.number = (j : Int) + 1 := by
          have := List.find?_some hx2
          simpa using this
        obtain ⟨-, -, g1, g2⟩ := h x hxm
        have hr := lyric_round_trip_partial x.syllables g1 g2
        have : f = lyricToken x.syllables := h1.symm
        rw [this, hr] at h2
        have hxl : x = l := by
          cases x; cases l
          simp at h2 hxn h3 ⊢
          exact ⟨by rw [hxn, h3], h2⟩
        rw [← hxl, ← hx2]
        congr 1
        funext y
        rw [hxn]
    · rw [List.getElem?_append_right (by simpa using hj), List.getElem?_replicate] at h1
      split at h1
      · simp at h1; rw [← h1] at h2; exact absurd (readLyric_null.symm.trans h2) (by simp)
      · cases h1
  · intro hf
    have hm : l ∈ ls := by
      have := List.mem_of_find?_eq_some hf
      simpa using this
    obtain ⟨g0, -, g1, g2⟩ := h l hm
    have hj : l.number = ((l.number.toNat - 1 : Nat) : Int) + 1 := by omega
    have hvj := hv (l.number.toNat - 1)
    rw [← hj, hf] at hvj
    unfold verseAt at hvj
    have hlt : l.number.toNat - 1 < vs.length := by
      by_contra hc
      rw [List.getElem?_eq_none (by omega)] at hvj
      cases hvj
    rw [List.getElem?_eq_getElem hlt] at hvj
    have hx : vs[l.number.toNat - 1] = some l := by simpa using hvj
    refine ⟨l.number.toNat - 1, lyricToken l.syllables, ?_, lyric_round_trip_partial _ g1 g2, by omega⟩
    rw [List.getElem?_append_left (by simpa using hlt), List.getElem?_map, List.getElem?_eq_getElem hlt, hx]
    rfl

/-- C105, the verses of a note, whatever their order: with distinct numbers, exactly the lyrics of the note are
read back, by ascending number. -/
theorem verses_round_trip_partial (count : Nat) (ls : List NoteLyric) (h : GoodLyrics ls)
    (hd : (ls.map (·.number)).Nodup) :
    (∀ l, l ∈ readVerses (verseFields count (addLyrics [] ls)) ↔ l ∈ ls) ∧
    (readVerses (verseFields count (addLyrics [] ls))).Pairwise fun a b => a.number < b.number := by
  refine ⟨?_, readVersesFrom_sorted 0 _⟩
  intro l
  rw [mem_read_fields count ls h]
  constructor
  · intro hf
    have := List.mem_of_find?_eq_some hf
    simpa using this
  · intro hm
    have hm' : l ∈ ls.reverse := by simpa using hm
    have hd' : (ls.reverse.map (·.number)).Nodup := by rw [List.map_reverse]; exact List.nodup_reverse.2 hd
    generalize ls.reverse = rs at hm' hd'
    induction rs with
    | nil => cases hm'
    | cons a rs ih =>
      rw [List.map_cons, List.nodup_cons] at hd'
      rw [List.mem_cons] at hm'
      rw [List.find?_cons]
      rcases hm' with rfl | hm'
      · simp
      · have hne : a.number ≠ l.number := fun e => hd'.1 (by rw [e]; exact List.mem_map_of_mem hm')
        simp [hne, ih hm' hd'.2]

/-- C105, negation: of two lyrics with the same number only the last is kept. -/
theorem same_number_replaced (count : Nat) (ls : List NoteLyric) (h : GoodLyrics ls) (pre post : List NoteLyric)
    (a b : NoteLyric) (e : ls = pre ++ a :: post) (hb : b ∈ post) (hn : a.number = b.number)
    (hne : a ∉ post) : a ∉ readVerses (verseFields count (addLyrics [] ls)) := by
  rw [mem_read_fields count ls h, e]
  intro hf
  rw [List.reverse_append, List.reverse_cons, List.append_assoc, List.find?_append] at hf
  cases hp : post.reverse.find? (fun x => decide (x.number = a.number)) with
  | none =>
    rw [List.find?_eq_none] at hp
    exact hp b (by simpa using hb) (by simp [hn])
  | some x =>
    rw [hp] at hf
    simp at hf
    rw [hf] at hp
    have := List.mem_of_find?_eq_some hp
    exact hne (by simpa using this)

/-- C105, negation: one verse number above 100 loses all lyrics of the note. -/
theorem high_number_loses_all (cols : List (Option Str)) (ls : List NoteLyric)
    (h : ∃ l ∈ ls, l.number > 100) : addLyrics cols ls = cols := by
  have key : ∀ (ls : List NoteLyric) vs, (∃ l ∈ ls, l.number > 100) → orderVerses vs ls = none := by
    intro ls
    induction ls with
    | nil => rintro vs ⟨l, hl, -⟩; cases hl
    | cons a ls ih =>
      rintro vs ⟨l, hl, hn⟩
      rw [orderVerses]
      by_cases ha : a.number > 100
      · rw [if_pos ha]
      · rw [if_neg ha]
        rw [List.mem_cons] at hl
        rcases hl with rfl | hl
        · exact absurd hn ha
        · exact ih _ ⟨l, hl, hn⟩
  cases ls with
  | nil => rfl
  | cons a ls => unfold addLyrics; simp only [key (a :: ls) [] h]

/-- C105, negation: a lyric numbered zero or less is not written. -/
theorem low_number_not_written (vs : List (Option NoteLyric)) (l : NoteLyric) (h : l.number ≤ 0) :
    placeVerse vs l = vs := by
  unfold placeVerse
  rw [if_neg (by omega), if_neg (by omega), if_neg (by omega)]

/-! ## The voices of a staff -/

/-- A voice with nothing to sing. -/
def Songless (v : VoiceSlot) : Prop := v = .other ∨ v = .note []

theorem give_other (fields : List Str) (pre rest : List VoiceSlot) (h : ∀ v ∈ pre, v = .other) :
    giveLyrics fields (pre ++ rest) = pre ++ giveLyrics fields rest := by
  induction pre with
  | nil => rfl
  | cons v pre ih =>
    rw [h v (by simp)]
    rw [List.cons_append, giveLyrics, ih (fun x hx => h x (List.mem_cons_of_mem _ hx))]; rfl

theorem songless_cols (vs : List VoiceSlot) (h : ∀ v ∈ vs, Songless v) (cols : List (Option Str)) :
    vs.foldl voiceLyrics cols = cols := by
  induction vs generalizing cols with
  | nil => rfl
  | cons v vs ih =>
    rw [List.foldl_cons]
    rcases h v (by simp) with rfl | rfl
    · exact ih (fun x hx => h x (List.mem_cons_of_mem _ hx)) cols
    · exact ih (fun x hx => h x (List.mem_cons_of_mem _ hx)) cols

/-- C105, a staff: when the first voice with a note is the only one with lyrics, and they are in the order of
their numbers, all voices come back with the lyrics they had. -/
theorem staff_lyrics_round_trip_partial (count : Nat) (pre rest : List VoiceSlot) (ls : List NoteLyric)
    (hpre : ∀ v ∈ pre, v = .other) (hrest : ∀ v ∈ rest, Songless v) (h : GoodLyrics ls)
    (hs : ls.Pairwise fun a b => a.number < b.number) :
    giveLyrics (staffFields count (pre ++ .note ls :: rest)) (pre ++ .note ls :: rest) =
      pre ++ .note ls :: rest := by
  have hf : staffFields count (pre ++ .note ls :: rest) = verseFields count (addLyrics [] ls) := by
    unfold staffFields
    rw [List.foldl_append, songless_cols pre (fun v hv => Or.inl (hpre v hv)), List.foldl_cons, songless_cols rest hrest]
    rfl
  rw [give_other _ _ _ hpre, hf, giveLyrics]
  have hd : (ls.map (·.number)).Nodup := by
    rw [List.Nodup, List.pairwise_map]
    exact hs.imp (fun h => by omega)
  obtain ⟨h1, h2⟩ := verses_round_trip_partial count ls h hd
  have heq : readVerses (verseFields count (addLyrics [] ls)) = ls := by
    have n1 : (readVerses (verseFields count (addLyrics [] ls))).Nodup :=
      h2.imp (fun h e => by rw [e] at h; omega)
    have n2 : ls.Nodup := hs.imp (fun h e => by rw [e] at h; omega)
    have hp := (List.perm_ext_iff_of_nodup n1 n2).2 h1
    exact hp.eq_of_pairwise (fun a b _ _ hab hba => by omega) h2 hs
  rw [heq]
  congr 2
  have : ∀ l : List VoiceSlot, (∀ v ∈ l, Songless v) → l.map muteSlot = l := by
    intro l hl
    induction l with
    | nil => rfl
    | cons v l ih =>
      rw [List.map_cons, ih (fun x hx => hl x (List.mem_cons_of_mem _ hx))]
      rcases hl v (by simp) with rfl | rfl <;> rfl
  exact this rest hrest

/-- C105, negation: voices after the first with a note never have lyrics when read. -/
theorem later_voice_loses_lyrics (fields : List Str) (pre rest : List VoiceSlot) (ls ms : List NoteLyric)
    (hm : VoiceSlot.note ms ∈ rest) (hne : ms ≠ []) :
    giveLyrics fields (pre ++ .note ls :: rest) ≠ pre ++ .note ls :: rest := by
  have key : ∀ pre : List VoiceSlot, ∀ rest' : List VoiceSlot, VoiceSlot.note ms ∈ rest' → ∀ w,
      giveLyrics fields (pre ++ w) = pre ++ w → w = .note ls :: rest' → False := by
    intro pre rest' hm' w he hw
    subst hw
    induction pre with
    | nil =>
      rw [List.nil_append, giveLyrics] at he
      injection he with _ he
      have : VoiceSlot.note ms ∈ rest'.map muteSlot := by rw [he]; exact hm'
      rw [List.mem_map] at this
      obtain ⟨v, -, hv⟩ := this
      cases v with
      | note x => simp [muteSlot] at hv; exact hne hv
      | other => simp [muteSlot] at hv
    | cons v pre ih =>
      cases v with
      | other =>
        rw [List.cons_append, giveLyrics] at he
        injection he with _ he
        exact ih he
      | note x =>
        rw [List.cons_append, giveLyrics] at he
        injection he with _ he
        have : VoiceSlot.note ms ∈ (pre ++ VoiceSlot.note ls :: rest').map muteSlot := by rw [he]; simp [hm']
        rw [List.mem_map] at this
        obtain ⟨v, -, hv⟩ := this
        cases v with
        | note x => simp [muteSlot] at hv; exact hne hv
        | other => simp [muteSlot] at hv
  exact fun he => key pre rest hm _ he rfl

/-- C105, negation: the lyrics of a later voice overwrite those of the same verses of the first, and erase the
ones below its highest verse number. -/
theorem later_voice_overwrites :
    giveLyrics (staffFields 2 [.note [⟨1, [("la".toList, .single)]⟩], .note [⟨2, [("so".toList, .single)]⟩]])
      [.note [⟨1, [("la".toList, .single)]⟩], .note [⟨2, [("so".toList, .single)]⟩]] =
    [.note [⟨2, [("so".toList, .single)]⟩], .note []] := by decide +kernel

/-! ## Texts that change -/

/-- C105, negation: a lyric starting with `!` or `*` gets a backslash that is never taken away. -/
theorem escaped_lyric_changed (w : Str) (c : Char) (hc : c = '!' ∨ c = '*') (hw : GoodWord (c :: w)) :
    lyricToken [(c :: w, .single)] = '\\' :: c :: w ∧
    (w ≠ [] → readLyric (lyricToken [(c :: w, .single)]) ≠ some [(c :: w, .single)]) := by
  have hraw : rawText [(c :: w, .single)] = joinWith ' ' [c :: w] := by
    simp [rawText, lyricText, joinWith]
  have hcl : cleanSpaces (rawText [(c :: w, .single)]) = c :: w := by
    rw [hraw, cleanSpaces_join]
    · rfl
    · intro x hx
      simp at hx
      subst hx
      exact ⟨by simp, fun y hy => (hw.2.1 y hy).1⟩
  have htok : lyricToken [(c :: w, .single)] = '\\' :: c :: w := by
    unfold lyricToken
    rw [hcl]
    simp only [hc, if_true]
    simp
  refine ⟨htok, fun _ => ?_⟩
  rw [htok]
  unfold readLyric
  rw [if_neg (by simp)]
  intro he
  injection he with he
  have hel : elide ('\\' :: c :: w) = ['\\' :: c :: w] := by
    unfold elide
    simp only
    rw [(elideGo_word (c :: w) (fun y hy => (hw.2.1 y hy).1) 'x' [] (by decide)).2]
    show [replaceAll ['\\', 'n'] ['\n'] ('\\' :: c :: w)] = _
    have h1 : '\\' ∉ (c :: w) := fun hm => (hw.2.1 _ hm).2.1 rfl
    have hcn : c ≠ 'n' := by rcases hc with rfl | rfl <;> decide
    have h2 : replaceAll ['\\', 'n'] ['\n'] ('\\' :: c :: w) = '\\' :: replaceAll ['\\', 'n'] ['\n'] (c :: w) := by
      unfold replaceAll
      rw [replaceGo, if_neg (by simp [List.isPrefixOf, Ne.symm hcn])]
    rw [h2, replace_newline _ h1]
  rw [hel] at he
  simp only [List.map_cons, List.map_nil] at he
  unfold parseSyllable at he
  rw [if_neg (by simp)] at he
  have hl : ('\\' :: c :: w).getLast? = (c :: w).getLast? := List.getLast?_cons_cons
  rw [hl, if_neg hw.2.2.2] at he
  simp at he

/-- C105, negations: a point is a null token; a hyphen at the end of a text becomes part of the syllabic; a
second syllable starting with an apostrophe is joined to the first; blanks inside a syllable separate it. -/
theorem lyric_texts_changed :
    readLyric (lyricToken [(".".toList, .single)]) = none ∧
    readLyric (lyricToken [("ah-".toList, .single)]) = some [("ah".toList, .begins)] ∧
    readLyric (lyricToken [("ma".toList, .single), ("'l".toList, .single)]) = some [("ma 'l".toList, .single)] ∧
    readLyric (lyricToken [("o  quam".toList, .single)]) =
      some [("o".toList, .single), ("quam".toList, .single)] ∧
    readLyric (lyricToken [("a".toList, .begins), ("b".toList, .ends)]) =
      some [("a".toList, .single), ("b".toList, .single)] := by decide +kernel

/-! ## Labels of verses -/

/-- C105, labels: without characters special to regular expressions a label comes back as it is, unless it is a
single `d`. -/
theorem verse_label_partial (label : Str) (h : ∀ c ∈ label, isRegexChar c = false) (hne : label ≠ [])
    (hd : label ≠ ['d']) : readLabel (labelToken label) = some (.ok label) := by
  unfold readLabel labelToken
  have hs : startsWith ("*v:".toList ++ label) "*v:".toList = true := by
    simp [startsWith, List.isPrefixOf]
  rw [if_pos hs]
  have hdrop : ("*v:".toList ++ label).drop 3 = label := rfl
  rw [hdrop]
  unfold labelText
  rw [if_pos (by simp only [List.all_eq_true]; intro c hc; rw [h c hc]; rfl)]
  have hin : isInfix label "^\\d+$".toList = false := by
    cases hi : isInfix label "^\\d+$".toList with
    | false => rfl
    | true =>
      exfalso
      rw [isInfix_iff] at hi
      have hsub : ∀ c ∈ label, c = 'd' := by
        intro c hc
        have hm := hi.subset hc
        have hx := h c hc
        have : c = '^' ∨ c = '\\' ∨ c = 'd' ∨ c = '+' ∨ c = '$' := by
          have e : "^\\d+$".toList = ['^', '\\', 'd', '+', '$'] := by decide
          rw [e] at hm
          simpa using hm
        rcases this with rfl | rfl | rfl | rfl | rfl
        · exact absurd hx (by decide)
        · exact absurd hx (by decide)
        · rfl
        · exact absurd hx (by decide)
        · exact absurd hx (by decide)
      have hlen : label.length ≤ 1 := by
        have hc := hi.sublist.count_le 'd'
        have e : "^\\d+$".toList.count 'd' = 1 := by decide
        rw [e] at hc
        have : label.count 'd' = label.length := List.count_eq_length.2 (fun b hb => (hsub b hb).symm)
        omega
      match label, hne, hd, hsub, hlen with
      | [c], _, hd, hsub, _ => exact hd (by rw [hsub c (by simp)])
      | _ :: _ :: _, _, _, _, hlen => simp at hlen
  rw [hin]
  rfl

/-- C105, negations: the label `d` gains a point, and the label `1` (for which the point is meant) does not. -/
theorem label_points_swapped :
    readLabel (labelToken "d".toList) = some (.ok "d.".toList) ∧
    readLabel (labelToken "1".toList) = some (.ok "1".toList) := ⟨rfl, rfl⟩

/-- C105, negation: a label with an unmatched closing parenthesis, as in `1)`, makes import fail. -/
theorem label_parenthesis_crash (label : Str) (h : ∀ c ∈ label, isRegexChar c = false) :
    readLabel (labelToken (label ++ [')'])) = some (.error .valueError) := by
  unfold readLabel labelToken
  have hs : startsWith ("*v:".toList ++ (label ++ [')'])) "*v:".toList = true := by
    simp [startsWith, List.isPrefixOf]
  rw [if_pos hs]
  show labelText (label ++ [')']) = _
  unfold labelText
  have h1 : ((label ++ [')']).all fun c => !isRegexChar c) = false := by
    rw [List.all_append]
    have : ([')'].all fun c => !isRegexChar c) = false := by decide
    rw [this]; simp
  have h2 : ((label ++ [')']).all fun c => !isRegexChar c || c == ')') = true := by
    rw [List.all_eq_true]
    intro c hc
    rw [List.mem_append] at hc
    rcases hc with hc | hc
    · rw [h c hc]; rfl
    · simp at hc; rw [hc]; decide
  rw [h1, h2]
  rfl

/-! ## Concrete cases -/

/-- Two verses, the second with an elision inside two words. -/
def lyricsEx : List NoteLyric :=
  [⟨1, [("glo".toList, .begins)]⟩, ⟨3, [("le".toList, .ends), ("a".toList, .single), ("la".toList, .begins)]⟩]

theorem lyricsEx_ok : GoodLyrics lyricsEx ∧ (lyricsEx.Pairwise fun a b => a.number < b.number) := by
  refine ⟨?_, by decide⟩
  intro l hl
  simp only [lyricsEx, List.mem_cons, List.not_mem_nil, or_false] at hl
  rcases hl with rfl | rfl
  · refine ⟨by decide, by decide, ⟨by decide, ?_, by decide, by decide⟩, by decide, ?_⟩
    · intro s hs
      simp only [List.mem_cons, List.not_mem_nil, or_false] at hs
      subst hs
      exact ⟨by decide, by decide, by decide, by decide⟩
    · intro a ha _
      simp only [List.head?_cons, Option.some.injEq] at ha
      subst ha
      decide
  · refine ⟨by decide, by decide, ⟨by decide, ?_, by decide, by decide⟩, by decide, ?_⟩
    · intro s hs
      simp only [List.mem_cons, List.not_mem_nil, or_false] at hs
      rcases hs with rfl | rfl | rfl <;> exact ⟨by decide, by decide, by decide, by decide⟩
    · intro a ha _
      simp only [List.head?_cons, Option.some.injEq] at ha
      subst ha
      decide

example : staffFields 3 [.other, .note lyricsEx, .note []] = ["glo-".toList, ".".toList, "-le a la-".toList] := by
  decide +kernel

example : giveLyrics (staffFields 3 [.other, .note lyricsEx, .note []]) [.other, .note lyricsEx, .note []] =
    [.other, .note lyricsEx, .note []] :=
  staff_lyrics_round_trip_partial 3 [.other] [.note []] lyricsEx (by simp) (by simp [Songless]) lyricsEx_ok.1
    lyricsEx_ok.2

example : readLabel (labelToken "Rit".toList) = some (.ok "Rit".toList) :=
  verse_label_partial _ (by decide) (by decide) (by decide)

end C21
