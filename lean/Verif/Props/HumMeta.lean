import Verif.Model.HumMeta
import Verif.Spec.Dates
import Verif.Props.Dates
import Verif.Props.Line
import Verif.Props.TextExport
import Verif.Lemmas.PyNum
import Verif.Lemmas.PyDict
import Mathlib.Data.List.Forall2
/-
C121: metadata in Humdrum.
-/
namespace C21

/-! ### Specification -/

/-- A text that a reference record can carry: not empty, no `&` or backslash, no space at an end. Line breaks inside are allowed. -/
structure RecordValue (s : Str) : Prop where
  some : s ≠ []
  amp : '&' ∉ s
  slash : '\\' ∉ s
  trim : Trim isPySpace s

/-- A text of the metadata with a language of small letters, or none. -/
structure RecordItem (t : MText) : Prop where
  value : RecordValue t.data
  lang : ∀ c ∈ t.lang, c.isLower = true
  translated : t.translated = true → t.lang ≠ []

/-- The metadata that Humdrum has a place for: names with a reference key and texts, contributors or dates as values; standard keys without a name;
other keys, without a language; performers and editors of the publication. -/
inductive Carriable (isPerson : Str → Bool) : Str → MVal → Prop
  | text (k n : String) (t : MText) (h : (k, n) ∈ refKeyTable) (hn : n ≠ "") (hd : k ∉ ["RRD", "ODT", "PDT", "YER"]) (hp : isPerson n.toList = false)
      (ht : RecordItem t) (hm : n = "movementName" → markInfo t.data = none) : Carriable isPerson n.toList (.text t)
  | person (k n : String) (t : MText) (h : (k, n) ∈ refKeyTable) (hn : n ≠ "") (hd : k ∉ ["RRD", "ODT", "PDT", "YER"]) (hp : isPerson n.toList = true)
      (ht : RecordItem t) (hm : n = "movementName" → markInfo t.data = none) : Carriable isPerson n.toList (.person n.toList [t])
  | date (k n : String) (d : DatePrim) (h : (k, n) ∈ refKeyTable) (hd : k ∈ ["RRD", "ODT", "PDT", "YER"]) (ht : PlainPrim d) :
      Carriable isPerson n.toList (.date d)
  | standard (k : String) (t : MText) (h : (k, "") ∈ refKeyTable)
      (hk : k ∉ ["ACO", "MPN", "MPS", "PED", "CDT", "RDT", "MRD", "MPD", "MDT", "YOY", "END"]) (ht : RecordItem t) :
      Carriable isPerson ("humdrum:".toList ++ k.toList) (.text t)
  | other (k : Str) (v : Str) (hv : RecordValue v) (hc : ':' ∉ k) (h0 : k ≠ []) (h1 : ∀ c, k.head? = some c → c ≠ '!') (ht : Trim isPySpace k)
      (hs : k ≠ "system-decoration".toList) (hr : startsWith k "RDF**".toList = false)
      (hk : ∀ p ∈ refKeyTable, k.takeWhile isKeyChar ≠ p.1.toList) : Carriable isPerson ("raw:".toList ++ k) (.text { data := v })
  | contributor (role : String) (t : MText) (hr : role ∈ ["performer", "suspected performer", "publication editor"]) (ht : RecordItem t) (hl : t.lang = []) :
      Carriable isPerson "otherContributor".toList (.person role.toList [t])

/-- Values the reader takes for the same. -/
def Alike : MVal → MVal → Prop
  | .text a, .text b => a.data = b.data ∧ a.lang = b.lang
  | a, b => a = b

/-- The words of a value. -/
def wordsOf : MVal → Str
  | .text t => t.data
  | .person _ (t :: _) => t.data
  | .person _ [] => []
  | .date d => stringFromPrim d

/-- Metadata that Humdrum can carry. What music21 knows about the file itself may be there too. -/
structure GoodMeta (isPerson : Str → Bool) (md : MdDict) : Prop where
  keys : (Dict.keys md).Nodup
  items : ∀ p ∈ mdItems md, p.1 ∈ fileInfoNames ∨ Carriable isPerson p.1 p.2
  distinct : ∀ n, (mdValues md n).Pairwise (fun a b => ¬ Alike a b)
  titles : ∀ a ∈ mdValues md "title".toList, ∀ b ∈ mdValues md "movementName".toList, wordsOf a ≠ wordsOf b

/-! ### Values in records -/

/-- The escape of a line break. -/
def escNl (c : Char) : Str := if c = '\n' then ['\\', 'n'] else [c]

theorem replace_nl (s : Str) : replaceAll ['\n'] ['\\', 'n'] s = s.flatMap escNl := by
  unfold replaceAll
  induction s with
  | nil => rfl
  | cons c cs ih =>
    by_cases hc : c = '\n'
    · subst hc
      simp [replaceGo, List.isPrefixOf, escNl, ih]
    · have hx : ('\n' == c) = false := by simpa using fun e : '\n' = c => hc e.symm
      simp [replaceGo, List.isPrefixOf, hx, escNl, hc, ih]

theorem unescape_none (s : Str) (h : '&' ∉ s) : unescapeGo 0 s = s := by
  induction s with
  | nil => rfl
  | cons c cs ih =>
    simp only [List.mem_cons, not_or] at h
    have hx : ('&' == c) = false := by simpa using h.1
    simp [unescapeGo, List.isPrefixOf, hx, ih h.2]

theorem value_back (s : Str) (h : RecordValue s) : importText (s.flatMap escNl) = s := by
  unfold importText replaceAll
  rw [unescape_none]
  · exact replace_newlines s h.slash
  · intro hm
    obtain ⟨c, hc, hm⟩ := List.mem_flatMap.1 hm
    unfold escNl at hm
    split at hm
    · exact absurd hm (by decide)
    · simp only [List.mem_cons, List.not_mem_nil, or_false] at hm
      exact h.amp (hm ▸ hc)

theorem value_trim (s : Str) (h : RecordValue s) : s.flatMap escNl ≠ [] ∧ Trim isPySpace (s.flatMap escNl) := by
  have hnl : ∀ c, isPySpace c = false → escNl c = [c] := by
    intro c hc
    unfold escNl
    rw [if_neg]
    rintro rfl
    exact absurd hc (by decide)
  obtain ⟨c, cs, rfl⟩ := List.exists_cons_of_ne_nil h.some
  have h1 := h.trim.1 c rfl
  refine ⟨by rw [List.flatMap_cons, hnl c h1]; simp, ?_, ?_⟩
  · intro x hx
    rw [List.flatMap_cons, hnl c h1] at hx
    simp only [List.cons_append, List.nil_append, List.head?_cons, Option.some.injEq] at hx
    exact hx ▸ h1
  · obtain ⟨ini, l, e⟩ := List.eq_nil_or_concat (c :: cs) |>.resolve_left (by simp)
    have h2 := h.trim.2 l (by rw [e]; simp)
    intro x hx
    rw [e, List.concat_eq_append, List.flatMap_append, List.flatMap_cons, List.flatMap_nil, List.append_nil, hnl l h2] at hx
    simp only [List.getLast?_append, List.getLast?_singleton, Option.some_or, Option.some.injEq] at hx
    exact hx ▸ h2

theorem mdString_words (v : MVal) : mdString v = (wordsOf v).flatMap escNl := by
  unfold mdString
  rw [replace_nl]
  rcases v with t | ⟨r, _ | ⟨t, ts⟩⟩ | d <;> rfl

/-! ### Keys -/

theorem lang_letter_facts {c : Char} (h : c.isLower = true) :
    c.toUpper.isAlpha = true ∧ c.toUpper.toLower = c ∧ c.toUpper ≠ '@' ∧ c.toUpper ≠ ':' ∧ isPySpace c.toUpper = false := by
  have h' : 97 ≤ c.toNat ∧ c.toNat ≤ 122 := by
    simp only [Char.isLower, Bool.and_eq_true, decide_eq_true_eq] at h
    exact ⟨h.1, h.2⟩
  have hall : ∀ k < 26, (Char.ofNat (97 + k)).toUpper.isAlpha = true ∧ (Char.ofNat (97 + k)).toUpper.toLower = Char.ofNat (97 + k) ∧
      (Char.ofNat (97 + k)).toUpper ≠ '@' ∧ (Char.ofNat (97 + k)).toUpper ≠ ':' ∧ isPySpace (Char.ofNat (97 + k)).toUpper = false := by decide +kernel
  have e : c = Char.ofNat (97 + (c.toNat - 97)) := by
    rw [show 97 + (c.toNat - 97) = c.toNat by omega, Char.ofNat_toNat]
  rw [e]
  exact hall _ (by omega)

/-- Facts about the keys of the table. -/
theorem key_facts : ∀ p ∈ refKeyTable, p.1.toList.length = 3 ∧ (∀ c ∈ p.1.toList, isKeyChar c = true ∧ isPySpace c = false ∧ c ≠ ':') ∧
    p.1.toList ≠ "RDF".toList ∧ p.1.toList ≠ "sys".toList ∧ (∀ c, p.1.toList.head? = some c → c ≠ '!') := by decide +kernel

theorem name_facts : ∀ p ∈ refKeyTable, p.2 ≠ "" → uniqueNameToKey.get? p.2 = some p.1 ∧ Dict.get? refKeyTable p.1 = some p.2 ∧ p.1 ≠ "MRD" ∧
    startsWith p.2.toList "raw:".toList = false ∧ startsWith p.2.toList "humdrumraw:".toList = false ∧ startsWith p.2.toList "humdrum:".toList = false ∧
    p.2.toList ∉ fileInfoNames ∧ p.2.toList ≠ "otherContributor".toList ∧
    (p.1.toList = "OTL".toList → p.2 = "title") ∧ (p.1.toList = "OMD".toList → p.2 = "movementName") ∧
    (p.1.toList ∈ dateSchemeKeys ↔ p.1 ∈ ["RRD", "ODT", "PDT", "YER"]) := by decide +kernel

theorem standard_facts : ∀ p ∈ refKeyTable, p.2 = "" → p.1 ∉ ["ACO", "MPN", "MPS", "PED", "CDT", "RDT", "MRD", "MPD", "MDT", "YOY", "END"] →
    Dict.get? refKeyTable p.1 = some "" ∧ p.1 ≠ "MRD" ∧ p.1.toList ≠ "ACO".toList ∧ keyToOtherRole.get? p.1 = none ∧ p.1.toList ∉ customDateKeys ∧
    p.1.toList ≠ "OTL".toList ∧ p.1.toList ≠ "OMD".toList := by decide +kernel

theorem suffix_chars (t : MText) (h : ∀ c ∈ t.lang, c.isLower = true) : ∀ c ∈ langSuffix t, isPySpace c = false ∧ c ≠ ':' := by
  have hu : ∀ c ∈ upperStr t.lang, isPySpace c = false ∧ c ≠ ':' := by
    intro c hc
    obtain ⟨x, hx, rfl⟩ := List.mem_map.1 hc
    exact ⟨(lang_letter_facts (h x hx)).2.2.2.2, (lang_letter_facts (h x hx)).2.2.2.1⟩
  have hat : isPySpace '@' = false ∧ '@' ≠ ':' := by decide
  intro c hc
  unfold langSuffix at hc
  split at hc
  · simp at hc
  · split at hc
    · rcases List.mem_append.1 hc with hc | hc
      · have e : c = '@' := by simpa using hc
        exact e ▸ hat
      · exact hu c hc
    · rcases List.mem_append.1 hc with hc | hc
      · have e : c = '@' := by simpa using hc
        exact e ▸ hat
      · exact hu c hc

theorem suffix_head (t : MText) : langSuffix t = [] ∨ ∃ r, langSuffix t = '@' :: r := by
  unfold langSuffix
  split
  · exact .inl rfl
  · split
    · exact .inr ⟨_, rfl⟩
    · exact .inr ⟨_, rfl⟩

theorem suffix_parse (t : MText) (h : ∀ c ∈ t.lang, c.isLower = true) :
    parseLang (langSuffix t) = some (upperStr t.lang, decide (t.lang ≠ []) && !t.translated) := by
  have hall : (upperStr t.lang).all Char.isAlpha = true := by
    rw [List.all_eq_true]
    intro c hc
    obtain ⟨x, hx, rfl⟩ := List.mem_map.1 hc
    exact (lang_letter_facts (h x hx)).1
  unfold langSuffix
  by_cases h0 : t.lang = []
  · simp [h0, upperStr, parseLang]
  · rw [if_neg h0]
    cases ht : t.translated with
    | true =>
      rw [if_pos rfl]
      obtain ⟨a, l, hl⟩ := List.exists_cons_of_ne_nil h0
      have ha : a.toUpper ≠ '@' := (lang_letter_facts (h a (by rw [hl]; simp))).2.2.1
      have e : upperStr t.lang = a.toUpper :: upperStr l := by rw [hl]; rfl
      rw [e] at hall ⊢
      show parseLang ('@' :: a.toUpper :: upperStr l) = _
      rw [parseLang]
      · rw [if_pos hall]; simp
      · intro l' e'
        simp only [List.cons.injEq] at e'
        exact ha e'.1
    | false =>
      show parseLang ('@' :: '@' :: upperStr t.lang) = _
      rw [parseLang, if_pos hall]
      simp [h0]

theorem takeWhile_key (K r : Str) (hK : ∀ c ∈ K, isKeyChar c = true) (hr : ∀ c, r.head? = some c → isKeyChar c = false) :
    (K ++ r).takeWhile isKeyChar = K ∧ (K ++ r).dropWhile isKeyChar = r := by
  induction K with
  | nil =>
    cases r with
    | nil => exact ⟨rfl, rfl⟩
    | cons c cs => simp [hr c rfl]
  | cons a K ih =>
    obtain ⟨i1, i2⟩ := ih (fun c hc => hK c (List.mem_cons_of_mem _ hc))
    have ha := hK a (by simp)
    constructor
    · rw [List.cons_append, List.takeWhile_cons, if_pos ha, i1]
    · rw [List.cons_append, List.dropWhile_cons, if_pos ha, i2]

theorem indexText_dig (idx : Nat) : ∀ c ∈ indexText idx, isDig c = true := by
  intro c hc
  unfold indexText at hc
  split at hc
  · exact natStr_isDig _ c hc
  · simp at hc

theorem parse_written (K : Str) (idx : Nat) (t : MText) (hK : ∀ c ∈ K, isKeyChar c = true) (h : ∀ c ∈ t.lang, c.isLower = true) :
    parseKey (K ++ indexText idx ++ langSuffix t) = some (K, upperStr t.lang, decide (t.lang ≠ []) && !t.translated) := by
  have hnot : ∀ c, isDig c = true → isKeyChar c = false := by intro c hc; simp [isKeyChar, hc]
  have hat : isKeyChar '@' = false := by decide
  have hhead : ∀ c, (indexText idx ++ langSuffix t).head? = some c → isKeyChar c = false := by
    intro c hc
    cases hi : indexText idx with
    | nil =>
      rw [hi, List.nil_append] at hc
      rcases suffix_head t with e | ⟨r, e⟩
      · rw [e] at hc; cases hc
      · rw [e] at hc; cases hc; exact hat
    | cons a l =>
      rw [hi] at hc
      cases hc
      exact hnot _ (indexText_dig idx _ (by rw [hi]; simp))
  have hd : (indexText idx ++ langSuffix t).dropWhile isDig = langSuffix t := by
    refine dropWhile_all _ _ (indexText_dig idx) ?_
    intro c hc
    rcases suffix_head t with e | ⟨r, e⟩
    · rw [e] at hc; cases hc
    · rw [e] at hc; cases hc; decide
  obtain ⟨h1, h2⟩ := takeWhile_key K (indexText idx ++ langSuffix t) hK hhead
  unfold parseKey
  rw [List.append_assoc, h1, h2, hd, suffix_parse t h]
  rfl

theorem lang_back (t : MText) (h : ∀ c ∈ t.lang, c.isLower = true) : lowerStr (upperStr t.lang) = t.lang := by
  unfold lowerStr upperStr
  rw [List.map_map]
  have : ∀ l : Str, (∀ c ∈ l, c.isLower = true) → l.map (Char.toLower ∘ Char.toUpper) = l := by
    intro l hl
    induction l with
    | nil => rfl
    | cons a l ih =>
      rw [List.map_cons, ih (fun c hc => hl c (List.mem_cons_of_mem _ hc))]
      rw [show (Char.toLower ∘ Char.toUpper) a = a from (lang_letter_facts (hl a (by simp))).2.1]
  exact this _ h

/-! ### One record -/

/-- The line says `n` and `v` to the reader. -/
def Reads (isPerson : Str → Bool) (markName : Str → Str) (n : Str) (v : MVal) (line : Str) : Prop :=
  ∃ k, (∀ before, (n = "movementName".toList → before = true) → biblioEntry markName before line = some (k, wordsOf v)) ∧
    (∀ md, (∀ w ∈ mdValues md n, ¬ Alike w v) → addRecord isPerson md (k, wordsOf v) = .ok (mdAdd md n v)) ∧
    (k = "OTL".toList → n = "title".toList) ∧ (k = "OMD".toList → n = "movementName".toList)

theorem mdValueEqual_iff (a b : MVal) : mdValueEqual a b = true ↔ Alike a b := by
  rcases a with a | ⟨r, ns⟩ | d <;> rcases b with b | ⟨r', ns'⟩ | d' <;> simp [mdValueEqual, Alike]

theorem addIfNew_new (md : MdDict) (n : Str) (v : MVal) (h : ∀ w ∈ mdValues md n, ¬ Alike w v) : addIfNew md n v = mdAdd md n v := by
  unfold addIfNew
  rw [if_neg]
  rw [List.any_eq_true]
  rintro ⟨w, hw, he⟩
  exact h w hw ((mdValueEqual_iff w v).1 he)

/-- Reading a written record. -/
theorem entry_read (markName : Str → Str) (before : Bool) (k w : Str) (hw : RecordValue w) (hc : ':' ∉ k) (h0 : k ≠ []) (h1 : ∀ c, k.head? = some c → c ≠ '!')
    (ht : Trim isPySpace k) (hs : k ≠ "system-decoration".toList) (hr : startsWith k "RDF**".toList = false)
    (ho : k = "OMD".toList → before = true ∧ markInfo w = none) :
    biblioEntry markName before (recordText k (w.flatMap escNl)) = some (k, w) := by
  obtain ⟨e0, et⟩ := value_trim w hw
  have el : recordText k (w.flatMap escNl) = "!!!".toList ++ ([] ++ k ++ []) ++ ':' :: ([' '] ++ w.flatMap escNl ++ []) := by
    unfold recordText
    rw [if_neg e0]
    simp
  have blank0 : Blank [] := by intro c hc; simp at hc
  have blank1 : Blank [' '] := by
    intro c hc
    have e : c = ' ' := by simpa using hc
    rw [e]; decide
  obtain ⟨r1, r2⟩ := reference_global [] k [] [' '] (w.flatMap escNl) [] blank0 blank0 blank1 blank0 hc h0 h1 ht et
  rw [← el] at r1 r2
  have hg : isGlobalReference (recordText k (w.flatMap escNl)) = true := by
    by_contra hg
    rw [Bool.not_eq_true] at hg
    have hu : isUniversalReference (recordText k (w.flatMap escNl)) = true := by
      by_contra hu
      rw [Bool.not_eq_true] at hu
      rw [referenceKey, hg, hu] at r1
      exact h0 r1.symm
    have hp : startsWith (recordText k (w.flatMap escNl)) "!!!!".toList = true := by
      unfold isUniversalReference at hu
      split at hu
      · cases hu
      · split at hu
        · cases hu
        · rename_i hx; simpa using hx
    obtain ⟨a, l, rfl⟩ := List.exists_cons_of_ne_nil h0
    have ha := h1 a rfl
    rw [el] at hp
    have : startsWith ("!!!".toList ++ ([] ++ (a :: l) ++ []) ++ ':' :: ([' '] ++ w.flatMap escNl ++ [])) "!!!!".toList = ('!' == a) := by
      show ("!!!!".toList).isPrefixOf ('!' :: '!' :: '!' :: a :: _) = _
      simp [List.isPrefixOf]
    rw [this] at hp
    exact ha (by simpa using (beq_iff_eq.1 hp).symm)
  unfold biblioEntry
  rw [hg, r1, r2, value_back w hw]
  simp only [Bool.not_true, Bool.false_eq_true, if_false, hs, hr, hw.some]
  by_cases hk : k = "OMD".toList
  · obtain ⟨hb, hm⟩ := ho hk
    rw [if_pos hk, hb, hm]
    rfl
  · rw [if_neg hk]

/-- A key of the table with number and language is a good key. -/
theorem written_key (k n : String) (h : (k, n) ∈ refKeyTable) (idx : Nat) (t : MText) (hl : ∀ c ∈ t.lang, c.isLower = true) :
    let kk := k.toList ++ indexText idx ++ langSuffix t
    ':' ∉ kk ∧ kk ≠ [] ∧ (∀ c, kk.head? = some c → c ≠ '!') ∧ Trim isPySpace kk ∧ kk ≠ "system-decoration".toList ∧ startsWith kk "RDF**".toList = false ∧
      kk.take 3 = k.toList := by
  obtain ⟨f1, f2, f3, f4, f5⟩ := key_facts _ h
  simp only at f1 f2 f3 f4 f5
  have hdig : ∀ c, isDig c = true → isPySpace c = false ∧ c ≠ ':' := by
    intro c hc
    have := isDig_facts hc
    exact ⟨this.1, by tauto⟩
  have hch : ∀ c ∈ k.toList ++ indexText idx ++ langSuffix t, isPySpace c = false ∧ c ≠ ':' := by
    intro c hc
    rcases List.mem_append.1 hc with hc | hc
    · rcases List.mem_append.1 hc with hc | hc
      · exact (f2 c hc).2
      · exact hdig c (indexText_dig idx c hc)
    · exact suffix_chars t hl c hc
  have htake : (k.toList ++ indexText idx ++ langSuffix t).take 3 = k.toList := by
    rw [List.append_assoc, ← f1, List.take_left]
  have hk0 : k.toList ≠ [] := by intro e; rw [e] at f1; cases f1
  refine ⟨fun hm => (hch _ hm).2 rfl, ?_, ?_, ⟨?_, ?_⟩, ?_, ?_, htake⟩
  · intro e
    rw [e] at htake
    exact hk0 htake.symm
  · intro c hc
    obtain ⟨a, l, e⟩ := List.exists_cons_of_ne_nil hk0
    rw [e] at hc
    cases hc
    exact f5 _ (by rw [e]; rfl)
  · intro c hc
    exact (hch c (List.mem_of_head? hc)).1
  · intro c hc
    exact (hch c (List.mem_of_getLast? hc)).1
  · intro e
    rw [e] at htake
    exact f4 htake.symm
  · by_contra hp
    rw [Bool.not_eq_false] at hp
    unfold startsWith at hp
    obtain ⟨r, hr⟩ := List.isPrefixOf_iff_prefix.1 hp
    rw [← hr] at htake
    exact f3 htake.symm

theorem take_three {k : String} {n : String} (h : (k, n) ∈ refKeyTable) : k.toList.take 3 = k.toList :=
  List.take_of_length_le (by rw [(key_facts _ h).1])

theorem parseItem_written (k n : String) (h : (k, n) ∈ refKeyTable) (idx : Nat) (t : MText) (w : Str) (hl : ∀ c ∈ t.lang, c.isLower = true)
    (htr : t.translated = true → t.lang ≠ []) :
    parseItem (k.toList ++ indexText idx ++ langSuffix t) w = (k.toList, { data := w, lang := t.lang, translated := t.translated }, true) := by
  unfold parseItem
  rw [parse_written k.toList idx t (fun c hc => ((key_facts _ h).2.1 c hc).1) hl]
  simp only [lang_back t hl, Prod.mk.injEq, MText.mk.injEq, true_and]
  constructor
  · by_cases h0 : t.lang = []
    · cases ht : t.translated with
      | true => exact absurd h0 (htr ht)
      | false => simp [h0, upperStr]
    · cases ht : t.translated <;> simp [h0, upperStr]
  · rw [String.ofList_toList, List.contains_iff_mem]
    exact List.mem_map_of_mem h

/-- The words of a date can stand in a record. -/
theorem date_words (d : DatePrim) (h : PlainPrim d) : RecordValue (stringFromPrim d) := by
  have hd : ∀ x ∈ d.dates, ∀ c ∈ stringFromDate x, isPySpace c = false ∧ c ≠ '&' ∧ c ≠ '\\' := by
    intro x hx c hc
    rcases plain_chars x (h.dates x hx) c hc with hc | hc | hc | hc | hc | hc
    · refine ⟨(isDig_facts hc).1, ?_, ?_⟩ <;> (rintro rfl; exact absurd hc (by decide))
    all_goals (subst hc; decide)
  have hch : ∀ c ∈ stringFromPrim d, isPySpace c = false ∧ c ≠ '&' ∧ c ≠ '\\' := by
    intro c hc
    rcases d with ⟨r, x⟩ | ⟨r, x⟩ | ⟨x, y⟩ | ⟨a, ds⟩
    · rcases List.mem_append.1 hc with hc | hc
      · rcases r with _ | (_ | _)
        · simp [singleSymbol] at hc
        all_goals
          have e := List.mem_singleton.1 hc
          subst e; decide
      · exact hd x (by simp [DatePrim.dates]) c hc
    · rcases List.mem_cons.1 hc with hc | hc
      · rcases r <;> (subst hc; decide)
      · exact hd x (by simp [DatePrim.dates]) c hc
    · rcases mem_joinWith _ _ c hc with e | ⟨s, hs, hm⟩
      · subst e; decide
      · simp only [List.mem_cons, List.not_mem_nil, or_false] at hs
        rcases hs with rfl | rfl
        · exact hd x (by simp [DatePrim.dates]) c hm
        · exact hd y (by simp [DatePrim.dates]) c hm
    · rcases mem_joinWith _ _ c hc with e | ⟨s, hs, hm⟩
      · subst e; decide
      · obtain ⟨x, hx, rfl⟩ := List.mem_map.1 hs
        exact hd x hx c hm
  have h0 : stringFromPrim d ≠ [] := by
    intro e
    have := prim_roundtrip d h
    rw [e] at this
    have h2 : primFromString [] = .ok none := by rfl
    rw [h2] at this
    cases this
  exact ⟨h0, fun hm => (hch _ hm).2.1 rfl, fun hm => (hch _ hm).2.2 rfl, fun c hc => (hch c (List.mem_of_head? hc)).1,
    fun c hc => (hch c (List.mem_of_getLast? hc)).1⟩

theorem tableName_get {k n : String} (h : Dict.get? refKeyTable k = some n) (hn : n ≠ "") : nameOfKey k.toList = some n.toList := by
  unfold nameOfKey tableName
  rw [String.ofList_toList, h]
  simp [hn]

/-- The record of a value under a name of the table. -/
theorem named_reads (isPerson : Str → Bool) (markName : Str → Str) (k n : String) (h : (k, n) ∈ refKeyTable) (hn : n ≠ "") (idx : Nat) (t : MText) (v : MVal)
    (hl : ∀ c ∈ t.lang, c.isLower = true) (htr : t.translated = true → t.lang ≠ []) (hw : RecordValue (wordsOf v))
    (hm : n = "movementName" → markInfo (wordsOf v) = none)
    (hr : ∃ x, readValue (k ∈ ["RRD", "ODT", "PDT", "YER"]) { data := wordsOf v, lang := t.lang, translated := t.translated } = .ok x ∧
      convertValue isPerson n.toList x = v) :
    Reads isPerson markName n.toList v (recordText (k.toList ++ indexText idx ++ langSuffix t) (mdString v)) := by
  obtain ⟨g1, g2, g3, g4, g5, g6, g7⟩ := written_key k n h idx t hl
  obtain ⟨n1, n2, n3, n4, n5, n6, n7, n8, n9, n10, n11⟩ := name_facts _ h hn
  simp only at n1 n2 n3 n4 n5 n6 n7 n8 n9 n10 n11
  have hkey : ∀ s : Str, k.toList ++ indexText idx ++ langSuffix t = s → s.take 3 = k.toList := fun s e => e ▸ g7
  have hOMD : k.toList ++ indexText idx ++ langSuffix t = "OMD".toList → n = "movementName" := fun e => n10 (hkey _ e).symm
  have hOTL : k.toList ++ indexText idx ++ langSuffix t = "OTL".toList → n = "title" := fun e => n9 (hkey _ e).symm
  refine ⟨_, ?_, ?_, fun e => by rw [hOTL e], fun e => by rw [hOMD e]⟩
  · intro before hb
    rw [mdString_words]
    exact entry_read markName before _ _ hw g1 g2 g3 g4 g5 g6 (fun e => ⟨hb (by rw [hOMD e]), hm (hOMD e)⟩)
  · intro md hnew
    obtain ⟨x, hx, hv⟩ := hr
    unfold addRecord
    rw [parseItem_written k n h idx t _ hl htr]
    have hmrd : k.toList ≠ "MRD".toList := fun e => n3 (String.toList_inj.1 e)
    have hdate : ((parseKey (k.toList ++ indexText idx ++ langSuffix t)).isSome && decide (k.toList.take 3 ∈ dateSchemeKeys)) =
        decide (k ∈ ["RRD", "ODT", "PDT", "YER"]) := by
      rw [parse_written k.toList idx t (fun c hc => ((key_facts _ h).2.1 c hc).1) hl, take_three h]
      simp only [Option.isSome_some, Bool.true_and]
      exact decide_eq_decide.2 n11
    simp only [hmrd, if_false, tableName_get n2 hn, hdate, hx, hv]
    rw [addIfNew_new md _ _ hnew]

/-- Every carriable item is written so that it is read. -/
theorem item_written (isPerson : Str → Bool) (markName : Str → Str) (n : Str) (v : MVal) (h : Carriable isPerson n v) (d : IdxDict) :
    n ∉ fileInfoNames ∧ (n ∈ topNames → ∃ l d', topItem d n v = .ok (l, d') ∧ Reads isPerson markName n v l) ∧
    ∃ l d', restItem d n v = .ok (some l, d') ∧ Reads isPerson markName n v l := by
  -- names of the table
  have named : ∀ (k m : String) (hk : (k, m) ∈ refKeyTable) (hm : m ≠ "") (t : MText) (v : MVal), valueSuffix v = .ok (langSuffix t) →
      (∀ idx, Reads isPerson markName m.toList v (recordText (k.toList ++ indexText idx ++ langSuffix t) (mdString v))) →
      m.toList ∉ fileInfoNames ∧ (m.toList ∈ topNames → ∃ l d', topItem d m.toList v = .ok (l, d') ∧ Reads isPerson markName m.toList v l) ∧
        ∃ l d', restItem d m.toList v = .ok (some l, d') ∧ Reads isPerson markName m.toList v l := by
    intro k m hk hm t v hs hr
    obtain ⟨n1, n2, n3, n4, n5, n6, n7, n8, _⟩ := name_facts _ hk hm
    simp only at n1 n2 n3 n4 n5 n6 n7 n8
    have hkey : keyOfName m.toList = some k.toList := by
      unfold keyOfName
      rw [String.ofList_toList, n1]
    have hline : ∀ idx, itemLine idx m.toList v = .ok (recordText (k.toList ++ indexText idx ++ langSuffix t) (mdString v)) := by
      intro idx
      unfold itemLine
      simp only [n4, n5, n6, Bool.false_eq_true, if_false, hkey, hs]
      rfl
    have hkw : ∃ q, keyWithoutIndex m.toList v = .ok (some q) ∧ q ≠ [] := by
      have h3 : k.toList ≠ [] := by
        intro e
        have := (key_facts _ hk).1
        rw [e] at this
        cases this
      unfold keyWithoutIndex
      rw [hkey]
      split
      · split
        · exact ⟨_, rfl, h3⟩
        · exact ⟨_, rfl, by simp [h3]⟩
      · exact ⟨_, rfl, h3⟩
    obtain ⟨q, hq, hq0⟩ := hkw
    refine ⟨n7, ?_, ?_⟩
    · intro _
      unfold topItem
      rw [hq]
      simp only [hline]
      split
      · exact ⟨_, _, rfl, hr _⟩
      · exact ⟨_, _, rfl, hr _⟩
    · unfold restItem
      simp only [n4, n5, n6, Bool.or_self, Bool.false_eq_true, if_false, n7, n8]
      unfold plainItem
      rw [hq]
      simp only [hq0, if_false, hline]
      exact ⟨_, _, rfl, hr _⟩
  cases h with
  | text k m t hk hm hd hp ht hmv =>
    refine named k m hk hm t _ rfl (fun idx => ?_)
    refine named_reads isPerson markName k m hk hm idx t _ ht.lang ht.translated ht.value hmv ⟨.text t, ?_, ?_⟩
    · unfold readValue
      rw [if_neg (by simpa using hd)]
      rfl
    · simp [convertValue, hp]
  | person k m t hk hm hd hp ht hmv =>
    refine named k m hk hm t _ rfl (fun idx => ?_)
    refine named_reads isPerson markName k m hk hm idx t _ ht.lang ht.translated ht.value hmv ⟨.text t, ?_, ?_⟩
    · unfold readValue
      rw [if_neg (by simpa using hd)]
      rfl
    · simp [convertValue, hp]
  | date k m dt hk hd ht =>
    have hm : m ≠ "" ∧ m ≠ "movementName" := by
      have : ∀ p ∈ refKeyTable, p.1 ∈ ["RRD", "ODT", "PDT", "YER"] → p.2 ≠ "" ∧ p.2 ≠ "movementName" := by decide +kernel
      exact this _ hk hd
    refine named k m hk hm.1 { data := [] } _ rfl (fun idx => ?_)
    refine named_reads isPerson markName k m hk hm.1 idx { data := [] } _ (by simp) (by simp) (date_words dt ht) (fun e => absurd e hm.2) ⟨.date dt, ?_, rfl⟩
    unfold readValue
    rw [if_pos (by simpa using hd)]
    simp only [wordsOf]
    rw [prim_roundtrip dt ht]
  | standard k t hk hk' ht =>
    obtain ⟨s1, s2, s3, s4, s5, s6, s7⟩ := standard_facts _ hk rfl hk'
    simp only at s1 s2 s3 s4 s5 s6 s7
    have hpre : ∀ r : Str, startsWith ("humdrum:".toList ++ r) "raw:".toList = false ∧ startsWith ("humdrum:".toList ++ r) "humdrumraw:".toList = false ∧
        startsWith ("humdrum:".toList ++ r) "humdrum:".toList = true := by
      intro r
      refine ⟨?_, ?_, ?_⟩ <;> simp [startsWith, List.isPrefixOf]
    obtain ⟨p1, p2, p3⟩ := hpre k.toList
    have hnt : "humdrum:".toList ++ k.toList ∉ fileInfoNames ++ topNames ++ ["movementName".toList, "title".toList] := by
      intro hm
      have : ∀ x ∈ fileInfoNames ++ topNames ++ ["movementName".toList, "title".toList], startsWith x "humdrum:".toList = false := by decide +kernel
      rw [this _ hm] at p3
      cases p3
    simp only [List.mem_append, not_or] at hnt
    refine ⟨hnt.1.1, fun hm => absurd hm hnt.1.2, ?_⟩
    have hline : itemLine 0 ("humdrum:".toList ++ k.toList) (.text t) = .ok (recordText (k.toList ++ indexText 0 ++ langSuffix t) (mdString (.text t))) := by
      unfold itemLine
      rw [p1, p2, p3]
      rfl
    unfold restItem
    rw [p3]
    simp only [Bool.or_true, Bool.true_or, if_true, hline]
    refine ⟨_, _, rfl, ?_⟩
    obtain ⟨g1, g2, g3, g4, g5, g6, g7⟩ := written_key k "" hk 0 t ht.lang
    have hkey : ∀ s : Str, k.toList ++ indexText 0 ++ langSuffix t = s → s.take 3 = k.toList := fun s e => e ▸ g7
    have hOMD : k.toList ++ indexText 0 ++ langSuffix t ≠ "OMD".toList := fun e => s7 (hkey _ e).symm
    have hOTL : k.toList ++ indexText 0 ++ langSuffix t ≠ "OTL".toList := fun e => s6 (hkey _ e).symm
    refine ⟨_, ?_, ?_, fun e => absurd e hOTL, fun e => absurd e hOMD⟩
    · intro before _
      rw [mdString_words]
      exact entry_read markName before _ _ ht.value g1 g2 g3 g4 g5 g6 (fun e => absurd e hOMD)
    · intro md hnew
      unfold addRecord
      rw [parseItem_written k "" hk 0 t _ ht.lang ht.translated]
      have hmrd : k.toList ≠ "MRD".toList := fun e => s2 (String.toList_inj.1 e)
      have hno : nameOfKey k.toList = none := by
        unfold nameOfKey tableName
        rw [String.ofList_toList, s1]
        simp only [if_true]
        rw [if_neg s3]
      simp only [hmrd, if_false, hno]
      unfold addCustomRecord
      rw [String.ofList_toList, s4]
      simp only [if_true, s5, if_false]
      exact congrArg _ (addIfNew_new md _ _ hnew)
  | other k w hv hc h0 h1 ht hs hr hk =>
    have p1 : startsWith ("raw:".toList ++ k) "raw:".toList = true := by simp [startsWith, List.isPrefixOf]
    have hnt : "raw:".toList ++ k ∉ fileInfoNames ++ topNames ++ ["movementName".toList, "title".toList] := by
      intro hm
      have : ∀ x ∈ fileInfoNames ++ topNames ++ ["movementName".toList, "title".toList], startsWith x "raw:".toList = false := by decide +kernel
      rw [this _ hm] at p1
      cases p1
    simp only [List.mem_append, not_or] at hnt
    refine ⟨hnt.1.1, fun hm => absurd hm hnt.1.2, ?_⟩
    have hline : itemLine 0 ("raw:".toList ++ k) (.text { data := w }) = .ok (recordText k (mdString (.text { data := w }))) := by
      unfold itemLine
      rw [p1]
      rfl
    unfold restItem
    rw [p1]
    simp only [Bool.or_true, if_true, hline]
    refine ⟨_, _, rfl, ?_⟩
    have hne : ∀ s : String, (∃ m, (s, m) ∈ refKeyTable) → k ≠ s.toList := by
      rintro s ⟨m, hm⟩ e
      refine hk _ hm ?_
      have := (takeWhile_key s.toList [] (fun c hc => ((key_facts _ hm).2.1 c hc).1) (by simp)).1
      rw [List.append_nil] at this
      rw [e]
      exact this
    have hOMD : k ≠ "OMD".toList := hne "OMD" ⟨"movementName", by decide +kernel⟩
    have hOTL : k ≠ "OTL".toList := hne "OTL" ⟨"title", by decide +kernel⟩
    refine ⟨k, ?_, ?_, fun e => absurd e hOTL, fun e => absurd e hOMD⟩
    · intro before _
      rw [mdString_words]
      exact entry_read markName before _ _ hv hc h0 h1 ht hs hr (fun e => absurd e hOMD)
    · intro md _
      -- neither the whole key nor its first group is in the table
      have hnone : ∀ q : Str, (∀ p ∈ refKeyTable, q ≠ p.1.toList) → nameOfKey q = none ∧ q ≠ "MRD".toList ∧
          (refKeyTable.map (·.1)).contains (String.ofList q) = false := by
        intro q hq
        have hg : Dict.get? refKeyTable (String.ofList q) = none := by
          cases hgq : Dict.get? refKeyTable (String.ofList q) with
          | none => rfl
          | some m =>
            have := Dict.mem_of_get? _ _ _ hgq
            exact absurd (String.toList_ofList).symm (hq _ this)
        refine ⟨?_, ?_, ?_⟩
        · unfold nameOfKey tableName
          rw [hg]
          simp only
          rw [if_neg]
          have : ("ACO", "") ∈ refKeyTable := by decide +kernel
          exact hq _ this
        · have : ("MRD", "") ∈ refKeyTable := by decide +kernel
          exact hq _ this
        · rw [← Bool.not_eq_true, List.contains_iff_mem]
          intro hm
          obtain ⟨p, hp, e⟩ := List.mem_map.1 hm
          refine hq p hp ?_
          rw [e, String.toList_ofList]
      have hparse : ∃ q t', parseItem k w = (q, t', false) ∧ nameOfKey q = none ∧ q ≠ "MRD".toList := by
        unfold parseItem
        cases hpk : parseKey k with
        | none =>
          obtain ⟨a1, a2, _⟩ := hnone k (by
            intro p hp e
            exact hne p.1 ⟨p.2, hp⟩ e)
          exact ⟨_, _, rfl, a1, a2⟩
        | some r =>
          obtain ⟨g, l, two⟩ := r
          have hg : g = k.takeWhile isKeyChar := by
            unfold parseKey at hpk
            obtain ⟨_, _, e⟩ := Option.map_eq_some_iff.1 hpk
            simp only [Prod.mk.injEq] at e
            exact e.1.symm
          obtain ⟨a1, a2, a3⟩ := hnone g (by rw [hg]; exact hk)
          refine ⟨g, { data := w, lang := lowerStr l, translated := decide (l ≠ []) && !two }, ?_, a1, a2⟩
          simp only [a3]
      obtain ⟨q, t', e1, e2, e3⟩ := hparse
      unfold addRecord
      simp only [wordsOf, e1, e3, if_false, e2]
      rfl
  | contributor role t hrole ht hl =>
    have hr : roleKey role.toList = (keyToOtherRole.find? (fun p => p.2 = role)).map (·.1) ∧
        ∃ k, roleKey role.toList = some k ∧ (k, "") ∈ refKeyTable ∧ keyToOtherRole.get? k = some role ∧ Dict.get? refKeyTable k = some "" ∧ k ≠ "MRD" ∧ k ≠ "ACO" ∧
          k.toList ≠ "OMD".toList ∧ k.toList ≠ "OTL".toList := by
      simp only [List.mem_cons, List.not_mem_nil, or_false] at hrole
      rcases hrole with rfl | rfl | rfl
      · exact ⟨by decide +kernel, "MPN", by decide +kernel⟩
      · exact ⟨by decide +kernel, "MPS", by decide +kernel⟩
      · exact ⟨by decide +kernel, "PED", by decide +kernel⟩
    obtain ⟨_, k, r1, r2, r3, r4, r5, r6, r7, r8⟩ := hr
    refine ⟨by decide, fun hm => absurd hm (by decide), ?_⟩
    unfold restItem
    rw [if_neg (by decide), if_neg (by decide), if_pos rfl]
    simp only [r1]
    refine ⟨_, _, rfl, ?_⟩
    obtain ⟨g1, g2, g3, g4, g5, g6, g7⟩ := written_key k "" r2 (idxOf d (some k.toList)) t ht.lang
    have hsuf : langSuffix t = [] := by unfold langSuffix; rw [if_pos hl]
    have hkey : ∀ s : Str, k.toList ++ indexText (idxOf d (some k.toList)) ++ langSuffix t = s → s.take 3 = k.toList := fun s e => e ▸ g7
    have hOMD : k.toList ++ indexText (idxOf d (some k.toList)) ++ langSuffix t ≠ "OMD".toList := fun e => r7 (hkey _ e).symm
    have hOTL : k.toList ++ indexText (idxOf d (some k.toList)) ++ langSuffix t ≠ "OTL".toList := fun e => r8 (hkey _ e).symm
    refine ⟨k.toList ++ indexText (idxOf d (some k.toList)) ++ langSuffix t, ?_, ?_, fun e => absurd e hOTL, fun e => absurd e hOMD⟩
    · intro before _
      unfold roleLine
      rw [mdString_words]
      simp only
      rw [show ([] : Str) = langSuffix t from hsuf.symm]
      exact entry_read markName before _ _ ht.value g1 g2 g3 g4 g5 g6 (fun e => absurd e hOMD)
    · intro md hnew
      unfold addRecord
      rw [parseItem_written k "" r2 _ t _ ht.lang ht.translated]
      have hmrd : k.toList ≠ "MRD".toList := fun e => r5 (String.toList_inj.1 e)
      have hno : nameOfKey k.toList = none := by
        unfold nameOfKey tableName
        rw [String.ofList_toList, r4]
        simp only [if_true]
        rw [if_neg (fun e => r6 (String.toList_inj.1 e))]
      simp only [hmrd, if_false, hno]
      unfold addCustomRecord
      rw [String.ofList_toList, r3]
      simp only [if_true]
      exact congrArg _ (addIfNew_new md _ _ hnew)

/-! ### All records -/

theorem values_add (md : MdDict) (n m : Str) (v : MVal) : mdValues (mdAdd md n v) m = mdValues md m ++ if n = m then [v] else [] := by
  unfold mdAdd mdValues
  rw [Dict.get?_set]
  by_cases e : n = m
  · subst e; simp
  · simp [e]

/-- The values of a name in a list of items. -/
def namedIn (n : Str) (items : List (Str × MVal)) : List MVal := (items.filter (fun p => p.1 = n)).map (·.2)

theorem records_added (isPerson : Str → Bool) (items : List (Str × MVal)) (rs : List (Str × Str)) (md : MdDict)
    (h : List.Forall₂ (fun p r => ∀ md, (∀ w ∈ mdValues md p.1, ¬ Alike w p.2) → addRecord isPerson md r = .ok (mdAdd md p.1 p.2)) items rs)
    (hd : ∀ n, (mdValues md n ++ namedIn n items).Pairwise (fun a b => ¬ Alike a b)) :
    ∃ md', addRecords isPerson md rs = .ok md' ∧ ∀ n, mdValues md' n = mdValues md n ++ namedIn n items := by
  induction h generalizing md with
  | nil => exact ⟨md, rfl, fun n => by simp [namedIn]⟩
  | @cons p r ps rs hp _ ih =>
    have hsplit : ∀ n, namedIn n (p :: ps) = (if p.1 = n then [p.2] else []) ++ namedIn n ps := by
      intro n
      unfold namedIn
      rw [List.filter_cons]
      by_cases e : p.1 = n <;> simp [e]
    have hnew : ∀ w ∈ mdValues md p.1, ¬ Alike w p.2 := by
      intro w hw
      have := hd p.1
      rw [hsplit, if_pos rfl, List.pairwise_append] at this
      exact this.2.2 w hw p.2 (by simp)
    have hv : ∀ n, mdValues (mdAdd md p.1 p.2) n ++ namedIn n ps = mdValues md n ++ namedIn n (p :: ps) := by
      intro n
      rw [values_add, hsplit, List.append_assoc]
    obtain ⟨md', e1, e2⟩ := ih (mdAdd md p.1 p.2) (fun n => by rw [hv]; exact hd n)
    refine ⟨md', ?_, fun n => by rw [e2, hv]⟩
    rw [addRecords, hp md hnew]
    exact e1

theorem top_written (isPerson : Str → Bool) (markName : Str → Str) (items : List (Str × MVal)) (d : IdxDict)
    (h : ∀ p ∈ items, p.1 ∈ topNames ∧ Carriable isPerson p.1 p.2) :
    ∃ lines d', topLines d items = .ok (lines, d') ∧ List.Forall₂ (fun p l => Reads isPerson markName p.1 p.2 l) items lines := by
  induction items generalizing d with
  | nil => exact ⟨[], d, rfl, .nil⟩
  | cons p ps ih =>
    obtain ⟨hp, hc⟩ := h p (by simp)
    obtain ⟨l, d1, e1, r1⟩ := (item_written isPerson markName p.1 p.2 hc d).2.1 hp
    obtain ⟨ls, d2, e2, r2⟩ := ih d1 (fun q hq => h q (List.mem_cons_of_mem _ hq))
    refine ⟨l :: ls, d2, ?_, .cons r1 r2⟩
    rw [topLines, e1]
    simp only [e2]
    rfl

theorem rest_written (isPerson : Str → Bool) (markName : Str → Str) (items : List (Str × MVal)) (d : IdxDict)
    (h : ∀ p ∈ items, p.1 ∈ fileInfoNames ∨ Carriable isPerson p.1 p.2) :
    ∃ lines, otherLines d items = .ok lines ∧
      List.Forall₂ (fun p l => Reads isPerson markName p.1 p.2 l) (items.filter (fun p => p.1 ∉ fileInfoNames)) lines := by
  induction items generalizing d with
  | nil => exact ⟨[], rfl, .nil⟩
  | cons p ps ih =>
    rcases h p (by simp) with hp | hc
    · obtain ⟨ls, e2, r2⟩ := ih d (fun q hq => h q (List.mem_cons_of_mem _ hq))
      refine ⟨ls, ?_, by rw [List.filter_cons_of_neg (by simpa using hp)]; exact r2⟩
      have hri : restItem d p.1 p.2 = .ok (none, d) := by
        unfold restItem
        rw [if_neg, if_pos hp]
        have : ∀ n ∈ fileInfoNames, (startsWith n "humdrumraw:".toList || startsWith n "humdrum:".toList || startsWith n "raw:".toList) = false := by decide +kernel
        rw [this _ hp]
        decide
      rw [otherLines, hri]
      simp only [e2]
      rfl
    · obtain ⟨hf, _, l, d1, e1, r1⟩ := item_written isPerson markName p.1 p.2 hc d
      obtain ⟨ls, e2, r2⟩ := ih d1 (fun q hq => h q (List.mem_cons_of_mem _ hq))
      refine ⟨l :: ls, ?_, by rw [List.filter_cons_of_pos (by simpa using hf)]; exact .cons r1 r2⟩
      rw [otherLines, e1]
      simp only [e2]
      rfl

theorem named_items (md : MdDict) (hk : (Dict.keys md).Nodup) (n : Str) : namedIn n (mdItems md) = mdValues md n := by
  unfold namedIn mdItems mdValues
  induction md with
  | nil => rfl
  | cons p md ih =>
    unfold Dict.keys at hk
    rw [List.map_cons, List.nodup_cons] at hk
    rw [List.flatMap_cons, List.filter_append, List.map_append, ih hk.2]
    by_cases e : p.1 = n
    · have h0 : Dict.get? md n = none := (Dict.get?_eq_none_iff md n).2 (e ▸ hk.1)
      have h1 : ((p.2.map (fun v => (p.1, v))).filter (fun q => decide (q.1 = n))).map (·.2) = p.2 := by
        rw [List.filter_eq_self.2]
        · simp
        · intro q hq
          obtain ⟨v, _, rfl⟩ := List.mem_map.1 hq
          simpa using e
      rw [h1, h0]
      obtain ⟨a, b⟩ := p
      simp only at e
      simp [Dict.get?, e]
    · have h1 : ((p.2.map (fun v => (p.1, v))).filter (fun q => decide (q.1 = n))) = [] := by
        rw [List.filter_eq_nil_iff]
        intro q hq
        obtain ⟨v, _, rfl⟩ := List.mem_map.1 hq
        simpa using e
      rw [h1]
      obtain ⟨a, b⟩ := p
      simp only at e
      simp [Dict.get?, e]

theorem named_groups (items : List (Str × MVal)) (ns : List Str) (h : ns.Nodup) (n : Str) :
    namedIn n (ns.flatMap (fun m => items.filter (fun p => p.1 = m))) = if n ∈ ns then namedIn n items else [] := by
  induction ns with
  | nil => rfl
  | cons m ns ih =>
    rw [List.nodup_cons] at h
    have ih := ih h.2
    unfold namedIn at ih ⊢
    rw [List.flatMap_cons, List.filter_append, List.map_append, ih, List.filter_filter]
    by_cases e : n = m
    · subst e
      simp [h.1]
    · have h0 : items.filter (fun a => decide (a.1 = n) && decide (a.1 = m)) = [] := by
        rw [List.filter_eq_nil_iff]
        intro a _
        simp only [Bool.and_eq_true, decide_eq_true_eq, not_and]
        intro e1 e2
        exact e (e1.symm.trans e2)
      rw [h0]
      simp [e]

theorem entries_read (markName : Str → Str) (isPerson : Str → Bool) (before : Bool) (items : List (Str × MVal)) (lines : List Str)
    (h : List.Forall₂ (fun p l => Reads isPerson markName p.1 p.2 l) items lines) (hb : before = false → ∀ p ∈ items, p.1 ≠ "movementName".toList) :
    ∃ rs, (lines.map (fun l => (before, l))).filterMap (fun l => biblioEntry markName l.1 l.2) = rs ∧
      List.Forall₂ (fun p r => r.2 = wordsOf p.2 ∧ (r.1 = "OTL".toList → p.1 = "title".toList) ∧ (r.1 = "OMD".toList → p.1 = "movementName".toList) ∧
        ∀ md, (∀ w ∈ mdValues md p.1, ¬ Alike w p.2) → addRecord isPerson md r = .ok (mdAdd md p.1 p.2)) items rs := by
  induction h with
  | nil => exact ⟨[], rfl, .nil⟩
  | @cons p l ps ls hp _ ih =>
    obtain ⟨rs, e1, e2⟩ := ih (fun hf q hq => hb hf q (List.mem_cons_of_mem _ hq))
    obtain ⟨k, r1, r2, r3, r4⟩ := hp
    refine ⟨(k, wordsOf p.2) :: rs, ?_, .cons ⟨rfl, r3, r4, r2⟩ e2⟩
    have hbe : biblioEntry markName before l = some (k, wordsOf p.2) := by
      apply r1
      intro hm
      cases hbb : before with
      | true => rfl
      | false => exact absurd hm (hb hbb p (by simp))
    rw [List.map_cons, List.filterMap_cons]
    simp only [hbe]
    rw [e1]

theorem dropTitle_keeps (items : List (Str × MVal)) (rs : List (Str × Str))
    (h : List.Forall₂ (fun p r => r.2 = wordsOf p.2 ∧ (r.1 = "OTL".toList → p.1 = "title".toList) ∧ (r.1 = "OMD".toList → p.1 = "movementName".toList)) items rs)
    (ht : ∀ a b, ("title".toList, a) ∈ items → ("movementName".toList, b) ∈ items → wordsOf a ≠ wordsOf b) : dropTitle rs = rs := by
  have hmem : ∀ r ∈ rs, ∃ p ∈ items, r.2 = wordsOf p.2 ∧ (r.1 = "OTL".toList → p.1 = "title".toList) ∧ (r.1 = "OMD".toList → p.1 = "movementName".toList) := by
    clear ht
    induction h with
    | nil => intro r hr; simp at hr
    | cons hp _ ih =>
      intro r hr
      rcases List.mem_cons.1 hr with rfl | hr
      · exact ⟨_, by simp, hp⟩
      · obtain ⟨p, hp, h2⟩ := ih r hr
        exact ⟨p, List.mem_cons_of_mem _ hp, h2⟩
  unfold dropTitle
  split
  · rename_i t m e1 e2
    rw [if_neg]
    intro e
    obtain ⟨a, ha, ea⟩ := List.mem_map.1 (show t ∈ (rs.filter (fun p => decide (p.1 = "OTL".toList))).map (·.2) by rw [e1]; simp)
    obtain ⟨b, hb, eb⟩ := List.mem_map.1 (show m ∈ (rs.filter (fun p => decide (p.1 = "OMD".toList))).map (·.2) by rw [e2]; simp)
    rw [List.mem_filter] at ha hb
    obtain ⟨p, hp, p1, p2, _⟩ := hmem a ha.1
    obtain ⟨q, hq, q1, _, q3⟩ := hmem b hb.1
    have hpt : p.1 = "title".toList := p2 (by simpa using ha.2)
    have hqt : q.1 = "movementName".toList := q3 (by simpa using hb.2)
    refine ht p.2 q.2 (hpt ▸ hp) (hqt ▸ hq) ?_
    rw [← p1, ← q1, ea, eb, e]
  · rfl

/-- C121. Metadata written as reference records and read again has the same values under every name, in the same order, whatever else is in the file. -/
theorem metadata_round_trip_partial (isPerson : Str → Bool) (markName : Str → Str) (md : MdDict) (h : GoodMeta isPerson md) :
    ∃ top bottom, writeMeta md = .ok (top, bottom) ∧
      ∀ body : List (Bool × Str), (∀ l ∈ body, biblioEntry markName l.1 l.2 = none) →
        ∃ md', readMeta isPerson markName (top.map (fun l => (true, l)) ++ body ++ bottom.map (fun l => (false, l))) = .ok md' ∧
          ∀ n, n ∉ fileInfoNames → mdValues md' n = mdValues md n := by
  have hsub : ∀ p ∈ topNames.flatMap (fun n => (mdItems md).filter (fun p => p.1 = n)), p ∈ mdItems md ∧ p.1 ∈ topNames := by
    intro p hp
    obtain ⟨n, hn, hp⟩ := List.mem_flatMap.1 hp
    rw [List.mem_filter] at hp
    refine ⟨hp.1, ?_⟩
    have : p.1 = n := by simpa using hp.2
    rw [this]; exact hn
  have hdisj : ∀ n ∈ topNames, n ∉ fileInfoNames := by decide
  obtain ⟨top, d, e1, f1⟩ := top_written isPerson markName (topNames.flatMap (fun n => (mdItems md).filter (fun p => p.1 = n))) []
    (fun p hp => ⟨(hsub p hp).2, (h.items p (hsub p hp).1).resolve_left (hdisj _ (hsub p hp).2)⟩)
  obtain ⟨bottom, e2, f2⟩ := rest_written isPerson markName ((mdItems md).filter (fun p => p.1 ∉ topNames)) d
    (fun p hp => h.items p (List.mem_filter.1 hp).1)
  refine ⟨top, bottom, ?_, ?_⟩
  · unfold writeMeta
    rw [e1]
    simp only [e2]
    rfl
  · intro body hbody
    obtain ⟨r1, g1, k1⟩ := entries_read markName isPerson true _ _ f1 (fun hf => by cases hf)
    obtain ⟨r2, g2, k2⟩ := entries_read markName isPerson false _ _ f2 (by
      intro _ p hp e
      have := (List.mem_filter.1 (List.mem_filter.1 hp).1).2
      rw [e] at this
      exact absurd this (by decide))
    have hb : body.filterMap (fun l => biblioEntry markName l.1 l.2) = [] := by
      rw [List.filterMap_eq_nil_iff]
      exact hbody
    have hk := List.rel_append k1 k2
    have hitems : ∀ n, n ∉ fileInfoNames → namedIn n (topNames.flatMap (fun n => (mdItems md).filter (fun p => p.1 = n)) ++
        ((mdItems md).filter (fun p => p.1 ∉ topNames)).filter (fun p => p.1 ∉ fileInfoNames)) = mdValues md n := by
      intro n hn
      have happ : ∀ a b, namedIn n (a ++ b) = namedIn n a ++ namedIn n b := by
        intro a b; unfold namedIn; rw [List.filter_append, List.map_append]
      rw [happ, named_groups _ _ (by decide), ← named_items md h.keys n]
      have hff : namedIn n (((mdItems md).filter (fun p => p.1 ∉ topNames)).filter (fun p => p.1 ∉ fileInfoNames)) =
          if n ∈ topNames then [] else namedIn n (mdItems md) := by
        unfold namedIn
        rw [List.filter_filter, List.filter_filter]
        by_cases ht : n ∈ topNames
        · rw [if_pos ht, List.filter_eq_nil_iff.2, List.map_nil]
          intro a _
          simp only [Bool.and_eq_true, decide_eq_true_eq, not_and, not_not]
          intro e1
          exact e1.1 ▸ ht
        · rw [if_neg ht]
          congr 1
          apply List.filter_congr
          intro a _
          by_cases e : a.1 = n
          · simp [e, hn, ht]
          · simp [e]
      rw [hff]
      by_cases ht : n ∈ topNames <;> simp [ht]
    have hinfo : ∀ n, n ∈ fileInfoNames → namedIn n (topNames.flatMap (fun n => (mdItems md).filter (fun p => p.1 = n)) ++
        ((mdItems md).filter (fun p => p.1 ∉ topNames)).filter (fun p => p.1 ∉ fileInfoNames)) = [] := by
      intro n hn
      unfold namedIn
      rw [List.filter_eq_nil_iff.2, List.map_nil]
      intro a ha
      rcases List.mem_append.1 ha with ha | ha
      · have := hdisj _ (hsub a ha).2
        simp only [decide_eq_true_eq]
        rintro rfl
        exact this hn
      · have := (List.mem_filter.1 ha).2
        simp only [decide_eq_true_eq] at this ⊢
        rintro rfl
        exact this hn
    have hfirst : ∀ n, n ∉ fileInfoNames → mdValues firstMeta n = [] := by
      intro n hn
      have : n ≠ "software".toList := by rintro rfl; exact hn (by decide)
      unfold mdValues firstMeta
      rw [Dict.get?, if_neg (fun e => this e.symm)]
      rfl
    have hone : ∀ n, (mdValues firstMeta n).length ≤ 1 := by
      intro n
      unfold mdValues firstMeta
      rw [Dict.get?]
      split
      · simp
      · simp [Dict.get?]
    have hdist : ∀ n, (mdValues firstMeta n ++ namedIn n (topNames.flatMap (fun n => (mdItems md).filter (fun p => p.1 = n)) ++
        ((mdItems md).filter (fun p => p.1 ∉ topNames)).filter (fun p => p.1 ∉ fileInfoNames))).Pairwise (fun a b => ¬ Alike a b) := by
      intro n
      by_cases hn : n ∈ fileInfoNames
      · rw [hinfo n hn, List.append_nil]
        have := hone n
        match hv : mdValues firstMeta n with
        | [] => simp
        | [a] => simp
        | a :: b :: l => rw [hv] at this; simp at this
      · rw [hitems n hn, hfirst n hn, List.nil_append]
        exact h.distinct n
    obtain ⟨md', a1, a2⟩ := records_added isPerson _ (r1 ++ r2) firstMeta (hk.imp (fun _ _ hx => hx.2.2.2)) hdist
    refine ⟨md', ?_, fun n hn => by rw [a2, hitems n hn, hfirst n hn, List.nil_append]⟩
    unfold readMeta
    rw [List.filterMap_append, List.filterMap_append, hb, g1, g2, List.append_nil]
    rw [dropTitle_keeps _ _ (hk.imp (fun _ _ hx => ⟨hx.1, hx.2.1, hx.2.2.1⟩)) ?_]
    · exact a1
    · intro a b ha hb'
      have back : ∀ (n : Str) (v : MVal), n ∉ fileInfoNames → (n, v) ∈ topNames.flatMap (fun n => (mdItems md).filter (fun p => p.1 = n)) ++
          ((mdItems md).filter (fun p => p.1 ∉ topNames)).filter (fun p => p.1 ∉ fileInfoNames) → v ∈ mdValues md n := by
        intro n v hn hv
        rw [← hitems n hn]
        exact List.mem_map.2 ⟨(n, v), List.mem_filter.2 ⟨hv, by simp⟩, rfl⟩
      exact h.titles a (back _ _ (by decide) ha) b (back _ _ (by decide) hb')

/-! ### A case, and what is lost -/

/-- Metadata written and read, with nothing else in the file. -/
def metaTrip (isPerson : Str → Bool) (md : MdDict) : Option (List (Str × List MVal)) :=
  match writeMeta md with
  | .error _ => none
  | .ok (top, bottom) => (readMeta isPerson (fun s => s) (top.map (fun l => (true, l)) ++ bottom.map (fun l => (false, l)))).toOption

/-- Composers are contributors. -/
def composers (n : Str) : Bool := n = "composer".toList

/-- A work with two composers, a title in two languages, a date, a key without a name, a key of one's own, and a performer. -/
def sampleMeta : MdDict :=
  [("title".toList, [.text { data := "Die Fl\u00f6te".toList, lang := "de".toList }, .text { data := "The Flute".toList, lang := "en".toList, translated := true }]),
   ("composer".toList, [.person "composer".toList [{ data := "A".toList }], .person "composer".toList [{ data := "B\nC".toList }]]),
   ("dateCreated".toList, [.date (.single none sampleDate)]),
   ("humdrum:ONB".toList, [.text { data := "x".toList }]),
   ("raw:my-key".toList, [.text { data := "y: z".toList }]),
   ("otherContributor".toList, [.person "performer".toList [{ data := "P".toList }]])]

theorem plain_item (s : Str) (l : Str) (tr : Bool) (h : s ≠ [] ∧ '&' ∉ s ∧ '\\' ∉ s ∧ (∀ c ∈ s.head?, isPySpace c = false) ∧ (∀ c ∈ s.getLast?, isPySpace c = false) ∧
    (∀ c ∈ l, c.isLower = true) ∧ (tr = true → l ≠ [])) : RecordItem { data := s, lang := l, translated := tr } :=
  ⟨⟨h.1, h.2.1, h.2.2.1, fun c hc => h.2.2.2.1 c hc, fun c hc => h.2.2.2.2.1 c hc⟩, h.2.2.2.2.2.1, h.2.2.2.2.2.2⟩

example : GoodMeta composers sampleMeta where
  keys := by decide +kernel
  items := by
    intro p hp
    right
    have e : mdItems sampleMeta =
      [("title".toList, .text { data := "Die Fl\u00f6te".toList, lang := "de".toList }),
       ("title".toList, .text { data := "The Flute".toList, lang := "en".toList, translated := true }),
       ("composer".toList, .person "composer".toList [{ data := "A".toList }]), ("composer".toList, .person "composer".toList [{ data := "B\nC".toList }]),
       ("dateCreated".toList, .date (.single none sampleDate)), ("humdrum:".toList ++ "ONB".toList, .text { data := "x".toList }),
       ("raw:".toList ++ "my-key".toList, .text { data := "y: z".toList }), ("otherContributor".toList, .person "performer".toList [{ data := "P".toList }])] := rfl
    rw [e] at hp
    simp only [List.mem_cons, List.not_mem_nil, or_false] at hp
    rcases hp with rfl | rfl | rfl | rfl | rfl | rfl | rfl | rfl
    · exact .text "OTL" "title" _ (by decide +kernel) (by decide) (by decide) (by decide) (plain_item _ _ _ (by decide)) (fun h => absurd h (by decide))
    · exact .text "OTL" "title" _ (by decide +kernel) (by decide) (by decide) (by decide) (plain_item _ _ _ (by decide)) (fun h => absurd h (by decide))
    · exact .person "COM" "composer" _ (by decide +kernel) (by decide) (by decide) (by decide) (plain_item _ _ _ (by decide)) (fun h => absurd h (by decide))
    · exact .person "COM" "composer" _ (by decide +kernel) (by decide) (by decide) (by decide) (plain_item _ _ _ (by decide)) (fun h => absurd h (by decide))
    · exact .date "ODT" "dateCreated" _ (by decide +kernel) (by decide) ⟨fun d hd => by
        have e : d = sampleDate := by simpa [DatePrim.dates] using hd
        exact e ▸ sample_plain, (fun _ _ h => nomatch h), (fun _ _ h => nomatch h)⟩
    · exact .standard "ONB" _ (by decide +kernel) (by decide) (plain_item _ _ _ (by decide))
    · exact .other _ _ (plain_item "y: z".toList [] false (by decide)).value (by decide) (by decide)
        (fun c hc => by cases hc; decide) ⟨fun c hc => by cases hc; decide, fun c hc => by cases hc; decide⟩ (by decide) (by decide) (by decide +kernel)
    · exact .contributor "performer" _ (by decide) (plain_item _ _ _ (by decide)) rfl
  distinct := by
    intro n
    by_cases hn : n ∈ Dict.keys sampleMeta
    · have : ∀ m ∈ Dict.keys sampleMeta, (mdValues sampleMeta m).Pairwise (fun a b => mdValueEqual a b = false) := by decide +kernel
      refine (this n hn).imp (fun {a b} hab h => ?_)
      rw [(mdValueEqual_iff a b).2 h] at hab
      cases hab
    · have : Dict.get? sampleMeta n = none := (Dict.get?_eq_none_iff _ _).2 hn
      unfold mdValues
      rw [this]
      exact .nil
  titles := by
    intro a _ b hb
    have : mdValues sampleMeta "movementName".toList = [] := by decide +kernel
    rw [this] at hb
    simp at hb

example : writeMeta sampleMeta = .ok
    (["!!!COM: A".toList, "!!!COM1: B\\nC".toList, "!!!OTL@@DE: Die Fl\u00f6te".toList, "!!!OTL@EN: The Flute".toList],
     ["!!!ODT: @44z/03/15x/11::".toList, "!!!ONB: x".toList, "!!!my-key: y: z".toList, "!!!MPN: P".toList]) := by decide +kernel

/-- A text with a language under a name Humdrum has no key for stops the export. -/
theorem language_stops_export (md : MdDict) (n : Str) (t : MText) (h : (n, .text t) ∈ mdItems md) (hl : t.lang ≠ [])
    (hn : ∀ p ∈ refKeyTable, n ≠ p.2.toList) (hp : ∀ q ∈ ["humdrumraw:", "humdrum:", "raw:"], startsWith n q.toList = false)
    (hf : n ∉ ["software".toList, "fileFormat".toList, "filePath".toList, "fileNumber".toList]) : ∀ r, writeMeta md ≠ .ok r := by
  have htop : n ∉ topNames := by
    intro hm
    have : ∀ m ∈ topNames, ∃ p ∈ refKeyTable, m = p.2.toList := by decide +kernel
    obtain ⟨p, hp, e⟩ := this n hm
    exact hn p hp e
  have h1 := hp "humdrumraw:" (by simp)
  have h2 := hp "humdrum:" (by simp)
  have h3 := hp "raw:" (by simp)
  have hk : keyOfName n = none := by
    unfold keyOfName
    rw [h1]
    cases hg : uniqueNameToKey.get? (String.ofList n) with
    | none => rfl
    | some k =>
      have hm := Dict.mem_of_get? _ _ _ hg
      have : ∀ q ∈ uniqueNameToKey, ∃ p ∈ refKeyTable, q.1 = p.2 := by decide +kernel
      obtain ⟨p, hp, e⟩ := this _ hm
      exact absurd (by rw [← e]; exact String.toList_ofList.symm) (hn p hp)
  have hitem : ∀ d r, restItem d n (.text t) ≠ .ok r := by
    intro d r
    unfold restItem
    rw [h1, h2, h3]
    simp only [Bool.or_self, Bool.false_eq_true, if_false]
    rw [if_neg (show n ∉ fileInfoNames from hf)]
    split
    · simp
    · unfold plainItem keyWithoutIndex
      simp [hl, hk]
  have hrest : ∀ items d r, (n, MVal.text t) ∈ items → otherLines d items ≠ .ok r := by
    intro items
    induction items with
    | nil => intro d r hm; simp at hm
    | cons p ps ih =>
      intro d r hm
      rw [otherLines]
      cases hi : restItem d p.1 p.2 with
      | error e => simp
      | ok x =>
        obtain ⟨l, d'⟩ := x
        rcases List.mem_cons.1 hm with rfl | hm
        · exact absurd hi (hitem d _)
        · have := ih d'
          cases hr : otherLines d' ps with
          | error e => simp [hr, Except.map]
          | ok y => exact absurd hr (this y hm)
  intro r
  unfold writeMeta
  split
  · simp
  · rename_i top d _
    cases hr : otherLines d ((mdItems md).filter (fun p => p.1 ∉ topNames)) with
    | error e => simp [hr, Except.map]
    | ok y => exact absurd hr (hrest _ d y (List.mem_filter.2 ⟨h, by simpa using htop⟩))

/-- For example an abstract in English. -/
theorem language_stops_export_example : writeMeta [("abstract".toList, [.text { data := "x".toList, lang := "en".toList }])] = .error .typeError := by rfl

/-- A title that is the movement's name too is lost. -/
theorem same_title_lost (isPerson : Str → Bool) (hp : isPerson "movementName".toList = false) :
    metaTrip isPerson [("title".toList, [.text { data := "A".toList }]), ("movementName".toList, [.text { data := "A".toList }])] =
      some (firstMeta ++ [("movementName".toList, [.text { data := "A".toList }])]) := by
  have e : metaTrip isPerson [("title".toList, [.text { data := "A".toList }]), ("movementName".toList, [.text { data := "A".toList }])] =
      (addRecords isPerson firstMeta [("OMD".toList, "A".toList)]).toOption := by
    have : (writeMeta [("title".toList, [.text { data := "A".toList }]), ("movementName".toList, [.text { data := "A".toList }])]) =
        .ok (["!!!OTL: A".toList, "!!!OMD: A".toList], []) := by decide +kernel
    unfold metaTrip readMeta
    rw [this]
    simp only
    congr 1
  rw [e]
  unfold addRecords addRecord
  have h1 : nameOfKey (if (parseItem "OMD".toList "A".toList).1 = "MRD".toList then "MDT".toList else (parseItem "OMD".toList "A".toList).1) =
    some "movementName".toList := by decide +kernel
  have h2 : readValue ((parseKey "OMD".toList).isSome && decide ((parseItem "OMD".toList "A".toList).1.take 3 ∈ dateSchemeKeys))
    (parseItem "OMD".toList "A".toList).2.1 = .ok (.text { data := "A".toList }) := by rfl
  simp only [h1, h2, convertValue, hp]
  rfl

/-- What does not come back: a language with a region, further names of a contributor, a contributor's unknown role, the language of a contributor's name,
a text like an escape. -/
theorem metadata_changes :
    metaTrip composers [("title".toList, [.text { data := "A".toList, lang := "pt-br".toList }])] =
      some (firstMeta ++ [("raw:OTL@@PT-BR".toList, [.text { data := "A".toList }])]) ∧
    metaTrip composers [("composer".toList, [.person "composer".toList [{ data := "A".toList }, { data := "B".toList }]])] =
      some (firstMeta ++ [("composer".toList, [.person "composer".toList [{ data := "A".toList }]])]) ∧
    metaTrip composers [("otherContributor".toList, [.person "singer".toList [{ data := "A".toList }]])] =
      some (firstMeta ++ [("raw:otherContributor".toList, [.text { data := "A".toList }])]) ∧
    metaTrip composers [("otherContributor".toList, [.person "performer".toList [{ data := "A".toList, lang := "en".toList }]])] =
      some (firstMeta ++ [("otherContributor".toList, [.person "performer".toList [{ data := "A".toList }]])]) ∧
    metaTrip composers [("title".toList, [.text { data := "a\\nb".toList }])] =
      some (firstMeta ++ [("title".toList, [.text { data := "a\nb".toList }])]) ∧
    metaTrip composers [("title".toList, [.text { data := "A&colon; B".toList }])] =
      some (firstMeta ++ [("title".toList, [.text { data := "A: B".toList }])]) := by
  refine ⟨?_, ?_, ?_, ?_, ?_, ?_⟩ <;> decide +kernel

end C21
