import Verif.Model.Signifier
import Verif.Spec.Signifier
import Verif.Lemmas.PyStr
import Verif.Lemmas.PyDict
import Mathlib.Data.List.Dedup
import Mathlib.Data.List.Induction
import Mathlib.Data.List.Perm.Subperm
namespace C21

/-! ## C32: tables of marks -/

theorem isInfix_iff (p s : Str) : isInfix p s = true ↔ p <:+: s := by
  induction s with
  | nil => simp [isInfix, List.isEmpty_iff]
  | cons c cs ih =>
    simp only [isInfix, Bool.or_eq_true, ih, List.isPrefixOf_iff_prefix, List.infix_cons_iff]

/-- The entry a record makes in the tables of note marks: signifier, color, text. -/
def noteEntry (r : Signifier) : Option (Str × Str × Str) :=
  if r.exInterp = "**kern".toList ∧ r.signifier ≠ [] ∧ ¬ saysAny otherMeanings r.definition then
    match equalsValue "color".toList r.definition with
    | some c => some (r.signifier, c, (equalsSpaced "text".toList r.definition).getD [])
    | none =>
      if saysAny ["marked note".toList, "matched note".toList] r.definition then
        some (r.signifier, "red".toList, (equalsSpaced "text".toList r.definition).getD [])
      else none
  else none

/-- The entry in the tables of text marks: signifier, color. -/
def textEntry (r : Signifier) : Option (Str × Str) :=
  if (r.exInterp = "**silbe".toList ∨ r.exInterp = "**text".toList) ∧ r.signifier ≠ [] ∧
      saysAny ["marked text".toList, "matched text".toList] r.definition then
    some (r.signifier, (equalsValue "color".toList r.definition).getD "red".toList)
  else none

/-- The entry in the tables of editorial accidentals: signifier, type. -/
def editorialEntry (r : Signifier) : Option (Str × Str) :=
  if r.exInterp = "**kern".toList ∧ r.signifier ≠ [] ∧ ¬ saysAny beforeEditorial r.definition ∧
      saysAny ["editorial accidental".toList] r.definition then
    some (r.signifier,
      if saysAny ["brack".toList] r.definition then "brack".toList
      else if saysAny ["paren".toList] r.definition then "paren".toList
      else if saysAny ["none".toList] r.definition then "none".toList else [])
  else none

/-- The tables agree with the entries. -/
structure Tables (K : Known) (notes : List (Str × Str × Str)) (texts eds : List (Str × Str)) : Prop where
  n1 : K.noteMarks = notes.map (·.1)
  n2 : K.noteColors = notes.map (·.2.1)
  n3 : K.noteDirs = notes.map (·.2.2)
  t1 : K.textMarks = texts.map (·.1)
  t2 : K.textColors = texts.map (·.2)
  e1 : K.editorialAccidentals = eds.map (·.1)
  e2 : K.editorialAccidentalTypes = eds.map (·.2)

theorem saysAny_iff (words : List Str) (d : Str) : saysAny words d ↔ words.any (fun w => isInfix w d) = true := by
  unfold saysAny
  rw [List.any_eq_true]
  simp only [isInfix_iff]

theorem knownMeta_tables (K : Known) (d : Str) (n t e) (h : Tables K n t e) : Tables (knownMeta K d) n t e := by
  unfold knownMeta
  dsimp only
  split
  · exact ⟨h.n1, h.n2, h.n3, h.t1, h.t2, h.e1, h.e2⟩
  split
  · exact ⟨h.n1, h.n2, h.n3, h.t1, h.t2, h.e1, h.e2⟩
  split
  · exact ⟨h.n1, h.n2, h.n3, h.t1, h.t2, h.e1, h.e2⟩
  split
  · exact ⟨h.n1, h.n2, h.n3, h.t1, h.t2, h.e1, h.e2⟩
  · exact h

theorem knownPhrase_tables (K : Known) (d : Str) (n t e) (h : Tables K n t e) : Tables (knownPhrase K d) n t e := by
  unfold knownPhrase
  dsimp only
  have h1 : Tables (if isInfix "slur".toList d then { K with phraseIsSlur := true } else K) n t e := by
    split
    · exact ⟨h.n1, h.n2, h.n3, h.t1, h.t2, h.e1, h.e2⟩
    · exact h
  generalize (if isInfix "slur".toList d then { K with phraseIsSlur := true } else K) = K1 at h1
  cases equalsValue "color".toList d with
  | none =>
    dsimp only
    repeat' split
    all_goals exact ⟨h1.n1, h1.n2, h1.n3, h1.t1, h1.t2, h1.e1, h1.e2⟩
  | some c =>
    dsimp only
    repeat' split
    all_goals exact ⟨h1.n1, h1.n2, h1.n3, h1.t1, h1.t2, h1.e1, h1.e2⟩

/-- One record adds exactly its entries. -/
theorem knownStep_tables (K : Known) (r : Signifier) (n t e) (h : Tables K n t e) :
    Tables (knownStep K r) (n ++ (noteEntry r).toList) (t ++ (textEntry r).toList) (e ++ (editorialEntry r).toList) := by
  unfold knownStep
  have hk1 : "**kern".toList ≠ "**silbe".toList := by decide
  have hk2 : "**kern".toList ≠ "**text".toList := by decide
  by_cases hs : r.signifier = []
  · have e1 : noteEntry r = none := by unfold noteEntry; rw [if_neg (fun e => e.2.1 hs)]
    have e2 : textEntry r = none := by unfold textEntry; rw [if_neg (fun e => e.2.1 hs)]
    have e3 : editorialEntry r = none := by unfold editorialEntry; rw [if_neg (fun e => e.2.1 hs)]
    rw [if_pos hs, e1, e2, e3]
    simp only [Option.toList_none, List.append_nil]
    split
    · exact knownMeta_tables K _ n t e h
    · exact h
  rw [if_neg hs]
  by_cases ht : r.exInterp = "**silbe".toList ∨ r.exInterp = "**text".toList
  · have hnk : r.exInterp ≠ "**kern".toList := by
      rintro e; rw [e] at ht
      rcases ht with h | h
      · exact hk1 h
      · exact hk2 h
    have e1 : noteEntry r = none := by unfold noteEntry; rw [if_neg (fun e => hnk e.1)]
    have e3 : editorialEntry r = none := by unfold editorialEntry; rw [if_neg (fun e => hnk e.1)]
    rw [if_pos ht, e1, e3]
    simp only [Option.toList_none, List.append_nil]
    unfold knownText
    have hw : (isInfix "marked text".toList r.definition || isInfix "matched text".toList r.definition) = true ↔
        saysAny ["marked text".toList, "matched text".toList] r.definition := by
      rw [saysAny_iff]; simp only [List.any_cons, List.any_nil, Bool.or_false]
    by_cases hm : saysAny ["marked text".toList, "matched text".toList] r.definition
    · rw [if_pos (hw.2 hm)]
      have e2 : textEntry r = some (r.signifier, (equalsValue "color".toList r.definition).getD "red".toList) := by
        unfold textEntry; rw [if_pos ⟨ht, hs, hm⟩]
      rw [e2]
      refine ⟨h.n1, h.n2, h.n3, ?_, ?_, h.e1, h.e2⟩
      · simp only [h.t1, Option.toList_some, List.map_append, List.map_cons, List.map_nil]
      · simp only [h.t2, Option.toList_some, List.map_append, List.map_cons, List.map_nil]
    · rw [if_neg (fun e => hm (hw.1 e))]
      have e2 : textEntry r = none := by unfold textEntry; rw [if_neg (fun e => hm e.2.2)]
      rw [e2]
      simp only [Option.toList_none, List.append_nil]
      exact h
  rw [if_neg ht]
  have e2 : textEntry r = none := by unfold textEntry; rw [if_neg (fun e => ht e.1)]
  rw [e2]
  simp only [Option.toList_none, List.append_nil]
  by_cases hk : r.exInterp = "**kern".toList
  swap
  · have e1 : noteEntry r = none := by unfold noteEntry; rw [if_neg (fun e => hk e.1)]
    have e3 : editorialEntry r = none := by unfold editorialEntry; rw [if_neg (fun e => hk e.1)]
    rw [if_neg hk, e1, e3]
    simp only [Option.toList_none, List.append_nil]
    exact h
  rw [if_pos hk]
  -- **kern
  have hkeep : ∀ K', Tables K' n t e → ∀ w ∈ beforeEditorial, isInfix w r.definition = true →
      Tables K' (n ++ (noteEntry r).toList) t (e ++ (editorialEntry r).toList) := by
    intro K' hK' w hw hi
    have hbe : saysAny beforeEditorial r.definition := ⟨w, hw, (isInfix_iff _ _).1 hi⟩
    have hom : saysAny otherMeanings r.definition := by
      refine ⟨w, ?_, (isInfix_iff _ _).1 hi⟩
      have : otherMeanings = beforeEditorial ++ ["editorial accidental".toList, "phrase".toList] := rfl
      rw [this]
      exact List.mem_append_left _ hw
    have e1 : noteEntry r = none := by unfold noteEntry; rw [if_neg (fun e => e.2.2 hom)]
    have e3 : editorialEntry r = none := by unfold editorialEntry; rw [if_neg (fun e => e.2.2.1 hbe)]
    rw [e1, e3]
    simp only [Option.toList_none, List.append_nil]
    exact hK'
  have hcopy : ∀ K', K'.noteMarks = K.noteMarks → K'.noteColors = K.noteColors → K'.noteDirs = K.noteDirs → K'.textMarks = K.textMarks →
      K'.textColors = K.textColors → K'.editorialAccidentals = K.editorialAccidentals →
      K'.editorialAccidentalTypes = K.editorialAccidentalTypes → Tables K' n t e := by
    intro K' a b c d f g i
    exact ⟨a.trans h.n1, b.trans h.n2, c.trans h.n3, d.trans h.t1, f.trans h.t2, g.trans h.e1, i.trans h.e2⟩
  unfold knownKern
  by_cases c1 : isInfix "no stem".toList r.definition = true
  · rw [if_pos c1]
    exact hkeep _ (hcopy _ rfl rfl rfl rfl rfl rfl rfl) _ (List.mem_of_getElem? (i := 0) rfl) c1
  rw [if_neg c1]
  by_cases c2 : isInfix "cue size".toList r.definition = true
  · rw [if_pos c2]
    exact hkeep _ (hcopy _ rfl rfl rfl rfl rfl rfl rfl) _ (List.mem_of_getElem? (i := 1) rfl) c2
  rw [if_neg c2]
  by_cases c3 : isInfix "hairpin accent".toList r.definition = true
  · rw [if_pos c3]
    exact hkeep _ (hcopy _ rfl rfl rfl rfl rfl rfl rfl) _ (List.mem_of_getElem? (i := 2) rfl) c3
  rw [if_neg c3]
  have hV : Tables (if isInfix "vertical stroke".toList r.definition then { K with verticalStroke := r.signifier } else K) n t e := by
    split
    · exact hcopy _ rfl rfl rfl rfl rfl rfl rfl
    · exact h
  generalize (if isInfix "vertical stroke".toList r.definition then { K with verticalStroke := r.signifier } else K) = K1 at hV
  clear hcopy
  have hcopy : ∀ K', K'.noteMarks = K1.noteMarks → K'.noteColors = K1.noteColors → K'.noteDirs = K1.noteDirs → K'.textMarks = K1.textMarks →
      K'.textColors = K1.textColors → K'.editorialAccidentals = K1.editorialAccidentals →
      K'.editorialAccidentalTypes = K1.editorialAccidentalTypes → Tables K' n t e := by
    intro K' a b c d f g i
    exact ⟨a.trans hV.n1, b.trans hV.n2, c.trans hV.n3, d.trans hV.t1, f.trans hV.t2, g.trans hV.e1, i.trans hV.e2⟩
  unfold knownKern2
  by_cases c4 : isInfix "terminal long".toList r.definition = true
  · rw [if_pos (by rw [c4]; rfl)]
    exact hkeep _ (hcopy _ rfl rfl rfl rfl rfl rfl rfl) _ (List.mem_of_getElem? (i := 3) rfl) c4
  by_cases c5 : isInfix "long note".toList r.definition = true
  · rw [if_pos (by rw [c5, Bool.or_true])]
    exact hkeep _ (hcopy _ rfl rfl rfl rfl rfl rfl rfl) _ (List.mem_of_getElem? (i := 4) rfl) c5
  rw [if_neg (by rw [Bool.or_eq_true]; rintro (e | e); exacts [c4 e, c5 e])]
  by_cases c6 : isInfix "above".toList r.definition = true
  · rw [if_pos c6]
    exact hkeep _ (hcopy _ rfl rfl rfl rfl rfl rfl rfl) _ (List.mem_of_getElem? (i := 5) rfl) c6
  rw [if_neg c6]
  by_cases c7 : isInfix "below".toList r.definition = true
  · rw [if_pos c7]
    exact hkeep _ (hcopy _ rfl rfl rfl rfl rfl rfl rfl) _ (List.mem_of_getElem? (i := 6) rfl) c7
  rw [if_neg c7]
  by_cases c8 : isInfix "link".toList r.definition = true
  · rw [if_pos c8]
    exact hkeep _ (hcopy _ rfl rfl rfl rfl rfl rfl rfl) _ (List.mem_of_getElem? (i := 7) rfl) c8
  rw [if_neg c8]
  have hbe : ¬ saysAny beforeEditorial r.definition := by
    rintro ⟨w, hw, hi⟩
    have hi := (isInfix_iff _ _).2 hi
    unfold beforeEditorial at hw
    rcases List.mem_cons.1 hw with e | hw
    · rw [e] at hi; exact c1 hi
    rcases List.mem_cons.1 hw with e | hw
    · rw [e] at hi; exact c2 hi
    rcases List.mem_cons.1 hw with e | hw
    · rw [e] at hi; exact c3 hi
    rcases List.mem_cons.1 hw with e | hw
    · rw [e] at hi; exact c4 hi
    rcases List.mem_cons.1 hw with e | hw
    · rw [e] at hi; exact c5 hi
    rcases List.mem_cons.1 hw with e | hw
    · rw [e] at hi; exact c6 hi
    rcases List.mem_cons.1 hw with e | hw
    · rw [e] at hi; exact c7 hi
    · rw [List.mem_singleton.1 hw] at hi; exact c8 hi
  by_cases c9 : isInfix "editorial accidental".toList r.definition = true
  · rw [if_pos c9]
    have he : saysAny ["editorial accidental".toList] r.definition := ⟨_, List.mem_singleton.2 rfl, (isInfix_iff _ _).1 c9⟩
    have hom : saysAny otherMeanings r.definition := ⟨_, List.mem_of_getElem? (i := 8) rfl, (isInfix_iff _ _).1 c9⟩
    have e1 : noteEntry r = none := by unfold noteEntry; rw [if_neg (fun e => e.2.2 hom)]
    have e3 : editorialEntry r = some (r.signifier,
      if saysAny ["brack".toList] r.definition then "brack".toList
      else if saysAny ["paren".toList] r.definition then "paren".toList
      else if saysAny ["none".toList] r.definition then "none".toList else []) := by
      unfold editorialEntry; rw [if_pos ⟨hk, hs, hbe, he⟩]
    rw [e1, e3]
    simp only [Option.toList_none, List.append_nil, Option.toList_some]
    have hone : ∀ w : Str, saysAny [w] r.definition ↔ isInfix w r.definition = true := by
      intro w; rw [saysAny_iff]; simp only [List.any_cons, List.any_nil, Bool.or_false]
    simp only [hone]
    unfold knownEditorial
    dsimp only
    by_cases d1 : isInfix "brack".toList r.definition = true
    · rw [if_pos d1, if_pos d1]
      refine ⟨hV.n1, hV.n2, hV.n3, hV.t1, hV.t2, ?_, ?_⟩
      · simp only [hV.e1, List.map_append, List.map_cons, List.map_nil]
      · simp only [hV.e2, List.map_append, List.map_cons, List.map_nil]
    rw [if_neg d1, if_neg d1]
    by_cases d2 : isInfix "paren".toList r.definition = true
    · rw [if_pos d2, if_pos d2]
      refine ⟨hV.n1, hV.n2, hV.n3, hV.t1, hV.t2, ?_, ?_⟩
      · simp only [hV.e1, List.map_append, List.map_cons, List.map_nil]
      · simp only [hV.e2, List.map_append, List.map_cons, List.map_nil]
    rw [if_neg d2, if_neg d2]
    by_cases d3 : isInfix "none".toList r.definition = true
    · rw [if_pos d3, if_pos d3]
      refine ⟨hV.n1, hV.n2, hV.n3, hV.t1, hV.t2, ?_, ?_⟩
      · simp only [hV.e1, List.map_append, List.map_cons, List.map_nil]
      · simp only [hV.e2, List.map_append, List.map_cons, List.map_nil]
    rw [if_neg d3, if_neg d3]
    refine ⟨hV.n1, hV.n2, hV.n3, hV.t1, hV.t2, ?_, ?_⟩
    · simp only [hV.e1, List.map_append, List.map_cons, List.map_nil]
    · simp only [hV.e2, List.map_append, List.map_cons, List.map_nil]
  rw [if_neg c9]
  have e3 : editorialEntry r = none := by
    unfold editorialEntry
    rw [if_neg]
    rintro ⟨_, _, _, w, hw, hi⟩
    rw [List.mem_singleton.1 hw] at hi
    exact c9 ((isInfix_iff _ _).2 hi)
  rw [e3]
  simp only [Option.toList_none, List.append_nil]
  by_cases c10 : isInfix "phrase".toList r.definition = true
  · rw [if_pos c10]
    have hom : saysAny otherMeanings r.definition := ⟨_, List.mem_of_getElem? (i := 9) rfl, (isInfix_iff _ _).1 c10⟩
    have e1 : noteEntry r = none := by unfold noteEntry; rw [if_neg (fun e => e.2.2 hom)]
    rw [e1]
    simp only [Option.toList_none, List.append_nil]
    exact knownPhrase_tables K1 _ n t e hV
  rw [if_neg c10]
  have hom : ¬ saysAny otherMeanings r.definition := by
    rintro ⟨w, hw, hi⟩
    have : otherMeanings = beforeEditorial ++ ["editorial accidental".toList, "phrase".toList] := rfl
    rw [this] at hw
    rcases List.mem_append.1 hw with hw | hw
    · exact hbe ⟨w, hw, hi⟩
    have hi := (isInfix_iff _ _).2 hi
    rcases List.mem_cons.1 hw with e | hw
    · rw [e] at hi; exact c9 hi
    · rw [List.mem_singleton.1 hw] at hi; exact c10 hi
  have e1 : noteEntry r = match equalsValue "color".toList r.definition with
    | some c => some (r.signifier, c, (equalsSpaced "text".toList r.definition).getD [])
    | none =>
      if saysAny ["marked note".toList, "matched note".toList] r.definition then
        some (r.signifier, "red".toList, (equalsSpaced "text".toList r.definition).getD [])
      else none := by
    unfold noteEntry
    rw [if_pos ⟨hk, hs, hom⟩]
  rw [e1]
  have hw : (isInfix "marked note".toList r.definition || isInfix "matched note".toList r.definition) = true ↔
      saysAny ["marked note".toList, "matched note".toList] r.definition := by
    rw [saysAny_iff]; simp only [List.any_cons, List.any_nil, Bool.or_false]
  unfold knownNote
  cases equalsValue "color".toList r.definition with
  | some c =>
    dsimp only
    refine ⟨?_, ?_, ?_, hV.t1, hV.t2, hV.e1, hV.e2⟩
    · simp only [hV.n1, Option.toList_some, List.map_append, List.map_cons, List.map_nil]
    · simp only [hV.n2, Option.toList_some, List.map_append, List.map_cons, List.map_nil]
    · simp only [hV.n3, Option.toList_some, List.map_append, List.map_cons, List.map_nil]
  | none =>
    dsimp only
    by_cases hm : saysAny ["marked note".toList, "matched note".toList] r.definition
    · rw [if_pos (hw.2 hm), if_pos hm]
      refine ⟨?_, ?_, ?_, hV.t1, hV.t2, hV.e1, hV.e2⟩
      · simp only [hV.n1, Option.toList_some, List.map_append, List.map_cons, List.map_nil]
      · simp only [hV.n2, Option.toList_some, List.map_append, List.map_cons, List.map_nil]
      · simp only [hV.n3, Option.toList_some, List.map_append, List.map_cons, List.map_nil]
    · rw [if_neg (fun e => hm (hw.1 e)), if_neg hm]
      simp only [Option.toList_none, List.append_nil]
      exact hV

theorem foldl_tables (rs : List Signifier) (K : Known) (n t e) (h : Tables K n t e) :
    Tables (rs.foldl knownStep K) (n ++ rs.filterMap noteEntry) (t ++ rs.filterMap textEntry) (e ++ rs.filterMap editorialEntry) := by
  induction rs generalizing K n t e with
  | nil => simpa using h
  | cons r rs ih =>
    have := ih (knownStep K r) _ _ _ (knownStep_tables K r n t e h)
    have hf : ∀ {β : Type} (f : Signifier → Option β), (r :: rs).filterMap f = (f r).toList ++ rs.filterMap f := by
      intro β f
      rw [List.filterMap_cons]
      cases f r <;> rfl
    rw [List.foldl_cons, hf, hf, hf]
    simpa only [List.append_assoc] using this

/-- C32. Reading any lines, the tables of note marks, text marks and editorial accidentals are lists of the same length, and the items
at the same place come from the same record: the records that are for that table, in order. -/
theorem rdf_tables (lines : List Str) :
    let rs := (lines.filter isRDFLine).filterMap parseSignifier
    Tables (readSignifiers lines) (rs.filterMap noteEntry) (rs.filterMap textEntry) (rs.filterMap editorialEntry) := by
  have := foldl_tables ((lines.filter isRDFLine).filterMap parseSignifier) {} [] [] [] ⟨rfl, rfl, rfl, rfl, rfl, rfl, rfl⟩
  simp only [List.nil_append] at this
  exact this

/-- C32. The tables stay aligned. -/
theorem rdf_aligned (lines : List Str) :
    (readSignifiers lines).textMarks.length = (readSignifiers lines).textColors.length ∧
    (readSignifiers lines).noteMarks.length = (readSignifiers lines).noteColors.length ∧
    (readSignifiers lines).noteMarks.length = (readSignifiers lines).noteDirs.length ∧
    (readSignifiers lines).editorialAccidentals.length = (readSignifiers lines).editorialAccidentalTypes.length := by
  have h := rdf_tables lines
  dsimp only at h
  rw [h.t1, h.t2, h.n1, h.n2, h.n3, h.e1, h.e2]
  simp only [List.length_map, and_self]

example : (readSignifiers ["!!!RDF**kern: i = marked note, color=\"#ff0000\", text=\"see here\"".toList, "4c".toList,
    "!!!RDF**kern: j = editorial accidental, brackets".toList, "!!!RDF**text: k = marked text".toList,
    "!!!RDF**kern: l = matched note".toList]).noteMarks = ["i".toList, "l".toList] := by decide +kernel
example : (readSignifiers ["!!!RDF**kern: i = marked note, color=\"#ff0000\", text=\"see here\"".toList]).noteDirs = ["see here".toList] := by
  decide +kernel

/-! ## C33: choosing signifiers -/

section choose
variable {δ : Type} [DecidableEq δ]

/-- What holds of the choices made. -/
structure SigInv (S : SigSt δ) : Prop where
  keys : (S.lookup.map (·.1)).Nodup
  vals : S.lookup.map (·.2) = S.assigned
  nodup : S.assigned.Nodup

theorem dict_set_new (d : Dict δ Char) (k : δ) (v : Char) (h : d.get? k = none) : d.set k v = d ++ [(k, v)] := by
  induction d with
  | nil => rfl
  | cons x xs ih =>
    obtain ⟨k', v'⟩ := x
    simp only [Dict.get?] at h
    by_cases e : k' = k
    · rw [if_pos e] at h; exact absurd h (by simp)
    · rw [if_neg e] at h
      simp only [Dict.set]
      rw [if_neg e, ih h]; rfl

theorem dict_get_none (d : Dict δ Char) (k : δ) : d.get? k = none ↔ k ∉ d.map (·.1) := by
  induction d with
  | nil => simp [Dict.get?]
  | cons x xs ih =>
    obtain ⟨k', v'⟩ := x
    simp only [Dict.get?, List.map_cons, List.mem_cons]
    by_cases e : k' = k
    · simp [e]
    · rw [if_neg e, ih]
      simp [Ne.symm e]

theorem dict_get_mem (d : Dict δ Char) (h : (d.map (·.1)).Nodup) (k : δ) (v : Char) : d.get? k = some v ↔ (k, v) ∈ d := by
  induction d with
  | nil => simp [Dict.get?]
  | cons x xs ih =>
    obtain ⟨k', v'⟩ := x
    simp only [List.map_cons, List.nodup_cons] at h
    simp only [Dict.get?, List.mem_cons, Prod.mk.injEq]
    by_cases e : k' = k
    · subst e
      simp only [if_true, Option.some.injEq, true_and]
      constructor
      · intro e; exact Or.inl e.symm
      · rintro (e | e)
        · exact e.symm
        · exact absurd (List.mem_map.2 ⟨_, e, rfl⟩) h.1
    · rw [if_neg e, ih h.2]
      simp [Ne.symm e]

/-- One choice. -/
theorem choose_cases (reserved : Str) (d : δ) (fav : Char) (S S' : SigSt δ) (c : Char)
    (h : chooseSignifier reserved d fav S = .ok (c, S')) :
    (S.lookup.get? d = some c ∧ S' = S) ∨
    (S.lookup.get? d = none ∧ S' = S.assign d c ∧ c ∉ S.assigned ∧ (c = fav ∨ c ∈ reservableSignifiers) ∧
      (c ∈ reserved → ∀ x ∈ reservableSignifiers, x ∉ reserved → x ∈ S.assigned)) := by
  unfold chooseSignifier at h
  cases hg : S.lookup.get? d with
  | some c' =>
    rw [hg] at h
    simp only [Except.ok.injEq, Prod.mk.injEq] at h
    left; exact ⟨by rw [h.1], h.2.symm⟩
  | none =>
    rw [hg] at h
    dsimp only at h
    right
    by_cases hf : (!reserved.contains fav && !S.assigned.contains fav) = true
    · rw [if_pos hf] at h
      simp only [Except.ok.injEq, Prod.mk.injEq] at h
      obtain ⟨rfl, rfl⟩ := h
      simp only [Bool.and_eq_true, Bool.not_eq_true', List.contains_eq_mem, decide_eq_false_iff_not] at hf
      exact ⟨rfl, rfl, hf.2, Or.inl rfl, fun e => absurd e hf.1⟩
    rw [if_neg hf] at h
    cases h1 : reservableSignifiers.find? (fun c => !reserved.contains c && !S.assigned.contains c) with
    | some x =>
      rw [h1] at h
      simp only [Except.ok.injEq, Prod.mk.injEq] at h
      obtain ⟨rfl, rfl⟩ := h
      have hp := List.find?_some h1
      have hm := List.mem_of_find?_eq_some h1
      simp only [Bool.and_eq_true, Bool.not_eq_true', List.contains_eq_mem, decide_eq_false_iff_not] at hp
      exact ⟨rfl, rfl, hp.2, Or.inr hm, fun e => absurd e hp.1⟩
    | none =>
      rw [h1] at h
      dsimp only at h
      cases h2 : reservableSignifiers.find? (fun c => !S.assigned.contains c) with
      | none => rw [h2] at h; exact absurd h (by simp)
      | some x =>
        rw [h2] at h
        simp only [Except.ok.injEq, Prod.mk.injEq] at h
        obtain ⟨rfl, rfl⟩ := h
        have hp := List.find?_some h2
        have hm := List.mem_of_find?_eq_some h2
        simp only [Bool.not_eq_true', List.contains_eq_mem, decide_eq_false_iff_not] at hp
        refine ⟨rfl, rfl, hp, Or.inr hm, ?_⟩
        intro _ y hy hyr
        have := List.find?_eq_none.1 h1 y hy
        simpa [hyr] using this

theorem SigInv.assign {S : SigSt δ} (h : SigInv S) (d : δ) (c : Char) (hd : S.lookup.get? d = none) (hc : c ∉ S.assigned) :
    SigInv (S.assign d c) := by
  unfold SigSt.assign
  rw [dict_set_new _ _ _ hd]
  refine ⟨?_, ?_, ?_⟩
  · simp only [List.map_append, List.map_cons, List.map_nil]
    rw [List.nodup_append]
    exact ⟨h.keys, by simp, fun a ha b hb => by
      rw [List.mem_singleton.1 hb]; rintro rfl; exact (dict_get_none _ _).1 hd ha⟩
  · simp [h.vals]
  · rw [List.nodup_append]
    exact ⟨h.nodup, by simp, fun a ha b hb => by
      rw [List.mem_singleton.1 hb]; rintro rfl; exact hc ha⟩

theorem choose_inv {reserved : Str} {d : δ} {fav : Char} {S S' : SigSt δ} {c : Char} (hS : SigInv S)
    (h : chooseSignifier reserved d fav S = .ok (c, S')) :
    SigInv S' ∧ S'.lookup.get? d = some c ∧ ∀ k v, S.lookup.get? k = some v → S'.lookup.get? k = some v := by
  rcases choose_cases _ _ _ _ _ _ h with ⟨h1, rfl⟩ | ⟨h1, rfl, h3, _⟩
  · exact ⟨hS, h1, fun k v hk => hk⟩
  · have hi := hS.assign d c h1 h3
    refine ⟨hi, ?_, ?_⟩
    · rw [dict_get_mem _ hi.keys]
      show (d, c) ∈ S.lookup.set d c
      rw [dict_set_new _ _ _ h1]; simp
    · intro k v hk
      rw [dict_get_mem _ hi.keys]
      show (k, v) ∈ S.lookup.set d c
      rw [dict_set_new _ _ _ h1]
      have := (dict_get_mem _ hS.keys k v).1 hk
      simp [this]

theorem chooseAll_inv (reserved : Str) (qs : List (δ × Char)) (S S' : SigSt δ) (cs : List Char) (hS : SigInv S)
    (h : chooseAll reserved qs S = .ok (cs, S')) :
    SigInv S' ∧ (∀ k v, S.lookup.get? k = some v → S'.lookup.get? k = some v) ∧
    cs.length = qs.length ∧ (∀ (i : Nat) q c, qs[i]? = some q → cs[i]? = some c → S'.lookup.get? q.1 = some c) := by
  induction qs generalizing S cs with
  | nil =>
    simp only [chooseAll, Except.ok.injEq, Prod.mk.injEq] at h
    obtain ⟨rfl, rfl⟩ := h
    exact ⟨hS, fun _ _ hk => hk, rfl, by simp⟩
  | cons q qs ih =>
    simp only [chooseAll] at h
    cases h1 : chooseSignifier reserved q.1 q.2 S with
    | error e => rw [h1] at h; exact absurd h (by simp)
    | ok r =>
      obtain ⟨c, S1⟩ := r
      rw [h1] at h
      dsimp only at h
      obtain ⟨i1, i2, i3⟩ := choose_inv hS h1
      cases h2 : chooseAll reserved qs S1 with
      | error e => rw [h2] at h; exact absurd h (by simp)
      | ok r =>
        obtain ⟨cs1, S2⟩ := r
        rw [h2] at h
        simp only [Except.ok.injEq, Prod.mk.injEq] at h
        obtain ⟨rfl, rfl⟩ := h
        obtain ⟨j1, j2, j3, j4⟩ := ih S1 cs1 i1 h2
        refine ⟨j1, fun k v hk => j2 k v (i3 k v hk), by simp [j3], ?_⟩
        intro i q' c' hq hc
        cases i with
        | zero =>
          simp only [List.getElem?_cons_zero, Option.some.injEq] at hq hc
          subst hq hc
          exact j2 _ _ i2
        | succ i =>
          rw [List.getElem?_cons_succ] at hq hc
          exact j4 i q' c' hq hc

theorem SigInv.init : SigInv (SigSt.init : SigSt δ) := ⟨by simp [SigSt.init], rfl, by simp [SigSt.init]⟩

/-- C33. In any sequence of requests, two requests get the same character exactly if they are for the same definition. -/
theorem rdf_unambiguous (reserved : Str) (qs : List (δ × Char)) (cs : List Char) (S : SigSt δ)
    (h : chooseAll reserved qs .init = .ok (cs, S)) (i j : Nat) (p q : δ × Char) (c d : Char)
    (hi : qs[i]? = some p) (hj : qs[j]? = some q) (hc : cs[i]? = some c) (hd : cs[j]? = some d) :
    c = d ↔ p.1 = q.1 := by
  obtain ⟨h1, _, _, h4⟩ := chooseAll_inv reserved qs _ S cs SigInv.init h
  have gi := h4 i p c hi hc
  have gj := h4 j q d hj hd
  constructor
  · rintro rfl
    have m1 := (dict_get_mem _ h1.keys _ _).1 gi
    have m2 := (dict_get_mem _ h1.keys _ _).1 gj
    have hn : (S.lookup.map (·.2)).Nodup := by rw [h1.vals]; exact h1.nodup
    have := List.inj_on_of_nodup_map hn m1 m2 rfl
    exact (Prod.mk.inj this).1
  · intro e
    rw [e] at gi
    rw [gi] at gj
    exact Option.some.inj gj

/-- C33. A reserved character is given to a new definition only when every reservable character that is not reserved is taken. -/
theorem rdf_reserved_last (reserved : Str) (qs : List (δ × Char)) (cs : List Char) (S : SigSt δ)
    (_ : chooseAll reserved qs .init = .ok (cs, S)) (d : δ) (fav c : Char) (S' : SigSt δ)
    (h : chooseSignifier reserved d fav S = .ok (c, S')) (hnew : S.lookup.get? d = none) (hc : c ∈ reserved) :
    ∀ x ∈ reservableSignifiers, x ∉ reserved → x ∈ S.assigned := by
  rcases choose_cases _ _ _ _ _ _ h with ⟨h1, _⟩ | ⟨_, _, _, _, h5⟩
  · rw [hnew] at h1; exact absurd h1 (by simp)
  · exact h5 hc

/-- C33. The favorite character is given when it is free. -/
theorem rdf_favorite (reserved : Str) (d : δ) (fav : Char) (S : SigSt δ) (hnew : S.lookup.get? d = none) (hr : fav ∉ reserved)
    (ha : fav ∉ S.assigned) : chooseSignifier reserved d fav S = .ok (fav, S.assign d fav) := by
  unfold chooseSignifier
  rw [hnew]
  dsimp only
  rw [if_pos (by simp [hr, ha])]

theorem chooseAll_fails (reserved : Str) (qs : List (δ × Char)) (S : SigSt δ) (hS : SigInv S)
    (hsub : ∀ c ∈ S.assigned, c ∈ reservableSignifiers) (hf : ∀ q ∈ qs, q.2 ∈ reservableSignifiers) :
    (∃ r, chooseAll reserved qs S = .ok r) ↔ distinct (S.lookup.map (·.1) ++ qs.map (·.1)) ≤ 9 := by
  have hlen : ∀ S : SigSt δ, SigInv S → (S.lookup.map (·.1)).length = S.assigned.length := by
    intro S h; rw [← h.vals]; simp
  have hle : ∀ S : SigSt δ, SigInv S → (∀ c ∈ S.assigned, c ∈ reservableSignifiers) → S.assigned.length ≤ 9 := by
    intro S h hsub
    exact (List.subperm_of_subset h.nodup hsub).length_le
  induction qs generalizing S with
  | nil =>
    simp only [chooseAll, List.map_nil, List.append_nil, distinct]
    rw [List.dedup_eq_self.2 hS.keys, hlen S hS]
    constructor
    · intro _; exact hle S hS hsub
    · intro _; exact ⟨_, rfl⟩
  | cons q qs ih =>
    have hperm : ∀ (l : List δ), q.1 ∈ l →
        distinct (l ++ (q :: qs).map (·.1)) = distinct (l ++ qs.map (·.1)) := by
      intro l hl
      unfold distinct
      apply List.Perm.length_eq
      rw [List.perm_ext_iff_of_nodup (List.nodup_dedup _) (List.nodup_dedup _)]
      intro a
      simp only [List.mem_dedup, List.mem_append, List.map_cons, List.mem_cons]
      constructor
      · rintro (h | rfl | h)
        · exact Or.inl h
        · exact Or.inl hl
        · exact Or.inr h
      · rintro (h | h)
        · exact Or.inl h
        · exact Or.inr (Or.inr h)
    simp only [chooseAll]
    cases h1 : chooseSignifier reserved q.1 q.2 S with
    | error e =>
      -- all nine taken and this one new
      dsimp only
      constructor
      · rintro ⟨r, hr⟩; exact absurd hr (by simp)
      · intro hd
        exfalso
        unfold chooseSignifier at h1
        cases hg : S.lookup.get? q.1 with
        | some c => rw [hg] at h1; exact absurd h1 (by simp)
        | none =>
          rw [hg] at h1
          dsimp only at h1
          split at h1
          · exact absurd h1 (by simp)
          cases f1 : reservableSignifiers.find? (fun c => !reserved.contains c && !S.assigned.contains c) with
          | some x => rw [f1] at h1; exact absurd h1 (by simp)
          | none =>
            rw [f1] at h1
            dsimp only at h1
            cases f2 : reservableSignifiers.find? (fun c => !S.assigned.contains c) with
            | some x => rw [f2] at h1; exact absurd h1 (by simp)
            | none =>
              have hall : ∀ x ∈ reservableSignifiers, x ∈ S.assigned := by
                intro x hx
                have := List.find?_eq_none.1 f2 x hx
                simpa using this
              have h9 : 9 ≤ S.assigned.length := by
                have hnd : reservableSignifiers.Nodup := by decide
                exact (List.subperm_of_subset hnd hall).length_le
              have hnew := (dict_get_none _ _).1 hg
              have hsubs : ∀ x ∈ (S.lookup.map (·.1) ++ [q.1]), x ∈ (S.lookup.map (·.1) ++ (q :: qs).map (·.1)).dedup := by
                intro x hx
                rw [List.mem_dedup]
                rcases List.mem_append.1 hx with h | h
                · exact List.mem_append_left _ h
                · rw [List.mem_singleton.1 h]; simp
              have hnd : (S.lookup.map (·.1) ++ [q.1]).Nodup := by
                rw [List.nodup_append]
                exact ⟨hS.keys, by simp, fun a ha b hb => by
                  rw [List.mem_singleton.1 hb]; rintro rfl; exact hnew ha⟩
              have := (List.subperm_of_subset hnd hsubs).length_le
              unfold distinct at hd
              rw [List.length_append, hlen S hS, List.length_singleton] at this
              omega
    | ok r =>
      obtain ⟨c, S1⟩ := r
      dsimp only
      obtain ⟨i1, i2, i3⟩ := choose_inv hS h1
      have hsub1 : ∀ x ∈ S1.assigned, x ∈ reservableSignifiers := by
        rcases choose_cases _ _ _ _ _ _ h1 with ⟨_, rfl⟩ | ⟨_, rfl, _, h4, _⟩
        · exact hsub
        · intro x hx
          rcases List.mem_append.1 hx with hx | hx
          · exact hsub x hx
          · rw [List.mem_singleton.1 hx]
            rcases h4 with rfl | h4
            · exact hf q (by simp)
            · exact h4
      have hih := ih S1 i1 hsub1 (fun q hq => hf q (by simp [hq]))
      have hsame : distinct (S.lookup.map (·.1) ++ (q :: qs).map (·.1)) = distinct (S1.lookup.map (·.1) ++ qs.map (·.1)) := by
        rcases choose_cases _ _ _ _ _ _ h1 with ⟨hg, rfl⟩ | ⟨hg, rfl, _, _, _⟩
        · apply hperm
          by_contra hn
          rw [(dict_get_none _ _).2 hn] at hg
          exact absurd hg (by simp)
        · unfold SigSt.assign
          rw [dict_set_new _ _ _ hg]
          simp [List.append_assoc]
      rw [hsame]
      refine Iff.trans ?_ hih
      constructor
      · rintro ⟨r, hr⟩
        cases h2 : chooseAll reserved qs S1 with
        | error e => rw [h2] at hr; exact absurd hr (by simp)
        | ok r' => exact ⟨r', rfl⟩
      · rintro ⟨r, hr⟩
        rw [hr]
        exact ⟨_, rfl⟩

/-- C33. Requests succeed exactly as long as no more than nine different definitions are asked for, whatever is reserved. -/
theorem rdf_nine (reserved : Str) (qs : List (δ × Char)) (hf : ∀ q ∈ qs, q.2 ∈ reservableSignifiers) :
    (∃ r, chooseAll reserved qs .init = .ok r) ↔ distinct (qs.map (·.1)) ≤ 9 := by
  have := chooseAll_fails reserved qs SigSt.init SigInv.init (by simp [SigSt.init]) hf
  simpa [SigSt.init] using this

end choose

/-- C33. A score with ten colors of notes cannot be exported. -/
theorem rdf_ten_colors_fail (colors : List Str) (h : colors.Nodup) (h10 : colors.length = 10) (reserved : Str) :
    ∀ r, chooseAll reserved (colors.map (fun c => (RDFDef.noteColor c, (RDFDef.noteColor c).favorite))) .init ≠ .ok r := by
  intro r hr
  have := (rdf_nine reserved (colors.map (fun c => (RDFDef.noteColor c, (RDFDef.noteColor c).favorite))) (by
    intro q hq
    obtain ⟨c, _, rfl⟩ := List.mem_map.1 hq
    show 'i' ∈ reservableSignifiers
    decide)).1 ⟨r, hr⟩
  rw [List.map_map] at this
  have hnd : (colors.map ((fun q : RDFDef × Char => q.1) ∘ fun c => (RDFDef.noteColor c, (RDFDef.noteColor c).favorite))).Nodup := by
    apply List.Nodup.map _ h
    intro a b hab
    simpa using hab
  unfold distinct at this
  rw [List.dedup_eq_self.2 hnd, List.length_map, h10] at this
  omega

example : chooseAll "i".toList [(RDFDef.noteColor "red".toList, 'i'), (.editorial true, 'j'), (.noteColor "blue".toList, 'i'),
    (.noteColor "red".toList, 'i')] .init = .ok ("jZVj".toList, ⟨[(.noteColor "red".toList, 'j'), (.editorial true, 'Z'),
      (.noteColor "blue".toList, 'V')], "jZV".toList⟩) := rfl

/-! ## C63: exported records read back -/

theorem isInfix_split (w a b : Str) (q : Char) (h : q ∉ w) (hw : w ≠ []) : isInfix w (a ++ q :: b) = (isInfix w a || isInfix w b) := by
  rw [Bool.eq_iff_iff, Bool.or_eq_true, isInfix_iff, isInfix_iff, isInfix_iff]
  constructor
  · rintro ⟨s, t, e⟩
    have e : (s ++ w) ++ t = a ++ q :: b := e
    rcases List.append_eq_append_iff.1 e with ⟨u, h1, h2⟩ | ⟨u, h1, h2⟩
    · left; exact ⟨s, u, by rw [h1]⟩
    · -- s ++ w = a ++ u, q :: b = u ++ t
      cases u with
      | nil => left; exact ⟨s, [], by simpa using h1⟩
      | cons x u =>
        simp only [List.cons_append, List.cons.injEq] at h2
        obtain ⟨rfl, rfl⟩ := h2
        rcases List.append_eq_append_iff.1 h1 with ⟨v, g1, g2⟩ | ⟨v, g1, g2⟩
        · exact absurd (by rw [g2]; simp) h
        · cases v with
          | nil => exact absurd (by simp only [List.nil_append] at g2; rw [← g2]; simp) h
          | cons y v =>
            simp only [List.cons_append, List.cons.injEq] at g2
            right; exact ⟨v, t, by rw [g2.2]⟩
  · rintro (⟨s, t, e⟩ | ⟨s, t, e⟩)
    · exact ⟨s, t ++ q :: b, by rw [← e]; simp⟩
    · exact ⟨a ++ q :: s, t, by rw [← e]; simp⟩

theorem not_infix_space (w c : Str) (hw : ' ' ∈ w) (hc : ∀ ch ∈ c, ch ≠ '"' ∧ isPySpace ch = false) : isInfix w c = false := by
  rw [← Bool.not_eq_true, isInfix_iff]
  intro h
  have := (hc ' ' (h.subset hw)).2
  exact absurd this (by decide)

/-- The record of a color says none of the words with another meaning. -/
theorem color_says (w c : Str) (hq : '"' ∉ w) (hw : w ≠ []) (h1 : isInfix w "marked note, color=".toList = false)
    (h2 : isInfix w c = false) : isInfix w (RDFDef.noteColor c).text = false := by
  have key : isInfix w ("marked note, color=\"".toList ++ c ++ "\"".toList) = false := by
    have e : "marked note, color=\"".toList ++ c ++ "\"".toList = "marked note, color=".toList ++ '"' :: (c ++ '"' :: []) := by
      have : "marked note, color=\"".toList = "marked note, color=".toList ++ ['"'] := rfl
      rw [this]; simp only [List.append_assoc]; rfl
    rw [e, isInfix_split _ _ _ _ hq hw, isInfix_split _ _ _ _ hq hw, h1, h2]
    cases w with
    | nil => exact absurd rfl hw
    | cons x xs => rfl
  cases c with
  | nil => exact h1
  | cons x xs => exact key

/-- Reading the record of one definition. -/
def readDef (K : Known) (d : RDFDef) (ch : Char) : Known :=
  match d with
  | .editorial b =>
    { K with editorialAccidentals := K.editorialAccidentals ++ [[ch]],
             editorialAccidentalTypes := K.editorialAccidentalTypes ++ [if b then "brack".toList else "paren".toList] }
  | .caesura => K
  | .cueSize => { K with cueSize := [ch] }
  | .noteColor c =>
    { K with noteMarks := K.noteMarks ++ [[ch]], noteColors := K.noteColors ++ [c],
             noteDirs := K.noteDirs ++ [(equalsSpaced "text".toList (RDFDef.noteColor c).text).getD []] }
  | .linked => { K with linked := [ch] }

theorem color_value (c : Str) (h : PlainColor c) : equalsValue "color".toList (RDFDef.noteColor c).text = some c := by
  obtain ⟨h0, h1, _⟩ := h
  have e : (RDFDef.noteColor c).text = "marked note, color=\"".toList ++ (c ++ ['"']) := by
    cases c with
    | nil => exact absurd rfl h0
    | cons x xs =>
      show "marked note, color=\"".toList ++ (x :: xs) ++ "\"".toList = _
      rw [List.append_assoc]
      rfl
  have hv : equalsValueHere ('=' :: '"' :: (c ++ ['"'])) = some c := by
    unfold equalsValueHere
    have s1 : skipSpace ('=' :: '"' :: (c ++ ['"'])) = '=' :: '"' :: (c ++ ['"']) := rfl
    rw [s1]
    show (if ((skipSpace (c ++ ['"'])).takeWhile (fun ch => ch != '"' && !isPySpace ch)).isEmpty = true then none
      else some ((skipSpace (c ++ ['"'])).takeWhile (fun ch => ch != '"' && !isPySpace ch))) = some c
    have s3 : skipSpace (c ++ ['"']) = c ++ ['"'] := by
      cases c with
      | nil => exact absurd rfl h0
      | cons x xs =>
        unfold skipSpace
        rw [List.cons_append, List.dropWhile_cons_of_neg (by rw [(h1 x (by simp)).2]; simp)]
    rw [s3]
    have s4 : (c ++ ['"']).takeWhile (fun ch => ch != '"' && !isPySpace ch) = c := by
      rw [List.takeWhile_append_of_pos (by
        intro a ha
        rw [(h1 a ha).2]
        simp [(h1 a ha).1])]
      simp
    rw [s4, if_neg (by simpa using h0)]
  rw [e]
  have ha : ∃ l, afterAll "color".toList ("marked note, color=\"".toList ++ (c ++ ['"'])) = ('=' :: '"' :: (c ++ ['"'])) :: l := ⟨_, rfl⟩
  obtain ⟨l, hl⟩ := ha
  unfold equalsValue
  rw [hl, List.findSome?_cons, hv]

theorem knownStep_def (K : Known) (d : RDFDef) (ch : Char) (h : ∀ c, d = .noteColor c → PlainColor c) :
    knownStep K ⟨"**kern".toList, [ch], d.text⟩ = readDef K d ch := by
  cases d with
  | editorial b => cases b <;> rfl
  | caesura => rfl
  | cueSize => rfl
  | linked => rfl
  | noteColor c =>
    have hc := h c rfl
    obtain ⟨h0, h1, h2⟩ := hc
    have sp : ∀ w : Str, '"' ∉ w → ' ' ∈ w → isInfix w "marked note, color=".toList = false →
        isInfix w (RDFDef.noteColor c).text = false := by
      intro w hq hs hm
      exact color_says w c hq (by rintro rfl; exact absurd hs (by simp)) hm (not_infix_space w c hs h1)
    have ns : ∀ w ∈ ["above".toList, "below".toList, "link".toList, "phrase".toList], isInfix w c = false := by
      intro w hw
      rw [← Bool.not_eq_true, isInfix_iff]
      exact fun e => h2 ⟨w, hw, e⟩
    have w1 := sp "no stem".toList (by decide) (by decide) (by decide)
    have w2 := sp "cue size".toList (by decide) (by decide) (by decide)
    have w3 := sp "hairpin accent".toList (by decide) (by decide) (by decide)
    have w4 := sp "vertical stroke".toList (by decide) (by decide) (by decide)
    have w5 := sp "terminal long".toList (by decide) (by decide) (by decide)
    have w6 := sp "long note".toList (by decide) (by decide) (by decide)
    have w7 := color_says "above".toList c (by decide) (by decide) (by decide) (ns _ (List.mem_of_getElem? (i := 0) rfl))
    have w8 := color_says "below".toList c (by decide) (by decide) (by decide) (ns _ (List.mem_of_getElem? (i := 1) rfl))
    have w9 := color_says "link".toList c (by decide) (by decide) (by decide) (ns _ (List.mem_of_getElem? (i := 2) rfl))
    have w10 := sp "editorial accidental".toList (by decide) (by decide) (by decide)
    have w11 := color_says "phrase".toList c (by decide) (by decide) (by decide) (ns _ (List.mem_of_getElem? (i := 3) rfl))
    have hstep : knownStep K ⟨"**kern".toList, [ch], (RDFDef.noteColor c).text⟩ = knownKern K [ch] (RDFDef.noteColor c).text := by
      unfold knownStep
      dsimp only
      rw [if_neg (by simp), if_neg (by rintro (e | e) <;> exact absurd e (by decide)), if_pos rfl]
    rw [hstep]
    unfold knownKern
    rw [w1, if_neg Bool.false_ne_true, w2, if_neg Bool.false_ne_true, w3, if_neg Bool.false_ne_true, w4, if_neg Bool.false_ne_true]
    unfold knownKern2
    rw [w5, w6, if_neg (by simp), w7, if_neg Bool.false_ne_true, w8, if_neg Bool.false_ne_true, w9, if_neg Bool.false_ne_true,
      w10, if_neg Bool.false_ne_true, w11, if_neg Bool.false_ne_true]
    unfold knownNote
    rw [color_value c ⟨h0, h1, h2⟩]
    rfl

/-- The line of one definition. -/
theorem parse_def (d : RDFDef) (ch : Char) (hch : ch ∈ reservableSignifiers) :
    parseSignifier ("!!!RDF**kern: ".toList ++ [ch] ++ " = ".toList ++ d.text) = some ⟨"**kern".toList, [ch], d.text⟩ ∧
    isRDFLine ("!!!RDF**kern: ".toList ++ [ch] ++ " = ".toList ++ d.text) = true := by
  have key : ∀ (y : Char) (ys : Str), isPySpace y = false →
      parseSignifier ("!!!RDF**kern: ".toList ++ [ch] ++ " = ".toList ++ y :: ys) = some ⟨"**kern".toList, [ch], y :: ys⟩ ∧
      isRDFLine ("!!!RDF**kern: ".toList ++ [ch] ++ " = ".toList ++ y :: ys) = true := by
    intro y ys hy
    have hsk : skipSpace (y :: ys) = y :: ys := by
      unfold skipSpace
      rw [List.dropWhile_cons_of_neg (by rw [hy]; simp)]
    have hne : isPySpace ch = false ∧ ch ≠ '=' := by
      have : ∀ x ∈ reservableSignifiers, isPySpace x = false ∧ x ≠ '=' := by decide
      exact this ch hch
    constructor
    · unfold parseSignifier
      have h1 : ∃ l, afterAll "!!!RDF".toList ("!!!RDF**kern: ".toList ++ [ch] ++ " = ".toList ++ y :: ys) =
          ("**kern: ".toList ++ ch :: " = ".toList ++ y :: ys) :: l := ⟨_, rfl⟩
      obtain ⟨l, hl⟩ := h1
      have h2 : rdfHead ("**kern: ".toList ++ ch :: " = ".toList ++ y :: ys) =
          some ("**kern".toList, skipSpace (' ' :: ch :: (" = ".toList ++ y :: ys))) := rfl
      rw [hl, List.findSome?_cons, h2]
      dsimp only
      have h3 : skipSpace (' ' :: ch :: (" = ".toList ++ y :: ys)) = ch :: (" = ".toList ++ y :: ys) := by
        unfold skipSpace
        rw [List.dropWhile_cons_of_pos (by decide), List.dropWhile_cons_of_neg (by rw [hne.1]; simp)]
      have h4 : skipSpace (ch :: (" = ".toList ++ y :: ys)) = ch :: (" = ".toList ++ y :: ys) := by
        unfold skipSpace
        rw [List.dropWhile_cons_of_neg (by rw [hne.1]; simp)]
      rw [h3, h4]
      have h5 : (ch :: (" = ".toList ++ y :: ys)).takeWhile (fun c => !isPySpace c && c != '=') = [ch] := by
        rw [List.takeWhile_cons_of_pos (by rw [hne.1]; simp [hne.2])]
        rfl
      rw [h5, if_neg (by simp)]
      have h6 : skipSpace ((ch :: (" = ".toList ++ y :: ys)).drop [ch].length) = '=' :: ' ' :: y :: ys := rfl
      rw [h6]
      show some (Signifier.mk _ _ (skipSpace (' ' :: y :: ys))) = _
      have h7 : skipSpace (' ' :: y :: ys) = y :: ys := by
        unfold skipSpace
        rw [List.dropWhile_cons_of_pos (by decide), List.dropWhile_cons_of_neg (by rw [hy]; simp)]
      rw [h7]
    · rfl
  cases d with
  | editorial b => cases b <;> exact key _ _ rfl
  | caesura => exact key _ _ rfl
  | cueSize => exact key _ _ rfl
  | linked => exact key _ _ rfl
  | noteColor c =>
    cases c with
    | nil => exact key _ _ rfl
    | cons x xs => exact key _ _ rfl

theorem read_footer (l : Dict RDFDef Char) (hch : ∀ p ∈ l, p.2 ∈ reservableSignifiers) (hp : ∀ p ∈ l, ∀ c, p.1 = .noteColor c → PlainColor c) :
    readSignifiers (footerRecords l) =
      { l.foldl (fun K p => readDef K p.1 p.2) {} with above := ">".toList, below := "<".toList } := by
  unfold readSignifiers footerRecords
  rw [List.filter_append, List.filterMap_append, List.foldl_append]
  have h1 : ((l.map (fun p => "!!!RDF**kern: ".toList ++ [p.2] ++ " = ".toList ++ p.1.text)).filter isRDFLine).filterMap parseSignifier =
      l.map (fun p => ⟨"**kern".toList, [p.2], p.1.text⟩) := by
    clear hp
    induction l with
    | nil => rfl
    | cons p l ih =>
      have hpd := parse_def p.1 p.2 (hch p (by simp))
      rw [List.map_cons, List.filter_cons_of_pos hpd.2, List.filterMap_cons, hpd.1, ih (fun p hp => hch p (by simp [hp]))]
      rfl
  rw [h1]
  have h2 : ∀ K : Known, (l.map (fun p => (⟨"**kern".toList, [p.2], p.1.text⟩ : Signifier))).foldl knownStep K =
      l.foldl (fun K p => readDef K p.1 p.2) K := by
    clear h1 hch
    induction l with
    | nil => intro K; rfl
    | cons p l ih =>
      intro K
      rw [List.map_cons, List.foldl_cons, List.foldl_cons, knownStep_def K p.1 p.2 (hp p (by simp)), ih (fun p h => hp p (by simp [h]))]
  rw [h2]
  rfl

theorem fold_readDef (l : Dict RDFDef Char) (K : Known) :
    let K' := l.foldl (fun K p => readDef K p.1 p.2) K
    (K'.noteMarks = K.noteMarks ++ l.filterMap (fun p => match p.1 with | .noteColor _ => some [p.2] | _ => none)) ∧
    (K'.noteColors = K.noteColors ++ l.filterMap (fun p => match p.1 with | .noteColor c => some c | _ => none)) ∧
    (K'.editorialAccidentals = K.editorialAccidentals ++ l.filterMap (fun p => match p.1 with | .editorial _ => some [p.2] | _ => none)) ∧
    (K'.editorialAccidentalTypes = K.editorialAccidentalTypes ++ l.filterMap (fun p => match p.1 with
      | .editorial b => some (if b then "brack".toList else "paren".toList) | _ => none)) ∧
    ((l.map (·.1)).Nodup → K'.linked = ((l.get? .linked).map (fun c => [c])).getD K.linked) ∧
    ((l.map (·.1)).Nodup → K'.cueSize = ((l.get? .cueSize).map (fun c => [c])).getD K.cueSize) := by
  induction l generalizing K with
  | nil => simp [Dict.get?]
  | cons p l ih =>
    obtain ⟨d, ch⟩ := p
    have hi := ih (readDef K d ch)
    dsimp only at hi ⊢
    rw [List.foldl_cons]
    obtain ⟨i1, i2, i3, i4, i5, i6⟩ := hi
    rw [i1, i2, i3, i4]
    have hfind : ∀ d', d ≠ d' → Dict.get? ((d, ch) :: l) d' = Dict.get? l d' := by
      intro d' hd; simp only [Dict.get?]; rw [if_neg hd]
    have hhere : Dict.get? ((d, ch) :: l) d = some ch := by simp [Dict.get?]
    refine ⟨?_, ?_, ?_, ?_, ?_, ?_⟩
    · cases d <;> simp only [readDef, List.filterMap_cons, List.append_assoc, List.singleton_append]
    · cases d <;> simp only [readDef, List.filterMap_cons, List.append_assoc, List.singleton_append]
    · cases d <;> simp only [readDef, List.filterMap_cons, List.append_assoc, List.singleton_append]
    · cases d <;> simp only [readDef, List.filterMap_cons, List.append_assoc, List.singleton_append]
    · intro hn
      rw [List.map_cons, List.nodup_cons] at hn
      rw [i5 hn.2]
      by_cases hd : d = .linked
      · subst hd
        rw [hhere, (dict_get_none l _).2 hn.1]; rfl
      · rw [hfind _ hd]
        cases d <;> first | rfl | exact absurd rfl hd
    · intro hn
      rw [List.map_cons, List.nodup_cons] at hn
      rw [i6 hn.2]
      by_cases hd : d = .cueSize
      · subst hd
        rw [hhere, (dict_get_none l _).2 hn.1]; rfl
      · rw [hfind _ hd]
        cases d <;> first | rfl | exact absurd rfl hd

theorem chooseAll_sound (reserved : Str) (qs : List (RDFDef × Char)) (S S' : SigSt RDFDef) (cs : List Char)
    (h : chooseAll reserved qs S = .ok (cs, S')) (hf : ∀ q ∈ qs, q.2 ∈ reservableSignifiers)
    (hS : ∀ p ∈ S.lookup, p.2 ∈ reservableSignifiers) :
    (∀ p ∈ S'.lookup, p.2 ∈ reservableSignifiers) ∧ (∀ p ∈ S'.lookup, p ∈ S.lookup ∨ p.1 ∈ qs.map (·.1)) := by
  induction qs generalizing S cs with
  | nil =>
    simp only [chooseAll, Except.ok.injEq, Prod.mk.injEq] at h
    obtain ⟨rfl, rfl⟩ := h
    exact ⟨hS, fun p hp => Or.inl hp⟩
  | cons q qs ih =>
    simp only [chooseAll] at h
    cases h1 : chooseSignifier reserved q.1 q.2 S with
    | error e => rw [h1] at h; exact absurd h (by simp)
    | ok r =>
      obtain ⟨c, S1⟩ := r
      rw [h1] at h
      dsimp only at h
      cases h2 : chooseAll reserved qs S1 with
      | error e => rw [h2] at h; exact absurd h (by simp)
      | ok r =>
        obtain ⟨cs1, S2⟩ := r
        rw [h2] at h
        simp only [Except.ok.injEq, Prod.mk.injEq] at h
        obtain ⟨rfl, rfl⟩ := h
        rcases choose_cases _ _ _ _ _ _ h1 with ⟨_, rfl⟩ | ⟨hg, rfl, _, h4, _⟩
        · obtain ⟨a, b⟩ := ih S1 cs1 h2 (fun q hq => hf q (by simp [hq])) hS
          refine ⟨a, fun p hp => ?_⟩
          rcases b p hp with h | h
          · exact Or.inl h
          · exact Or.inr (by rw [List.map_cons]; exact List.mem_cons_of_mem _ h)
        · have hl : (S.assign q.1 c).lookup = S.lookup ++ [(q.1, c)] := dict_set_new _ _ _ hg
          have hc : c ∈ reservableSignifiers := by
            rcases h4 with rfl | h4
            · exact hf q (by simp)
            · exact h4
          obtain ⟨a, b⟩ := ih (S.assign q.1 c) cs1 h2 (fun q hq => hf q (by simp [hq])) (by
            intro p hp
            rw [hl] at hp
            rcases List.mem_append.1 hp with hp | hp
            · exact hS p hp
            · rw [List.mem_singleton.1 hp]; exact hc)
          refine ⟨a, fun p hp => ?_⟩
          rcases b p hp with h | h
          · rw [hl] at h
            rcases List.mem_append.1 h with h | h
            · exact Or.inl h
            · right; rw [List.mem_singleton.1 h]; simp
          · exact Or.inr (by rw [List.map_cons]; exact List.mem_cons_of_mem _ h)

/-- The requests of the exporter. -/
def rdfRequests (ds : List RDFDef) : List (RDFDef × Char) := ds.map (fun d => (d, d.favorite))

/-- What the importer must know for the definitions to have been given the characters `given`. -/
structure ReadBack (K : Known) (ds : List RDFDef) (given : RDFDef → Char → Prop) : Prop where
  above : K.above = ">".toList
  below : K.below = "<".toList
  /-- A note carrying exactly one of the marks has the color asked for. -/
  color : ∀ c ch, given (.noteColor c) ch → ∀ text : Str, ch ∈ text → (∀ c' ch', given (.noteColor c') ch' → ch' ∈ text → ch' = ch) →
    markColor K text = some c
  /-- A note without a mark has no color. -/
  plain : ∀ text : Str, (∀ c' ch', given (.noteColor c') ch' → ch' ∉ text) → markColor K text = none
  editorial : ∀ (b : Bool) ch, given (.editorial b) ch ↔
    ([ch], if b then "brack".toList else "paren".toList) ∈ K.editorialAccidentals.zip K.editorialAccidentalTypes
  linked : ∀ ch, given .linked ch ↔ K.linked = [ch]
  cue : ∀ ch, given .cueSize ch ↔ K.cueSize = [ch]
  noLink : .linked ∉ ds → K.linked = []
  noCue : .cueSize ∉ ds → K.cueSize = []

theorem zip_filterMap_same {α β γ : Type} (l : List α) (f : α → Option β) (g : α → Option γ) (h : ∀ a ∈ l, (f a).isSome = (g a).isSome) :
    (l.filterMap f).zip (l.filterMap g) = l.filterMap (fun a => match f a, g a with | some x, some y => some (x, y) | _, _ => none) := by
  induction l with
  | nil => rfl
  | cons a l ih =>
    have ha := h a (by simp)
    have ih := ih (fun a h' => h a (by simp [h']))
    rw [List.filterMap_cons, List.filterMap_cons, List.filterMap_cons]
    cases hf : f a <;> cases hg : g a <;> rw [hf, hg] at ha <;> simp at ha <;> simp [ih]

theorem isInfix_single (ch : Char) (t : Str) : isInfix [ch] t = true ↔ ch ∈ t := by
  rw [isInfix_iff]
  constructor
  · intro h; exact h.subset (by simp)
  · intro h
    obtain ⟨a, b, rfl⟩ := List.append_of_mem h
    exact ⟨a, b, by simp⟩

/-- C63. Whatever definitions an export asks for, reading the records it writes tells the importer the color of every colored note, the
kind of every editorial accidental, and the signs for linked, cue size, above and below. -/
theorem rdf_roundtrip_partial (reserved : Str) (ds : List RDFDef) (cs : List Char) (S : SigSt RDFDef)
    (h : chooseAll reserved (rdfRequests ds) .init = .ok (cs, S)) (hp : ∀ c, .noteColor c ∈ ds → PlainColor c) :
    ReadBack (readSignifiers (footerRecords S.lookup)) ds (fun d ch => ∃ i : Nat, ds[i]? = some d ∧ cs[i]? = some ch) := by
  have hfav : ∀ q ∈ rdfRequests ds, q.2 ∈ reservableSignifiers := by
    intro q hq
    obtain ⟨d, _, rfl⟩ := List.mem_map.1 hq
    cases d with
    | editorial b => cases b <;> decide
    | caesura => decide
    | cueSize => decide
    | linked => decide
    | noteColor c => show 'i' ∈ reservableSignifiers; decide
  obtain ⟨hinv, _, hlen, hget⟩ := chooseAll_inv reserved _ _ S cs SigInv.init h
  obtain ⟨hr, hm⟩ := chooseAll_sound reserved _ _ S cs h hfav (by simp [SigSt.init])
  have hds : (rdfRequests ds).map (·.1) = ds := by
    unfold rdfRequests; rw [List.map_map]; exact List.map_id ds
  have hmem : ∀ p ∈ S.lookup, p.1 ∈ ds := by
    intro p hp
    rcases hm p hp with h | h
    · simp [SigSt.init] at h
    · rwa [hds] at h
  have hgiven : ∀ d ch, (∃ i : Nat, ds[i]? = some d ∧ cs[i]? = some ch) ↔ S.lookup.get? d = some ch := by
    intro d ch
    constructor
    · rintro ⟨i, h1, h2⟩
      refine hget i (d, d.favorite) ch ?_ h2
      unfold rdfRequests
      rw [List.getElem?_map, h1]; rfl
    · intro hg
      have := hmem _ ((dict_get_mem _ hinv.keys _ _).1 hg)
      obtain ⟨i, hi⟩ := List.mem_iff_getElem?.1 this
      have hil : i < cs.length := by
        rw [hlen]; unfold rdfRequests; rw [List.length_map]
        exact (List.getElem?_eq_some_iff.1 hi).1
      refine ⟨i, hi, ?_⟩
      have hc : cs[i]? = some cs[i] := List.getElem?_eq_getElem hil
      have := hget i (d, d.favorite) cs[i] (by unfold rdfRequests; rw [List.getElem?_map, hi]; rfl) hc
      dsimp only at this
      rw [hg] at this
      rw [hc, Option.some.inj this]
  have hvals : (S.lookup.map (·.2)).Nodup := by rw [hinv.vals]; exact hinv.nodup
  have hread := read_footer S.lookup hr (by
    intro p hpm c e
    exact hp c (e ▸ hmem p hpm))
  obtain ⟨f1, f2, f3, f4, f5, f6⟩ := fold_readDef S.lookup {}
  rw [hread]
  simp only [hgiven]
  clear h hread hget hlen hgiven hm
  have hz : ∀ K : Known, K.noteMarks = S.lookup.filterMap (fun p => match p.1 with | .noteColor _ => some [p.2] | _ => none) →
      K.noteColors = S.lookup.filterMap (fun p => match p.1 with | .noteColor c => some c | _ => none) →
      ∀ m c, (m, c) ∈ K.noteMarks.zip K.noteColors ↔ ∃ ch, m = [ch] ∧ S.lookup.get? (.noteColor c) = some ch := by
    intro K k1 k2 m c
    rw [k1, k2, zip_filterMap_same _ _ _ (by rintro ⟨d, ch⟩ _; cases d <;> rfl), List.mem_filterMap]
    constructor
    · rintro ⟨⟨d, ch⟩, hmem, he⟩
      cases d with
      | noteColor c' =>
        have he : some ([ch], c') = some (m, c) := he
        simp only [Option.some.injEq, Prod.mk.injEq] at he
        obtain ⟨rfl, rfl⟩ := he
        exact ⟨ch, rfl, (dict_get_mem _ hinv.keys _ _).2 hmem⟩
      | editorial b => exact absurd he (by simp)
      | caesura => exact absurd he (by simp)
      | cueSize => exact absurd he (by simp)
      | linked => exact absurd he (by simp)
    · rintro ⟨ch, rfl, hg⟩
      exact ⟨(.noteColor c, ch), (dict_get_mem _ hinv.keys _ _).1 hg, rfl⟩
  refine ⟨rfl, rfl, ?_, ?_, ?_, ?_, ?_, ?_, ?_⟩
  · intro c ch hg text hch hone
    unfold markColor
    have hz := hz { S.lookup.foldl (fun K p => readDef K p.1 p.2) {} with above := ">".toList, below := "<".toList } f1 f2
    cases hfnd : (List.zip _ _).find? (fun m : Str × Str => isInfix m.1 text) with
    | none =>
      exact absurd ((isInfix_single ch text).2 hch) (List.find?_eq_none.1 hfnd ([ch], c) ((hz _ _).2 ⟨ch, rfl, hg⟩))
    | some m =>
      obtain ⟨m, c'⟩ := m
      have hm := List.mem_of_find?_eq_some hfnd
      have hs := List.find?_some hfnd
      obtain ⟨ch', rfl, hg'⟩ := (hz _ _).1 hm
      have hin := (isInfix_single ch' text).1 hs
      have := hone c' ch' hg' hin
      subst this
      have := List.inj_on_of_nodup_map hvals ((dict_get_mem _ hinv.keys _ _).1 hg) ((dict_get_mem _ hinv.keys _ _).1 hg') rfl
      simp only [Prod.mk.injEq, RDFDef.noteColor.injEq, and_true] at this
      rw [this]; rfl
  · intro text hno
    unfold markColor
    have hz := hz { S.lookup.foldl (fun K p => readDef K p.1 p.2) {} with above := ">".toList, below := "<".toList } f1 f2
    cases hfnd : (List.zip _ _).find? (fun m : Str × Str => isInfix m.1 text) with
    | none => rfl
    | some m =>
      obtain ⟨m, c'⟩ := m
      have hm := List.mem_of_find?_eq_some hfnd
      have hs := List.find?_some hfnd
      obtain ⟨ch', rfl, hg'⟩ := (hz _ _).1 hm
      exact absurd ((isInfix_single ch' text).1 hs) (hno c' ch' hg')
  · intro b ch
    show _ ↔ _ ∈ List.zip (S.lookup.foldl (fun K p => readDef K p.1 p.2) {}).editorialAccidentals
      (S.lookup.foldl (fun K p => readDef K p.1 p.2) {}).editorialAccidentalTypes
    rw [f3, f4]
    show _ ↔ _ ∈ List.zip ([] ++ _) ([] ++ _)
    rw [List.nil_append, List.nil_append, zip_filterMap_same _ _ _ (by rintro ⟨d, ch⟩ _; cases d <;> rfl), List.mem_filterMap]
    constructor
    · intro hg
      exact ⟨(.editorial b, ch), (dict_get_mem _ hinv.keys _ _).1 hg, rfl⟩
    · rintro ⟨⟨d, ch'⟩, hmem, he⟩
      cases d with
      | noteColor c' => exact absurd he (by simp)
      | caesura => exact absurd he (by simp)
      | cueSize => exact absurd he (by simp)
      | linked => exact absurd he (by simp)
      | editorial b' =>
      have he : some ([ch'], if b' then "brack".toList else "paren".toList) = some ([ch], if b then "brack".toList else "paren".toList) := he
      rw [Option.some.injEq, Prod.mk.injEq, List.cons.injEq] at he
      obtain ⟨⟨rfl, _⟩, heb⟩ := he
      have : b' = b := by
        cases b <;> cases b' <;> first | rfl | exact absurd heb (by decide)
      subst this
      exact (dict_get_mem _ hinv.keys _ _).2 hmem
  · intro ch
    show _ ↔ (S.lookup.foldl (fun K p => readDef K p.1 p.2) {}).linked = [ch]
    rw [f5 hinv.keys]
    cases S.lookup.get? .linked with
    | none => simp
    | some x => simp
  · intro ch
    show _ ↔ (S.lookup.foldl (fun K p => readDef K p.1 p.2) {}).cueSize = [ch]
    rw [f6 hinv.keys]
    cases S.lookup.get? .cueSize with
    | none => simp
    | some x => simp
  · intro hno
    show (S.lookup.foldl (fun K p => readDef K p.1 p.2) {}).linked = []
    rw [f5 hinv.keys]
    cases hg : S.lookup.get? .linked with
    | none => rfl
    | some x => exact absurd (hmem _ ((dict_get_mem _ hinv.keys _ _).1 hg)) hno
  · intro hno
    show (S.lookup.foldl (fun K p => readDef K p.1 p.2) {}).cueSize = []
    rw [f6 hinv.keys]
    cases hg : S.lookup.get? .cueSize with
    | none => rfl
    | some x => exact absurd (hmem _ ((dict_get_mem _ hinv.keys _ _).1 hg)) hno

example : ∃ cs S, chooseAll "".toList (rdfRequests [.noteColor "#ff0000".toList, .editorial true, .linked, .noteColor "blue".toList]) .init =
    .ok (cs, S) := ⟨_, _, rfl⟩
example : PlainColor "#ff0000".toList :=
  ⟨by decide, by decide, by rw [saysAny_iff]; decide⟩
/-- The records of a color that is one of the words are misread: here the notes lose their color and linked notes are changed. -/
theorem rdf_color_word_wrong : (readSignifiers (footerRecords [(.noteColor "blink".toList, 'i')])).linked = "i".toList := by decide +kernel

end C21
