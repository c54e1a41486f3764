import Verif.Spec.Grid
import Verif.Lemmas.PyNum
import Verif.Lemmas.Tac
/-
C35: cells of the grid; C36: lines of the grid; C69: header lines.
-/
namespace C21

/-! ## C35: cells -/

theorem growTo_length {α : Type} (l : List α) (n : Nat) (d : α) : (growTo l n d).length = max l.length (n + 1) := by
  unfold growTo; simp; omega

theorem growTo_lt {α : Type} (l : List α) (n : Nat) (d : α) : n < (growTo l n d).length := by
  rw [growTo_length]; omega

theorem growTo_get {α : Type} (l : List α) (n : Nat) (d : α) (i : Nat) :
    (growTo l n d)[i]? = if i < l.length then l[i]? else if i < n + 1 then some d else none := by
  unfold growTo
  rw [List.getElem?_append]
  split
  · rfl
  · rw [List.getElem?_replicate]
    congr 1
    exact propext ⟨fun h => by omega, fun h => by omega⟩

theorem getD_growTo {α : Type} (l : List α) (n : Nat) (d : α) (i : Nat) : (growTo l n d).getD i d = l.getD i d := by
  rw [List.getD_eq_getElem?_getD, List.getD_eq_getElem?_getD, growTo_get]
  split
  · rfl
  · rw [List.getElem?_eq_none (by omega)]
    split <;> rfl

/-- What a list of voices holds. -/
def voiceText (vs : List GCell) (v : Nat) : Option Str := (vs[v]?).bind GCell.text?

theorem voiceText_getD (vs : List GCell) (v : Nat) : voiceText vs v = (vs.getD v .empty).text? := by
  unfold voiceText
  rw [List.getD_eq_getElem?_getD]
  cases vs[v]? <;> rfl

theorem voiceText_growTo (vs : List GCell) (n v : Nat) (d : GCell) (hd : d.text? = none) :
    voiceText (growTo vs n d) v = voiceText vs v := by
  unfold voiceText
  rw [growTo_get]
  split
  · rfl
  · rw [List.getElem?_eq_none (by omega)]
    split
    · exact hd
    · rfl

theorem voiceText_set (vs : List GCell) (n v : Nat) (c : GCell) (hn : n < vs.length) :
    voiceText (vs.set n c) v = if v = n then c.text? else voiceText vs v := by
  unfold voiceText
  by_cases h : v = n
  · subst h
    rw [List.getElem?_set_self hn, if_pos rfl]; rfl
  · rw [List.getElem?_set_ne (Ne.symm h), if_neg h]

theorem put_ok {tok : Str} {c c' : GCell} (h : c.put tok = .ok c') : c' = .tok tok ∧ c ≠ .absent := by
  cases c with
  | absent => cases h
  | empty => cases h; exact ⟨rfl, by simp⟩
  | tok t => cases h; exact ⟨rfl, by simp⟩

theorem putVoice_spec (vs vs' : List GCell) (v : Nat) (tok : Str) (h : putVoice vs v tok = .ok vs') :
    voiceText vs' v = some tok ∧ (∀ v', v' ≠ v → voiceText vs' v' = voiceText vs v') ∧ vs'.length = max vs.length (v + 1) := by
  rw [putVoice, if_pos (Int.natCast_nonneg v), Int.toNat_natCast] at h
  cases hp : ((growTo vs v .empty).getD v .empty).put tok with
  | error e => rw [hp] at h; cases h
  | ok c =>
    rw [hp] at h
    have hc := (put_ok hp).1
    have he : (growTo vs v .empty).set v c = vs' := by injection h
    subst hc
    rw [← he]
    refine ⟨?_, ?_, ?_⟩
    · rw [voiceText_set _ _ _ _ (growTo_lt vs v _), if_pos rfl]; rfl
    · intro v' hv'
      rw [voiceText_set _ _ _ _ (growTo_lt vs v _), if_neg hv', voiceText_growTo _ _ _ _ rfl]
    · rw [List.length_set, growTo_length]

/-- What a part holds. -/
def staffVoices (part : GPart) (s : Nat) : List GCell := (part.staves.getD s {}).voices

theorem cell_eq (sl : GSlice) (p s v : Nat) : sl.cell p s v = voiceText (staffVoices (sl.parts.getD p {}) s) v := by
  unfold GSlice.cell staffVoices voiceText
  rw [List.getD_eq_getElem?_getD, List.getD_eq_getElem?_getD]
  cases sl.parts[p]? with
  | none => rfl
  | some part =>
    show ((part.staves[s]?).bind _).bind _ = (((part.staves[s]?).getD {}).voices[v]?).bind _
    cases part.staves[s]? <;> rfl

theorem part_addToken_spec (part part' : GPart) (s v : Nat) (tok : Str) (h : part.addToken s v tok = .ok part') :
    voiceText (staffVoices part' s) v = some tok ∧
    (∀ s' v', (s', v') ≠ (s, v) → voiceText (staffVoices part' s') v' = voiceText (staffVoices part s') v') ∧
    part'.dynamics = part.dynamics ∧ part'.figuredBass = part.figuredBass ∧ part'.harmony = part.harmony ∧
    part'.staves.length = max part.staves.length (s + 1) ∧
    ∀ s', ((part'.staves.getD s' {}).xmlId = (part.staves.getD s' {}).xmlId ∧ (part'.staves.getD s' {}).verses = (part.staves.getD s' {}).verses) := by
  rw [GPart.addToken] at h
  cases hp : putVoice ((growTo part.staves s {}).getD s {}).voices v tok with
  | error e => rw [hp] at h; cases h
  | ok vs =>
    rw [hp] at h
    have he : ({ part with staves := (growTo part.staves s {}).set s { (growTo part.staves s {}).getD s {} with voices := vs } } : GPart) = part' := by
      injection h
    obtain ⟨h1, h2, _⟩ := putVoice_spec _ _ _ _ hp
    rw [getD_growTo] at h2 hp he
    have hget : ∀ s', part'.staves.getD s' {} =
        if s' = s then { part.staves.getD s {} with voices := vs } else part.staves.getD s' {} := by
      intro s'
      rw [← he]
      dsimp only
      rw [List.getD_eq_getElem?_getD]
      by_cases hs : s' = s
      · subst hs
        rw [List.getElem?_set_self (growTo_lt _ _ _), if_pos rfl]; rfl
      · rw [List.getElem?_set_ne (Ne.symm hs), if_neg hs, ← List.getD_eq_getElem?_getD, getD_growTo]
    refine ⟨?_, ?_, by rw [← he], by rw [← he], by rw [← he], by rw [← he]; simp [growTo_length], ?_⟩
    · rw [staffVoices, hget, if_pos rfl]; exact h1
    · intro s' v' hne
      rw [staffVoices, staffVoices, hget]
      by_cases hs : s' = s
      · subst hs
        rw [if_pos rfl]
        exact h2 v' (fun hv => hne (by rw [hv]))
      · rw [if_neg hs]
    · intro s'
      rw [hget]
      by_cases hs : s' = s
      · subst hs; rw [if_pos rfl]; exact ⟨rfl, rfl⟩
      · rw [if_neg hs]; exact ⟨rfl, rfl⟩

theorem addToken_inv (sl sl' : GSlice) (tok : Str) (p s : Nat) (v : Int) (h : sl.addToken tok p s v = .ok sl') :
    p < sl.parts.length ∧ ∃ part, (sl.parts.getD p {}).addToken s v tok = .ok part ∧ sl' = { sl with parts := sl.parts.set p part } := by
  rw [GSlice.addToken] at h
  by_cases hp : (0 : Int) ≤ p ∧ (p : Int) < sl.parts.length
  · rw [if_pos hp, if_neg (by omega), Int.toNat_natCast, Int.toNat_natCast] at h
    cases hq : (sl.parts.getD p {}).addToken s v tok with
    | error e => rw [hq] at h; cases h
    | ok part =>
      rw [hq] at h
      refine ⟨by omega, part, rfl, ?_⟩
      injection h with h; exact h.symm
  · rw [if_neg hp] at h; cases h

/-- C35: after a token is added at a part, staff and voice, that cell holds it, every other cell holds what it held, and
kind, time, number of parts and all side information are as they were. -/
theorem addToken_spec_partial (sl sl' : GSlice) (tok : Str) (p s v : Nat) (h : sl.addToken tok p s v = .ok sl') :
    sl'.cell p s v = some tok ∧ (∀ p' s' v', (p', s', v') ≠ (p, s, v) → sl'.cell p' s' v' = sl.cell p' s' v') ∧
    sl'.kind = sl.kind ∧ sl'.time = sl.time ∧ sl'.parts.length = sl.parts.length ∧
    (∀ p', sl'.partSide p' = sl.partSide p') ∧
    (∀ p' s', sl'.staffSide p' s' = sl.staffSide p' s') := by
  obtain ⟨hp, part, hpart, rfl⟩ := addToken_inv sl sl' tok p s v h
  obtain ⟨h1, h2, h3, h4, h5, h6, h7⟩ := part_addToken_spec _ part s v tok hpart
  have hget : ∀ p', (sl.parts.set p part).getD p' {} = if p' = p then part else sl.parts.getD p' {} := by
    intro p'
    rw [List.getD_eq_getElem?_getD]
    by_cases hs : p' = p
    · subst hs
      rw [List.getElem?_set_self hp, if_pos rfl]; rfl
    · rw [List.getElem?_set_ne (Ne.symm hs), if_neg hs, ← List.getD_eq_getElem?_getD]
  have hgetp : sl.parts[p]? = some (sl.parts.getD p {}) := by
    rw [List.getD_eq_getElem?_getD, List.getElem?_eq_getElem hp]; rfl
  refine ⟨?_, ?_, rfl, rfl, by simp, ?_, ?_⟩
  · rw [cell_eq, hget, if_pos rfl]; exact h1
  · intro p' s' v' hne
    rw [cell_eq, cell_eq, hget]
    by_cases hs : p' = p
    · subst hs
      rw [if_pos rfl]
      exact h2 s' v' (fun he => hne (by rw [Prod.mk.injEq] at he ⊢; exact ⟨rfl, by rw [he.1, he.2]⟩))
    · rw [if_neg hs]
  · intro p'
    unfold GSlice.partSide
    dsimp only
    by_cases hs : p' = p
    · subst hs
      rw [List.getElem?_set_self hp, hgetp, Option.map_some, Option.map_some, h3, h4, h5]
    · rw [List.getElem?_set_ne (Ne.symm hs)]
  · intro p' s'
    unfold GSlice.staffSide
    dsimp only
    by_cases hs : p' = p
    · subst hs
      rw [List.getElem?_set_self hp, hgetp, Option.bind_some, Option.bind_some]
      have h7' := h7 s'
      rw [List.getD_eq_getElem?_getD, List.getD_eq_getElem?_getD] at h7'
      cases ha : part.staves[s']? with
      | none =>
        rw [ha] at h7'
        cases hb : (sl.parts.getD p' {}).staves[s']? with
        | none => rfl
        | some st =>
          rw [hb] at h7'
          show (some none, []) = (some st.xmlId, st.verses)
          rw [← show (none : Option Str) = st.xmlId from h7'.1, ← show ([] : List (Option Str)) = st.verses from h7'.2]
      | some st' =>
        rw [ha] at h7'
        cases hb : (sl.parts.getD p' {}).staves[s']? with
        | none =>
          rw [hb] at h7'
          show (some st'.xmlId, st'.verses) = (some none, [])
          rw [show st'.xmlId = (none : Option Str) from h7'.1, show st'.verses = ([] : List (Option Str)) from h7'.2]
        | some st =>
          rw [hb] at h7'
          show (some st'.xmlId, st'.verses) = (some st.xmlId, st.verses)
          rw [show st'.xmlId = st.xmlId from h7'.1, show st'.verses = st.verses from h7'.2]
    · rw [List.getElem?_set_ne (Ne.symm hs)]

/-- C35: adding works exactly for the parts of the slice, unless the place was marked as having no voice. -/
theorem addToken_ok_iff (sl : GSlice) (tok : Str) (p s v : Nat) :
    (∃ sl', sl.addToken tok p s v = .ok sl') ↔
      p < sl.parts.length ∧ (staffVoices (sl.parts.getD p {}) s)[v]? ≠ some .absent := by
  constructor
  · rintro ⟨sl', h⟩
    obtain ⟨hp, part, hpart, _⟩ := addToken_inv sl sl' tok p s v h
    refine ⟨hp, ?_⟩
    intro ha
    rw [GPart.addToken, getD_growTo] at hpart
    have hc : (growTo ((sl.parts.getD p {}).staves.getD s {}).voices v GCell.empty).getD v .empty = .absent := by
      rw [getD_growTo, List.getD_eq_getElem?_getD]
      rw [show ((sl.parts.getD p {}).staves.getD s {}).voices[v]? = some .absent from ha]; rfl
    rw [putVoice, if_pos (Int.natCast_nonneg v), Int.toNat_natCast, hc] at hpart
    cases hpart
  · rintro ⟨hp, ha⟩
    have hput : ∃ vs, putVoice (staffVoices (sl.parts.getD p {}) s) v tok = .ok vs := by
      rw [putVoice, if_pos (Int.natCast_nonneg v), Int.toNat_natCast, getD_growTo]
      generalize staffVoices (sl.parts.getD p {}) s = vs at ha
      rw [List.getD_eq_getElem?_getD]
      cases hv : vs[v]? with
      | none => exact ⟨_, rfl⟩
      | some c =>
        cases c with
        | absent => exact absurd hv ha
        | empty => exact ⟨_, rfl⟩
        | tok t => exact ⟨_, rfl⟩
    obtain ⟨vs, hvs⟩ := hput
    rw [GSlice.addToken, if_pos ⟨Int.natCast_nonneg p, by omega⟩, if_neg (by omega), Int.toNat_natCast, Int.toNat_natCast,
      GPart.addToken, getD_growTo]
    rw [staffVoices] at hvs
    rw [hvs]
    exact ⟨_, rfl⟩

/-- C35: a part outside the slice or a negative staff is an error. -/
theorem addToken_outside (sl : GSlice) (tok : Str) (p s v : Int) (h : p < 0 ∨ sl.parts.length ≤ p ∨ s < 0) :
    sl.addToken tok p s v = .error .humdrumInternal := by
  rw [GSlice.addToken]
  by_cases hp : (0 : Int) ≤ p ∧ p < sl.parts.length
  · rw [if_pos hp, if_pos (by omega)]
  · rw [if_neg hp]

/-- C35 is false for a negative voice: it is not an error but overwrites the last voice. -/
theorem negative_voice_overwrites :
    (⟨0, .notes, [{ staves := [{ voices := [.tok "4c".toList, .tok "4e".toList] }] }]⟩ : GSlice).addToken "4g".toList 0 0 (-1) =
      .ok ⟨0, .notes, [{ staves := [{ voices := [.tok "4c".toList, .tok "4g".toList] }] }]⟩ := by decide +kernel

/-- C35: a place filled with `None` by `setTokenLayer` for a higher layer cannot take a token later. -/
theorem skipped_layer_crashes :
    ∃ st, (({} : GStaff).setTokenLayer 1 "4e".toList = .ok st) ∧
      (⟨0, .notes, [{ staves := [st] }]⟩ : GSlice).addToken "4c".toList 0 0 0 = .error .attributeError := by
  refine ⟨{ voices := [.absent, .tok "4e".toList] }, by decide +kernel, by decide +kernel⟩

/-- C35: `setTokenLayer` sets exactly one layer and creates the ones before it; a negative layer is an error. -/
theorem setTokenLayer_spec (st : GStaff) (layer : Nat) (tok : Str) :
    ∃ st', st.setTokenLayer layer tok = .ok st' ∧ st'.tokenAt layer = some tok ∧
      (∀ l, l ≠ layer → st'.tokenAt l = st.tokenAt l) ∧ st'.voices.length = max st.voices.length (layer + 1) ∧
      st'.xmlId = st.xmlId ∧ st'.verses = st.verses := by
  have key : ∀ l, GStaff.tokenAt { st with voices := (growTo st.voices layer .absent).set layer (.tok tok) } l =
      if l = layer then some tok else st.tokenAt l := by
    intro l
    have h1 : ∀ (x : GStaff), x.tokenAt l = voiceText x.voices l := by
      intro x
      rw [GStaff.tokenAt, voiceText, List.getD_eq_getElem?_getD]
      cases x.voices[l]? <;> rfl
    rw [h1, h1]
    dsimp only
    rw [voiceText_set _ _ _ _ (growTo_lt _ _ _), voiceText_growTo _ _ _ _ rfl]
    rfl
  refine ⟨{ st with voices := (growTo st.voices layer .absent).set layer (.tok tok) },
    by rw [GStaff.setTokenLayer, if_neg (by omega), Int.toNat_natCast], ?_, ?_, ?_, rfl, rfl⟩
  · rw [key, if_pos rfl]
  · intro l hl; rw [key, if_neg hl]
  · simp [growTo_length]

/-- C35: a null token never replaces another token: afterwards the layer holds a null token and nothing else has
changed, or there was another token and it is an error. -/
theorem setNullTokenLayer_safe (st st' : GStaff) (layer : Nat) (k : SliceKind) (h : st.setNullTokenLayer layer k = .ok st') :
    ∀ l, st'.tokenAt l = st.tokenAt l ∨ (l = layer ∧ st.tokenAt l = none) := by
  intro l
  rw [GStaff.setNullTokenLayer] at h
  by_cases hk : k = .invalid ∨ k = .globalLayouts ∨ k = .globalComments ∨ k = .referenceRecords
  · rw [if_pos hk] at h; injection h with h; rw [h]; exact Or.inl rfl
  · rw [if_neg hk] at h
    cases hn : k.nullStr with
    | error e => rw [hn] at h; cases h
    | ok nul =>
      rw [hn] at h
      dsimp only at h
      cases ht : st.tokenAt layer with
      | none =>
        rw [ht] at h
        dsimp only at h
        obtain ⟨st'', h1, h2, h3, _⟩ := setTokenLayer_spec st layer nul
        rw [h1] at h
        injection h with h
        subst h
        by_cases hl : l = layer
        · subst hl; exact Or.inr ⟨rfl, ht⟩
        · exact Or.inl (h3 l hl)
      | some t =>
        rw [ht] at h
        dsimp only at h
        split at h
        · injection h with h; rw [h]; exact Or.inl rfl
        · cases h

theorem getVerse_nat (st : GStaff) (i : Nat) : st.getVerse i = (st.verses[i]?).bind id := by
  rw [GStaff.getVerse, List.getD_eq_getElem?_getD]
  by_cases h : i < st.verses.length
  · rw [if_pos ⟨Int.natCast_nonneg i, by omega⟩, Int.toNat_natCast, List.getElem?_eq_getElem h]; rfl
  · rw [if_neg (by omega), List.getElem?_eq_none (by omega)]; rfl

/-- C35: a verse that was set is the verse found, the other verses are as they were. -/
theorem setVerse_spec (st : GStaff) (i : Nat) (tok : Option Str) :
    (st.setVerse i tok).getVerse i = tok ∧ (∀ j : Nat, j ≠ i → (st.setVerse i tok).getVerse j = st.getVerse j) ∧
    (st.setVerse i tok).voices = st.voices ∧ (st.setVerse i tok).verses.length = max st.verses.length (i + 1) := by
  have key : ∀ j, (((st.setVerse i tok).verses)[j]?).bind id = if j = i then tok else (st.verses[j]?).bind id := by
    intro j
    rw [GStaff.setVerse]
    by_cases h1 : i = st.verses.length
    · rw [if_pos h1]
      dsimp only
      rw [List.getElem?_append]
      by_cases hj : j = i
      · subst hj; rw [if_neg (by omega), if_pos rfl, h1]; simp
      · rw [if_neg hj]
        split
        · rfl
        · rw [List.getElem?_eq_none (by simp; omega), List.getElem?_eq_none (by omega)]
    · rw [if_neg h1]
      by_cases h2 : i < st.verses.length
      · rw [if_pos h2]
        dsimp only
        by_cases hj : j = i
        · subst hj; rw [List.getElem?_set_self h2, if_pos rfl]; rfl
        · rw [List.getElem?_set_ne (Ne.symm hj), if_neg hj]
      · rw [if_neg h2]
        dsimp only
        by_cases hj : j = i
        · subst hj; rw [List.getElem?_set_self (growTo_lt _ _ _), if_pos rfl]; rfl
        · rw [List.getElem?_set_ne (Ne.symm hj), if_neg hj, growTo_get]
          split
          · rfl
          · rw [List.getElem?_eq_none (by omega)]
            split <;> rfl
  refine ⟨?_, ?_, ?_, ?_⟩
  · rw [getVerse_nat, key, if_pos rfl]
  · intro j hj; rw [getVerse_nat, getVerse_nat, key, if_neg hj]
  · unfold GStaff.setVerse; split <;> (try split) <;> rfl
  · unfold GStaff.setVerse
    split
    · simp; omega
    · split
      · simp; omega
      · simp [growTo_length]

/-! ## C36: lines -/

theorem flatMap_range_succ {α : Type} (n : Nat) (f : Nat → List α) :
    (List.range (n + 1)).reverse.flatMap f = (List.range n).reverse.flatMap (fun i => f (i + 1)) ++ f 0 := by
  rw [List.range_succ_eq_map, List.reverse_cons, List.flatMap_append, ← List.map_reverse, List.flatMap_map]
  simp

theorem stavesTexts_eq (g : SideCounts) (e : Str) (p : Nat) (l : List GStaff) : ∀ s0,
    stavesTexts g e p s0 l = (List.range l.length).reverse.flatMap (fun i =>
      voiceTexts e (l.getD i {}) ++ staffSides g e p (s0 + i) (l.getD i {})) := by
  induction l with
  | nil => intro s0; rfl
  | cons st l ih =>
    intro s0
    rw [stavesTexts, ih, List.length_cons, flatMap_range_succ]
    congr 1
    congr 1
    funext i
    rw [show s0 + 1 + i = s0 + (i + 1) by omega]
    rfl

theorem partsTexts_eq (g : SideCounts) (e : Str) (l : List GPart) : ∀ p0,
    partsTexts g e p0 l = (List.range l.length).reverse.flatMap (fun i =>
      stavesTexts g e (p0 + i) 0 (l.getD i {}).staves ++ partSides g e (p0 + i) (l.getD i {})) := by
  induction l with
  | nil => intro p0; rfl
  | cons st l ih =>
    intro p0
    rw [partsTexts, ih, List.length_cons, flatMap_range_succ]
    congr 1
    congr 1
    funext i
    rw [show p0 + 1 + i = p0 + (i + 1) by omega]
    rfl

theorem voiceTexts_eq (e : Str) (st : GStaff) :
    voiceTexts e st = (List.range (max st.voices.length 1)).map (fun v => ((st.voices[v]?).bind GCell.text?).getD e) := by
  unfold voiceTexts
  by_cases h : st.voices = []
  · rw [if_pos h, h]; rfl
  · rw [if_neg h]
    have : max st.voices.length 1 = st.voices.length := by
      have : st.voices.length ≠ 0 := fun h' => h (List.length_eq_zero_iff.1 h')
      omega
    rw [this]
    apply List.ext_getElem?
    intro i
    rw [List.getElem?_map, List.getElem?_map]
    by_cases hi : i < st.voices.length
    · rw [List.getElem?_range hi, List.getElem?_eq_getElem hi]
      simp [hi, orEmpty]
    · rw [List.getElem?_eq_none (by omega), List.getElem?_eq_none (by simp; omega)]
      rfl

theorem verses_eq (e : Str) (vs : List (Option Str)) (n : Nat) (h : vs.length ≤ n) :
    vs.map (orEmpty e) ++ List.replicate (n - vs.length) e = (List.range n).map (fun i => ((vs[i]?).bind id).getD e) := by
  apply List.ext_getElem?
  intro i
  rw [List.getElem?_append, List.length_map, List.getElem?_map, List.getElem?_map]
  by_cases hi : i < vs.length
  · rw [if_pos hi, List.getElem?_range (by omega), List.getElem?_eq_getElem hi]
    simp [hi, orEmpty]
  · rw [if_neg hi, List.getElem?_replicate]
    by_cases hn : i < n
    · rw [if_pos (by omega), List.getElem?_range hn]
      simp only [Option.map_some]
      rw [List.getElem?_eq_none (by omega)]
      rfl
    · rw [if_neg (by omega), List.getElem?_eq_none (by simp; omega)]
      rfl

theorem flagAt_le (l : List Bool) (p : Nat) : flagAt l p ≤ 1 := by
  unfold flagAt; split <;> omega

theorem flag_opt (l : List Bool) (p : Nat) (x : Str) : (if flagAt l p > 0 then [x] else []) = List.replicate (flagAt l p) x := by
  unfold flagAt; split <;> rfl

theorem staff_line (g : SideCounts) (e : Str) (sl : GSlice) (p s : Nat) (part : GPart) (st : GStaff) (hp : sl.parts[p]? = some part)
    (hs : part.staves[s]? = some st) (hv : st.verses.length ≤ g.verseCount p s) :
    voiceTexts e st ++ staffSides g e p s st =
      (staffSpines g p s (max st.voices.length 1)).map (fun id => (sl.content id).getD e) := by
  unfold staffSides staffSpines
  rw [voiceTexts_eq, List.append_assoc, verses_eq e st.verses _ hv, flag_opt]
  rw [List.map_append, List.map_append, List.map_map, List.map_map, List.map_replicate, ← List.append_assoc]
  congr 1
  · congr 1
    · apply List.map_congr_left
      intro v _
      show _ = (sl.cell p s v).getD e
      rw [GSlice.cell, hp, Option.bind_some, hs, Option.bind_some]
    · show _ = List.replicate _ ((sl.content (.xmlId p s)).getD e)
      rw [GSlice.content, hp, Option.bind_some, hs, Option.bind_some]
      rfl
  · apply List.map_congr_left
    intro v _
    show _ = (sl.content (.verse p s v)).getD e
    rw [GSlice.content, hp, Option.bind_some, hs, Option.bind_some]

theorem part_side_line (g : SideCounts) (e : Str) (sl : GSlice) (p : Nat) (part : GPart) (hp : sl.parts[p]? = some part)
    (hh : part.harmony.isSome = true → flagAt g.harmony p = 1) :
    partSides g e p part = (partSpines g p).map (fun id => (sl.content id).getD e) := by
  unfold partSides partSpines
  rw [flag_opt, flag_opt, List.map_append, List.map_append, List.map_replicate, List.map_replicate, List.map_replicate]
  rw [List.append_assoc]
  have h1 : sl.content (.dynam p) = part.dynamics := by rw [GSlice.content, hp]; rfl
  have h2 : sl.content (.figuredBass p) = part.figuredBass := by rw [GSlice.content, hp]; rfl
  have h3 : sl.content (.harmony p) = part.harmony := by rw [GSlice.content, hp]; rfl
  rw [h1, h2, h3]
  congr 1
  cases hc : part.harmony with
  | none => simp
  | some h =>
    have := hh (by rw [hc]; rfl)
    rw [this]
    rfl

theorem flatMap_congr' {α β : Type} (l : List α) (f h : α → List β) (hfh : ∀ x ∈ l, f x = h x) : l.flatMap f = l.flatMap h := by
  induction l with
  | nil => rfl
  | cons a l ih =>
    rw [List.flatMap_cons, List.flatMap_cons, hfh a List.mem_cons_self, ih (fun x hx => hfh x (List.mem_cons_of_mem _ hx))]

/-- C36: a line with spines has, for every spine of the file in order, what the slice holds for that spine, or the empty
text of the slice. In particular it has one token per spine. -/
theorem line_has_token_per_spine_partial (g : SideCounts) (sl : GSlice) (l : List Str) (hk : sl.kind.hasSpines = true) (hf : SidesFit g sl)
    (h : sliceTexts g sl = .ok l) :
    ∃ e, emptyStr sl = .ok e ∧ l = (fileSpines g sl.shape).map (fun id => (sl.content id).getD e) := by
  rw [sliceTexts] at h
  cases he : emptyStr sl with
  | error x => rw [he] at h; cases h
  | ok e =>
    rw [he] at h
    refine ⟨e, rfl, ?_⟩
    have hl : l = partsTexts g e 0 sl.parts := by
      have : (Except.ok (if sl.kind.hasSpines = true then partsTexts g e 0 sl.parts else globalTexts e sl) : Except PyErr (List Str)) = .ok l := h
      rw [if_pos hk] at this
      injection this with this; exact this.symm
    rw [hl, partsTexts_eq, fileSpines, List.map_flatMap]
    have hlen : sl.shape.length = sl.parts.length := by simp [GSlice.shape]
    rw [hlen]
    apply flatMap_congr'
    intro p hp
    have hp' : p < sl.parts.length := by simpa using hp
    have hpart : sl.parts[p]? = some (sl.parts.getD p {}) := by
      rw [List.getD_eq_getElem?_getD, List.getElem?_eq_getElem hp']; rfl
    have hshape : sl.shape.getD p [] = (sl.parts.getD p {}).staves.map (fun st => max st.voices.length 1) := by
      rw [List.getD_eq_getElem?_getD, GSlice.shape, List.getElem?_map, hpart]; rfl
    generalize sl.parts.getD p {} = part at hpart hshape
    obtain ⟨f1, f2⟩ := hf p part hpart
    rw [Nat.zero_add, stavesTexts_eq, List.map_append, hshape, List.length_map, List.map_flatMap]
    congr 1
    · apply flatMap_congr'
      intro s hs
      have hs' : s < part.staves.length := by simpa using hs
      have hst : part.staves[s]? = some (part.staves.getD s {}) := by
        rw [List.getD_eq_getElem?_getD, List.getElem?_eq_getElem hs']; rfl
      have hn : (part.staves.map (fun st => max st.voices.length 1)).getD s 0 = max (part.staves.getD s {}).voices.length 1 := by
        rw [List.getD_eq_getElem?_getD, List.getElem?_map, hst]; rfl
      rw [hn, Nat.zero_add]
      exact staff_line g e sl p s part _ hpart hst (f2 s _ hst)
    · exact part_side_line g e sl p part hpart f1

/-- C36: two lines with the same numbers of voices have the same number of tokens. -/
theorem same_shape_same_count (g : SideCounts) (a b : GSlice) (la lb : List Str) (ha : a.kind.hasSpines = true) (hb : b.kind.hasSpines = true)
    (fa : SidesFit g a) (fb : SidesFit g b) (h1 : sliceTexts g a = .ok la) (h2 : sliceTexts g b = .ok lb) (h : a.shape = b.shape) :
    la.length = lb.length := by
  obtain ⟨e, _, rfl⟩ := line_has_token_per_spine_partial g a la ha fa h1
  obtain ⟨e', _, rfl⟩ := line_has_token_per_spine_partial g b lb hb fb h2
  rw [List.length_map, List.length_map, h]

theorem emptyStr_ok (sl : GSlice) (h : sl.kind ≠ .measures ∨ ∀ p ∈ sl.parts, p.staves ≠ []) : ∃ e, emptyStr sl = .ok e := by
  unfold emptyStr
  by_cases hk : sl.kind = .measures
  · rw [if_pos hk]
    rcases h with h | h
    · exact absurd hk h
    · cases hp : sl.parts with
      | nil => exact ⟨_, rfl⟩
      | cons p ps =>
        have hne := h p (by rw [hp]; exact List.mem_cons_self)
        dsimp only
        cases hs : p.staves with
        | nil => exact absurd hs hne
        | cons s ss =>
          dsimp only
          cases s.voices with
          | nil => exact ⟨_, rfl⟩
          | cons v vs => exact ⟨_, rfl⟩
  · rw [if_neg hk]
    split
    · exact ⟨_, rfl⟩
    · split
      · exact ⟨_, rfl⟩
      · split <;> exact ⟨_, rfl⟩

/-- C36 is false when the grid has not been told of a harmony: the flags are kept for 100 parts only, and the harmony of a
later part makes its line longer than the others. -/
theorem harmony_beyond_flags (g : SideCounts) (p : Nat) (h : g.harmony.length ≤ p) (part : GPart) (e : Str) (t : Str)
    (hh : part.harmony = some t) :
    (partSides g e p part).length = (partSides g e p { part with harmony := none }).length + 1 := by
  have : flagAt g.harmony p = 0 := by
    unfold flagAt
    rw [List.getD_eq_getElem?_getD, List.getElem?_eq_none h]; rfl
  unfold partSides
  rw [hh, this]
  simp
  omega

/-! ## C69: header lines -/

theorem headerStaves_eq (g : SideCounts) (p : Nat) (main x v : Str) (n : Nat) : ∀ s0,
    headerStaves g p main x v s0 n = (List.range n).reverse.flatMap (fun i =>
      main :: List.replicate (flagAt g.xmlIds p) x ++ List.replicate (g.verseCount p (s0 + i)) v) := by
  induction n with
  | zero => intro s0; rfl
  | succ n ih =>
    intro s0
    rw [headerStaves, ih, flatMap_range_succ]
    congr 1
    congr 1
    funext i
    rw [show s0 + 1 + i = s0 + (i + 1) by omega]

theorem header_staff (g : SideCounts) (f : SpineId → Str) (p s : Nat) (main x v : Str) (h1 : f (.voice p s 0) = main)
    (h2 : f (.xmlId p s) = x) (h3 : ∀ i, f (.verse p s i) = v) :
    main :: List.replicate (flagAt g.xmlIds p) x ++ List.replicate (g.verseCount p s) v = (staffSpines g p s 1).map f := by
  unfold staffSpines
  rw [show (List.range 1).map (SpineId.voice p s) = [.voice p s 0] from rfl]
  rw [List.map_append, List.map_append, List.map_replicate, List.map_map, h2, List.map_singleton, h1]
  rw [show (List.range (g.verseCount p s)).map (f ∘ SpineId.verse p s) = List.replicate (g.verseCount p s) v from ?_]
  · rfl
  · rw [List.eq_replicate_iff]
    refine ⟨by simp, ?_⟩
    intro b hb
    obtain ⟨i, _, rfl⟩ := List.mem_map.1 hb
    exact h3 i

theorem header_part (g : SideCounts) (f : SpineId → Str) (p : Nat) (d b h : Str) (h1 : f (.dynam p) = d) (h2 : f (.figuredBass p) = b)
    (h3 : f (.harmony p) = h) : headerPart g p d b h = (partSpines g p).map f := by
  unfold headerPart partSpines
  rw [List.map_append, List.map_append, List.map_replicate, List.map_replicate, List.map_replicate, h1, h2, h3]

theorem header_block (g : SideCounts) (f : SpineId → Str) (p n : Nat) (main x v d b h : Str) (h1 : ∀ s, f (.voice p s 0) = main)
    (h2 : ∀ s, f (.xmlId p s) = x) (h3 : ∀ s i, f (.verse p s i) = v) (h4 : f (.dynam p) = d) (h5 : f (.figuredBass p) = b)
    (h6 : f (.harmony p) = h) :
    headerStaves g p main x v 0 n ++ headerPart g p d b h =
      ((List.range n).reverse.flatMap (fun s => staffSpines g p s 1) ++ partSpines g p).map f := by
  rw [List.map_append, List.map_flatMap, headerStaves_eq, header_part g f p d b h h4 h5 h6]
  congr 1
  apply flatMap_congr'
  intro s _
  rw [Nat.zero_add]
  exact header_staff g f p s main x v (h1 s) (h2 s) (h3 s)

/-- The spines from part `p0` on. -/
def spinesAt (g : SideCounts) (p0 : Nat) (counts : List Nat) : List SpineId :=
  (List.range counts.length).reverse.flatMap (fun i =>
    (List.range (counts.getD i 0)).reverse.flatMap (fun s => staffSpines g (p0 + i) s 1) ++ partSpines g (p0 + i))

theorem spinesAt_cons (g : SideCounts) (p0 n : Nat) (rest : List Nat) :
    spinesAt g p0 (n :: rest) = spinesAt g (p0 + 1) rest ++
      ((List.range n).reverse.flatMap (fun s => staffSpines g p0 s 1) ++ partSpines g p0) := by
  unfold spinesAt
  rw [List.length_cons, flatMap_range_succ]
  congr 1
  congr 1
  funext i
  rw [show p0 + 1 + i = p0 + (i + 1) by omega]
  rfl

theorem fileSpines_one (g : SideCounts) (counts : List Nat) : fileSpines g (oneVoice counts) = spinesAt g 0 counts := by
  unfold fileSpines spinesAt oneVoice
  rw [List.length_map]
  apply flatMap_congr'
  intro p hp
  have hp' : p < counts.length := by simpa using hp
  have h1 : (counts.map (fun n => List.replicate n 1)).getD p [] = List.replicate (counts.getD p 0) 1 := by
    rw [List.getD_eq_getElem?_getD, List.getElem?_map, List.getElem?_eq_getElem hp', List.getD_eq_getElem?_getD,
      List.getElem?_eq_getElem hp']
    rfl
  rw [h1, List.length_replicate, Nat.zero_add]
  congr 1
  apply flatMap_congr'
  intro s hs
  have hs' : s < counts.getD p 0 := by simpa using hs
  have h2 : (List.replicate (counts.getD p 0) 1).getD s 0 = 1 := by
    rw [List.getD_eq_getElem?_getD, List.getElem?_replicate, if_pos hs']; rfl
  rw [h2]

theorem exclusive_at (g : SideCounts) (counts : List Nat) : ∀ p0, exclusiveLine g p0 counts = (spinesAt g p0 counts).map SpineId.interp := by
  induction counts with
  | nil => intro p0; rfl
  | cons n rest ih =>
    intro p0
    rw [exclusiveLine, ih, spinesAt_cons, List.map_append]
    congr 1
    exact header_block g SpineId.interp p0 n _ _ _ _ _ _ (fun _ => rfl) (fun _ => rfl) (fun _ _ => rfl) rfl rfl rfl

/-- The token of a spine on the line of parts. -/
def SpineId.partToken (id : SpineId) : Str := "*part".toList ++ natStr (id.part + 1)

theorem partLine_at (g : SideCounts) (counts : List Nat) : ∀ p0, partLine g p0 counts = (spinesAt g p0 counts).map SpineId.partToken := by
  induction counts with
  | nil => intro p0; rfl
  | cons n rest ih =>
    intro p0
    rw [partLine, ih, spinesAt_cons, List.map_append]
    congr 1
    exact header_block g SpineId.partToken p0 n _ _ _ _ _ _ (fun _ => rfl) (fun _ => rfl) (fun _ _ => rfl) rfl rfl rfl

theorem termination_at (g : SideCounts) (counts : List Nat) : ∀ p0,
    terminationLine g p0 counts = List.replicate (spinesAt g p0 counts).length "*-".toList := by
  induction counts with
  | nil => intro p0; rfl
  | cons n rest ih =>
    intro p0
    rw [terminationLine, ih, spinesAt_cons, List.length_append, Nat.add_comm (spinesAt g (p0 + 1) rest).length, List.replicate_add]
    congr 1
    rw [header_block g (fun _ => "*-".toList) p0 n _ _ _ _ _ _ (fun _ => rfl) (fun _ => rfl) (fun _ _ => rfl) rfl rfl rfl]
    rw [List.map_const']

/-- C69: if the first line of the first measure has spines, the first line of the file gives every spine of that line (one
per voice, verse, dynamics, …) its exclusive interpretation, the line of parts its part, and the last line ends it, as
long as there is one voice in each staff. -/
theorem header_lines_match_partial (g : SideCounts) (sl : GSlice) (slices : List GSlice) (ms : List (List GSlice)) :
    ∃ counts, headerCounts ((sl :: slices) :: ms) = some counts ∧ counts = sl.parts.map (fun p => p.staves.length) ∧
      exclusiveLine g 0 counts = (fileSpines g (oneVoice counts)).map SpineId.interp ∧
      partLine g 0 counts = (fileSpines g (oneVoice counts)).map SpineId.partToken ∧
      terminationLine g 0 counts = List.replicate (fileSpines g (oneVoice counts)).length "*-".toList := by
  refine ⟨_, rfl, rfl, ?_, ?_, ?_⟩
  · rw [fileSpines_one, exclusive_at]
  · rw [fileSpines_one, partLine_at]
  · rw [fileSpines_one, termination_at]

/-- C69: and every line with as many parts and staves and with one voice per staff has as many tokens as the header
lines. -/
theorem header_count_matches (g : SideCounts) (first sl : GSlice) (slices : List GSlice) (ms : List (List GSlice)) (l : List Str)
    (counts : List Nat) (hc : headerCounts ((first :: slices) :: ms) = some counts) (hk : sl.kind.hasSpines = true) (hf : SidesFit g sl)
    (h : sliceTexts g sl = .ok l) (hp : sl.parts.map (fun p => p.staves.length) = first.parts.map (fun p => p.staves.length))
    (h1 : ∀ p ∈ sl.parts, ∀ s ∈ p.staves, s.voices.length ≤ 1) :
    l.length = (exclusiveLine g 0 counts).length ∧ l.length = (partLine g 0 counts).length ∧ l.length = (terminationLine g 0 counts).length := by
  obtain ⟨counts', k1, k2, k3, k4, k5⟩ := header_lines_match_partial g first slices ms
  rw [k1] at hc
  injection hc with hc
  subst hc
  obtain ⟨e, _, rfl⟩ := line_has_token_per_spine_partial g sl l hk hf h
  have hshape : sl.shape = oneVoice counts' := by
    rw [k2, ← hp, oneVoice, GSlice.shape, List.map_map]
    apply List.map_congr_left
    intro p hpm
    show p.staves.map _ = List.replicate p.staves.length 1
    rw [List.eq_replicate_iff]
    refine ⟨by simp, ?_⟩
    intro b hb
    obtain ⟨st, hst, rfl⟩ := List.mem_map.1 hb
    have := h1 p hpm st hst
    omega
  rw [k3, k4, k5, hshape]
  simp

/-- C69 is false when the first line of the first measure is a global comment or layout (for example a rehearsal mark at
the start of a score without part names): the header lines have the spines of one staff only. -/
theorem global_first_line_broken :
    ∃ (g : SideCounts) (first sl : GSlice), first.kind = .globalLayouts ∧ sl.kind = .notes ∧
      headerCounts [[first, sl]] = some [1] ∧ (exclusiveLine g 0 [1]).length = 1 ∧
      sliceTexts g sl = .ok ["4c".toList, "4e".toList] := by
  refine ⟨⟨[], [], [], [], []⟩, ⟨0, .globalLayouts, [{ staves := [{ voices := [.tok "!!LO:REH:t=A".toList] }] }]⟩,
    ⟨0, .notes, [{ staves := [{ voices := [.tok "4e".toList] }] }, { staves := [{ voices := [.tok "4c".toList] }] }]⟩, rfl, rfl, rfl, ?_, ?_⟩
  · decide +kernel
  · decide +kernel

/-! ## The hypotheses are met -/

/-- A line with two parts, two staves in the second, two voices, a verse and dynamics. -/
def gridExample : GSlice :=
  ⟨3, .notes, [{ staves := [{ voices := [.tok "4c".toList], verses := [some "la".toList] }], dynamics := some "p".toList },
    { staves := [{ voices := [.tok "4e".toList, .empty] }, {}] }]⟩

/-- The side spines of the example. -/
def gridExampleSides : SideCounts := ⟨[], [[0, 2]], [true], [], []⟩

example : SidesFit gridExampleSides gridExample ∧
    sliceTexts gridExampleSides gridExample = .ok [".".toList, "4e".toList, ".".toList, "4c".toList, "la".toList, ".".toList, "p".toList] ∧
    (fileSpines gridExampleSides gridExample.shape) =
      [.voice 1 1 0, .voice 1 0 0, .voice 1 0 1, .voice 0 0 0, .verse 0 0 0, .verse 0 0 1, .dynam 0] := by
  refine ⟨?_, by decide +kernel, by decide +kernel⟩
  intro p part hp
  match p with
  | 0 =>
    cases hp
    refine ⟨(fun h => by cases h), ?_⟩
    intro s st hs
    match s with
    | 0 => cases hs; decide
    | s + 1 => cases hs
  | 1 =>
    cases hp
    refine ⟨(fun h => by cases h), ?_⟩
    intro s st hs
    match s with
    | 0 => cases hs; decide
    | 1 => cases hs; decide
    | s + 2 => cases hs
  | p + 2 => cases hp

/-- Adding a third voice to the second part. -/
example : ∃ sl', gridExample.addToken "8g".toList 1 0 2 = .ok sl' ∧ sl'.cell 1 0 2 = some "8g".toList ∧ sl'.cell 1 0 0 = some "4e".toList ∧
    gridExample.addToken "8g".toList 2 0 2 = .error .humdrumInternal := by
  exact ⟨_, rfl, by decide +kernel, by decide +kernel, by decide +kernel⟩

end C21
