import Verif.Model.HumText
import Verif.Props.HumReh
import Verif.Props.HumHarm
/-
C120: text directions in Humdrum.
-/
namespace C21
open HumParamSet

/-! ### Specification -/

/-- A text that comes back as it is: not empty, no `&`, backslash or control space, no glyph of the metronome range, and no space at an end. Colons,
line breaks and non-breaking spaces inside are allowed. -/
structure GoodDirection (s : Str) : Prop where
  some : s ≠ []
  amp : '&' ∉ s
  slash : '\\' ∉ s
  control : ∀ c ∈ s, c ≠ '\t' ∧ c ≠ '\r' ∧ c ≠ Char.ofNat 11 ∧ c ≠ Char.ofNat 12
  glyph : ∀ c ∈ s, smuflName c = none
  head : ∀ c, s.head? = Option.some c → isPySpace c = false
  last : ∀ c, s.getLast? = Option.some c → isPySpace c = false

/-- A look that Humdrum has words for. -/
structure SayableText (pl : Str) (st : TextStyle) : Prop where
  placement : pl ∈ ["above".toList, "below".toList]
  align : st.alignVertical = none ∨ (st.alignVertical = some "middle".toList ∧ pl = "below".toList)
  absoluteY : st.absoluteY = none
  fontStyle : st.fontStyle ∈ [none, some "italic".toList, some "bold".toList, some "bolditalic".toList]
  fontWeight : st.fontWeight = none
  justify : st.justify ∈ [none, some "right".toList, some "center".toList]
  color : ∀ s, st.color = some s → PlainValue s

/-- The same text with the same look. -/
def SameText (content placement : Str) (st : TextStyle) (o : TxOut) : Prop :=
  o.text = content ∧ o.placement = placement ∧ (o.middle = true ↔ st.alignVertical = some "middle".toList) ∧ o.color = st.color ∧
    o.fontStyle = st.fontStyle ∧ o.justify = st.justify

/-- A place in the file with an own comment (not a global one) that is no time signature. -/
def Ordinary (w : TxAt) : Prop := w.isGlobal = false ∧ w.timeSig = false

/-! ### The comment as pieces -/

/-- The part of the style that rehearsal marks have too. -/
def TextStyle.common (st : TextStyle) : RehStyle := { fontStyle := st.fontStyle, fontWeight := st.fontWeight, justify := st.justify, color := st.color }

theorem textStyles_pieces (st : TextStyle) : textStyles (some st) =
    (fontP st.common ++ justP st.common ++ valueP "color".toList st.color).flatMap (fun q => ':' :: q) := by
  have h1 : textFont st = rehFont st.common := rfl
  have h2 : textJustify st = rehJustify st.common := rfl
  have h3 : textColor st = rehColor st.common := rfl
  unfold textStyles
  simp only [h1, h2, h3, fontP_text, justP_text, colorP_text, List.flatMap_append]
  rfl

/-- The pieces of the look without a place. -/
def lookP : Option TextStyle → List Str
  | none => []
  | some st => fontP st.common ++ justP st.common ++ valueP "color".toList st.color

theorem lookP_text (style : Option TextStyle) : textStyles style = (lookP style).flatMap (fun q => ':' :: q) := by
  cases style with
  | none => rfl
  | some st => exact textStyles_pieces st

/-- The piece of the place. -/
def placeP (placement : Option Str) (style : Option TextStyle) : List Str := if textPlacement placement style = [] then [] else [(textPlacement placement style).tail]

theorem textPlacement_cases (placement : Option Str) (style : Option TextStyle) :
    textPlacement placement style ∈ [":a".toList, ":b".toList, ":c".toList, []] := by
  unfold textPlacement
  simp only
  have hb : (if placement = some "above".toList then ":a".toList else if placement = some "below".toList then
      (match style with | some st => if st.alignVertical = some "middle".toList then ":c".toList else ":b".toList | none => ":b".toList) else []) ∈
      [":a".toList, ":b".toList, ":c".toList, []] := by
    repeat' split
    all_goals simp
  cases style with
  | none => exact hb
  | some st =>
    simp only
    cases st.absoluteY with
    | none => exact hb
    | some y => simp only; split <;> simp

theorem placeP_text (placement : Option Str) (style : Option TextStyle) : textPlacement placement style = (placeP placement style).flatMap (fun q => ':' :: q) := by
  unfold placeP
  have := textPlacement_cases placement style
  simp only [List.mem_cons, List.not_mem_nil, or_false] at this
  rcases this with h | h | h | h <;> rw [h] <;> decide

theorem placeP_colon (placement : Option Str) (style : Option TextStyle) : ∀ q ∈ placeP placement style, ':' ∉ q := by
  unfold placeP
  have := textPlacement_cases placement style
  simp only [List.mem_cons, List.not_mem_nil, or_false] at this
  rcases this with h | h | h | h <;> rw [h] <;> decide

theorem lookP_colon (style : Option TextStyle) (h : ∀ st, style = some st → ∀ s, st.color = some s → ':' ∉ s) : ∀ q ∈ lookP style, ':' ∉ q := by
  cases style with
  | none => intro q hq; simp [lookP] at hq
  | some st =>
    intro q hq
    refine stylesP_safe (some st.common) (fun st' e => ?_) q ?_
    · cases e
      exact ⟨h st rfl, fun s e => by cases e⟩
    · simp only [lookP, List.mem_append] at hq
      simp only [stylesP, List.mem_append]
      rcases hq with (hq | hq) | hq
      · exact .inl (.inl (.inl (.inl (.inr hq))))
      · exact .inl (.inl (.inl (.inr hq)))
      · exact .inl (.inl (.inr hq))

theorem comment_read (content c : Str) (placement : Option Str) (style : Option TextStyle) (hc : translateSMUFL content = some c)
    (h : ∀ st, style = some st → ∀ s, st.color = some s → ':' ∉ s) :
    (textLayoutParameter content placement style).map (({} : HumParamSet).readString ·) =
      some ⟨"LO".toList, "TX".toList, (placeP placement style ++ lookP style).map nameValue ++ [("t".toList, cleanSpacesAndColons c)]⟩ := by
  have ht : nameValue ("t=".toList ++ cleanSpacesAndColons c) = ("t".toList, cleanSpacesAndColons c) := nameValue_eq "t".toList _ (by decide)
  have hall : ∀ q ∈ placeP placement style ++ lookP style ++ ["t=".toList ++ cleanSpacesAndColons c], ':' ∉ q := by
    intro q hq
    rcases List.mem_append.1 hq with hq | hq
    · rcases List.mem_append.1 hq with hq | hq
      · exact placeP_colon _ _ q hq
      · exact lookP_colon style h q hq
    · simp only [List.mem_cons, List.not_mem_nil, or_false] at hq
      subst hq
      intro hm
      rcases List.mem_append.1 hm with hm | hm
      · exact absurd hm (by decide)
      · exact (clean_no_separators c _ hm).1 rfl
  have e : textLayoutParameter content placement style =
      some ("!LO".toList ++ ("TX".toList :: (placeP placement style ++ lookP style ++ ["t=".toList ++ cleanSpacesAndColons c])).flatMap (fun q => ':' :: q)) := by
    unfold textLayoutParameter
    rw [hc, Option.map_some, lookP_text, placeP_text]
    simp
  rw [e, Option.map_some]
  cases hp : placeP placement style ++ lookP style ++ ["t=".toList ++ cleanSpacesAndColons c] with
  | nil => simp at hp
  | cons p ps =>
    rw [hp] at hall
    rw [read_pieces_one _ _ _ (by decide) hall, ← hp, List.map_append, List.map_cons, List.map_nil, ht]

/-! ### The loop over the parameters -/

theorem txLoop_append (v : TxVars) (a b : List (Str × Str)) : txLoop v (a ++ b) = (txLoop v a).bind (fun v' => txLoop v' b) := by
  induction a generalizing v with
  | nil => rfl
  | cons p a ih =>
    simp only [List.cons_append, txLoop]
    cases txParam v p with
    | none => rfl
    | some v' => exact ih v'

theorem loop_place (placement : Option Str) (style : Option TextStyle) (v : TxVars) :
    txLoop v ((placeP placement style).map nameValue) = some { v with
      a := v.a || decide (textPlacement placement style = ":a".toList)
      b := v.b || decide (textPlacement placement style = ":b".toList)
      c := v.c || decide (textPlacement placement style = ":c".toList) } := by
  have ha : nameValue "a".toList = ("a".toList, "true".toList) := by decide
  have hb : nameValue "b".toList = ("b".toList, "true".toList) := by decide
  have hc : nameValue "c".toList = ("c".toList, "true".toList) := by decide
  unfold placeP
  have := textPlacement_cases placement style
  simp only [List.mem_cons, List.not_mem_nil, or_false] at this
  rcases this with h | h | h | h <;> rw [h]
  · show txLoop v [nameValue "a".toList] = _
    rw [ha]
    cases v
    simp [txLoop, txParam]
  · show txLoop v [nameValue "b".toList] = _
    rw [hb]
    cases v
    simp [txLoop, txParam]
  · show txLoop v [nameValue "c".toList] = _
    rw [hc]
    cases v
    simp [txLoop, txParam]
  · cases v
    simp [txLoop]

theorem loop_font (st : RehStyle) (v : TxVars) :
    txLoop v ((fontP st).map nameValue) = some { v with italic := v.italic || rehItalic st, bold := v.bold || rehBold st } := by
  have h1 : nameValue "Bi".toList = ("Bi".toList, "true".toList) := by decide
  have h2 : nameValue "i".toList = ("i".toList, "true".toList) := by decide
  have h3 : nameValue "B".toList = ("B".toList, "true".toList) := by decide
  unfold fontP
  cases hi : rehItalic st <;> cases hb : rehBold st
  · cases v; simp [txLoop]
  · show txLoop v [nameValue "B".toList] = _
    rw [h3]; cases v; simp [txLoop, txParam]
  · show txLoop v [nameValue "i".toList] = _
    rw [h2]; cases v; simp [txLoop, txParam]
  · show txLoop v [nameValue "Bi".toList] = _
    rw [h1]; cases v; simp [txLoop, txParam]

theorem loop_just (st : RehStyle) (v : TxVars) :
    txLoop v ((justP st).map nameValue) = some { v with just := justNum st v.just } := by
  have h1 : nameValue "rj".toList = ("rj".toList, "true".toList) := by decide
  have h2 : nameValue "cj".toList = ("cj".toList, "true".toList) := by decide
  unfold justP justNum
  split
  · show txLoop v [nameValue "rj".toList] = _
    rw [h1]; rfl
  · split
    · show txLoop v [nameValue "cj".toList] = _
      rw [h2]; rfl
    · rfl

theorem loop_color (c : Option Str) (v : TxVars) :
    txLoop v ((valueP "color".toList c).map nameValue) = some { v with color := saidOr v.color c } := by
  rcases c with _ | (_ | ⟨c, cs⟩)
  · rfl
  · rfl
  · show txLoop v [nameValue ("color".toList ++ '=' :: (c :: cs))] = _
    rw [nameValue_eq _ _ (by decide)]
    rfl

/-- The variables after the comment of a text. -/
def txVars (placement : Option Str) (style : Option TextStyle) (t : Str) : TxVars :=
  let v : TxVars := { a := decide (textPlacement placement style = ":a".toList), b := decide (textPlacement placement style = ":b".toList),
                      c := decide (textPlacement placement style = ":c".toList), text := t }
  match style with
  | none => v
  | some st => { v with italic := rehItalic st.common, bold := rehBold st.common, just := justNum st.common 0, color := saidOr [] st.color }

theorem loop_comment (placement : Option Str) (style : Option TextStyle) (t : Str) (ht : t ≠ []) :
    txLoop {} ((placeP placement style ++ lookP style).map nameValue ++ [("t".toList, t)]) = some (txVars placement style t) := by
  rw [List.map_append, txLoop_append, txLoop_append, loop_place]
  cases style with
  | none =>
    simp only [lookP, List.map_nil, txLoop, Option.bind_some, txVars]
    simp [txParam, ht]
  | some st =>
    simp only [lookP, List.map_append, txLoop_append, Option.bind_some, loop_font, loop_just, loop_color, txVars]
    simp [txLoop, txParam, ht]

theorem loop_empty (placement : Option Str) (style : Option TextStyle) :
    txLoop {} ((placeP placement style ++ lookP style).map nameValue ++ [("t".toList, [])]) = none := by
  rw [List.map_append, txLoop_append, txLoop_append, loop_place]
  cases style with
  | none => rfl
  | some st =>
    simp only [lookP, List.map_append, txLoop_append, Option.bind_some, loop_font, loop_just, loop_color]
    rfl

theorem clean_ne_nil (s : Str) (h : GoodDirection s) : cleanSpacesAndColons s ≠ [] := by
  intro e
  have := text_roundtrip_partial s h.amp h.slash h.control (fun c hc => .inl (h.head c hc)) (fun c hc => .inl (h.last c hc))
  rw [e] at this
  exact h.some (this.symm.trans (by decide))

/-- What an own comment at an ordinary place gives. -/
theorem direction_read (w : TxAt) (hw : Ordinary w) (placement : Option Str) (style : Option TextStyle) (s : Str) (h : GoodDirection s) (hm : markInfo s = none)
    (hcol : ∀ st, style = some st → ∀ s, st.color = some s → ':' ∉ s) :
    ((textLayoutParameter s placement style).map (({} : HumParamSet).readString ·)).bind (readDirection w) =
      some (.direction (txLook (txVars placement style (cleanSpacesAndColons s)) false false (txPlace (txVars placement style (cleanSpacesAndColons s)) w.Z w.Y) s)) := by
  rw [comment_read s s placement style ((translateSMUFL_total_partial s).2 h.glyph) hcol, Option.bind_some]
  unfold readDirection
  simp only [hw.1, Bool.false_and, Bool.false_eq_true, if_false]
  rw [if_neg (by simp), if_neg (by simp)]
  have hns : decide ("TX".toList = "SIC".toList) = false := by decide
  simp only [hns, Bool.false_eq_true, if_false]
  rw [loop_comment placement style _ (clean_ne_nil s h)]
  simp only [Bool.false_and, Bool.false_eq_true, if_false]
  have htext : (txVars placement style (cleanSpacesAndColons s)).text = cleanSpacesAndColons s := by
    cases style <;> rfl
  have htempo : (txVars placement style (cleanSpacesAndColons s)).tempo = false := by
    cases style <;> rfl
  have hrt := text_roundtrip_partial s h.amp h.slash h.control (fun c hc => .inl (h.head c hc)) (fun c hc => .inl (h.last c hc))
  have hgl : ∀ pl, w.elsewhere pl = false := by intro pl; unfold TxAt.elsewhere; rw [hw.1]; rfl
  rw [htext, hrt, strip_id s h.head h.last, hgl, htempo]
  have hti : isTempoish s = false := by unfold isTempoish; rw [hm]; simp
  simp only [hti, hw.2, Bool.false_and, Bool.or_false, Bool.false_eq_true, if_false]

/-! ### The theorems -/

/-- C120. A text direction with a place comes back with text, place, font, justification and color. -/
theorem text_round_trip_partial (w : TxAt) (hw : Ordinary w) (s placement : Str) (h : GoodDirection s) (hm : markInfo s = none) (st : TextStyle)
    (hst : SayableText placement st) :
    ∃ out, textLayoutParameter s (some placement) (some st) = some out ∧
      ∃ o, readDirection w (({} : HumParamSet).readString out) = some (.direction o) ∧ SameText s placement st o := by
  have hd := direction_read w hw (some placement) (some st) s h hm (by
    intro st' e c hc; cases e; exact (hst.color c hc).2)
  cases ho : textLayoutParameter s (some placement) (some st) with
  | none => rw [ho] at hd; cases hd
  | some out =>
    rw [ho] at hd
    refine ⟨out, rfl, _, hd, ?_⟩
    obtain ⟨h1, h2, h3, h4, h5, h6, h7⟩ := hst
    obtain ⟨av, ay, fs, fw, ju, co⟩ := st
    simp only at h2 h3 h4 h5 h6 h7
    subst h3 h5
    have hcolor : (if saidOr [] co ≠ [] then some (saidOr [] co) else none) = co := by
      rcases co with _ | (_ | ⟨c, cs⟩)
      · rfl
      · exact absurd rfl (h7 [] rfl).1
      · rfl
    have hcolor' : (txLook (txVars (some placement) (some ⟨av, none, fs, none, ju, co⟩) (cleanSpacesAndColons s)) false false
        (txPlace (txVars (some placement) (some ⟨av, none, fs, none, ju, co⟩) (cleanSpacesAndColons s)) w.Z w.Y) s).color = co := by
      exact hcolor
    refine ⟨rfl, ?_, ?_, hcolor', ?_, ?_⟩
    · simp only [List.mem_cons, List.not_mem_nil, or_false] at h1
      rcases h2 with rfl | ⟨rfl, rfl⟩
      · rcases h1 with rfl | rfl <;> rfl
      · rfl
    · simp only [List.mem_cons, List.not_mem_nil, or_false] at h1
      rcases h2 with rfl | ⟨rfl, rfl⟩
      · rcases h1 with rfl | rfl
        · show (decide (TxPlace.above = TxPlace.between) = true ↔ none = some "middle".toList)
          simp
        · show (decide (TxPlace.below = TxPlace.between) = true ↔ none = some "middle".toList)
          simp
      · show (decide (TxPlace.between = TxPlace.between) = true ↔ some "middle".toList = some "middle".toList)
        simp
    · simp only [List.mem_cons, List.not_mem_nil, or_false] at h4
      rcases h4 with rfl | rfl | rfl | rfl <;> rfl
    · simp only [List.mem_cons, List.not_mem_nil, or_false] at h6
      rcases h6 with rfl | rfl | rfl <;> rfl

/-- C120. All texts of a note come back, in order. -/
theorem texts_of_a_note_partial (w : TxAt) (hw : Ordinary w) (ts : List (Str × Str × TextStyle))
    (h : ∀ t ∈ ts, GoodDirection t.1 ∧ markInfo t.1 = none ∧ SayableText t.2.1 t.2.2) :
    ∃ outs : List Str, ts.map (fun t => textLayoutParameter t.1 (some t.2.1) (some t.2.2)) = outs.map some ∧
      ∃ os : List TxOut, tokenDirections w (outs.map (fun o => (false, ({} : HumParamSet).readString o))) = os.map TxObj.direction ∧
        List.Forall₂ (fun t o => SameText t.1 t.2.1 t.2.2 o) ts os := by
  induction ts with
  | nil => exact ⟨[], rfl, [], rfl, .nil⟩
  | cons t ts ih =>
    obtain ⟨outs, e1, os, e2, e3⟩ := ih (fun x hx => h x (List.mem_cons_of_mem _ hx))
    obtain ⟨g1, g2, g3⟩ := h t (by simp)
    obtain ⟨out, f1, o, f2, f3⟩ := text_round_trip_partial w hw t.1 t.2.1 g1 g2 t.2.2 g3
    refine ⟨out :: outs, by rw [List.map_cons, f1, e1]; rfl, o :: os, ?_, .cons f3 e3⟩
    unfold tokenDirections at e2 ⊢
    have hw' : ({ w with isGlobal := false } : TxAt) = w := by
      cases w; simp only [Ordinary] at hw; simp [hw.1]
    rw [List.map_cons, List.filterMap_cons]
    simp only [hw', f2, List.map_cons]
    rw [e2]

/-- C120. Comments that are about something else give no text. -/
theorem other_comments_silent (w : TxAt) (h : HumParamSet) (hn : h.ns1 ≠ "LO".toList ∨ (h.ns2 ≠ "TX".toList ∧ h.ns2 ≠ "SIC".toList)) : readDirection w h = none := by
  unfold readDirection
  split
  · rfl
  · split
    · rfl
    · split
      · rfl
      · rename_i h1 h2
        rcases hn with hn | hn
        · exact absurd hn h1
        · exact absurd hn h2

/-! ### Texts for the whole system -/

/-- Is the global text `h` shown at a token of staff `staff` of `n`? -/
def shownText (w : TxAt) (n staff : Nat) (h : HumParamSet) : Bool := (readDirection { w with isGlobal := true, first := true, staff := staff, last := n - 1 } h).isSome

/-- A global text with a place. -/
def systemText (place : Char) (t : Str) : HumParamSet := ⟨"LO".toList, "TX".toList, [([place], "true".toList), ("t".toList, t)]⟩

/-- C120. A text for the whole system above or below it is shown on exactly one staff, the top or the bottom one. -/
theorem system_text_once (w : TxAt) (n staff : Nat) (hs : staff < n) (t : Str) (ht : t ≠ []) :
    (shownText w n staff (systemText 'a' t) = true ↔ staff = 0) ∧ (shownText w n staff (systemText 'b' t) = true ↔ staff = n - 1) := by
  have key : ∀ (pl : Char) (v : TxVars) (place : TxPlace), txLoop {} [([pl], "true".toList), ("t".toList, t)] = some v → v.tempo = false →
      txPlace v w.Z w.Y = place →
      shownText w n staff (systemText pl t) = !(TxAt.elsewhere { w with isGlobal := true, first := true, staff := staff, last := n - 1 } place) := by
    intro pl v place e1 e2 e3
    unfold shownText readDirection systemText
    simp only [Bool.not_true, Bool.and_false, Bool.false_eq_true, if_false]
    rw [if_neg (by simp), if_neg (by simp)]
    have hns : decide ("TX".toList = "SIC".toList) = false := by decide
    simp only [hns, Bool.false_eq_true, if_false]
    rw [e1]
    simp only [Bool.false_and, Bool.false_eq_true, if_false, e3, e2]
    split
    · rename_i he; rw [he]; rfl
    · rename_i he
      rw [Bool.not_eq_true] at he
      rw [he]
      split <;> rfl
  constructor
  · rw [key 'a' { a := true, text := t } .above (by simp [txLoop, txParam, ht]) rfl rfl]
    unfold TxAt.elsewhere
    simp
  · rw [key 'b' { b := true, text := t } .below (by simp [txLoop, txParam, ht]) rfl rfl]
    unfold TxAt.elsewhere
    simp

/-- C120 fails: a text for the whole system in the middle is shown on every staff. -/
theorem system_text_repeated (w : TxAt) (n staff : Nat) (t : Str) (ht : t ≠ []) : shownText w n staff (systemText 'c' t) = true := by
  have e1 : txLoop {} [(['c'], "true".toList), ("t".toList, t)] = some { c := true, text := t } := by simp [txLoop, txParam, ht]
  unfold shownText readDirection systemText
  simp only [Bool.not_true, Bool.and_false, Bool.false_eq_true, if_false]
  rw [if_neg (by simp), if_neg (by simp)]
  have hns : decide ("TX".toList = "SIC".toList) = false := by decide
  simp only [hns, Bool.false_eq_true, if_false]
  rw [e1]
  have he : TxAt.elsewhere { w with isGlobal := true, first := true, staff := staff, last := n - 1 } .between = false := by
    unfold TxAt.elsewhere; simp
  have hp : txPlace { c := true, text := t } w.Z w.Y = .between := rfl
  simp only [Bool.false_and, Bool.false_eq_true, if_false, hp, he]
  split <;> rfl

/-- The tokens left of token `i` of a staff, nearest first: those of the staff and then those of other spines. -/
def leftOf (track : Nat) (nulls : List Bool) (others : List (Nat × Bool)) (i : Nat) : List (Nat × Bool) :=
  ((nulls.take i).map (fun b => (track, b))).reverse ++ others

/-- C120. Of the tokens of a staff that are not null, only the first counts as the first. -/
theorem first_of_staff (track : Nat) (nulls : List Bool) (others : List (Nat × Bool)) (ho : ∀ o ∈ others, o.1 ≠ track) (i : Nat) (hi : i < nulls.length) :
    firstOnStaff track (leftOf track nulls others i) = true ↔ ∀ k < i, nulls[k]? = some true := by
  induction i with
  | zero =>
    simp only [leftOf, List.take_zero, List.map_nil, List.reverse_nil, List.nil_append, Nat.not_lt_zero, false_implies, implies_true, iff_true]
    cases others with
    | nil => rfl
    | cons o os => rw [firstOnStaff, if_pos (ho o (by simp))]
  | succ i ih =>
    have hlt : i < nulls.length := by omega
    have e : leftOf track nulls others (i + 1) = (track, nulls[i]) :: leftOf track nulls others i := by
      unfold leftOf
      rw [List.take_succ_eq_append_getElem hlt, List.map_append, List.reverse_append]
      rfl
    rw [e, firstOnStaff, if_neg (by simp)]
    cases hb : nulls[i] with
    | false =>
      simp only [Bool.not_false, if_true, Bool.false_eq_true, false_iff, not_forall]
      refine ⟨i, by omega, ?_⟩
      rw [List.getElem?_eq_getElem hlt, hb]
      simp
    | true =>
      simp only [Bool.not_true, Bool.false_eq_true, if_false]
      rw [ih hlt]
      constructor
      · intro h k hk
        by_cases e : k = i
        · subst e; rw [List.getElem?_eq_getElem hlt, hb]
        · exact h k (by omega)
      · intro h k hk
        exact h k (by omega)

/-! ### Tempo texts -/

theorem lazy_none {β : Type} (f : Str → Option β) (x : Char) (h : ∀ s, x ∉ s → f s = none) : ∀ s, x ∉ s → lazyBefore f s = none
  | [], _ => rfl
  | c :: cs, hx => by
    rw [lazyBefore, h _ hx]
    simp only
    split
    · rfl
    · exact lazy_none f x h cs (fun hm => hx (List.mem_cons_of_mem _ hm))

theorem search_none {β : Type} (f : Str → Option β) (x : Char) (h : ∀ s, x ∉ s → f s = none) : ∀ s, x ∉ s → searchFirst f s = none
  | [], _ => rfl
  | c :: cs, hx => by
    rw [searchFirst, h _ hx]
    exact search_none f x h cs (fun hm => hx (List.mem_cons_of_mem _ hm))

/-- C120. A text without an opening bracket is not taken for a metronome mark. -/
theorem no_bracket_no_mark (s : Str) (h : '[' ∉ s) : markInfo s = none := by
  have hbe : ∀ s : Str, '[' ∉ s → beatEquals s = none := by
    intro s hs
    unfold beatEquals
    split
    · simp at hs
    · rfl
  have hcore : ∀ p (s : Str), '[' ∉ s → markCore p s = none := by
    intro p s hs
    unfold markCore markParen
    cases p with
    | false => simp only [Bool.false_eq_true, if_false, hbe s hs]
    | true =>
      simp only [if_true]
      cases s with
      | nil => rfl
      | cons c r =>
        simp only
        split
        · rename_i hr
          rfl
        · rename_i r' hr
          split at hr
          · cases hr
            rw [hbe r (fun hm => hs (List.mem_cons_of_mem _ hm))]
          · cases hr
  have hdw : ∀ (q : Char → Bool) (s : Str), '[' ∉ s → '[' ∉ s.dropWhile q := fun q s hs hm => hs ((List.dropWhile_sublist q).subset hm)
  have htail : ∀ p (s : Str), '[' ∉ s → markTail p s = none := by
    intro p s hs
    unfold markTail
    cases ha : afterMM (s.dropWhile isPySpace) with
    | none => exact hcore p _ (hdw _ _ hs)
    | some r =>
      simp only
      have hr : '[' ∉ r := by
        unfold afterMM at ha
        obtain ⟨q, _, rfl⟩ := Option.map_eq_some_iff.1 ha
        exact fun hm => hdw _ _ hs ((List.drop_sublist _ _).subset hm)
      rw [hcore p _ (hdw _ _ hr)]
      exact hcore p _ (hdw _ _ hs)
  have hs : ∀ p, markSearch p s = none := fun p => search_none _ '[' (fun s' hs' => lazy_none _ '[' (htail p) s' hs') s h
  unfold markInfo
  rw [hs, hs]

/-! ### Where the property fails -/

/-- C120 fails: a text without a place comes back above. -/
theorem unplaced_text_above (w : TxAt) (hw : Ordinary w) (s : Str) (h : GoodDirection s) (hm : markInfo s = none) :
    ∃ out, textLayoutParameter s none none = some out ∧ readDirection w (({} : HumParamSet).readString out) = some (.direction { text := s, placement := "above".toList }) := by
  have hd := direction_read w hw none none s h hm (by intro st e; cases e)
  cases ho : textLayoutParameter s none none with
  | none => rw [ho] at hd; cases hd
  | some out =>
    rw [ho] at hd
    exact ⟨out, rfl, hd⟩

/-- C120 fails: an empty text is lost. -/
theorem empty_text_lost (w : TxAt) (placement : Option Str) (st : TextStyle) (hc : ∀ s, st.color = some s → ':' ∉ s) :
    ((textLayoutParameter [] placement (some st)).map (({} : HumParamSet).readString ·)).bind (readDirection w) = none := by
  rw [comment_read [] [] placement (some st) (by decide) (by intro st' e; cases e; exact hc), Option.bind_some]
  unfold readDirection
  split
  · rfl
  · rw [if_neg (by simp), if_neg (by simp)]
    have hns : decide ("TX".toList = "SIC".toList) = false := by decide
    have hcl : cleanSpacesAndColons [] = [] := by decide
    simp only [hns, Bool.false_eq_true, if_false, hcl, loop_empty]

/-- C120 fails: a text direction that says what the beat is, or that stands before a time signature, becomes a metronome mark. -/
theorem beat_text_becomes_tempo (w : TxAt) (hw : w.isGlobal = false) (h : HumParamSet) (hns : h.ns1 = "LO".toList ∧ h.ns2 = "TX".toList) (v : TxVars)
    (hl : txLoop {} h.params = some v) (hm : (markInfo (strip (importText v.text))).isSome = true ∨ w.timeSig = true) (hne : strip (importText v.text) ≠ []) :
    ∃ d, readDirection w h = some (.tempo d) := by
  unfold readDirection
  simp only [hw, Bool.false_and, Bool.false_eq_true, if_false, hns.1, hns.2]
  rw [if_neg (by simp), if_neg (by simp)]
  have hns' : decide ("TX".toList = "SIC".toList) = false := by decide
  simp only [hns', Bool.false_eq_true, if_false, hl, Bool.false_and]
  have hgl : ∀ pl, w.elsewhere pl = false := by intro pl; unfold TxAt.elsewhere; rw [hw]; rfl
  have hti : (isTempoish (strip (importText v.text)) || (w.timeSig && (decide (strip (importText v.text) ≠ []) || decide (w.mm ≠ 0)))) = true := by
    unfold isTempoish
    rcases hm with hm | hm <;> simp [hm, hne]
  simp only [hgl, hti, if_true, Bool.false_eq_true, if_false]
  exact ⟨_, rfl⟩

/-- A text about the beat and one with a bold weight, which becomes a bold style. -/
theorem text_changes :
    ((textLayoutParameter "solo [quarter] = 60".toList (some "above".toList) none).map (({} : HumParamSet).readString ·)).bind (readDirection {}) =
      some (.tempo { text := "solo [quarter] = 60".toList, placement := "above".toList, fontStyle := some "bold".toList }) ∧
    ((textLayoutParameter "dolce\n".toList (some "above".toList) (some { fontWeight := some "bold".toList, justify := some "left".toList })).map
      (({} : HumParamSet).readString ·)).bind (readDirection {}) =
      some (.direction { text := "dolce".toList, placement := "above".toList, fontStyle := some "bold".toList }) := by decide +kernel

/-! ### Cases -/

example : GoodDirection "poco rit.: a tempo".toList where
  some := by decide
  amp := by decide
  slash := by decide
  control := by decide
  glyph := by decide
  head := by decide
  last := by decide

example : SayableText "below".toList { alignVertical := some "middle".toList, fontStyle := some "italic".toList, color := some "#ff0000".toList } where
  placement := by decide
  align := by decide
  absoluteY := rfl
  fontStyle := by decide
  fontWeight := rfl
  justify := by decide
  color := by intro s h; cases h; exact ⟨by decide, by decide⟩

example : Ordinary {} := ⟨rfl, rfl⟩

example : textLayoutParameter "poco: rit.".toList (some "below".toList) (some { alignVertical := some "middle".toList, fontStyle := some "italic".toList }) =
    some "!LO:TX:c:i:t=poco&colon; rit.".toList := by decide +kernel

example : readDirection {} (({} : HumParamSet).readString "!LO:TX:c:i:t=poco&colon; rit.".toList) =
    some (.direction { text := "poco: rit.".toList, placement := "below".toList, middle := true, fontStyle := some "italic".toList }) := by decide +kernel

example : readDirection {} (({} : HumParamSet).readString "!LO:SIC:v=text:o=4c".toList) =
    some (.direction { text := "4c".toList, placement := "above".toList, color := some "limegreen".toList }) := by decide +kernel

end C21
