import Verif.Props.MeiTree
/-
C77: the text of an MEI element (mei/meishared.py:165-277).
-/
namespace C21
open MeiEl

theorem visible_cleanText (s : Str) : Visible s (cleanText s) := by
  unfold Visible LayoutOnly cleanText
  cases s with
  | nil => right; simp
  | cons c cs =>
    simp only [List.head?_cons, Option.some.injEq]
    by_cases h : (c != '\n' || !(c :: cs).all isPySpace) = true
    · rw [if_pos h]
      right
      refine ⟨?_, rfl⟩
      rintro ⟨h1, h2⟩
      rw [List.all_eq_true.2 h2, h1] at h
      simp at h
    · rw [if_neg h]
      left
      simp only [Bool.or_eq_true, bne_iff_ne, ne_eq, Bool.not_eq_true', not_or, Decidable.not_not, Bool.not_eq_false] at h
      exact ⟨⟨h.1, List.all_eq_true.1 h.2⟩, rfl⟩

theorem visible_unique {s a b : Str} (ha : Visible s a) (hb : Visible s b) : a = b := by
  rcases ha with ⟨h1, rfl⟩ | ⟨h1, rfl⟩ <;> rcases hb with ⟨h2, rfl⟩ | ⟨h2, rfl⟩ <;> simp_all

theorem localName_unique {t a b : Str} (ha : LocalName t a) (hb : LocalName t b) : a = b := by
  rw [localName_iff] at ha hb; rw [ha, hb]

theorem isNamed_plain (q : String) (e : MeiEl) (h1 : q.toList ≠ ['*']) (h2 : q.toList.head? ≠ some '{') :
    isNamed q.toList e = true ↔ LocalName e.tag q.toList := by
  rw [isNamed_iff]
  unfold Answers
  constructor
  · rintro (h | h | h)
    · exact absurd h h1
    · exact Or.inr ⟨h.symm, Or.inl (h ▸ h2)⟩
    · exact h
  · exact fun h => Or.inr (Or.inr h)

theorem findIdx_some (q : String) (subs : List MeiEl) (h1 : q.toList ≠ ['*']) (h2 : q.toList.head? ≠ some '{') (i : Nat)
    (h : subs.findIdx? (isNamed q.toList) = some i) : ∃ c, subs[i]? = some c ∧ FirstNamed q subs c := by
  rw [List.findIdx?_eq_some_iff_getElem] at h
  obtain ⟨hi, ht, hb⟩ := h
  refine ⟨subs[i], List.getElem?_eq_getElem hi, subs.take i, subs.drop (i + 1), ?_, (isNamed_plain q _ h1 h2).1 ht, ?_⟩
  · rw [List.getElem_cons_drop, List.take_append_drop]
  · intro b hbm hl
    obtain ⟨j, hj, rfl⟩ := List.mem_iff_getElem.1 hbm
    have hji : j < i := by
      have := hj; rw [List.length_take] at this; omega
    apply hb j hji
    rw [List.getElem_take] at hl
    exact (isNamed_plain q _ h1 h2).2 hl

theorem findIdx_none (q : String) (subs : List MeiEl) (h1 : q.toList ≠ ['*']) (h2 : q.toList.head? ≠ some '{')
    (h : subs.findIdx? (isNamed q.toList) = none) : NoneNamed q subs := by
  rw [List.findIdx?_eq_none_iff] at h
  intro b hb hl
  have := h b hb
  rw [(isNamed_plain q b h1 h2).2 hl] at this
  simp at this

theorem firstNamed_unique {q : String} {subs : List MeiEl} {c d : MeiEl} (hc : FirstNamed q subs c)
    (hd : FirstNamed q subs d) : c = d := by
  obtain ⟨b1, a1, h1, n1, k1⟩ := hc
  obtain ⟨b2, a2, h2, n2, k2⟩ := hd
  rw [h1] at h2
  clear h1
  induction b1 generalizing b2 with
  | nil =>
    cases b2 with
    | nil => simp only [List.nil_append, List.cons.injEq] at h2; exact h2.1
    | cons y ys =>
      simp only [List.nil_append, List.cons_append, List.cons.injEq] at h2
      exact absurd (h2.1 ▸ n1) (k2 y (by simp))
  | cons x xs ih =>
    cases b2 with
    | nil =>
      simp only [List.nil_append, List.cons_append, List.cons.injEq] at h2
      exact absurd (h2.1 ▸ n2) (k1 x (by simp))
    | cons y ys =>
      simp only [List.cons_append, List.cons.injEq] at h2
      exact ih (fun b hb => k1 b (List.mem_cons_of_mem _ hb)) ys h2.2 (fun b hb => k2 b (List.mem_cons_of_mem _ hb))

theorem firstNamed_not_none {q : String} {subs : List MeiEl} {c : MeiEl} (hc : FirstNamed q subs c)
    (hn : NoneNamed q subs) : False := by
  obtain ⟨b1, a1, rfl, n1, _⟩ := hc
  exact hn c (by simp) n1

theorem firstNamed_mem {q : String} {subs : List MeiEl} {c : MeiEl} (hc : FirstNamed q subs c) : c ∈ subs := by
  obtain ⟨b1, a1, rfl, n1, _⟩ := hc
  simp

theorem reading_app {n : Str} {subs : List MeiEl} {c : MeiEl} (h : Reading n subs c) :
    (n = "app".toList ∧ (FirstNamed "lem" subs c ∨ NoneNamed "lem" subs ∧ FirstNamed "rdg" subs c)) ∨
    (n = "choice".toList ∧ (FirstNamed "corr" subs c ∨ NoneNamed "corr" subs ∧ FirstNamed "reg" subs c ∨
      NoneNamed "corr" subs ∧ NoneNamed "reg" subs ∧ subs.head? = some c)) := by
  cases h with
  | lem h => exact Or.inl ⟨rfl, Or.inl h⟩
  | rdg h h' => exact Or.inl ⟨rfl, Or.inr ⟨h, h'⟩⟩
  | corr h => exact Or.inr ⟨rfl, Or.inl h⟩
  | reg h h' => exact Or.inr ⟨rfl, Or.inr (Or.inl ⟨h, h'⟩)⟩
  | first h h' => exact Or.inr ⟨rfl, Or.inr (Or.inr ⟨h, h', rfl⟩)⟩

theorem app_ne_choice : "app".toList ≠ "choice".toList := by decide

theorem reading_unique {n : Str} {subs : List MeiEl} {c d : MeiEl} (hc : Reading n subs c) (hd : Reading n subs d) :
    c = d := by
  rcases reading_app hc with ⟨h, h1⟩ | ⟨h, h1⟩ <;> rcases reading_app hd with ⟨h', h2⟩ | ⟨h', h2⟩
  · rcases h1 with h1 | ⟨h1, h1'⟩ <;> rcases h2 with h2 | ⟨h2, h2'⟩
    · exact firstNamed_unique h1 h2
    · exact (firstNamed_not_none h1 h2).elim
    · exact (firstNamed_not_none h2 h1).elim
    · exact firstNamed_unique h1' h2'
  · exact absurd (h.symm.trans h') app_ne_choice
  · exact absurd (h'.symm.trans h) app_ne_choice
  · rcases h1 with h1 | ⟨h1, h1'⟩ | ⟨h1, h1', h1''⟩ <;> rcases h2 with h2 | ⟨h2, h2'⟩ | ⟨h2, h2', h2''⟩
    · exact firstNamed_unique h1 h2
    · exact (firstNamed_not_none h1 h2).elim
    · exact (firstNamed_not_none h1 h2).elim
    · exact (firstNamed_not_none h2 h1).elim
    · exact firstNamed_unique h1' h2'
    · exact (firstNamed_not_none h1' h2').elim
    · exact (firstNamed_not_none h2 h1).elim
    · exact (firstNamed_not_none h2' h1').elim
    · rw [h1''] at h2''; exact Option.some.inj h2''

theorem reading_mem {n : Str} {subs : List MeiEl} {c : MeiEl} (hc : Reading n subs c) : c ∈ subs := by
  cases hc with
  | lem h => exact firstNamed_mem h
  | rdg _ h => exact firstNamed_mem h
  | corr h => exact firstNamed_mem h
  | reg _ h => exact firstNamed_mem h
  | first => simp

theorem reading_name {n : Str} {subs : List MeiEl} {c : MeiEl} (hc : Reading n subs c) :
    n = "app".toList ∨ n = "choice".toList := by
  rcases reading_app hc with ⟨h, _⟩ | ⟨h, _⟩
  · exact Or.inl h
  · exact Or.inr h

theorem endsWith_iff (suf s : Str) : endsWithStr suf s = true ↔ ∃ r, s = r ++ suf := startsWith_reverse_iff suf s

theorem choice_not_app {t : Str} (h : ∃ r, t = r ++ "choice".toList) : endsWithStr "app".toList t = false := by
  rw [Bool.eq_false_iff]
  intro h'
  obtain ⟨r, hr⟩ := h
  obtain ⟨r', hr'⟩ := (endsWith_iff _ _).1 h'
  rw [hr] at hr'
  have := congrArg List.getLast? hr'
  rw [List.getLast?_append, List.getLast?_append] at this
  revert this; simp

theorem findIdx_star (subs : List MeiEl) :
    subs.findIdx? (isNamed "*".toList) = match subs with | [] => none | _ :: _ => some 0 := by
  cases subs with
  | nil => rfl
  | cons c cs =>
    have : isNamed "*".toList c = true := by
      rw [isNamed_iff]; left; rfl
    rw [List.findIdx?_cons, this]
    rfl

/-- C77: the choice made for an `app` or `choice` element is its reading. -/
theorem chooseIndex_reading {tag n : Str} (subs : List MeiEl) (hl : LocalName tag n)
    (hn : n = "app".toList ∨ n = "choice".toList) :
    (∀ i, chooseIndex tag subs = some i → ∃ c, subs[i]? = some c ∧ Reading n subs c) ∧
    (chooseIndex tag subs = none → ∀ c, ¬ Reading n subs c) := by
  have hsuf := localName_suffix tag n hl
  rcases hn with rfl | rfl
  · have he : endsWithStr "app".toList tag = true := (endsWith_iff _ _).2 hsuf
    unfold chooseIndex
    simp only [he, if_true]
    cases hf : subs.findIdx? (isNamed "lem".toList) with
    | some j =>
      simp only [Option.some_or]
      refine ⟨fun i hi => ?_, fun h => by simp at h⟩
      cases hi
      obtain ⟨c, h1, h2⟩ := findIdx_some "lem" subs (by decide) (by decide) j hf
      exact ⟨c, h1, .lem h2⟩
    | none =>
      have hnone := findIdx_none "lem" subs (by decide) (by decide) hf
      simp only [Option.none_or]
      refine ⟨fun i hi => ?_, fun h c hc => ?_⟩
      · obtain ⟨c, h1, h2⟩ := findIdx_some "rdg" subs (by decide) (by decide) i hi
        exact ⟨c, h1, .rdg hnone h2⟩
      · have hnone' := findIdx_none "rdg" subs (by decide) (by decide) h
        rcases reading_app hc with ⟨_, h1 | ⟨_, h1⟩⟩ | ⟨h, _⟩
        · exact firstNamed_not_none h1 hnone
        · exact firstNamed_not_none h1 hnone'
        · exact app_ne_choice h
  · have he : endsWithStr "choice".toList tag = true := (endsWith_iff _ _).2 hsuf
    have he' := choice_not_app hsuf
    unfold chooseIndex
    simp only [he, he', if_true, Bool.false_eq_true, if_false]
    cases hf : subs.findIdx? (isNamed "corr".toList) with
    | some j =>
      simp only [Option.some_or]
      refine ⟨fun i hi => ?_, fun h => by simp at h⟩
      cases hi
      obtain ⟨c, h1, h2⟩ := findIdx_some "corr" subs (by decide) (by decide) j hf
      exact ⟨c, h1, .corr h2⟩
    | none =>
      have hnone := findIdx_none "corr" subs (by decide) (by decide) hf
      simp only [Option.none_or]
      cases hf2 : subs.findIdx? (isNamed "reg".toList) with
      | some j =>
        simp only [Option.some_or]
        refine ⟨fun i hi => ?_, fun h => by simp at h⟩
        cases hi
        obtain ⟨c, h1, h2⟩ := findIdx_some "reg" subs (by decide) (by decide) j hf2
        exact ⟨c, h1, .reg hnone h2⟩
      | none =>
        have hnone2 := findIdx_none "reg" subs (by decide) (by decide) hf2
        simp only [Option.none_or]
        rw [findIdx_star]
        cases subs with
        | nil =>
          refine ⟨fun i hi => by simp at hi, fun _ c hc => by simpa using reading_mem hc⟩
        | cons c cs =>
          refine ⟨fun i hi => ?_, fun h => by simp at h⟩
          cases hi
          exact ⟨c, rfl, .first hnone hnone2⟩

theorem passThru_names : passThruNames =
    ["add", "corr", "damage", "expan", "orig", "reg", "sic", "subst", "supplied", "unclear"].map String.toList := rfl

theorem lead_exists (g : Glyphs) (n : Str) (attrib : List (Str × Str)) (hp : n ∉ passThruNames) :
    Lead g n attrib (if n ∈ passThruNames then belowText (findAllIn ['*'] []) else if n = "lb".toList then ['\n']
      else if n = "symbol".toList then g attrib else []) := by
  rw [if_neg hp]
  by_cases h1 : n = "lb".toList
  · rw [if_pos h1]; exact .lb h1
  · rw [if_neg h1]
    by_cases h2 : n = "symbol".toList
    · rw [if_pos h2]; exact .symbol h2
    · rw [if_neg h2]; exact .other h1 h2

theorem pass_not_lead : "lb".toList ∉ passThruNames ∧ "symbol".toList ∉ passThruNames := by decide

mutual
theorem textOf_safe (g : Glyphs) : ∀ e : MeiEl, TextSafe e → TextOf g e (textFromElem g e)
  | .mk _ _ text _ subs, h => by
    rw [textFromElem]
    rw [TextSafe] at h
    exact .mk (visible_cleanText text) (textIn_safe g subs h)
theorem textIn_safe (g : Glyphs) : ∀ es : List MeiEl, TextSafeIn es → TextIn g es (textOfKids g es)
  | [], _ => by rw [textOfKids]; exact .nil
  | .mk tag attrib text tail subs :: rest, h => by
    rw [TextSafeIn] at h
    obtain ⟨h1, h2, h3⟩ := h
    have hl : LocalName tag (nameOf tag) := (localName_iff _ _).2 rfl
    obtain ⟨ha, hb, hc⟩ := h1 (nameOf tag) hl
    have hrest := textIn_safe g rest h3
    rw [textOfKids]
    by_cases hch : nameOf tag ∈ choosingNames
    · simp only [if_pos hch]
      have hn : nameOf tag = "app".toList ∨ nameOf tag = "choice".toList := by
        simpa only [choosingNames, List.mem_cons, List.not_mem_nil, or_false] using hch
      obtain ⟨r1, r2⟩ := chooseIndex_reading subs hl hn
      cases hci : chooseIndex tag subs with
      | none =>
        simp only
        have hv := hc hn (r2 hci)
        exact TextIn.none (e := .mk tag attrib text tail subs) (v := []) hl hn (r2 hci) hv hrest
      | some i =>
        simp only
        obtain ⟨c, hi, hr⟩ := r1 i hci
        obtain ⟨t1, t2⟩ := nth_safe g subs i c h2 hi
        rw [t2]
        exact TextIn.choice (e := .mk tag attrib text tail subs) hl hr t1
          ((hb c hr _).1 (visible_cleanText c.tail)) hrest
    · simp only [if_neg hch]
      have hn : nameOf tag ≠ "app".toList ∧ nameOf tag ≠ "choice".toList := by
        simpa only [choosingNames, List.mem_cons, List.not_mem_nil, or_false, not_or] using hch
      refine TextIn.plain (e := .mk tag attrib text tail subs) hl hn.1 hn.2 ?_
        (.mk (visible_cleanText text) (textIn_safe g subs h2)) (visible_cleanText tail) hrest
      by_cases hp : nameOf tag ∈ passThruNames
      · rw [if_pos hp, ha hp]
        have h1 : nameOf tag ≠ "lb".toList := fun h => pass_not_lead.1 (h ▸ hp)
        have h2 : nameOf tag ≠ "symbol".toList := fun h => pass_not_lead.2 (h ▸ hp)
        exact .other h1 h2
      · rw [if_neg hp]
        have := lead_exists g (nameOf tag) attrib hp
        rw [if_neg hp] at this
        exact this
theorem nth_safe (g : Glyphs) : ∀ (es : List MeiEl) (i : Nat) (c : MeiEl), TextSafeIn es → es[i]? = some c →
    TextOf g c (nthText g es i).1 ∧ (nthText g es i).2 = c.tail
  | [], _, _, _, h => by simp at h
  | .mk tag attrib text tail subs :: rest, 0, c, hs, h => by
    rw [TextSafeIn] at hs
    simp only [List.getElem?_cons_zero, Option.some.injEq] at h
    subst h
    rw [nthText]
    exact ⟨.mk (visible_cleanText text) (textIn_safe g subs hs.2.1), rfl⟩
  | .mk tag attrib text tail subs :: rest, i + 1, c, hs, h => by
    rw [TextSafeIn] at hs
    rw [nthText]
    exact nth_safe g rest i c hs.2.2 (by simpa using h)
end

theorem lead_unique {g : Glyphs} {n : Str} {a : List (Str × Str)} {x y : Str} (hx : Lead g n a x) (hy : Lead g n a y) :
    x = y := by
  cases hx with
  | lb h =>
    cases hy with
    | lb _ => rfl
    | symbol h' => rw [h] at h'; exact absurd h' (by decide)
    | other h' _ => exact absurd h h'
  | symbol h =>
    cases hy with
    | lb h' => rw [h] at h'; exact absurd h' (by decide)
    | symbol _ => rfl
    | other _ h' => exact absurd h h'
  | other h h' =>
    cases hy with
    | lb k => exact absurd k h
    | symbol k => exact absurd k h'
    | other _ _ => rfl

mutual
theorem textIn_unique (g : Glyphs) : ∀ (es : List MeiEl) (a b : Str), TextIn g es a → TextIn g es b → a = b
  | [], a, b, ha, hb => by cases ha; cases hb; rfl
  | .mk tag attrib text tail subs :: es, a, b, ha, hb => by
    have key : ∀ a b : Str, TextOf g (.mk tag attrib text tail subs) a → TextOf g (.mk tag attrib text tail subs) b → a = b := by
      intro a b ha hb
      cases ha with
      | mk v1 t1 => cases hb with
        | mk v2 t2 => rw [visible_unique v1 v2, textIn_unique g subs _ _ t1 t2]
    have rest := textIn_unique g es
    have kids := textOf_unique_mem g subs
    cases ha with
    | plain l1 n1 n1' d1 t1 v1 r1 =>
      cases hb with
      | plain l2 n2 n2' d2 t2 v2 r2 =>
        have := localName_unique l1 l2; subst this
        rw [lead_unique d1 d2, key _ _ t1 t2, visible_unique v1 v2, rest _ _ r1 r2]
      | choice l2 k2 t2 v2 r2 =>
        have := localName_unique l1 l2; subst this
        exact ((reading_name k2).elim n1 n1').elim
      | none l2 k2 n2 v2 r2 =>
        have := localName_unique l1 l2; subst this
        exact (k2.elim n1 n1').elim
    | choice l1 k1 t1 v1 r1 =>
      cases hb with
      | plain l2 n2 n2' d2 t2 v2 r2 =>
        have := localName_unique l1 l2; subst this
        exact ((reading_name k1).elim n2 n2').elim
      | choice l2 k2 t2 v2 r2 =>
        have := localName_unique l1 l2; subst this
        have := reading_unique k1 k2; subst this
        have hm := reading_mem k1
        rw [kids _ hm _ _ t1 t2, visible_unique v1 v2, rest _ _ r1 r2]
      | none l2 k2 n2 v2 r2 =>
        have := localName_unique l1 l2; subst this
        exact (n2 _ k1).elim
    | none l1 k1 n1 v1 r1 =>
      cases hb with
      | plain l2 n2 n2' d2 t2 v2 r2 =>
        have := localName_unique l1 l2; subst this
        exact (k1.elim n2 n2').elim
      | choice l2 k2 t2 v2 r2 =>
        have := localName_unique l1 l2; subst this
        exact (n1 _ k2).elim
      | none l2 k2 n2 v2 r2 =>
        rw [visible_unique v1 v2, rest _ _ r1 r2]
theorem textOf_unique_mem (g : Glyphs) : ∀ (es : List MeiEl), ∀ c ∈ es, ∀ a b : Str, TextOf g c a → TextOf g c b → a = b
  | [], c, h, _, _, _, _ => by simp at h
  | .mk tag attrib text tail subs :: es, c, h, a, b, ha, hb => by
    rcases List.mem_cons.1 h with h | h
    · subst h
      cases ha with
      | mk v1 t1 => cases hb with
        | mk v2 t2 => rw [visible_unique v1 v2, textIn_unique g subs _ _ t1 t2]
    · exact textOf_unique_mem g es c h a b ha hb
end

theorem textOf_unique (g : Glyphs) : ∀ (e : MeiEl) (a b : Str), TextOf g e a → TextOf g e b → a = b
  | .mk _ _ text _ subs, a, b, ha, hb => by
    cases ha with
    | mk v1 t1 => cases hb with
      | mk v2 t2 => rw [visible_unique v1 v2, textIn_unique g subs _ _ t1 t2]

/-- C77, the part that holds: the text of an element is its characters in the order of the document, line breaks and
glyphs included, with each editorial choice replaced by its reading — when what follows a choice is the same as what follows the
reading inside it and the other editorial elements contain characters only. Without these hypotheses it is false:
`text_after_choice_lost`, `text_after_choice_ignored`, `editorial_text_doubled`. -/
theorem textFromElem_partial (g : Glyphs) (e : MeiEl) (h : TextSafe e) (s : Str) :
    TextOf g e s ↔ s = textFromElem g e :=
  ⟨fun hs => textOf_unique g e _ _ hs (textOf_safe g e h), fun hs => hs ▸ textOf_safe g e h⟩

/-- A `<dir>` with a `<rend>`, a line break, an added word and a choice at its end. -/
def sampleDir : MeiEl :=
  .mk "{m}dir".toList [] "poco ".toList [] [.mk "{m}rend".toList [] "a".toList " poco".toList [],
    .mk "{m}lb".toList [] [] "\n  ".toList [], .mk "{m}add".toList [] "più ".toList [] [],
    .mk "{m}choice".toList [] "\n".toList [] [.mk "{m}sic".toList [] "msoso".toList [] [], .mk "{m}corr".toList [] "mosso".toList [] []]]

example : textFromElem (fun _ => []) sampleDir = "poco a poco\npiù mosso".toList := by decide +kernel

/-- C77 is false: "Allegro <choice><sic>con birio</sic><corr>con brio</corr></choice> assai" loses "assai". -/
theorem text_after_choice_lost :
    textFromElem (fun _ => []) (.mk "{m}dir".toList [] "Allegro ".toList [] [.mk "{m}choice".toList [] [] " assai".toList
      [.mk "{m}sic".toList [] "con birio".toList [] [], .mk "{m}corr".toList [] "con brio".toList [] []]]) =
    "Allegro con brio".toList := by decide +kernel

/-- C77 is false whatever follows an `app` or `choice`: it has no influence on the text. -/
theorem text_after_choice_ignored (g : Glyphs) (tag : Str) (attrib : List (Str × Str)) (text tail tail' : Str)
    (subs rest : List MeiEl) (h : LocalName tag "app".toList ∨ LocalName tag "choice".toList) :
    textOfKids g (.mk tag attrib text tail subs :: rest) = textOfKids g (.mk tag attrib text tail' subs :: rest) := by
  have hn : nameOf tag ∈ choosingNames := by
    rcases h with h | h
    · rw [← (localName_iff _ _).1 h]; exact List.mem_of_getElem? (i := 0) rfl
    · rw [← (localName_iff _ _).1 h]; exact List.mem_of_getElem? (i := 1) rfl
  rw [textOfKids, textOfKids]
  simp only [if_pos hn]

/-- C77 is false: "<add>molto <rend>vivace</rend></add>" is read as "vivacemolto vivace". -/
theorem editorial_text_doubled :
    textFromElem (fun _ => []) (.mk "{m}dir".toList [] [] [] [.mk "{m}add".toList [] "molto ".toList []
      [.mk "{m}rend".toList [] "vivace".toList [] []]]) = "vivacemolto vivace".toList := by decide +kernel

/-- The hypothesis of `textFromElem_partial` holds of `sampleDir`. -/
theorem sampleDir_safe : TextSafe sampleDir := by
  have L : ∀ {t n : Str}, LocalName t n → n = nameOf t := fun h => (localName_iff _ _).1 h
  have noRead : ∀ {t n : Str} {subs : List MeiEl} {c : MeiEl}, nameOf t ≠ "app".toList → nameOf t ≠ "choice".toList →
      LocalName t n → ¬ Reading n subs c := by
    intro t n subs c h1 h2 hl hr
    rw [L hl] at hr
    exact (reading_name hr).elim h1 h2
  have plain : ∀ (t : Str) (a : List (Str × Str)) (x y : Str), nameOf t ≠ "app".toList → nameOf t ≠ "choice".toList →
      ∀ rest, TextSafeIn rest → TextSafeIn (.mk t a x y [] :: rest) := by
    intro t a x y h1 h2 rest hr
    rw [TextSafeIn]
    refine ⟨fun n hl => ⟨fun _ => rfl, fun c hc => (noRead h1 h2 hl hc).elim, fun hn => ?_⟩, by rw [TextSafeIn]; trivial, hr⟩
    rw [L hl] at hn
    exact (hn.elim h1 h2).elim
  have nil : TextSafeIn [] := by rw [TextSafeIn]; trivial
  unfold sampleDir
  rw [TextSafe]
  refine plain _ _ _ _ (by decide) (by decide) _ (plain _ _ _ _ (by decide) (by decide) _
    (plain _ _ _ _ (by decide) (by decide) _ ?_))
  rw [TextSafeIn]
  refine ⟨fun n hl => ⟨fun hm => ?_, fun c hc v => ?_, fun _ hno => ?_⟩,
    plain _ _ _ _ (by decide) (by decide) _ (plain _ _ _ _ (by decide) (by decide) _ nil), nil⟩
  · rw [L hl] at hm; exact absurd hm (by decide)
  · have hcorr : FirstNamed "corr" [.mk "{m}sic".toList [] "msoso".toList [] [], .mk "{m}corr".toList [] "mosso".toList [] []]
        (.mk "{m}corr".toList [] "mosso".toList [] []) := by
      refine ⟨[.mk "{m}sic".toList [] "msoso".toList [] []], [], rfl, (localName_iff _ _).2 (by decide), ?_⟩
      intro b hb
      rw [List.mem_singleton] at hb
      subst hb
      rw [localName_iff]; decide
    have hn : n = "choice".toList := by rw [L hl]; decide
    subst hn
    rw [reading_unique hc (.corr hcorr)]
    rfl
  · exact Or.inr ⟨by rintro ⟨h, _⟩; simp at h, rfl⟩

end C21
