import Verif.Spec.MeiTree
import Verif.Lemmas.PyStr
/-
C76: MEI element trees are written and searched faithfully. C77: the text of an MEI element.
-/
namespace C21
open MeiEl

/-! ## Names -/

theorem startsWith_brace (t : Str) : startsWith t ['{'] = true ↔ t.head? = some '{' := by
  cases t with
  | nil => simp [startsWith]
  | cons c cs => simp [startsWith]; exact eq_comm

theorem splitOn_getLast (c : Char) (s : Str) :
    ∀ n, (splitOn c s).getLast? = some n → (s = n ∧ c ∉ s) ∨ ∃ p, s = p ++ c :: n ∧ c ∉ n := by
  induction s with
  | nil => intro n h; simp [splitOn] at h; subst h; simp
  | cons x xs ih =>
    intro n h
    simp only [splitOn] at h
    split at h
    · next hx =>
      subst hx
      cases hs : splitOn x xs with
      | nil => exact absurd hs (splitOn_ne_nil x xs)
      | cons q qs =>
        rw [hs, List.getLast?_cons_cons, ← hs] at h
        rcases ih n h with ⟨h1, h2⟩ | ⟨p, h1, h2⟩
        · right; exact ⟨[], by simp [h1], h1 ▸ h2⟩
        · right; exact ⟨x :: p, by simp [h1], h2⟩
    · next hx =>
      cases hs : splitOn c xs with
      | nil => exact absurd hs (splitOn_ne_nil c xs)
      | cons q qs =>
        rw [hs] at h
        cases qs with
        | nil =>
          simp only [List.getLast?_singleton, Option.some.injEq] at h
          have := ih q (by rw [hs]; rfl)
          have hj := joinWith_splitOn c xs
          rw [hs] at hj
          simp only [joinWith] at hj
          have hn := splitOn_no_sep c xs q (by rw [hs]; simp)
          left
          rw [← h, hj]
          refine ⟨rfl, ?_⟩
          simp only [List.mem_cons, not_or]
          exact ⟨fun h => hx h.symm, hj ▸ hn⟩
        | cons r rs =>
          simp only [List.getLast?_cons_cons] at h
          have := ih n (by rw [hs, List.getLast?_cons_cons]; exact h)
          rcases this with ⟨h1, h2⟩ | ⟨p, h1, h2⟩
          · have := splitOn_of_not_mem c xs h2
            rw [hs] at this; simp at this
          · right; exact ⟨x :: p, by simp [h1], h2⟩

theorem last_sep_unique (c : Char) (p q a b : Str) (h : p ++ c :: a = q ++ c :: b) (ha : c ∉ a) (hb : c ∉ b) : a = b := by
  induction p generalizing q with
  | nil =>
    cases q with
    | nil => simpa using h
    | cons y ys =>
      simp only [List.nil_append, List.cons_append, List.cons.injEq] at h
      exact absurd (h.2 ▸ by simp : c ∈ a) ha
  | cons x xs ih =>
    cases q with
    | nil =>
      simp only [List.nil_append, List.cons_append, List.cons.injEq] at h
      exact absurd (h.2 ▸ by simp : c ∈ b) hb
    | cons y ys =>
      simp only [List.cons_append, List.cons.injEq] at h
      exact ih ys h.2

/-- C76: the name of an element is its tag without the namespace. -/
theorem localName_iff (t n : Str) : LocalName t n ↔ n = nameOf t := by
  unfold nameOf
  by_cases hb : t.head? = some '{' ∧ '}' ∈ t
  · have : (startsWith t ['{'] && t.contains '}') = true := by
      simp only [Bool.and_eq_true, List.contains_iff_mem]
      exact ⟨(startsWith_brace t).2 hb.1, hb.2⟩
    rw [if_pos this]
    obtain ⟨m, hm⟩ : ∃ m, (splitOn '}' t).getLast? = some m := by
      cases h : (splitOn '}' t).getLast? with
      | none => exact absurd (List.getLast?_eq_none_iff.1 h) (splitOn_ne_nil _ _)
      | some m => exact ⟨m, rfl⟩
    rw [hm]
    simp only [Option.getD_some]
    rcases splitOn_getLast '}' t m hm with ⟨_, h2⟩ | ⟨p, h1, h2⟩
    · exact absurd hb.2 h2
    · cases p with
      | nil => rw [h1] at hb; simp at hb
      | cons x xs =>
        have hx : x = '{' := by have := hb.1; rw [h1] at this; simpa using this
        subst hx
        constructor
        · rintro (⟨ns, e, hn⟩ | ⟨_, h | h⟩)
          · rw [h1] at e
            exact (last_sep_unique '}' _ _ m n e h2 hn).symm
          · exact absurd hb.1 h
          · exact absurd hb.2 h
        · rintro rfl
          exact Or.inl ⟨xs, h1, h2⟩
  · have : (startsWith t ['{'] && t.contains '}') = false := by
      rw [Bool.eq_false_iff]
      intro h
      simp only [Bool.and_eq_true, List.contains_iff_mem] at h
      exact hb ⟨(startsWith_brace t).1 h.1, h.2⟩
    rw [this]
    simp only [Bool.false_eq_true, if_false]
    constructor
    · rintro (⟨ns, e, _⟩ | ⟨e, _⟩)
      · exact absurd ⟨by rw [e]; rfl, by rw [e]; simp⟩ hb
      · exact e.symm
    · rintro rfl
      refine Or.inr ⟨rfl, ?_⟩
      by_cases h : n.head? = some '{'
      · exact Or.inr fun h' => hb ⟨h, h'⟩
      · exact Or.inl h

/-! ## Searching -/

theorem isNamed_iff (q : Str) (e : MeiEl) : isNamed q e = true ↔ Answers q e := by
  simp only [isNamed, Answers, localName_iff, name, Bool.or_eq_true, beq_iff_eq, or_assoc]

instance (q : Str) (e : MeiEl) : Decidable (Answers q e) := decidable_of_iff _ (isNamed_iff q e)

theorem isNamed_eq (q : Str) (e : MeiEl) : isNamed q e = decide (Answers q e) := by
  rw [Bool.eq_iff_iff]; simp [isNamed_iff]

mutual
/-- C76: `findAll` is everything below the element that answers to the name, in the order of the document. -/
theorem findAll_docOrder (q : Str) : ∀ e : MeiEl, findAll q e = (docOrder e).filter (fun x => decide (Answers q x))
  | .mk _ _ _ _ subs => by
    rw [findAll, docOrder]; exact findAllIn_docOrder q subs
theorem findAllIn_docOrder (q : Str) : ∀ es : List MeiEl,
    findAllIn q es = (docOrderIn es).filter (fun x => decide (Answers q x))
  | [] => by simp [findAllIn, docOrderIn]
  | s :: ss => by
    rw [findAllIn, docOrderIn, findAll_docOrder q s, findAllIn_docOrder q ss, isNamed_eq]
    simp only [List.filter_cons, List.filter_append, List.cons_append]
    by_cases h : Answers q s <;> simp [h]
end

theorem find_append_or {α} (p : α → Bool) (a b : List α) : (a ++ b).find? p = (a.find? p).or (b.find? p) := by
  rw [List.find?_append]

mutual
/-- C76: `findFirst` is the first of them, and finds nothing only when there is none. -/
theorem findFirst_docOrder (q : Str) : ∀ e : MeiEl, findFirst q e = (docOrder e).find? (fun x => decide (Answers q x))
  | .mk _ _ _ _ subs => by
    rw [findFirst, docOrder]; exact findFirstIn_docOrder q subs
theorem findFirstIn_docOrder (q : Str) : ∀ es : List MeiEl,
    findFirstIn q es = (docOrderIn es).find? (fun x => decide (Answers q x))
  | [] => by simp [findFirstIn, docOrderIn]
  | s :: ss => by
    rw [findFirstIn, docOrderIn, findFirst_docOrder q s, findFirstIn_docOrder q ss, isNamed_eq]
    simp only [List.cons_append, List.find?_cons, List.find?_append]
    by_cases h : Answers q s
    · simp [h]
    · simp only [h, decide_false, Bool.false_eq_true, if_false]
      cases (docOrder s).find? (fun x => decide (Answers q x)) <;> simp
end

/-- C76: `findFirst` agrees with `findAll`. -/
theorem findFirst_findAll (q : Str) (e : MeiEl) : findFirst q e = (findAll q e).head? := by
  rw [findFirst_docOrder, findAll_docOrder, List.head?_filter]

mutual
theorem findAttr_docOrder (k v : Str) : ∀ e : MeiEl, findAttr k v e = (docOrder e).find? (hasAttr k v)
  | .mk _ _ _ _ subs => by
    rw [findAttr, docOrder]; exact findAttrIn_docOrder k v subs
theorem findAttrIn_docOrder (k v : Str) : ∀ es : List MeiEl,
    findAttrIn k v es = (docOrderIn es).find? (hasAttr k v)
  | [] => by simp [findAttrIn, docOrderIn]
  | s :: ss => by
    rw [findAttrIn, docOrderIn, findAttr_docOrder k v s, findAttrIn_docOrder k v ss]
    simp only [List.cons_append, List.find?_cons, List.find?_append]
    by_cases h : hasAttr k v s
    · simp [h]
    · simp only [h]
      cases (docOrder s).find? (hasAttr k v) <;> simp
end

theorem startsWith_append_iff (p s : Str) : startsWith s p = true ↔ ∃ r, s = p ++ r := by
  unfold startsWith
  rw [List.isPrefixOf_iff_prefix]
  exact ⟨fun ⟨r, h⟩ => ⟨r, h.symm⟩, fun ⟨r, h⟩ => ⟨r, h.symm⟩⟩

theorem startsWith_reverse_iff (p s : Str) : startsWith s.reverse p.reverse = true ↔ ∃ r, s = r ++ p := by
  rw [startsWith_append_iff]
  constructor
  · rintro ⟨r, h⟩
    exact ⟨r.reverse, by have := congrArg List.reverse h; simpa using this⟩
  · rintro ⟨r, rfl⟩
    exact ⟨r.reverse, by simp⟩

theorem localName_suffix (t n : Str) (h : LocalName t n) : ∃ r, t = r ++ n := by
  rcases h with ⟨ns, rfl, _⟩ | ⟨rfl, _⟩
  · exact ⟨'{' :: ns ++ ['}'], by simp⟩
  · exact ⟨[], rfl⟩

/-- C76, the part that holds: when no attribute name in the tree merely ends with the key,
`findFirstWithAttributeValue` is the first element in the order of the document that has the attribute and value. Without that
hypothesis it is false (`findFirstWithAttributeValue_other_attribute`). -/
theorem findFirstWithAttributeValue_first_partial (pre key value : Str) (e : MeiEl) (hk : ':' ∉ key)
    (hpre : pre = [] ∨ ∃ p, pre = p ++ [':'] ∧ ':' ∉ p)
    (hsafe : ∀ x ∈ docOrder e, ∀ a v, (a, v) ∈ x.attrib → (∃ r, a = r ++ key) → LocalName a key) :
    (∀ f, findFirstWithAttributeValue (pre ++ key) value e = some f →
      ∃ b a, docOrder e = b ++ f :: a ∧ HasAttribute key value f ∧ ∀ x ∈ b, ¬ HasAttribute key value x) ∧
    (findFirstWithAttributeValue (pre ++ key) value e = none → ∀ x ∈ docOrder e, ¬ HasAttribute key value x) := by
  have hkey : (splitOn ':' (pre ++ key)).getLast?.getD [] = key := by
    rcases hpre with rfl | ⟨p, rfl, hp⟩
    · rw [List.nil_append, splitOn_of_not_mem ':' key hk]; rfl
    · rw [List.append_assoc, List.singleton_append, splitOn_append_sep ':' p key hp, splitOn_of_not_mem ':' key hk]; rfl
  have hiff : ∀ x ∈ docOrder e, hasAttr key value x = true ↔ HasAttribute key value x := by
    intro x hx
    simp only [hasAttr, List.any_eq_true, Bool.and_eq_true, beq_iff_eq, startsWith_reverse_iff, HasAttribute]
    constructor
    · rintro ⟨⟨a, v⟩, hm, hs, rfl⟩
      exact ⟨a, hsafe x hx a v hm hs, hm⟩
    · rintro ⟨a, hl, hm⟩
      exact ⟨(a, value), hm, localName_suffix a key hl, rfl⟩
  unfold findFirstWithAttributeValue
  rw [hkey, findAttr_docOrder]
  constructor
  · intro f hf
    rw [List.find?_eq_some_iff_append] at hf
    obtain ⟨h1, b, a, h2, h3⟩ := hf
    refine ⟨b, a, h2, (hiff f (by rw [h2]; simp)).1 h1, ?_⟩
    intro x hx hh
    have := h3 x hx
    rw [(hiff x (by rw [h2]; simp [hx])).2 hh] at this
    simp at this
  · intro hn x hx hh
    rw [List.find?_eq_none] at hn
    exact hn x hx ((hiff x hx).2 hh)

/-- C76 is false for attribute searches: the search for `xml:id` `a1` stops at an element whose `startid` is `a1`. -/
theorem findFirstWithAttributeValue_other_attribute :
    (findFirstWithAttributeValue "xml:id".toList "a1".toList
      (.mk "m".toList [] [] [] [.mk "slur".toList [("startid".toList, "a1".toList)] [] [] [],
        .mk "note".toList [("{ns}id".toList, "a1".toList)] [] [] []])).map MeiEl.tag = some "slur".toList ∧
    ¬ HasAttribute "id".toList "a1".toList (.mk "slur".toList [("startid".toList, "a1".toList)] [] [] []) := by
  refine ⟨by decide, ?_⟩
  rintro ⟨a, hl, hm⟩
  simp only [MeiEl.attrib, List.mem_singleton, Prod.mk.injEq] at hm
  rw [localName_iff, hm.1] at hl
  revert hl; decide

/-! ## Writing a tree and reading it back -/

/-- The tree that the builder makes of an element, with the tail it gets later. -/
def optStr (s : Str) : Option Str := if s.isEmpty then none else some s

mutual
def toX : MeiEl → XEl
  | .mk tag attrib text tail subs => .mk tag attrib (optStr text) (optStr tail) (toXIn subs)
def toXIn : List MeiEl → List XEl
  | [] => []
  | s :: ss => toX s :: toXIn ss
end

theorem orEmpty_optStr (s : Str) : XEl.orEmpty (optStr s) = s := by
  unfold optStr XEl.orEmpty; cases s <;> simp

mutual
theorem toMei_toX : ∀ e : MeiEl, XEl.toMei (toX e) = e
  | .mk _ _ _ _ subs => by rw [toX, XEl.toMei, orEmpty_optStr, orEmpty_optStr, toMeiIn_toXIn subs]
theorem toMeiIn_toXIn : ∀ es : List MeiEl, XEl.toMeiIn (toXIn es) = es
  | [] => by rw [toXIn, XEl.toMeiIn]
  | s :: ss => by rw [toXIn, XEl.toMeiIn, toMei_toX s, toMeiIn_toXIn ss]
end

theorem tbRun_append (st : TBState) (a b : List Ev) : tbRun st (a ++ b) = (tbRun st a).bind (fun s => tbRun s b) := by
  induction a generalizing st with
  | nil => simp [tbRun]
  | cons e es ih =>
    simp only [List.cons_append, tbRun]
    cases tbStep st e with
    | none => simp
    | some s => simp [ih]

/-- The frame after the pending data is flushed into it. -/
def flushed (f : XFrame) (p : Str) : XFrame := 
  if p.isEmpty then f else match f.kids with
    | [] => { f with text := some p }
    | k :: ks => { f with kids := XEl.setTail p k :: ks }

/-- The pending data that stands for a string. -/
def pend (p : Str) : List Str := if p.isEmpty then [] else [p]

theorem tbFlush_pend (f : XFrame) (fs : List XFrame) (p : Str) (r : Option XEl) :
    tbFlush ⟨f :: fs, pend p, r⟩ = ⟨flushed f p :: fs, [], r⟩ := by
  unfold tbFlush flushed pend
  cases p with
  | nil => simp
  | cons c cs =>
    simp only [List.isEmpty_cons, Bool.false_eq_true, if_false]
    cases f.kids <;> simp

theorem tbRun_data (st : TBState) (s : Str) (h : st.pending = []) :
    tbRun st (if s.isEmpty then [] else [.data s]) = some { st with pending := pend s } := by
  cases s with
  | nil => cases st; simp only [List.isEmpty_nil, if_true, tbRun, pend]; simp at h; simp [h]
  | cons c cs => simp [tbRun, tbStep, pend, h]

theorem toX_setTail (tag : Str) (attrib : List (Str × Str)) (text tail : Str) (subs : List MeiEl) :
    toX (.mk tag attrib text tail subs) = if tail.isEmpty then .mk tag attrib (optStr text) none (toXIn subs)
      else XEl.setTail tail (.mk tag attrib (optStr text) none (toXIn subs)) := by
  rw [toX]; unfold optStr XEl.setTail; cases tail <;> simp

theorem flushed_kids (g : XFrame) (tag : Str) (attrib : List (Str × Str)) (text tail : Str) (subs : List MeiEl) (ks : List XEl) :
    flushed { g with kids := .mk tag attrib (optStr text) none (toXIn subs) :: ks } tail =
      { g with kids := toX (.mk tag attrib text tail subs) :: ks } := by
  rw [toX_setTail]; unfold flushed; cases tail <;> simp

/-- What is left to do after the events of a run of siblings: the tail of the last one is still pending. -/
theorem flushed_text (tag : Str) (attrib : List (Str × Str)) (text : Str) :
    flushed ⟨tag, attrib, none, []⟩ text = ⟨tag, attrib, optStr text, []⟩ := by
  unfold flushed optStr; cases text <;> simp

theorem flushed_nil (f : XFrame) : flushed f [] = f := rfl

mutual
/-- Inside an open element, the events of an element add it to the sub-elements (its tail stays pending). -/
theorem run_events : ∀ (e : MeiEl) (f : XFrame) (fs : List XFrame) (p : Str) (r : Option XEl),
    ∃ (g : XFrame) (q : Str), tbRun ⟨f :: fs, pend p, r⟩ e.events = some ⟨g :: fs, pend q, r⟩ ∧
      flushed g q = { flushed f p with kids := toX e :: (flushed f p).kids }
  | .mk tag attrib text tail subs, f, fs, p, r => by
    obtain ⟨g, q, h1, h2⟩ := run_eventsIn subs ⟨tag, attrib, none, []⟩ (flushed f p :: fs) text r
    refine ⟨{ flushed f p with kids := .mk tag attrib (optStr text) none (toXIn subs) :: (flushed f p).kids }, tail, ?_, ?_⟩
    · rw [events]
      simp only [List.append_assoc]
      rw [tbRun_append]
      simp only [tbRun, tbStep, tbFlush_pend, Option.bind_some]
      rw [tbRun_append, tbRun_data _ _ rfl]
      simp only [Option.bind_some]
      rw [tbRun_append, h1]
      simp only [Option.bind_some]
      rw [tbRun_append]
      simp only [tbRun, tbStep, tbFlush_pend, h2, flushed_text, beq_self_eq_true, if_true, Option.bind_some,
        List.append_nil, List.reverse_reverse]
      rw [tbRun_data _ _ rfl]
    · exact flushed_kids _ _ _ _ _ _ _
theorem run_eventsIn : ∀ (es : List MeiEl) (f : XFrame) (fs : List XFrame) (p : Str) (r : Option XEl),
    ∃ (g : XFrame) (q : Str), tbRun ⟨f :: fs, pend p, r⟩ (eventsIn es) = some ⟨g :: fs, pend q, r⟩ ∧
      flushed g q = { flushed f p with kids := (toXIn es).reverse ++ (flushed f p).kids }
  | [], f, fs, p, r => ⟨f, p, by rw [eventsIn, tbRun], by simp [toXIn]⟩
  | s :: ss, f, fs, p, r => by
    obtain ⟨g, q, h1, h2⟩ := run_events s f fs p r
    obtain ⟨g', q', h3, h4⟩ := run_eventsIn ss g fs q r
    refine ⟨g', q', ?_, ?_⟩
    · rw [eventsIn, tbRun_append, h1]; exact h3
    · rw [h4, h2]; simp [toXIn]
end

/-- C76: writing an element (with all its sub-elements) never fails, and what is read back is the same tree; only the
text after the root element is dropped. -/
theorem rebuild_same (e : MeiEl) : rebuild e = some e.noTail := by
  obtain ⟨tag, attrib, text, tail, subs⟩ := e
  obtain ⟨g, q, h1, h2⟩ := run_eventsIn subs ⟨tag, attrib, none, []⟩ [] text none
  unfold rebuild
  rw [events]
  simp only [List.append_assoc]
  rw [tbRun_append]
  simp only [tbRun, tbStep, tbNew, Option.bind_some]
  rw [tbRun_append]
  have : tbFlush ⟨[], [], none⟩ = ⟨[], [], none⟩ := rfl
  rw [this, tbRun_data _ _ rfl]
  simp only [Option.bind_some]
  rw [tbRun_append, h1]
  simp only [Option.bind_some]
  rw [tbRun_append]
  simp only [tbRun, tbStep, tbFlush_pend, h2, flushed_text, beq_self_eq_true, if_true, Option.bind_some,
        List.append_nil, List.reverse_reverse]
  rw [tbRun_data _ _ rfl]
  simp only [Option.bind_some, tbClose, List.isEmpty_nil, if_true, Option.none_or, Option.map_some, XEl.toMei,
    orEmpty_optStr, toMeiIn_toXIn, noTail]
  rfl

example : (rebuild (.mk "a".toList [] "t".toList "x".toList [.mk "b".toList [] [] "u".toList [], .mk "c".toList [] [] [] []])).map
    (fun e => (e.text, e.tail, e.subs.map MeiEl.tail)) = some ("t".toList, [], ["u".toList, []]) := by decide

end C21
