import Verif.Model.MeiEnds
import Verif.Spec.MeiEnds
import Verif.Props.Arpeggios
/-
C133: hairpins and octave lines of an MEI file go from their start note to their end note.
-/
namespace C21

theorem hairKind_iff (e : TwoEl) (k : Str) : hairKind e = some k ↔ HairSpec e k := by
  obtain ⟨s, t, w, x⟩ := e
  unfold hairKind
  simp only
  constructor
  · intro h
    split at h
    · rename_i hw; subst hw; cases h; exact .cresc s t x
    · split at h
      · rename_i hw; subst hw; cases h; exact .dim s t x
      · cases h
  · intro h
    cases h
    · rfl
    · rfl

theorem ottKind_iff (e : TwoEl) (k : Str) : ottKind e = some k ↔ OttSpec e k := by
  obtain ⟨s, t, w, x⟩ := e
  unfold ottKind
  simp only
  constructor
  · intro h
    split at h
    · cases h
    · unfold ottTable at h
      simp only [List.lookup_cons, List.lookup_nil] at h
      repeat' split at h
      all_goals first
        | (cases h; done)
        | (rename_i hb; have hb' := eq_of_beq hb; cases hb'; cases h; constructor)
  · intro h
    cases h <;> decide +kernel

theorem starts_mem (kind : TwoEl → Option Str) (es : List TwoEl) (id : Str) (i : Nat) :
    (id, i) ∈ twoStarts kind es ↔ id ≠ [] ∧ ∃ e k, es[i]? = some e ∧ kind e = some k ∧ refersTo e.startRef id := by
  unfold twoStarts
  rw [List.mem_filterMap]
  constructor
  · rintro ⟨⟨e, j⟩, hm, hw⟩
    simp only at hw
    split at hw
    · rename_i hc
      cases hw
      obtain ⟨k, hk⟩ := Option.isSome_iff_exists.1 hc.1
      exact ⟨hc.2, e, k, List.mem_zipIdx_iff_getElem?.1 hm, hk, (strip_iff _ _).1 rfl⟩
    · cases hw
  · rintro ⟨h0, e, k, he, hk, hr⟩
    refine ⟨(e, i), List.mem_zipIdx_iff_getElem?.2 he, ?_⟩
    have := (strip_iff _ _).2 hr
    simp [hk, this, h0]

theorem ends_mem (kind : TwoEl → Option Str) (es : List TwoEl) (id : Str) (i : Nat) :
    (id, i) ∈ twoEnds kind es ↔ id ≠ [] ∧ ∃ e k, es[i]? = some e ∧ kind e = some k ∧ refersTo e.endRef id := by
  unfold twoEnds
  rw [List.mem_filterMap]
  constructor
  · rintro ⟨⟨e, j⟩, hm, hw⟩
    simp only at hw
    split at hw
    · rename_i hc
      cases hw
      obtain ⟨k, hk⟩ := Option.isSome_iff_exists.1 hc.1
      exact ⟨hc.2, e, k, List.mem_zipIdx_iff_getElem?.1 hm, hk, (strip_iff _ _).1 rfl⟩
    · cases hw
  · rintro ⟨h0, e, k, he, hk, hr⟩
    refine ⟨(e, i), List.mem_zipIdx_iff_getElem?.2 he, ?_⟩
    have := (strip_iff _ _).2 hr
    simp [hk, this, h0]

theorem lastFor_mem {α : Type} (ws : List (Str × α)) (id : Str) (r : α) (h : lastFor ws id = some r) : (id, r) ∈ ws := by
  unfold lastFor at h
  obtain ⟨⟨k, v⟩, hw, hr⟩ := List.mem_filterMap.1 (List.mem_of_getLast? h)
  by_cases hk : k = id
  · simp only [hk, if_true, Option.some.injEq] at hr
    subst hk hr
    exact hw
  · simp [hk] at hr

theorem opt_pick (o : Option Nat) (i : Nat) (n : Str) :
    o.toList.filterMap (fun j => if j = i then some n else none) = if o = some i then [n] else [] := by
  cases o with
  | none => simp
  | some j => by_cases h : j = i <;> simp [h]

theorem refers_unique (x a b : Str) (ha : refersTo x a) (hb : refersTo x b) : a = b :=
  ((strip_iff x a).2 ha).symm.trans ((strip_iff x b).2 hb)

/-- C133: a hairpin or an octave line whose start note and end note are its own has exactly these notes, the start note
first. -/
theorem two_ends_general (kind : TwoEl → Option Str) (es : List TwoEl) (i : Nat) (e : TwoEl) (k s t : Str) (he : es[i]? = some e) (hk : kind e = some k)
    (hs : refersTo e.startRef s) (ht : refersTo e.endRef t) (hs0 : s ≠ []) (ht0 : t ≠ []) (how : OwnEnds kind es i s t)
    (pre mid post : List Str) (hn : (pre ++ s :: (mid ++ t :: post)).Nodup) :
    twoMembers kind es (pre ++ s :: (mid ++ t :: post)) i = [s, t] := by
  have h1 : ∀ n, lastFor (twoStarts kind es) n = some i ↔ n = s := by
    intro n
    constructor
    · intro h
      obtain ⟨-, e', k', he', -, hr⟩ := (starts_mem kind es n i).1 (lastFor_mem _ _ _ h)
      have := he.symm.trans he'
      cases this
      exact refers_unique _ _ _ hr hs
    · rintro rfl
      rw [lastFor_iff]
      · exact (starts_mem kind es n i).2 ⟨hs0, e, k, he, hk, hs⟩
      · intro a b ha hb
        obtain ⟨-, ea, ka, ga, ha2, ha3⟩ := (starts_mem kind es n a).1 ha
        obtain ⟨-, eb, kb, gb, hb2, hb3⟩ := (starts_mem kind es n b).1 hb
        rw [how a ea ka ga ha2 (Or.inl ha3), how b eb kb gb hb2 (Or.inl hb3)]
  have h2 : ∀ n, lastFor (twoEnds kind es) n = some i ↔ n = t := by
    intro n
    constructor
    · intro h
      obtain ⟨-, e', k', he', -, hr⟩ := (ends_mem kind es n i).1 (lastFor_mem _ _ _ h)
      have := he.symm.trans he'
      cases this
      exact refers_unique _ _ _ hr ht
    · rintro rfl
      rw [lastFor_iff]
      · exact (ends_mem kind es n i).2 ⟨ht0, e, k, he, hk, ht⟩
      · intro a b ha hb
        obtain ⟨-, ea, ka, ga, ha2, ha3⟩ := (ends_mem kind es n a).1 ha
        obtain ⟨-, eb, kb, gb, hb2, hb3⟩ := (ends_mem kind es n b).1 hb
        rw [how a ea ka ga ha2 (Or.inr ha3), how b eb kb gb hb2 (Or.inr hb3)]
  have hf : ∀ n, (twoAdds kind es n).filterMap (fun j => if j = i then some n else none) = (if n = s then [n] else []) ++ (if n = t then [n] else []) := by
    intro n
    unfold twoAdds
    rw [List.filterMap_append, opt_pick, opt_pick]
    simp only [h1, h2]
  have hz : ∀ l : List Str, s ∉ l → t ∉ l → l.flatMap (fun n => (twoAdds kind es n).filterMap (fun j => if j = i then some n else none)) = [] := by
    intro l hls hlt
    rw [List.flatMap_eq_nil_iff]
    intro n hnl
    rw [hf, if_neg (show ¬ n = s from fun h => hls (h ▸ hnl)), if_neg (show ¬ n = t from fun h => hlt (h ▸ hnl))]
    rfl
  simp only [List.nodup_append, List.nodup_cons, List.mem_cons, List.mem_append, not_or] at hn
  obtain ⟨-, ⟨⟨hsm, hst, hsp⟩, -, ⟨htp, -⟩, hmid⟩, hpre⟩ := hn
  have hpres : s ∉ pre := fun h => hpre s h s (Or.inl rfl) rfl
  have hpret : t ∉ pre := fun h => hpre t h t (Or.inr (Or.inr (Or.inl rfl))) rfl
  have hmt : t ∉ mid := fun h => hmid t h t (Or.inl rfl) rfl
  unfold twoMembers twoAdded
  rw [List.flatMap_append, hz pre hpres hpret, List.flatMap_cons, List.flatMap_append, hz mid hsm hmt, List.flatMap_cons, hz post hsp htp, hf, hf]
  have hts : t ≠ s := fun h => hst h.symm
  simp [hst, hts]

/-- C133 for hairpins: there is a wedge of the kind its form says, from the start note to the end note. -/
theorem hairpin_ends_partial (es : List TwoEl) (i : Nat) (e : TwoEl) (k s t : Str) (he : es[i]? = some e) (hk : HairSpec e k)
    (hs : refersTo e.startRef s) (ht : refersTo e.endRef t) (hs0 : s ≠ []) (ht0 : t ≠ []) (how : OwnEnds hairKind es i s t)
    (pre mid post : List Str) (hn : (pre ++ s :: (mid ++ t :: post)).Nodup) :
    (i, k) ∈ twoSpanners hairKind es ∧ twoMembers hairKind es (pre ++ s :: (mid ++ t :: post)) i = [s, t] := by
  have hk' := (hairKind_iff e k).2 hk
  refine ⟨?_, two_ends_general hairKind es i e k s t he hk' hs ht hs0 ht0 how pre mid post hn⟩
  exact List.mem_filterMap.2 ⟨(e, i), List.mem_zipIdx_iff_getElem?.2 he, by simp [hk']⟩

/-- C133 for octave lines: there is a line of the type its distance and side say, from the start note to the end note. -/
theorem ottava_ends_partial (es : List TwoEl) (i : Nat) (e : TwoEl) (k s t : Str) (he : es[i]? = some e) (hk : OttSpec e k)
    (hs : refersTo e.startRef s) (ht : refersTo e.endRef t) (hs0 : s ≠ []) (ht0 : t ≠ []) (how : OwnEnds ottKind es i s t)
    (pre mid post : List Str) (hn : (pre ++ s :: (mid ++ t :: post)).Nodup) :
    (i, k) ∈ twoSpanners ottKind es ∧ twoMembers ottKind es (pre ++ s :: (mid ++ t :: post)) i = [s, t] := by
  have hk' := (ottKind_iff e k).2 hk
  refine ⟨?_, two_ends_general ottKind es i e k s t he hk' hs ht hs0 ht0 how pre mid post hn⟩
  exact List.mem_filterMap.2 ⟨(e, i), List.mem_zipIdx_iff_getElem?.2 he, by simp [hk']⟩

/-- C133: there are no other wedges than those the elements say, each once. -/
theorem hairpins_only (es : List TwoEl) (i : Nat) (k : Str) :
    (i, k) ∈ twoSpanners hairKind es ↔ ∃ e, es[i]? = some e ∧ HairSpec e k := by
  unfold twoSpanners
  rw [List.mem_filterMap]
  constructor
  · rintro ⟨⟨e, j⟩, hm, hw⟩
    obtain ⟨k', hk, hjk⟩ := Option.map_eq_some_iff.1 hw
    cases hjk
    exact ⟨e, List.mem_zipIdx_iff_getElem?.1 hm, (hairKind_iff e k).1 hk⟩
  · rintro ⟨e, he, hk⟩
    exact ⟨(e, i), List.mem_zipIdx_iff_getElem?.2 he, by simp [(hairKind_iff e k).2 hk]⟩

/-- C133: there are no other octave lines than those the elements say, each once. -/
theorem ottavas_only (es : List TwoEl) (i : Nat) (k : Str) :
    (i, k) ∈ twoSpanners ottKind es ↔ ∃ e, es[i]? = some e ∧ OttSpec e k := by
  unfold twoSpanners
  rw [List.mem_filterMap]
  constructor
  · rintro ⟨⟨e, j⟩, hm, hw⟩
    obtain ⟨k', hk, hjk⟩ := Option.map_eq_some_iff.1 hw
    cases hjk
    exact ⟨e, List.mem_zipIdx_iff_getElem?.1 hm, (ottKind_iff e k).1 hk⟩
  · rintro ⟨e, he, hk⟩
    exact ⟨(e, i), List.mem_zipIdx_iff_getElem?.2 he, by simp [(ottKind_iff e k).2 hk]⟩

/-! ## Where the claim is false -/

/-- Two hairpins that start at the same note, in two staves or above and below: the first loses its start note. -/
theorem shared_start_breaks :
    twoMembers hairKind [⟨"#a".toList, "#b".toList, "cres".toList, []⟩, ⟨"#a".toList, "#c".toList, "dim".toList, []⟩] ["a".toList, "b".toList, "c".toList] 0 =
      ["b".toList] := by decide +kernel

/-- Two hairpins that end at the same note: the first loses its end note. -/
theorem shared_end_breaks :
    twoMembers hairKind [⟨"#a".toList, "#c".toList, "cres".toList, []⟩, ⟨"#b".toList, "#c".toList, "cres".toList, []⟩] ["a".toList, "b".toList, "c".toList] 0 =
      ["a".toList] := by decide +kernel

/-- When the end note is read before the start note, as with notes of different staves, the order is turned round. -/
theorem other_staff_turns :
    twoMembers hairKind [⟨"#b".toList, "#a".toList, "cres".toList, []⟩] ["a".toList, "b".toList] 0 = ["a".toList, "b".toList] := by decide +kernel

/-! ## The hypotheses are met -/

/-- A crescendo, a diminuendo from its end note, and an element with an unknown form. -/
def twoEls : List TwoEl :=
  [⟨"#a".toList, "#b".toList, "cres".toList, []⟩, ⟨"#b".toList, "#d".toList, "dim".toList, []⟩, ⟨"#b".toList, "#d".toList, "x".toList, []⟩]

theorem twoEls_own : OwnEnds hairKind twoEls 1 "b".toList "d".toList := by
  have h : ∀ p ∈ twoEls.zipIdx, (hairKind p.1).isSome = true → (removeHash p.1.startRef = "b".toList ∨ removeHash p.1.endRef = "d".toList) → p.2 = 1 := by
    decide +kernel
  intro j b k hj hk hr
  exact h (b, j) (List.mem_zipIdx_iff_getElem?.2 hj) (by simp [hk]) (hr.imp (strip_iff _ _).2 (strip_iff _ _).2)

example : (1, "Diminuendo".toList) ∈ twoSpanners hairKind twoEls ∧
    twoMembers hairKind twoEls ["a".toList, "b".toList, "c".toList, "d".toList] 1 = ["b".toList, "d".toList] :=
  hairpin_ends_partial twoEls 1 ⟨"#b".toList, "#d".toList, "dim".toList, []⟩ _ "b".toList "d".toList rfl (.dim _ _ _) (Or.inl rfl) (Or.inl rfl)
    (by decide) (by decide) twoEls_own ["a".toList] ["c".toList] [] (by decide +kernel)

example : twoMembers ottKind [⟨"#a".toList, "#b".toList, "8".toList, "below".toList⟩] ["a".toList, "b".toList] 0 = ["a".toList, "b".toList] := by
  decide +kernel

end C21
