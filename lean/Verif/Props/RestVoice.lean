import Verif.Spec.RestVoice
import Verif.Props.Measure
import Verif.Props.DurSplit
import Verif.Lemmas.Tac
import Mathlib.Tactic.Positivity
import Mathlib.Tactic.NormNum
/-
C75: an object that starts where no note of its staff does gets a line at its own time, with a voice of invisible rests that
fills the measure; nothing else changes.
-/
namespace C21

/-! ### One line -/

theorem voiceCount_eq (x : GSlice) (p s : Nat) : x.voiceCount p s = (x.voicesAt p s).map List.length := by
  unfold GSlice.voiceCount GSlice.voicesAt
  rw [Option.map_map]
  rfl

theorem content_voice (x : GSlice) (p s v : Nat) :
    x.content (.voice p s v) = (x.voicesAt p s).bind (fun vs => (vs[v]?).bind GCell.text?) := by
  show x.cell p s v = _
  unfold GSlice.cell GSlice.voicesAt
  cases (x.parts[p]?).bind (fun part => part.staves[s]?) <;> rfl

/-- Changing the voices of a staff. -/
theorem withVoices_spec (x : GSlice) (p s : Nat) (f : List GCell → List GCell) (vs : List GCell) (h : x.voicesAt p s = some vs) :
    ∃ y, x.withVoices p s f = .ok y ∧ SameSlot x y ∧ y.voicesAt p s = some (f vs) ∧
      ∀ id, (∀ v, id ≠ .voice p s v) → y.content id = x.content id := by
  unfold GSlice.voicesAt at h
  unfold GSlice.withVoices
  cases hp : x.parts[p]? with
  | none => rw [hp] at h; simp at h
  | some part =>
    rw [hp] at h
    simp only [Option.bind_some] at h
    cases hs : part.staves[s]? with
    | none => rw [hs] at h; simp at h
    | some st =>
      rw [hs, Option.map_some, Option.some.injEq] at h
      subst h
      dsimp only
      rw [hs]
      dsimp only
      have hpl : p < x.parts.length := (List.getElem?_eq_some_iff.1 hp).1
      have hsl : s < part.staves.length := (List.getElem?_eq_some_iff.1 hs).1
      refine ⟨_, rfl, ⟨rfl, rfl⟩, ?_, ?_⟩
      · unfold GSlice.voicesAt
        simp [hpl, hsl]
      · intro id hid
        have hstaff : ∀ p' s', (p', s') ≠ (p, s) →
            ((x.parts.set p { part with staves := part.staves.set s { st with voices := f st.voices } })[p']?).bind
              (fun q => q.staves[s']?) = (x.parts[p']?).bind (fun q => q.staves[s']?) := by
          intro p' s' hne
          by_cases e : p' = p
          · subst e
            have hs' : s' ≠ s := fun e => hne (by rw [e])
            rw [List.getElem?_set_self hpl, hp, Option.bind_some, Option.bind_some, List.getElem?_set_ne (Ne.symm hs')]
          · rw [List.getElem?_set_ne (Ne.symm e)]
        have hpart : ∀ p' : Nat, ∀ g : GPart → Option Str,
            (∀ q : GPart, ∀ l, g { q with staves := l } = g q) →
            ((x.parts.set p { part with staves := part.staves.set s { st with voices := f st.voices } })[p']?).bind g
              = (x.parts[p']?).bind g := by
          intro p' g hg
          by_cases e : p' = p
          · subst e
            rw [List.getElem?_set_self hpl, hp, Option.bind_some, Option.bind_some, hg]
          · rw [List.getElem?_set_ne (Ne.symm e)]
        cases id with
        | voice p' s' v =>
          have hne : (p', s') ≠ (p, s) := by
            intro e
            simp only [Prod.mk.injEq] at e
            exact hid v (by rw [e.1, e.2])
          show (((_ : List GPart)[p']?.bind _).bind _).bind _ = _
          rw [hstaff p' s' hne]
          rfl
        | xmlId p' s' =>
          by_cases e : (p', s') = (p, s)
          · simp only [Prod.mk.injEq] at e
            obtain ⟨rfl, rfl⟩ := e
            show (((_ : List GPart)[p']?.bind _)).bind _ = ((x.parts[p']?).bind _).bind _
            rw [List.getElem?_set_self hpl, hp, Option.bind_some, Option.bind_some, List.getElem?_set_self hsl, hs]
            rfl
          · show (((_ : List GPart)[p']?.bind _)).bind _ = _
            rw [hstaff p' s' e]
            rfl
        | verse p' s' i =>
          by_cases e : (p', s') = (p, s)
          · simp only [Prod.mk.injEq] at e
            obtain ⟨rfl, rfl⟩ := e
            show ((((_ : List GPart)[p']?.bind _)).bind _).bind _ = (((x.parts[p']?).bind _).bind _).bind _
            rw [List.getElem?_set_self hpl, hp, Option.bind_some, Option.bind_some, List.getElem?_set_self hsl, hs]
            rfl
          · show ((((_ : List GPart)[p']?.bind _)).bind _).bind _ = _
            rw [hstaff p' s' e]
            rfl
        | dynam p' => exact hpart p' (fun q => q.dynamics) (fun _ _ => rfl)
        | figuredBass p' => exact hpart p' (fun q => q.figuredBass) (fun _ _ => rfl)
        | harmony p' => exact hpart p' (fun q => q.harmony) (fun _ _ => rfl)

/-- Two lists of voices with the same tokens. -/
theorem padTo_get (n : Nat) (vs : List GCell) (v : Nat) :
    ((padTo n vs)[v]?).bind GCell.text? = (vs[v]?).bind GCell.text? := by
  unfold padTo
  by_cases h : v < vs.length
  · rw [List.getElem?_append_left h]
  · rw [List.getElem?_append_right (by omega), List.getElem?_replicate, List.getElem?_eq_none (by omega)]
    split <;> rfl

theorem padTo_length (n : Nat) (vs : List GCell) : (padTo n vs).length = max n vs.length := by
  unfold padTo
  rw [List.length_append, List.length_replicate]
  omega

theorem snoc_text (l : List GCell) (c : GCell) (v : Nat) :
    ((l ++ [c])[v]?).bind GCell.text? = if v = l.length then c.text? else (l[v]?).bind GCell.text? := by
  by_cases h : v < l.length
  · rw [List.getElem?_append_left h, if_neg (by omega)]
  · by_cases e : v = l.length
    · subst e
      rw [if_pos rfl]
      simp
    · rw [if_neg e, List.getElem?_eq_none (by simp; omega), List.getElem?_eq_none (by omega)]

/-- The tokens of two lines are the same in a set of spines. -/
theorem content_of_voices {x y : GSlice} {p s : Nat} {vs ws : List GCell} (hx : x.voicesAt p s = some vs)
    (hy : y.voicesAt p s = some ws) (h : ∀ id, (∀ v, id ≠ .voice p s v) → y.content id = x.content id) (P : SpineId → Prop)
    (hv : ∀ v, P (.voice p s v) → (ws[v]?).bind GCell.text? = (vs[v]?).bind GCell.text?) (id : SpineId) (hid : P id) :
    y.content id = x.content id := by
  by_cases e : ∃ v, id = .voice p s v
  · obtain ⟨v, rfl⟩ := e
    rw [content_voice, content_voice, hx, hy]
    exact hv v hid
  · exact h id (fun v hv => e ⟨v, hv⟩)

/-- A rest in a new voice of a line. -/
theorem addRest_spec (x : GSlice) (p s n : Nat) (rest : Str) (vs : List GCell) (h : x.voicesAt p s = some vs)
    (hn : vs.length ≤ n) :
    ∃ y ws, x.withVoices p s (addRest n rest) = .ok y ∧ SameSlot x y ∧ y.voicesAt p s = some ws ∧ ws.length = n + 1 ∧
      ws.getLast? = some (.tok rest) ∧ (∀ id, id ≠ .voice p s n → y.content id = x.content id) ∧
      y.content (.voice p s n) = some rest ∧ x.content (.voice p s n) = none := by
  obtain ⟨y, h1, h2, h3, h4⟩ := withVoices_spec x p s (addRest n rest) vs h
  have hl : (padTo n vs).length = n := by rw [padTo_length]; omega
  refine ⟨y, _, h1, h2, h3, ?_, ?_, ?_, ?_, ?_⟩
  · unfold addRest
    rw [List.length_append, hl]
    rfl
  · unfold addRest
    simp
  · intro id hid
    refine content_of_voices h h3 h4 (fun id => id ≠ .voice p s n) ?_ id hid
    intro v hv
    have hvn : v ≠ n := fun e => hv (by rw [e])
    unfold addRest
    rw [snoc_text, hl, if_neg hvn, padTo_get]
  · rw [content_voice, h3]
    show ((addRest n rest vs)[n]?).bind GCell.text? = _
    unfold addRest
    rw [snoc_text, hl, if_pos rfl]
    rfl
  · rw [content_voice, h]
    show ((vs)[n]?).bind GCell.text? = _
    rw [List.getElem?_eq_none hn]
    rfl

/-- A staff that is done: at most `n` voices, or one more with a rest. -/
def RestReady (n : Nat) (vs : List GCell) : Prop := vs.length ≤ n ∨ (vs.length = n + 1 ∧ endsInRest vs.getLast? = true)

theorem finishVoices_spec (n : Nat) (vs : List GCell) (h : RestReady n vs) :
    (finishVoices n vs).length = n + 1 ∧ ∀ v : Nat, ((finishVoices n vs)[v]?).bind GCell.text? = (vs[v]?).bind GCell.text? := by
  unfold finishVoices
  rcases h with h | ⟨h, hr⟩
  · have hl : (padTo n vs).length = n := by rw [padTo_length]; omega
    rw [if_pos hl]
    refine ⟨by rw [List.length_append, hl]; rfl, ?_⟩
    intro v
    rw [snoc_text, padTo_get]
    by_cases e : v = (padTo n vs).length
    · rw [if_pos e, List.getElem?_eq_none (by omega)]
      rfl
    · rw [if_neg e]
  · have hp : padTo n vs = vs := by
      unfold padTo
      rw [show n - vs.length = 0 by omega]
      simp
    rw [hp, if_neg (by omega), if_pos hr]
    exact ⟨h, fun _ => rfl⟩

/-! ### Columns -/

theorem columnOf_append (id : SpineId) (a b : List GSlice) : columnOf id (a ++ b) = columnOf id a ++ columnOf id b := by
  unfold columnOf
  rw [List.filterMap_append]

theorem columnOf_cons (id : SpineId) (x : GSlice) (l : List GSlice) :
    columnOf id (x :: l) = ((x.content id).map (fun t => (x.time, t))).toList ++ columnOf id l := by
  unfold columnOf
  rw [List.filterMap_cons]
  cases x.content id <;> rfl

theorem columnOf_nil_of {id : SpineId} {l : List GSlice} (h : ∀ x ∈ l, x.content id = none) : columnOf id l = [] := by
  unfold columnOf
  rw [List.filterMap_eq_nil_iff]
  intro x hx
  rw [h x hx]
  rfl

theorem columnOf_same {id : SpineId} {l l' : List GSlice}
    (h : List.Forall₂ (fun a b : GSlice => SameSlot a b ∧ b.content id = a.content id) l l') :
    columnOf id l' = columnOf id l := by
  induction h with
  | nil => rfl
  | @cons a b l l' hab _ ih =>
    rw [columnOf_cons, columnOf_cons, ih, hab.2, hab.1.1]

/-! ### Adding the rests -/

theorem findNotes_some {t : Rat} (l : List GSlice) : ∀ (i j : Nat), findNotes t i l = some j →
    ∃ k x, j = i + k ∧ l[k]? = some x ∧ x.kind = .notes ∧ x.time = t := by
  induction l with
  | nil => intro i j h; simp [findNotes] at h
  | cons a l ih =>
    intro i j h
    rw [findNotes] at h
    by_cases h1 : a.kind ≠ .notes
    · rw [if_pos h1] at h
      obtain ⟨k, x, e, hx⟩ := ih _ _ h
      exact ⟨k + 1, x, by omega, by simpa using hx⟩
    rw [if_neg h1] at h
    by_cases h2 : t < a.time
    · rw [if_pos h2] at h
      cases h
    rw [if_neg h2] at h
    by_cases h3 : a.time = t
    · rw [if_pos h3] at h
      injection h with h
      exact ⟨0, a, by omega, rfl, not_not.1 h1, h3⟩
    · rw [if_neg h3] at h
      obtain ⟨k, x, e, hx⟩ := ih _ _ h
      exact ⟨k + 1, x, by omega, by simpa using hx⟩

theorem findNotes_none {t : Rat} (l : List GSlice) (hs : l.Pairwise (fun a b => a.time ≤ b.time)) : ∀ (i : Nat),
    findNotes t i l = none → ∀ x ∈ l, x.kind = .notes → x.time ≠ t := by
  induction l with
  | nil => intro i _ x hx; simp at hx
  | cons a l ih =>
    intro i h x hx hk
    rw [List.pairwise_cons] at hs
    rw [findNotes] at h
    by_cases h1 : a.kind ≠ .notes
    · rw [if_pos h1] at h
      rcases List.mem_cons.1 hx with rfl | hx
      · exact absurd hk h1
      · exact ih hs.2 _ h x hx hk
    rw [if_neg h1] at h
    by_cases h2 : t < a.time
    · rcases List.mem_cons.1 hx with rfl | hx
      · exact ne_of_gt h2
      · exact ne_of_gt (lt_of_lt_of_le h2 (hs.1 x hx))
    rw [if_neg h2] at h
    by_cases h3 : a.time = t
    · rw [if_pos h3] at h
      cases h
    · rw [if_neg h3] at h
      rcases List.mem_cons.1 hx with rfl | hx
      · exact h3
      · exact ih hs.2 _ h x hx hk

theorem notes_hasSpines : SliceKind.notes.hasSpines = true := by decide

/-- The lines while rests are added: rests are in place before time `t`. -/
structure RestsUpTo (endTime : Rat) (p s n : Nat) (t : Rat) (l : List GSlice) : Prop where
  ordered : Ordered endTime l
  has : ∀ x ∈ l, x.kind.hasSpines = true → (x.voicesAt p s).isSome
  most : ∀ x ∈ l, ∀ vs, x.voicesAt p s = some vs →
    vs.length ≤ n ∨ (x.kind = .notes ∧ x.time < t ∧ vs.length = n + 1 ∧ endsInRest vs.getLast? = true)

theorem restsUpTo_column {endTime : Rat} {p s n : Nat} {t : Rat} {l : List GSlice} (h : RestsUpTo endTime p s n t l) (x : GSlice)
    (hx : x ∈ l) (ht : t ≤ x.time) : x.content (.voice p s n) = none := by
  rw [content_voice]
  cases hv : x.voicesAt p s with
  | none => rfl
  | some vs =>
    show (vs[n]?).bind _ = none
    rcases h.most x hx vs hv with h1 | h1
    · rw [List.getElem?_eq_none h1]
      rfl
    · exact absurd h1.2.1 (not_lt.2 ht)

theorem endsInRest_restText (recip : Rat → Str) (d : Rat) : endsInRest (some (.tok (restText recip d))) = true := by
  unfold endsInRest restText
  rw [List.isSuffixOf_iff_suffix]
  exact List.suffix_append _ _

theorem appendRestVoice_spec (recip : Rat → Str) (endTime : Rat) (p s n : Nat) (t d : Rat) (l : List GSlice) (pattern : GSlice)
    (h : RestsUpTo endTime p s n t l) (hd : 0 < d) (he : t ≤ endTime)
    (hpat : ∃ vs, pattern.voicesAt p s = some vs ∧ vs.length = n) :
    ∃ l', appendRestVoice l t (restText recip d) (sliceLike pattern.time pattern.kind pattern) p s n = .ok l' ∧
      RestsUpTo endTime p s n (t + d) l' ∧
      columnOf (.voice p s n) l' = columnOf (.voice p s n) l ++ [(t, restText recip d)] ∧
      (∀ id, id ≠ .voice p s n → columnOf id l' = columnOf id l) ∧
      (∃ x ∈ l', x.kind = .notes) := by
  have hsorted := ordered_sorted h.ordered
  have htd : t < t + d := by linarith
  unfold appendRestVoice
  cases hf : findNotes t 0 l with
  | some j =>
    obtain ⟨k, x, hj, hx, hk, ht⟩ := findNotes_some l 0 j hf
    have hjk : j = k := by omega
    subst hjk
    have hmem : x ∈ l := List.mem_of_getElem? hx
    obtain ⟨vs, hvs⟩ := Option.isSome_iff_exists.1 (h.has x hmem (by rw [hk]; decide))
    have hle : vs.length ≤ n := by
      rcases h.most x hmem vs hvs with h1 | h1
      · exact h1
      · exact absurd h1.2.1 (by rw [ht]; exact lt_irrefl _)
    obtain ⟨y, ws, y1, y2, y3, y4, y5, y6, y7, y8⟩ := addRest_spec x p s n (restText recip d) vs hvs hle
    have hkl : j < l.length := (List.getElem?_eq_some_iff.1 hx).1
    have hxe : l[j] = x := (List.getElem?_eq_some_iff.1 hx).2
    have hl : l = l.take j ++ x :: l.drop (j + 1) := by
      rw [← hxe, List.getElem_cons_drop, List.take_append_drop]
    have hset : l.set j y = l.take j ++ y :: l.drop (j + 1) := by
      rw [List.set_eq_take_append_cons_drop, if_pos hkl]
    refine ⟨l.set j y, ?_, ?_, ?_, ?_, ?_⟩
    · dsimp only
      unfold changeAt
      rw [hx]
      dsimp only
      rw [y1]
      rfl
    · refine ⟨ordered_set h.ordered hx y2, ?_, ?_⟩
      · intro z hz hzs
        rcases List.mem_or_eq_of_mem_set hz with hz | rfl
        · exact h.has z hz hzs
        · rw [y3]; rfl
      · intro z hz zs hzs
        rcases List.mem_or_eq_of_mem_set hz with hz | rfl
        · rcases h.most z hz zs hzs with h1 | h1
          · exact Or.inl h1
          · exact Or.inr ⟨h1.1, lt_trans h1.2.1 htd, h1.2.2⟩
        · rw [y3] at hzs
          injection hzs with hzs
          subst hzs
          refine Or.inr ⟨by rw [y2.2, hk], by rw [y2.1, ht]; exact htd, y4, ?_⟩
          rw [y5]
          exact endsInRest_restText recip d
    · have hdrop : columnOf (.voice p s n) (l.drop (j + 1)) = [] := by
        apply columnOf_nil_of
        intro z hz
        refine restsUpTo_column h z (List.mem_of_mem_drop hz) ?_
        rw [hl, List.pairwise_append, List.pairwise_cons] at hsorted
        rw [← ht]
        exact hsorted.2.1.1 z hz
      rw [hset]
      conv_rhs => rw [hl]
      rw [columnOf_append, columnOf_cons, columnOf_append, columnOf_cons, hdrop, y7, y8, y2.1, ht]
      simp
    · intro id hid
      rw [hset]
      conv_rhs => rw [hl]
      rw [columnOf_append, columnOf_cons, columnOf_append, columnOf_cons, y6 id hid, y2.1]
    · exact ⟨y, List.mem_set hkl y, by rw [y2.2, hk]⟩
  | none =>
    have hnone := findNotes_none l hsorted 0 hf
    obtain ⟨vs, hvs, hvl⟩ := hpat
    have hcont : ∀ id, (sliceLike t .notes (sliceLike pattern.time pattern.kind pattern)).content id = none := by
      intro id
      have hcell : ∀ x : GSlice, ∀ p s v, (sliceLike t .notes x).cell p s v = none := by
        intro x p s v
        unfold GSlice.cell sliceLike
        dsimp only
        rw [List.getElem?_map]
        cases x.parts[p]? with
        | none => rfl
        | some part =>
          simp only [Option.map_some, Option.bind_some, List.getElem?_map]
          cases part.staves[s]? with
          | none => rfl
          | some st =>
            simp only [Option.map_some, Option.bind_some, List.getElem?_map]
            cases st.voices[v]? <;> rfl
      cases id with
      | voice p s v => exact hcell _ p s v
      | xmlId p s =>
        unfold GSlice.content sliceLike
        simp only [List.getElem?_map]
        cases pattern.parts[p]? with
        | none => rfl
        | some part =>
          simp only [Option.map_some, Option.bind_some, List.getElem?_map]
          cases part.staves[s]? <;> rfl
      | verse p s i =>
        unfold GSlice.content sliceLike
        simp only [List.getElem?_map]
        cases pattern.parts[p]? with
        | none => rfl
        | some part =>
          simp only [Option.map_some, Option.bind_some, List.getElem?_map]
          cases part.staves[s]? with
          | none => rfl
          | some st => simp
      | dynam p =>
        unfold GSlice.content sliceLike
        simp only [List.getElem?_map]
        cases pattern.parts[p]? <;> rfl
      | figuredBass p =>
        unfold GSlice.content sliceLike
        simp only [List.getElem?_map]
        cases pattern.parts[p]? <;> rfl
      | harmony p =>
        unfold GSlice.content sliceLike
        simp only [List.getElem?_map]
        cases pattern.parts[p]? <;> rfl
    have hlike : ∀ (x : GSlice) (t : Rat) (k : SliceKind) (vs : List GCell), x.voicesAt p s = some vs →
        ∃ ws, (sliceLike t k x).voicesAt p s = some ws ∧ ws.length = vs.length := by
      intro x t k vs hv
      unfold GSlice.voicesAt at hv
      unfold GSlice.voicesAt sliceLike
      dsimp only
      rw [List.getElem?_map]
      cases hp : x.parts[p]? with
      | none => rw [hp] at hv; simp at hv
      | some part =>
        rw [hp] at hv
        simp only [Option.map_some, Option.bind_some, List.getElem?_map] at hv ⊢
        cases hs : part.staves[s]? with
        | none => rw [hs] at hv; simp at hv
        | some st =>
          rw [hs] at hv
          simp only [Option.map_some, Option.some.injEq] at hv ⊢
          subst hv
          exact ⟨_, rfl, by simp⟩
    obtain ⟨ws1, hw1, hwl1⟩ := hlike pattern pattern.time pattern.kind vs hvs
    obtain ⟨ws2, hw2, hwl2⟩ := hlike _ t .notes ws1 hw1
    obtain ⟨y, ws, y1, y2, y3, y4, y5, y6, y7, y8⟩ := addRest_spec _ p s n (restText recip d) ws2 hw2 (by omega)
    have hyt : y.time = t := y2.1
    have hyk : y.kind = .notes := y2.2
    obtain ⟨i, hi, hins, hb, ha⟩ := insertByTime_spec l y hsorted
    rw [hyt] at hb ha
    refine ⟨insertAt l i y, ?_, ?_, ?_, ?_, ?_⟩
    · dsimp only
      rw [y1]
      exact hins
    · refine ⟨ordered_insertByTime h.ordered y hyk (by rw [hyt]; exact he) (by rw [hyt]; exact hnone) hins, ?_, ?_⟩
      · intro z hz hzs
        rcases (mem_insertAt l i y z).1 hz with rfl | hz
        · rw [y3]; rfl
        · exact h.has z hz hzs
      · intro z hz zs hzs
        rcases (mem_insertAt l i y z).1 hz with rfl | hz
        · rw [y3] at hzs
          injection hzs with hzs
          subst hzs
          refine Or.inr ⟨hyk, by rw [hyt]; exact htd, y4, ?_⟩
          rw [y5]
          exact endsInRest_restText recip d
        · rcases h.most z hz zs hzs with h1 | h1
          · exact Or.inl h1
          · exact Or.inr ⟨h1.1, lt_trans h1.2.1 htd, h1.2.2⟩
    · have hdrop : columnOf (.voice p s n) (l.drop i) = [] := by
        apply columnOf_nil_of
        intro z hz
        refine restsUpTo_column h z (List.mem_of_mem_drop hz) ?_
        obtain ⟨m, hm⟩ := List.getElem?_of_mem hz
        rw [List.getElem?_drop] at hm
        exact le_of_lt (ha (i + m) z hm (by omega))
      have hl : columnOf (.voice p s n) l = columnOf (.voice p s n) (l.take i) := by
        conv_lhs => rw [← List.take_append_drop i l]
        rw [columnOf_append, hdrop, List.append_nil]
      unfold insertAt
      rw [columnOf_append, columnOf_cons, hdrop, hl, y7, hyt]
      simp
    · intro id hid
      unfold insertAt
      conv_rhs => rw [← List.take_append_drop i l]
      rw [columnOf_append, columnOf_cons, columnOf_append, y6 id hid, hcont id]
      simp
    · exact ⟨y, (mem_insertAt l i y y).2 (Or.inl rfl), hyk⟩

theorem appendRests_spec (recip : Rat → Str) (endTime : Rat) (p s n : Nat) (pattern : GSlice)
    (hpat : ∃ vs, pattern.voicesAt p s = some vs ∧ vs.length = n) (ds : List Rat) :
    ∀ (l : List GSlice) (t : Rat), RestsUpTo endTime p s n t l → (∀ d ∈ ds, 0 < d) → t + ds.sum ≤ endTime →
    ∃ l', appendRests recip (sliceLike pattern.time pattern.kind pattern) p s n l t ds = .ok l' ∧
      RestsUpTo endTime p s n (t + ds.sum) l' ∧
      columnOf (.voice p s n) l' = columnOf (.voice p s n) l ++ restColumn recip t ds ∧
      (∀ id, id ≠ .voice p s n → columnOf id l' = columnOf id l) := by
  induction ds with
  | nil =>
    intro l t h _ _
    exact ⟨l, rfl, by simpa using h, by simp [restColumn], fun _ _ => rfl⟩
  | cons d ds ih =>
    intro l t h hpos hsum
    rw [List.sum_cons] at hsum
    have hd := hpos d List.mem_cons_self
    have hds : 0 ≤ ds.sum := List.sum_nonneg (fun x hx => le_of_lt (hpos x (List.mem_cons_of_mem _ hx)))
    obtain ⟨l1, a1, a2, a3, a4, _⟩ := appendRestVoice_spec recip endTime p s n t d l pattern h hd (by linarith) hpat
    obtain ⟨l2, b1, b2, b3, b4⟩ := ih l1 (t + d) a2 (fun x hx => hpos x (List.mem_cons_of_mem _ hx)) (by linarith)
    refine ⟨l2, ?_, ?_, ?_, ?_⟩
    · rw [appendRests, a1]
      exact b1
    · rw [List.sum_cons, ← add_assoc]
      exact b2
    · rw [b3, a3, restColumn, List.append_assoc]
      rfl
    · intro id hid
      rw [b4 id hid, a4 id hid]

/-! ### The other lines -/

theorem finishRests_spec (p s n : Nat) (l : List GSlice) : ∀ (found : Bool),
    (∀ x ∈ l, x.kind.hasSpines = true → ∃ vs, x.voicesAt p s = some vs ∧ RestReady n vs) →
    ∃ l', finishRests p s n found l = .ok l' ∧
      List.Forall₂ (fun a b : GSlice => SameSlot a b ∧ (∀ id, b.content id = a.content id) ∧
        (b = a ∨ ∃ vs, b.voicesAt p s = some vs ∧ vs.length = n + 1)) l l' ∧
      ∀ x ∈ (if found = true then l' else l'.dropWhile (fun x => x.kind ≠ .notes)), x.kind.hasSpines = true →
        x.voiceCount p s = some (n + 1) := by
  induction l with
  | nil =>
    intro found _
    exact ⟨[], rfl, List.Forall₂.nil, by cases found <;> simp⟩
  | cons a l ih =>
    intro found h
    have hl : ∀ x ∈ l, x.kind.hasSpines = true → ∃ vs, x.voicesAt p s = some vs ∧ RestReady n vs :=
      fun x hx => h x (List.mem_cons_of_mem _ hx)
    by_cases c1 : found = false ∧ a.kind ≠ .notes
    · obtain ⟨hfound, hk⟩ := c1
      subst hfound
      obtain ⟨l', h1, h2, h3⟩ := ih false hl
      refine ⟨a :: l', ?_, ?_, ?_⟩
      · rw [finishRests, if_pos ⟨rfl, hk⟩, h1]
        rfl
      · exact List.Forall₂.cons ⟨sameSlot_refl a, fun _ => rfl, Or.inl rfl⟩ h2
      · rw [if_neg (by simp)] at h3 ⊢
        rw [List.dropWhile_cons_of_pos (by simpa using hk)]
        exact h3
    · obtain ⟨l', h1, h2, h3⟩ := ih true hl
      rw [if_pos rfl] at h3
      have htail : ∀ b : GSlice, b.kind = a.kind → (b.kind.hasSpines = true → b.voiceCount p s = some (n + 1)) →
          ∀ x ∈ (if found = true then b :: l' else (b :: l').dropWhile (fun x => x.kind ≠ .notes)), x.kind.hasSpines = true →
            x.voiceCount p s = some (n + 1) := by
        intro b hbk hb
        have hd : (if found = true then b :: l' else (b :: l').dropWhile (fun x => x.kind ≠ .notes)) = b :: l' := by
          cases found with
          | true => rfl
          | false =>
            have : a.kind = .notes := by
              by_contra hne
              exact c1 ⟨rfl, hne⟩
            rw [if_neg (by simp), List.dropWhile_cons_of_neg (by simp [hbk, this])]
        rw [hd]
        intro x hx hs
        rcases List.mem_cons.1 hx with rfl | hx
        · exact hb hs
        · exact h3 x hx hs
      by_cases c2 : a.kind.hasSpines = false
      · refine ⟨a :: l', ?_, ?_, ?_⟩
        · rw [finishRests, if_neg c1, if_pos c2, h1]
          rfl
        · exact List.Forall₂.cons ⟨sameSlot_refl a, fun _ => rfl, Or.inl rfl⟩ h2
        · exact htail a rfl (fun hs => by rw [c2] at hs; cases hs)
      · have hsp : a.kind.hasSpines = true := by simpa using c2
        obtain ⟨vs, hvs, hready⟩ := h a List.mem_cons_self hsp
        obtain ⟨y, y1, y2, y3, y4⟩ := withVoices_spec a p s (finishVoices n) vs hvs
        obtain ⟨f1, f2⟩ := finishVoices_spec n vs hready
        refine ⟨y :: l', ?_, ?_, ?_⟩
        · rw [finishRests, if_neg c1, if_neg c2, y1, h1]
          rfl
        · refine List.Forall₂.cons ⟨y2, ?_, Or.inr ⟨_, y3, f1⟩⟩ h2
          intro id
          exact content_of_voices hvs y3 y4 (fun _ => True) (fun v _ => f2 v) id trivial
        · refine htail y y2.2 (fun _ => ?_)
          rw [voiceCount_eq, y3, Option.map_some, f1]

/-- C75, the rests: with any durations that stay in the measure, the two steps make the voice of rests and change nothing
else. They never fail. -/
theorem rest_voice_added (recip : Rat → Str) (endTime : Rat) (p s n : Nat) (pattern : GSlice) (hpat : pattern.voiceCount p s = some n)
    (l : List GSlice) (h : StaffFits endTime p s n l) (t : Rat) (ds : List Rat) (hpos : ∀ d ∈ ds, 0 < d)
    (hsum : t + ds.sum ≤ endTime) :
    ∃ l1 l2, appendRests recip (sliceLike pattern.time pattern.kind pattern) p s n l t ds = .ok l1 ∧
      finishRests p s n false l1 = .ok l2 ∧ RestVoiceAdded recip endTime p s n t ds l l2 := by
  have hpat' : ∃ vs, pattern.voicesAt p s = some vs ∧ vs.length = n := by
    rw [voiceCount_eq, Option.map_eq_some_iff] at hpat
    exact hpat
  have hup : RestsUpTo endTime p s n t l := by
    refine ⟨h.ordered, ?_, ?_⟩
    · intro x hx hs
      have := h.has x hx hs
      rw [voiceCount_eq] at this
      simpa using this
    · intro x hx vs hvs
      refine Or.inl (h.most x hx vs.length ?_)
      rw [voiceCount_eq, hvs]
      rfl
  obtain ⟨l1, a1, a2, a3, a4⟩ := appendRests_spec recip endTime p s n pattern hpat' ds l t hup hpos hsum
  obtain ⟨l2, b1, b2, b3⟩ := finishRests_spec p s n l1 false (by
    intro x hx hs
    obtain ⟨vs, hvs⟩ := Option.isSome_iff_exists.1 (a2.has x hx hs)
    refine ⟨vs, hvs, ?_⟩
    rcases a2.most x hx vs hvs with h1 | h1
    · exact Or.inl h1
    · exact Or.inr h1.2.2)
  have hcol : ∀ id, columnOf id l2 = columnOf id l1 := fun id => columnOf_same (b2.imp (fun _ _ hab => ⟨hab.1, hab.2.1 id⟩))
  have hempty : columnOf (.voice p s n) l = [] := by
    apply columnOf_nil_of
    intro x hx
    rw [content_voice]
    cases hv : x.voicesAt p s with
    | none => rfl
    | some vs =>
      have := h.most x hx vs.length (by rw [voiceCount_eq, hv]; rfl)
      show (vs[n]?).bind _ = none
      rw [List.getElem?_eq_none this]
      rfl
  have hback : ∀ y ∈ l2, ∃ x ∈ l1, SameSlot x y ∧ (∀ id, y.content id = x.content id) ∧
      (y = x ∨ ∃ vs, y.voicesAt p s = some vs ∧ vs.length = n + 1) := by
    clear hcol b1 b3 a1 a2 a3 a4
    induction b2 with
    | nil => intro y hy; simp at hy
    | @cons a b l l' hab _ ih =>
      intro y hy
      rcases List.mem_cons.1 hy with rfl | hy
      · exact ⟨a, List.mem_cons_self, hab⟩
      · obtain ⟨x, hx, hxy⟩ := ih y hy
        exact ⟨x, List.mem_cons_of_mem _ hx, hxy⟩
  refine ⟨l1, l2, a1, b1, ⟨?_, ?_, ?_, ?_, ?_⟩⟩
  · rw [hcol, a3, hempty, List.nil_append]
  · intro id hid
    rw [hcol, a4 id hid]
  · intro y hy hc
    obtain ⟨x, hx, hxy⟩ := hback y hy
    rw [hxy.2.1, content_voice] at hc
    rw [hxy.1.2]
    cases hv : x.voicesAt p s with
    | none => rw [hv] at hc; cases hc
    | some vs =>
      rcases a2.most x hx vs hv with h1 | h1
      · rw [hv, Option.bind_some, List.getElem?_eq_none h1] at hc
        cases hc
      · exact h1.1
  · rw [if_neg (by simp)] at b3
    exact b3
  · refine ⟨ordered_sameSlot a2.ordered (b2.imp (fun _ _ hab => hab.1)), ?_, ?_⟩
    · intro y hy hs
      obtain ⟨x, hx, hxy⟩ := hback y hy
      rw [voiceCount_eq]
      rcases hxy.2.2 with rfl | ⟨vs, hvs, _⟩
      · have := a2.has y hx hs
        simpa using this
      · rw [hvs]; rfl
    · intro y hy k hk
      obtain ⟨x, hx, hxy⟩ := hback y hy
      rw [voiceCount_eq] at hk
      rcases hxy.2.2 with rfl | ⟨vs, hvs, hl⟩
      · cases hv : y.voicesAt p s with
        | none => rw [hv] at hk; cases hk
        | some vs =>
          rw [hv, Option.map_some, Option.some.injEq] at hk
          rcases a2.most y hx vs hv with h1 | h1 <;> omega
      · rw [hvs, Option.map_some, Option.some.injEq] at hk
        omega

/-! ### Where the object goes -/

theorem notatable_pos {d : Rat} (h : Notatable d) : 0 < d := by
  obtain ⟨k, n, _, rfl⟩ := h
  have h1 : (0 : Rat) < 2 ^ k := zpow_pos (by norm_num) k
  have h2 : (1 : Rat) / 2 ^ n ≤ 1 := by
    rw [div_le_one (by positivity)]
    exact one_le_pow₀ (by norm_num)
  exact mul_pos h1 (by linarith)

theorem splitInner_pos (tuplet : Rat → Rat → Except PyErr (List Rat × List Rat)) (hp : TupletPositive tuplet) (total crossing : Rat)
    (h0 : 0 ≤ crossing) (h1 : crossing ≤ total) (l1 l2 : List Rat) (h : splitInner tuplet total crossing = .ok (l1, l2)) :
    ∀ d ∈ l1 ++ l2, 0 < d := by
  unfold splitInner at h
  cases hx : splitSide crossing with
  | none => rw [hx] at h; exact hp _ _ _ _ h
  | some x =>
    cases hy : splitSide (total - crossing) with
    | none => rw [hx, hy] at h; exact hp _ _ _ _ h
    | some y =>
      rw [hx, hy] at h
      simp only [Except.ok.injEq, Prod.mk.injEq] at h
      obtain ⟨rfl, rfl⟩ := h
      intro d hd
      rcases List.mem_append.1 hd with hd | hd
      · exact notatable_pos ((splitSide_sum _ h0 _ hx).2 d hd)
      · exact notatable_pos ((splitSide_sum _ (by linarith) _ hy).2 d hd)

theorem splitCrossing_pos (tuplet : Rat → Rat → Except PyErr (List Rat × List Rat)) (hp : TupletPositive tuplet) (total crossing : Rat)
    (h0 : 0 ≤ crossing) (h1 : crossing ≤ total) (ht : 0 < total) (l1 l2 : List Rat)
    (h : splitCrossing tuplet total crossing = .ok (l1, l2)) : ∀ d ∈ l1 ++ l2, 0 < d := by
  unfold splitCrossing at h
  by_cases hboth : ∃ x y, splitSide crossing = some x ∧ splitSide (total - crossing) = some y
  · obtain ⟨x, y, hx, hy⟩ := hboth
    rw [hx, hy] at h
    refine splitInner_pos tuplet hp total crossing h0 h1 l1 l2 ?_
    unfold splitInner
    rw [hx, hy]
    exact h
  have h : (if isPow2Dots total then tuplet total crossing
    else
      match splitDurations total with
      | [] => .error .humdrumInternal
      | totalDurs =>
        match findPart crossing 0 0 totalDurs with
        | none => .error .humdrumInternal
        | some (i, newTotal, newCrossing) =>
          match splitInner tuplet newTotal newCrossing with
          | .error e => .error e
          | .ok (before, after) =>
            .ok ((if i = 0 then before else totalDurs.take (i - 1) ++ before),
              (if i = totalDurs.length - 1 then after else after ++ totalDurs.drop (i + 1)))) = .ok (l1, l2) := by
    cases hx : splitSide crossing with
    | none => rw [hx] at h; exact h
    | some x =>
      cases hy : splitSide (total - crossing) with
      | none => rw [hx, hy] at h; exact h
      | some y => exact absurd ⟨x, y, hx, hy⟩ hboth
  by_cases hp2 : isPow2Dots total = true
  · rw [if_pos hp2] at h
    exact hp _ _ _ _ h
  rw [if_neg hp2] at h
  cases hs : splitDurations total with
  | nil => rw [hs] at h; cases h
  | cons a as =>
    rw [hs] at h
    dsimp only at h
    have hmem : ∀ d ∈ a :: as, 0 < d := by
      rcases splitDurations_spec total ht with e | e
      · rw [hs] at e; cases e
      · rw [hs] at e
        exact fun d hd => notatable_pos (e.2 d hd)
    cases hf : findPart crossing 0 0 (a :: as) with
    | none => rw [hf] at h; cases h
    | some r =>
      obtain ⟨i, nt, nc⟩ := r
      rw [hf] at h
      dsimp only at h
      obtain ⟨k, _, hk, _, hc⟩ := findPart_spec _ _ _ _ _ _ _ hf
      cases hin : splitInner tuplet nt nc with
      | error e => rw [hin] at h; cases h
      | ok ba =>
        obtain ⟨before, after⟩ := ba
        rw [hin] at h
        simp only [Except.ok.injEq, Prod.mk.injEq] at h
        obtain ⟨rfl, rfl⟩ := h
        have hinner := splitInner_pos tuplet hp nt nc (by linarith [hc.1]) (by linarith [hc.2]) _ _ hin
        intro d hd
        rcases List.mem_append.1 hd with hd | hd
        · by_cases hi : i = 0
          · rw [if_pos hi] at hd
            exact hinner d (List.mem_append_left _ hd)
          · rw [if_neg hi] at hd
            rcases List.mem_append.1 hd with hd | hd
            · exact hmem d (List.mem_of_mem_take hd)
            · exact hinner d (List.mem_append_left _ hd)
        · by_cases hi : i = (a :: as).length - 1
          · rw [if_pos hi] at hd
            exact hinner d (List.mem_append_right _ hd)
          · rw [if_neg hi] at hd
            rcases List.mem_append.1 hd with hd | hd
            · exact hinner d (List.mem_append_right _ hd)
            · exact hmem d (List.mem_of_mem_drop hd)

theorem starts_text (c : GCell) : c.starts = true ↔ c.text?.isSome = true := by cases c <;> simp [GCell.starts, GCell.text?]

theorem any_starts (vs : List GCell) : vs.any GCell.starts = true ↔ ∃ v : Nat, ((vs[v]?).bind GCell.text?).isSome = true := by
  rw [List.any_eq_true]
  constructor
  · rintro ⟨c, hc, h⟩
    obtain ⟨v, hv⟩ := List.getElem?_of_mem hc
    exact ⟨v, by rw [hv]; exact (starts_text c).1 h⟩
  · rintro ⟨v, h⟩
    cases hv : vs[v]? with
    | none => rw [hv] at h; cases h
    | some c =>
      rw [hv] at h
      exact ⟨c, List.mem_of_getElem? hv, (starts_text c).2 h⟩

/-- The line starts a note exactly when the search thinks so, and for a staff it gives the voice. -/
theorem sliceStartsNote_iff (x : GSlice) (p : Nat) (s : Option Nat) : (sliceStartsNote x p s).isSome = true ↔ NoteStarts p s x := by
  unfold NoteStarts
  cases s with
  | some s0 =>
    unfold sliceStartsNote
    dsimp only
    by_cases hk : x.kind = .notes
    · rw [if_pos hk, Option.isSome_map]
      have : (startsIn x p s0).isSome = true ↔ ∃ v, (x.content (.voice p s0 v)).isSome = true := by
        simp only [content_voice]
        unfold startsIn
        cases x.voicesAt p s0 with
        | none => simp
        | some vs =>
          simp only [Option.bind_some]
          rw [← any_starts]
          by_cases ha : vs.any GCell.starts = true
          · rw [if_pos ha, ha]; simp
          · rw [if_neg ha]; simp [ha]
      rw [this]
      constructor
      · rintro ⟨v, hv⟩
        exact ⟨hk, s0, v, Or.inr rfl, hv⟩
      · rintro ⟨_, s', v, h | h, hv⟩
        · cases h
        · injection h with h
          exact ⟨v, by rw [h]; exact hv⟩
    · rw [if_neg hk]
      constructor
      · intro h; cases h
      · intro h; exact absurd h.1 hk
  | none =>
    unfold sliceStartsNote
    dsimp only
    by_cases hk : x.kind = .notes
    · rw [if_pos hk]
      have : ((x.parts[p]?).map (fun part => part.staves.any (fun st => st.voices.any GCell.starts))).getD false = true ↔
          ∃ s' v, (x.content (.voice p s' v)).isSome = true := by
        simp only [content_voice]
        unfold GSlice.voicesAt
        cases x.parts[p]? with
        | none => simp
        | some part =>
          simp only [Option.map_some, Option.getD_some, Option.bind_some, List.any_eq_true]
          constructor
          · rintro ⟨st, hst, h⟩
            obtain ⟨s', hs'⟩ := List.getElem?_of_mem hst
            have h : st.voices.any GCell.starts = true := by rw [List.any_eq_true]; exact h
            obtain ⟨v, hv⟩ := (any_starts st.voices).1 h
            exact ⟨s', v, by rw [hs']; exact hv⟩
          · rintro ⟨s', v, h⟩
            cases hs' : part.staves[s']? with
            | none => rw [hs'] at h; cases h
            | some st =>
              rw [hs'] at h
              have := (any_starts st.voices).2 ⟨v, h⟩
              rw [List.any_eq_true] at this
              exact ⟨st, List.mem_of_getElem? hs', this⟩
      by_cases hc : ((x.parts[p]?).map (fun part => part.staves.any (fun st => st.voices.any GCell.starts))).getD false = true
      · rw [if_pos hc]
        obtain ⟨s', v, hv⟩ := this.1 hc
        exact ⟨fun _ => ⟨hk, s', v, Or.inl rfl, hv⟩, fun _ => rfl⟩
      · rw [if_neg hc]
        constructor
        · intro h; cases h
        · rintro ⟨_, s', v, _, hv⟩
          exact absurd (this.2 ⟨s', v, hv⟩) hc
    · rw [if_neg hk]
      constructor
      · intro h; cases h
      · intro h; exact absurd h.1 hk

/-- The voice found for a staff has a note. -/
theorem sliceStartsNote_voice (x : GSlice) (p s : Nat) (v : Int) (h : sliceStartsNote x p (some s) = some v) :
    ∃ k : Nat, v = k ∧ (x.content (.voice p s k)).isSome = true := by
  unfold sliceStartsNote at h
  dsimp only at h
  by_cases hk : x.kind = .notes
  · rw [if_pos hk] at h
    rw [Option.map_eq_some_iff] at h
    obtain ⟨k, hk, rfl⟩ := h
    refine ⟨k, rfl, ?_⟩
    rw [content_voice]
    unfold startsIn at hk
    cases hv : x.voicesAt p s with
    | none => rw [hv] at hk; cases hk
    | some vs =>
      rw [hv] at hk
      simp only [Option.bind_some] at hk ⊢
      by_cases ha : vs.any GCell.starts = true
      · rw [if_pos ha] at hk
        injection hk with hk
        subst hk
        have hlt : vs.findIdx GCell.starts < vs.length := by
          rw [List.any_eq_true] at ha
          exact List.findIdx_lt_length.2 ha
        rw [List.getElem?_eq_getElem hlt]
        exact (starts_text _).1 (List.findIdx_getElem)
      · rw [if_neg ha] at hk
        cases hk
  · rw [if_neg hk] at h
    cases h

/-- What the search finds: the first line that starts a note, and the last one up to `offset`. -/
theorem searchNotes_spec (p : Nat) (s : Option Nat) (offset : Rat) (all : List GSlice)
    (hs : all.Pairwise (fun a b => a.time ≤ b.time)) (l : List GSlice) :
    ∀ (done : List GSlice) (first : Option GSlice) (last : Option (Nat × GSlice × Int)), all = done ++ l →
    first = done.find? (fun x => (sliceStartsNote x p s).isSome) →
    (∀ i x v, last = some (i, x, v) → all[i]? = some x ∧ sliceStartsNote x p s = some v ∧ x.time ≤ offset) →
    (∀ x ∈ done, (sliceStartsNote x p s).isSome = true → ∃ i y v, last = some (i, y, v) ∧ x.time ≤ y.time) →
    (∀ i x v, (searchNotes p s offset done.length first last l).2 = some (i, x, v) →
      all[i]? = some x ∧ sliceStartsNote x p s = some v ∧ x.time ≤ offset) ∧
    (∀ x ∈ all, (sliceStartsNote x p s).isSome = true → x.time ≤ offset →
      ∃ i y v, (searchNotes p s offset done.length first last l).2 = some (i, y, v) ∧ x.time ≤ y.time) ∧
    (∀ f, (searchNotes p s offset done.length first last l).1 = some f →
      all.find? (fun x => (sliceStartsNote x p s).isSome) = some f) := by
  induction l with
  | nil =>
    intro done first last hall hfirst hlast hdone
    rw [List.append_nil] at hall
    subst hall
    rw [searchNotes]
    exact ⟨hlast, fun x hx h _ => hdone x hx h, fun f hf => by rw [← hfirst]; exact hf⟩
  | cons a l ih =>
    intro done first last hall hfirst hlast hdone
    have hall' : all = (done ++ [a]) ++ l := by rw [hall, List.append_assoc]; rfl
    have hlen : (done ++ [a]).length = done.length + 1 := by simp
    have hget : all[done.length]? = some a := by rw [hall]; simp
    rw [searchNotes]
    cases hst : sliceStartsNote a p s with
    | none =>
      dsimp only
      rw [← hlen]
      refine ih (done ++ [a]) first last hall' ?_ hlast ?_
      · rw [List.find?_append, ← hfirst]
        cases first with
        | some f => rfl
        | none => simp [hst]
      · intro x hx h
        rcases List.mem_append.1 hx with hx | hx
        · exact hdone x hx h
        · rw [List.mem_singleton] at hx
          subst hx
          rw [hst] at h
          cases h
    | some v =>
      dsimp only
      have hfirst' : some (first.getD a) = (done ++ [a]).find? (fun x => (sliceStartsNote x p s).isSome) := by
        rw [List.find?_append, ← hfirst]
        cases first with
        | some f => rfl
        | none => simp [hst]
      by_cases ho : offset < a.time
      · rw [if_pos ho]
        refine ⟨hlast, ?_, ?_⟩
        · intro x hx h hle
          rw [hall] at hx
          rcases List.mem_append.1 hx with hx | hx
          · exact hdone x hx h
          · exfalso
            rw [hall, List.pairwise_append, List.pairwise_cons] at hs
            rcases List.mem_cons.1 hx with rfl | hx
            · exact absurd hle (not_le.2 ho)
            · exact absurd (le_trans (hs.2.1.1 x hx) hle) (not_le.2 ho)
        · intro f hf
          rw [hall', List.find?_append, ← hfirst']
          dsimp only at hf
          rw [hf]
          rfl
      · rw [if_neg ho, ← hlen]
        refine ih (done ++ [a]) _ _ hall' hfirst' ?_ ?_
        · intro i x w he
          simp only [Option.some.injEq, Prod.mk.injEq] at he
          obtain ⟨rfl, rfl, rfl⟩ := he
          exact ⟨hget, hst, not_lt.1 ho⟩
        · intro x hx h
          refine ⟨_, _, _, rfl, ?_⟩
          rcases List.mem_append.1 hx with hx | hx
          · rw [hall, List.pairwise_append] at hs
            exact hs.2.2 x hx a List.mem_cons_self
          · rw [List.mem_singleton] at hx
            rw [hx]

theorem restColumn_mem (recip : Rat → Str) (ds1 : List Rat) (d : Rat) (ds2 : List Rat) : ∀ t,
    (t + ds1.sum, recip d ++ "ryy".toList) ∈ restColumn recip t (ds1 ++ d :: ds2) := by
  induction ds1 with
  | nil =>
    intro t
    rw [List.nil_append, restColumn]
    simp
  | cons a ds1 ih =>
    intro t
    rw [List.cons_append, restColumn, List.sum_cons, ← add_assoc]
    exact List.mem_cons_of_mem _ (ih (t + a))

/-- Two lines of notes of an ordered measure at the same time are the same. -/
theorem notes_unique {endTime : Rat} {l : List GSlice} (h : Ordered endTime l) {x y : GSlice} (hx : x ∈ l) (hy : y ∈ l)
    (kx : x.kind = .notes) (ky : y.kind = .notes) (ht : x.time = y.time) : x = y :=
  List.inj_on_of_nodup_map h.notes (List.mem_filter.2 ⟨hx, by simpa using kx⟩) (List.mem_filter.2 ⟨hy, by simpa using ky⟩) ht

/-- A place that can be written is split exactly. -/
theorem placeable_exact (tuplet : Rat → Rat → Except PyErr (List Rat × List Rat)) (ht : TupletOk tuplet) (dur place : Rat)
    (h0 : 0 ≤ place) (h1 : place ≤ dur) (hp : Placeable dur place) (l1 l2 : List Rat)
    (h : splitCrossing tuplet dur place = .ok (l1, l2)) : l1.sum = place ∧ l2.sum = dur - place := by
  obtain ⟨e2, e1⟩ := crossing_partial tuplet ht dur place h0 h1 l1 l2 h
  refine ⟨?_, e2⟩
  rcases e1 with e1 | ⟨hn, hside, _⟩
  · exact e1
  · exfalso
    rcases hp with hp | ⟨i1, i2⟩
    · exact hn hp
    · have hsome : ∀ d : Rat, 0 ≤ d → (∃ m : Int, d * 2048 = m) → splitSide d ≠ none := by
        intro d hd hi
        unfold splitSide
        by_cases hz : d = 0
        · rw [if_pos hz]; simp
        rw [if_neg hz]
        by_cases hp : isPow2Dots d = true
        · rw [if_pos hp]; simp
        rw [if_neg hp]
        have := splitDurations_possible d (lt_of_le_of_ne hd (Ne.symm hz)) hi
        cases hsd : splitDurations d with
        | nil => exact absurd hsd this
        | cons a as => simp
      rcases hside with hside | hside
      · exact hsome _ h0 i1 hside
      · exact hsome _ (by linarith) i2 hside

/-- C75. An object of a staff gets a line of notes at its exact time: one where a note of the staff starts, which is used as it is,
or, only if there is none, a line with a rest of a new voice of invisible rests that fill the measure and change nothing else.
There is no line exactly when no note starts at the end of the measure and the object is there. Without the limit on places this
is false: `object_misplaced`. -/
theorem object_gets_its_line_partial (recip : Rat → Str) (tuplet : Rat → Rat → Except PyErr (List Rat × List Rat))
    (ht : TupletOk tuplet) (hpos : TupletPositive tuplet) (slices new : List GSlice) (start dur offset : Rat) (p n : Nat)
    (s : Option Nat) (r : Option (Nat × Int)) (hdur : 0 < dur)
    (fits : StaffFits (start + dur) p (s.getD 0) n slices)
    (hstart : ∀ x ∈ slices, start ≤ x.time) (hoff : offset ≤ start + dur)
    (hn : ∀ a x b, slices = a ++ x :: b → (∀ y ∈ a, ¬ NoteStarts p s y) → NoteStarts p s x → x.voiceCount p (s.getD 0) = some n)
    (hplace : Placeable dur (offset - start))
    (h : produceLine recip tuplet slices start dur p s offset = .ok (new, r)) :
    (r = none → new = slices ∧ offset = start + dur ∧ ∀ x ∈ slices, NoteStarts p s x → x.time ≠ offset) ∧
    ∀ i v, r = some (i, v) → ∃ x, new[i]? = some x ∧ x.kind = .notes ∧ x.time = offset ∧
      ((new = slices ∧ NoteStarts p s x ∧ ∀ s0, s = some s0 → ∃ k : Nat, v = k ∧ (x.content (.voice p s0 k)).isSome = true) ∨
       ((∀ y ∈ slices, NoteStarts p s y → y.time ≠ offset) ∧ v = n ∧ (x.content (.voice p (s.getD 0) n)).isSome = true ∧
         ∃ ds, ds.sum = dur ∧ RestVoiceAdded recip (start + dur) p (s.getD 0) n start ds slices new)) := by
  obtain ⟨s1, s2, s3⟩ := searchNotes_spec p s offset slices (ordered_sorted fits.ordered) slices [] none none rfl rfl
    (fun _ _ _ e => by cases e) (fun x hx => by simp at hx)
  rw [List.length_nil] at s1 s2 s3
  unfold produceLine at h
  cases hsr : searchNotes p s offset 0 none none slices with
  | mk first last =>
    rw [hsr] at h s1 s2 s3
    cases first with
    | none => cases h
    | some first =>
      cases last with
      | none => cases h
      | some last =>
        obtain ⟨i, x, v⟩ := last
        dsimp only at h s1 s2 s3
        obtain ⟨hx, hxs, hxt⟩ := s1 i x v rfl
        have hxm : x ∈ slices := List.mem_of_getElem? hx
        have hxn : NoteStarts p s x := (sliceStartsNote_iff x p s).1 (by rw [hxs]; rfl)
        by_cases hat : x.time = offset
        · rw [if_pos hat] at h
          simp only [Except.ok.injEq, Prod.mk.injEq] at h
          obtain ⟨rfl, rfl⟩ := h
          refine ⟨(fun e => by cases e), ?_⟩
          intro i' v' e
          simp only [Option.some.injEq, Prod.mk.injEq] at e
          obtain ⟨rfl, rfl⟩ := e
          refine ⟨x, hx, hxn.1, hat, Or.inl ⟨rfl, hxn, ?_⟩⟩
          rintro s0 rfl
          exact sliceStartsNote_voice x p s0 v hxs
        rw [if_neg hat] at h
        have hno : ∀ y ∈ slices, NoteStarts p s y → y.time ≠ offset := by
          intro y hy hyn hyt
          obtain ⟨i', y', v', e, hle⟩ := s2 y hy ((sliceStartsNote_iff y p s).2 hyn) (le_of_eq hyt)
          simp only [Option.some.injEq, Prod.mk.injEq] at e
          obtain ⟨rfl, rfl, rfl⟩ := e
          exact hat (le_antisymm hxt (by rw [← hyt]; exact hle))
        have h0 : 0 ≤ offset - start := by linarith [hstart x hxm]
        have h1 : offset - start ≤ dur := by linarith
        cases hc : splitCrossing tuplet dur (offset - start) with
        | error e => rw [hc] at h; cases h
        | ok r12 =>
          obtain ⟨ds1, ds2⟩ := r12
          obtain ⟨e1, e2⟩ := placeable_exact tuplet ht dur (offset - start) h0 h1 hplace ds1 ds2 hc
          have hdpos := splitCrossing_pos tuplet hpos dur (offset - start) h0 h1 hdur ds1 ds2 hc
          rw [hc] at h
          cases ds2 with
          | nil =>
            simp only [Except.ok.injEq, Prod.mk.injEq] at h
            obtain ⟨rfl, rfl⟩ := h
            rw [List.sum_nil] at e2
            exact ⟨fun _ => ⟨rfl, by linarith, hno⟩, fun i v e => by cases e⟩
          | cons d ds2 =>
            dsimp only at h
            have hfirst : first.voiceCount p (s.getD 0) = some n := by
              have := s3 first rfl
              obtain ⟨hp, a, b, hab, hall⟩ := List.find?_eq_some_iff_append.1 this
              refine hn a first b hab ?_ ((sliceStartsNote_iff first p s).1 hp)
              intro y hy hys
              have := hall y hy
              rw [(sliceStartsNote_iff y p s).2 hys] at this
              cases this
            have hlen : ((first.voicesAt p (s.getD 0)).getD []).length = n := by
              rw [voiceCount_eq, Option.map_eq_some_iff] at hfirst
              obtain ⟨vs, hvs, hl⟩ := hfirst
              rw [hvs]
              exact hl
            rw [hlen] at h
            have hsum : (ds1 ++ d :: ds2).sum = dur := by
              rw [List.sum_append, e1, e2]
              ring
            obtain ⟨l1, l2, a1, a2, a3⟩ := rest_voice_added recip (start + dur) p (s.getD 0) n first hfirst slices fits start
              (ds1 ++ d :: ds2) hdpos (by rw [hsum])
            rw [a1] at h
            dsimp only at h
            rw [a2] at h
            simp only [Except.ok.injEq, Prod.mk.injEq] at h
            obtain ⟨rfl, rfl⟩ := h
            have htime : start + ds1.sum = offset := by rw [e1]; ring
            rw [htime]
            have hmem := restColumn_mem recip ds1 d ds2 start
            rw [htime, ← a3.rests] at hmem
            unfold columnOf at hmem
            rw [List.mem_filterMap] at hmem
            obtain ⟨z, hz, hzc⟩ := hmem
            rw [Option.map_eq_some_iff] at hzc
            obtain ⟨tz, hzc, hze⟩ := hzc
            simp only [Prod.mk.injEq] at hze
            obtain ⟨hzt, rfl⟩ := hze
            have hzk : z.kind = .notes := a3.onNotes z hz (by rw [hzc]; rfl)
            cases hf : findNotes offset 0 l2 with
            | none => exact absurd hzt (findNotes_none l2 (ordered_sorted a3.fits.ordered) 0 hf z hz hzk)
            | some j =>
              obtain ⟨k, y, hj, hy, hyk, hyt⟩ := findNotes_some l2 0 j hf
              have hjk : j = k := by omega
              subst hjk
              have hyz : y = z := notes_unique a3.fits.ordered (List.mem_of_getElem? hy) hz hyk hzk (by rw [hyt, hzt])
              subst hyz
              refine ⟨(fun e => by cases e), ?_⟩
              intro i' v' e
              simp only [Option.map_some, Option.some.injEq, Prod.mk.injEq] at e
              obtain ⟨rfl, rfl⟩ := e
              exact ⟨y, hy, hyk, hyt, Or.inr ⟨hno, rfl, by rw [hzc]; rfl, _, hsum, a3⟩⟩

/-! ### A concrete measure -/

/-- A measure of 5 quarters with one staff and one long note. -/
def exLong : List GSlice :=
  [{ time := 0, kind := .measures, parts := [{ staves := [{ voices := [.tok "=".toList] }] }] },
   { time := 0, kind := .notes, parts := [{ staves := [{ voices := [.tok "[1c".toList] }] }] },
   { time := 4, kind := .notes, parts := [{ staves := [{ voices := [.tok "4c]".toList] }] }] }]

/-- A tuplet computation that keeps the two sides, as one note each. -/
def exTuplet (t c : Rat) : Except PyErr (List Rat × List Rat) :=
  if c ≤ 0 ∨ t ≤ c then .error .valueError else .ok ([c], [t - c])

theorem exTuplet_ok : TupletOk exTuplet ∧ TupletPositive exTuplet := by
  refine ⟨?_, ?_⟩
  · intro t c l1 l2 h
    unfold exTuplet at h
    by_cases hc : c ≤ 0 ∨ t ≤ c
    · rw [if_pos hc] at h; cases h
    · rw [if_neg hc] at h
      simp only [Except.ok.injEq, Prod.mk.injEq] at h
      obtain ⟨rfl, rfl⟩ := h
      simp
  · intro t c l1 l2 h d hd
    unfold exTuplet at h
    by_cases hc : c ≤ 0 ∨ t ≤ c
    · rw [if_pos hc] at h; cases h
    · rw [if_neg hc] at h
      rw [not_or, not_le, not_le] at hc
      simp only [Except.ok.injEq, Prod.mk.injEq] at h
      obtain ⟨rfl, rfl⟩ := h
      simp only [List.cons_append, List.nil_append, List.mem_cons, List.not_mem_nil, or_false] at hd
      rcases hd with rfl | rfl
      · exact hc.1
      · linarith [hc.2]

theorem exLong_fits : StaffFits 5 0 0 1 exLong := by
  refine ⟨⟨?_, ?_, ?_, ?_⟩, ?_, ?_⟩
  · unfold exLong
    simp only [List.isChain_cons_cons, List.isChain_singleton, and_true]
    unfold LineOrder
    decide +kernel
  · decide +kernel
  · intro x hx hk
    unfold exLong at hx
    simp only [List.getLast?_cons_cons, List.getLast?_singleton, Option.some.injEq] at hx
    subst hx
    cases hk
  · decide +kernel
  · decide +kernel
  · intro x hx k hk
    unfold exLong at hx
    simp only [List.mem_cons, List.not_mem_nil, or_false] at hx
    rcases hx with rfl | rfl | rfl <;> (injection hk with hk; subst hk; decide)

/-- At 4 1/2 all the hypotheses of C75 hold, and a voice of rests is made. -/
example : Placeable 5 (9 / 2 - 0) ∧
    (produceLine (fun _ => "4".toList) exTuplet exLong 0 5 0 (some 0) (9 / 2)).toOption.map (fun r => r.2) = some (some (3, 1)) := by
  refine ⟨Or.inr ⟨⟨9216, by norm_num⟩, ⟨1024, by norm_num⟩⟩, ?_⟩
  decide +kernel

/-- C75, the full claim fails: in a measure of five quarters an object at 4 1/3 gets a line at 1/3. -/
theorem object_misplaced : ∃ (new : List GSlice) (i : Nat) (v : Int) (x : GSlice),
    produceLine (fun _ => "4".toList) exTuplet exLong 0 5 0 (some 0) (13 / 3) = .ok (new, some (i, v)) ∧
    new[i]? = some x ∧ x.time = 1 / 3 := by
  refine ⟨[{ time := 0, kind := .measures, parts := [{ staves := [{ voices := [.tok "=".toList] }] }] },
   { time := 0, kind := .notes, parts := [{ staves := [{ voices := [.tok "[1c".toList, .tok "4ryy".toList] }] }] },
   { time := 1 / 3, kind := .notes, parts := [{ staves := [{ voices := [.empty, .tok "4ryy".toList] }] }] },
   { time := 4, kind := .notes, parts := [{ staves := [{ voices := [.tok "4c]".toList, .empty] }] }] }], 2, 1,
   { time := 1 / 3, kind := .notes, parts := [{ staves := [{ voices := [.empty, .tok "4ryy".toList] }] }] }, ?_, rfl, rfl⟩
  decide +kernel

end C21
