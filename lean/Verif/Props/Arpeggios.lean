import Mathlib.Data.List.Nodup
import Mathlib.Data.List.Induction
import Verif.Model.Arpeggios
import Verif.Spec.Arpeggios
/-
C132: arpeggios of an MEI file join the notes the file says.
-/
namespace C21

theorem lastFor_iff {α : Type} (ws : List (Str × α)) (id : Str) (h : ∀ a b, (id, a) ∈ ws → (id, b) ∈ ws → a = b) (r : α) :
    lastFor ws id = some r ↔ (id, r) ∈ ws := by
  have hmem : ∀ a, a ∈ ws.filterMap (fun w => if w.1 = id then some w.2 else none) ↔ (id, a) ∈ ws := by
    intro a
    rw [List.mem_filterMap]
    constructor
    · rintro ⟨⟨k, v⟩, hw, hr⟩
      by_cases hk : k = id
      · simp only [hk, if_true, Option.some.injEq] at hr
        subst hk hr
        exact hw
      · simp [hk] at hr
    · intro ha
      exact ⟨(id, a), ha, by simp⟩
  unfold lastFor
  constructor
  · intro hl
    exact (hmem r).1 (List.mem_of_getLast? hl)
  · intro hr
    have hr' := (hmem r).2 hr
    cases hl : (ws.filterMap (fun w => if w.1 = id then some w.2 else none)).getLast? with
    | none => rw [List.getLast?_eq_none_iff] at hl; rw [hl] at hr'; cases hr'
    | some a => rw [h a r ((hmem a).1 (List.mem_of_getLast? hl)) hr]

theorem arpIds_mem (e : ArpEl) (x : Str) : x ∈ arpIds e ↔ e.Refers x := by
  have key : ∀ (l : List Str) (a : Str), x = a ∨ x ∈ l.erase a ↔ x = a ∨ x ∈ l := by
    intro l a
    by_cases hx : x = a
    · simp [hx]
    · simp [hx, List.mem_erase_of_ne hx]
  unfold arpIds ArpEl.Refers
  by_cases h1 : e.startId = [] <;> by_cases h2 : e.endId = [] <;> simp only [h1, h2, if_true, if_false, ne_eq, not_true_eq_false, not_false_eq_true, and_false, and_true, or_false]
  · rw [List.mem_append, List.mem_singleton, or_comm, key, or_comm]
    tauto
  · rw [List.mem_cons, key, or_comm]
  · rw [List.mem_append, List.mem_singleton, or_comm, key, List.mem_cons, key]
    tauto

theorem arpIds_nodup (e : ArpEl) (h : e.plist.Nodup) : (arpIds e).Nodup := by
  have h1 : (if e.startId = [] then e.plist else e.startId :: e.plist.erase e.startId).Nodup := by
    split
    · exact h
    · exact List.nodup_cons.2 ⟨h.not_mem_erase, h.erase _⟩
  unfold arpIds
  simp only
  generalize (if e.startId = [] then e.plist else e.startId :: e.plist.erase e.startId) = p at h1
  split
  · exact h1
  · rw [List.nodup_append]
    refine ⟨h1.erase _, by simp, ?_⟩
    intro a ha b hb hab
    simp only [List.mem_singleton] at hb
    subst hb hab
    exact h1.not_mem_erase ha

theorem strip_iff (x id : Str) : removeHash x = id ↔ refersTo x id := by
  unfold refersTo
  cases x with
  | nil =>
    show [] = id ↔ _
    constructor
    · rintro rfl; right; simp
    · rintro (h | ⟨h, _⟩)
      · cases h
      · exact h
  | cons c cs =>
    by_cases hc : c = '#'
    · subst hc
      show cs = id ↔ _
      constructor
      · rintro rfl; left; rfl
      · rintro (h | ⟨rfl, h⟩)
        · cases h; rfl
        · simp at h
    · have hs : removeHash (c :: cs) = c :: cs := by
        unfold removeHash
        split
        · rename_i heq; cases heq; exact absurd rfl hc
        · rfl
      rw [hs]
      constructor
      · rintro rfl; right; simp [hc]
      · rintro (h | ⟨h, _⟩)
        · cases h; exact absurd rfl hc
        · exact h

theorem joined_iff (e : ArpEl) (h : e.Clean) : 1 < (arpIds e).length ↔ e.Joined := by
  have hn := arpIds_nodup e h.1
  constructor
  · intro hl
    match hp : arpIds e with
    | [] => rw [hp] at hl; simp at hl
    | [a] => rw [hp] at hl; simp at hl
    | a :: b :: r =>
      have ha : e.Refers a := (arpIds_mem e a).1 (by rw [hp]; simp)
      have hb : e.Refers b := (arpIds_mem e b).1 (by rw [hp]; simp)
      refine ⟨removeHash a, removeHash b, ⟨a, ha, (strip_iff a _).1 rfl⟩, ⟨b, hb, (strip_iff b _).1 rfl⟩, ?_⟩
      intro hab
      have := h.2 a b (removeHash b) ha hb ((strip_iff a _).1 hab) ((strip_iff b _).1 rfl)
      rw [hp, this] at hn
      simp at hn
  · rintro ⟨a, b, ⟨x, hx, hxa⟩, ⟨y, hy, hyb⟩, hab⟩
    rw [← arpIds_mem] at hx hy
    match hp : arpIds e with
    | [] => rw [hp] at hx; cases hx
    | [z] =>
      rw [hp, List.mem_singleton] at hx hy
      subst hx hy
      exact absurd (((strip_iff _ _).2 hxa).symm.trans ((strip_iff _ _).2 hyb)) hab
    | _ :: _ :: _ => simp

/-- C132: the type of an arpeggio, for every arrow and order of the standard. -/
theorem arpeggio_type (e : ArpEl) (h : e.Standard) : arpType e.arrow e.order = arpTypeSpec e.arrow e.order := by
  obtain ⟨h1, h2⟩ := h
  generalize e.arrow = arrow at *
  generalize e.order = order at *
  simp only [List.mem_cons, List.not_mem_nil, or_false] at h1 h2
  rcases h1 with rfl | rfl | rfl <;> rcases h2 with rfl | rfl | rfl | rfl <;> decide +kernel

theorem span_writes_mem (es : List ArpEl) (hd : ∀ e ∈ es, e.Clean) (id : Str) (i : Nat) (t : Str) :
    (id, (i, t)) ∈ es.zipIdx.flatMap arpSpanWrites ↔ ∃ e, es[i]? = some e ∧ e.Joined ∧ e.Names id ∧ t = arpType e.arrow e.order := by
  rw [List.mem_flatMap]
  constructor
  · rintro ⟨⟨e, j⟩, hm, hw⟩
    have he := List.mem_zipIdx_iff_getElem?.1 hm
    unfold arpSpanWrites at hw
    split at hw
    · rename_i hl
      obtain ⟨x, hx, hxe⟩ := List.mem_map.1 hw
      cases hxe
      exact ⟨e, he, (joined_iff e (hd e (List.mem_of_getElem? he))).1 hl, ⟨x, (arpIds_mem e x).1 hx, (strip_iff x _).1 rfl⟩, rfl⟩
    · cases hw
  · rintro ⟨e, he, hj, ⟨x, hx, hr⟩, rfl⟩
    refine ⟨(e, i), List.mem_zipIdx_iff_getElem?.2 he, ?_⟩
    unfold arpSpanWrites
    rw [if_pos ((joined_iff e (hd e (List.mem_of_getElem? he))).2 hj)]
    exact List.mem_map.2 ⟨x, (arpIds_mem e x).2 hx, by rw [(strip_iff x id).2 hr]⟩

/-- C132: a note is put into the arpeggio of an element that joins notes exactly if the element names it, and the arpeggio has
the type the element says, if no note is named by two such elements or twice by one. -/
theorem arpeggio_joins_partial (es : List ArpEl) (hd : ∀ e ∈ es, e.Clean) (hs : ∀ e ∈ es, e.Standard) (h1 : OneJoin es) (id : Str) (i : Nat) (t : Str) :
    arpSpanOf es id = some (i, t) ↔ ∃ e, es[i]? = some e ∧ e.Joined ∧ e.Names id ∧ t = arpTypeSpec e.arrow e.order := by
  have hw : lastFor (es.zipIdx.flatMap arpSpanWrites) id = some (i, t) ↔ (id, (i, t)) ∈ es.zipIdx.flatMap arpSpanWrites := by
    apply lastFor_iff
    rintro ⟨a, s⟩ ⟨b, u⟩ ha hb
    rw [span_writes_mem es hd] at ha hb
    obtain ⟨e, g1, g2, g3, rfl⟩ := ha
    obtain ⟨e', k1, k2, k3, rfl⟩ := hb
    have hij := h1 a b e e' id g1 k1 g2 k2 g3 k3
    subst hij
    have he := g1.symm.trans k1
    cases he
    rfl
  unfold arpSpanOf
  rw [hw, span_writes_mem es hd]
  constructor
  · rintro ⟨e, a, b, c, d⟩
    exact ⟨e, a, b, c, by rw [d, arpeggio_type e (hs e (List.mem_of_getElem? a))]⟩
  · rintro ⟨e, a, b, c, d⟩
    exact ⟨e, a, b, c, by rw [d, arpeggio_type e (hs e (List.mem_of_getElem? a))]⟩

theorem type_writes_mem (es : List ArpEl) (hd : ∀ e ∈ es, e.Clean) (id t : Str) :
    (id, t) ∈ es.flatMap arpTypeWrites ↔ ∃ (i : Nat) (e : ArpEl), es[i]? = some e ∧ ¬ e.Joined ∧ e.Names id ∧ t = arpType e.arrow e.order := by
  rw [List.mem_flatMap]
  constructor
  · rintro ⟨e, hm, hw⟩
    unfold arpTypeWrites at hw
    split at hw
    · rename_i x hx
      simp only [List.mem_singleton, Prod.mk.injEq] at hw
      obtain ⟨i, hi⟩ := List.mem_iff_getElem?.1 hm
      refine ⟨i, e, hi, ?_, ⟨x, (arpIds_mem e x).1 (by rw [hx]; simp), (strip_iff x id).1 hw.1.symm⟩, hw.2⟩
      rw [← joined_iff e (hd e hm), hx]
      simp
    · cases hw
  · rintro ⟨i, e, he, hj, ⟨x, hx, hr⟩, rfl⟩
    have hm := List.mem_of_getElem? he
    refine ⟨e, hm, ?_⟩
    rw [← joined_iff e (hd e hm)] at hj
    have hx' := (arpIds_mem e x).2 hx
    unfold arpTypeWrites
    match hl : arpIds e with
    | [] => rw [hl] at hx'; cases hx'
    | [y] =>
      rw [hl] at hx'
      simp only [List.mem_singleton] at hx'
      subst hx'
      simp [(strip_iff x id).2 hr]
    | _ :: _ :: _ => rw [hl] at hj; simp at hj

/-- C132: a note gets a mark of its own exactly if an element names it alone, with the type this element says, if no note is
named by two such elements or twice by one. -/
theorem arpeggio_mark_partial (es : List ArpEl) (hd : ∀ e ∈ es, e.Clean) (hs : ∀ e ∈ es, e.Standard) (h1 : OneMark es) (id t : Str) :
    arpMarkOf es id = some t ↔ ∃ e ∈ es, ¬ e.Joined ∧ e.Names id ∧ t = arpTypeSpec e.arrow e.order := by
  have hw : lastFor (es.flatMap arpTypeWrites) id = some t ↔ (id, t) ∈ es.flatMap arpTypeWrites := by
    apply lastFor_iff
    intro a b ha hb
    rw [type_writes_mem es hd] at ha hb
    obtain ⟨i, e, g1, g2, g3, rfl⟩ := ha
    obtain ⟨j, e', k1, k2, k3, rfl⟩ := hb
    have hij := h1 i j e e' id g1 k1 g2 k2 g3 k3
    subst hij
    have he := g1.symm.trans k1
    cases he
    rfl
  unfold arpMarkOf
  rw [hw, type_writes_mem es hd]
  constructor
  · rintro ⟨i, e, a, b, c, d⟩
    have hm := List.mem_of_getElem? a
    exact ⟨e, hm, b, c, by rw [d, arpeggio_type e (hs e hm)]⟩
  · rintro ⟨e, hm, b, c, d⟩
    obtain ⟨i, hi⟩ := List.mem_iff_getElem?.1 hm
    exact ⟨i, e, hi, b, c, by rw [d, arpeggio_type e (hs e hm)]⟩

/-- C132: order and arrow values that are not of the standard are read as a normal arpeggio. -/
theorem arpeggio_type_other (e : ArpEl) (h : ¬ e.Standard) : arpType e.arrow e.order = "normal".toList := by
  unfold arpType
  have hn : arpTable.lookup (e.arrow, e.order) = none := by
    rw [List.lookup_eq_none_iff]
    intro p hp
    rw [bne_iff_ne]
    intro heq
    apply h
    have hall : ∀ q ∈ arpTable, q.1.1 ∈ ["".toList, "false".toList, "true".toList] ∧ q.1.2 ∈ ["".toList, "up".toList, "down".toList, "nonarp".toList] := by
      decide +kernel
    have hq := hall p hp
    rw [← heq] at hq
    exact hq
  rw [hn]
  rfl

theorem lastFor_append {α : Type} (a b : List (Str × α)) (id : Str) : lastFor (a ++ b) id = (lastFor b id).or (lastFor a id) := by
  unfold lastFor
  rw [List.filterMap_append, List.getLast?_append]

theorem lastFor_none {α : Type} (ws : List (Str × α)) (id : Str) (h : ∀ r, (id, r) ∉ ws) : lastFor ws id = none := by
  cases hl : lastFor ws id with
  | none => rfl
  | some r =>
    unfold lastFor at hl
    obtain ⟨⟨k, v⟩, hw, hr⟩ := List.mem_filterMap.1 (List.mem_of_getLast? hl)
    by_cases hk : k = id
    · subst hk
      exact absurd hw (h v)
    · simp [hk] at hr

theorem arp_one_writes (e : ArpEl) (hc : e.Clean) (n : Nat) (id : Str) (i : Nat) (t : Str) :
    (id, (i, t)) ∈ arpSpanWrites (e, n) ↔ i = n ∧ e.Joined ∧ e.Names id ∧ t = arpType e.arrow e.order := by
  unfold arpSpanWrites
  constructor
  · intro hw
    split at hw
    · rename_i hl
      obtain ⟨x, hx, hxe⟩ := List.mem_map.1 hw
      cases hxe
      exact ⟨rfl, (joined_iff e hc).1 hl, ⟨x, (arpIds_mem e x).1 hx, (strip_iff x _).1 rfl⟩, rfl⟩
    · cases hw
  · rintro ⟨rfl, hj, ⟨x, hx, hr⟩, rfl⟩
    rw [if_pos ((joined_iff e hc).2 hj)]
    exact List.mem_map.2 ⟨x, (arpIds_mem e x).2 hx, by rw [(strip_iff x id).2 hr]⟩

/-- C132: in all files, a note is in the last arpeggio that names it among those that join notes, and in no other. -/
theorem arpeggio_last (es : List ArpEl) (hd : ∀ e ∈ es, e.Clean) (hs : ∀ e ∈ es, e.Standard) (id : Str) (i : Nat) (t : Str) :
    arpSpanOf es id = some (i, t) ↔
      ∃ e, es[i]? = some e ∧ e.Joined ∧ e.Names id ∧ t = arpTypeSpec e.arrow e.order ∧
        ∀ (j : Nat) (b : ArpEl), i < j → es[j]? = some b → ¬ (b.Joined ∧ b.Names id) := by
  induction es using List.reverseRecOn with
  | nil => simp [arpSpanOf, lastFor]
  | append_singleton es e ih =>
    have hce : e.Clean := hd e (by simp)
    have hse : e.Standard := hs e (by simp)
    have ih := ih (fun b hb => hd b (by simp [hb])) (fun b hb => hs b (by simp [hb]))
    have hstep : arpSpanOf (es ++ [e]) id = (lastFor (arpSpanWrites (e, es.length)) id).or (arpSpanOf es id) := by
      unfold arpSpanOf
      rw [List.zipIdx_append, List.flatMap_append, lastFor_append]
      simp
    have hlast : (es ++ [e])[es.length]? = some e := by simp
    by_cases he : e.Joined ∧ e.Names id
    · have h1 : lastFor (arpSpanWrites (e, es.length)) id = some (es.length, arpType e.arrow e.order) := by
        rw [lastFor_iff]
        · exact (arp_one_writes e hce _ _ _ _).2 ⟨rfl, he.1, he.2, rfl⟩
        · rintro ⟨a, u⟩ ⟨b, v⟩ ha hb
          rw [arp_one_writes e hce] at ha hb
          rw [ha.1, hb.1, ha.2.2.2, hb.2.2.2]
      rw [hstep, h1, Option.some_or, arpeggio_type e hse]
      constructor
      · intro h
        cases h
        refine ⟨e, hlast, he.1, he.2, rfl, ?_⟩
        intro j b hj hb
        rw [List.getElem?_eq_none (by simp; omega)] at hb
        cases hb
      · rintro ⟨b, hb, -, -, rfl, hno⟩
        have hlt : i < (es ++ [e]).length := by
          rcases Nat.lt_or_ge i (es ++ [e]).length with h | h
          · exact h
          · rw [List.getElem?_eq_none h] at hb; cases hb
        rw [List.length_append, List.length_singleton] at hlt
        have hi : i = es.length := by
          rcases Nat.lt_or_ge i es.length with h | h
          · exact absurd he (hno es.length e h hlast)
          · omega
        subst hi
        rw [hlast] at hb
        cases hb
        rfl
    · have h1 : lastFor (arpSpanWrites (e, es.length)) id = none := by
        apply lastFor_none
        rintro ⟨a, u⟩ ha
        rw [arp_one_writes e hce] at ha
        exact he ⟨ha.2.1, ha.2.2.1⟩
      rw [hstep, h1, Option.none_or, ih]
      constructor
      · rintro ⟨b, hb, g1, g2, g3, hno⟩
        have hlt : i < es.length := (List.getElem?_eq_some_iff.1 hb).1
        refine ⟨b, by rw [List.getElem?_append_left hlt]; exact hb, g1, g2, g3, ?_⟩
        intro j c hj hc
        rcases Nat.lt_trichotomy j es.length with h | h | h
        · rw [List.getElem?_append_left h] at hc
          exact hno j c hj hc
        · subst h
          rw [hlast] at hc
          cases hc
          exact he
        · rw [List.getElem?_eq_none (by simp; omega)] at hc
          cases hc
      · rintro ⟨b, hb, g1, g2, g3, hno⟩
        have hlt : i < es.length := by
          rcases Nat.lt_trichotomy i es.length with h | h | h
          · exact h
          · subst h
            rw [hlast] at hb
            cases hb
            exact absurd ⟨g1, g2⟩ he
          · rw [List.getElem?_eq_none (by simp; omega)] at hb
            cases hb
        rw [List.getElem?_append_left hlt] at hb
        refine ⟨b, hb, g1, g2, g3, ?_⟩
        intro j c hj hc
        have hjl : j < es.length := (List.getElem?_eq_some_iff.1 hc).1
        exact hno j c hj (by rw [List.getElem?_append_left hjl]; exact hc)

/-! ## Where the claim is false -/

/-- A note in two arpeggios is only put into the second. -/
theorem two_arpeggios_break :
    arpSpanOf [⟨["#a".toList, "#b".toList], [], [], [], []⟩, ⟨["#b".toList, "#c".toList], [], [], [], []⟩] "b".toList = some (1, "normal".toList) ∧
    arpSpanOf [⟨["#a".toList, "#b".toList], [], [], [], []⟩, ⟨["#b".toList, "#c".toList], [], [], [], []⟩] "a".toList = some (0, "normal".toList) := by
  decide +kernel

/-- A note named once with and once without `#` is taken for two notes: it gets no mark of its own. -/
theorem arpeggio_of_one_breaks :
    arpMarkOf [⟨["#a".toList], "a".toList, [], [], []⟩] "a".toList = none ∧ arpSpanOf [⟨["#a".toList], "a".toList, [], [], []⟩] "a".toList = some (0, "normal".toList) := by
  decide +kernel

/-! ## The hypotheses are met -/

/-- Two arpeggios over two notes each and one of a single note. -/
def arpEls : List ArpEl :=
  [⟨["#a".toList, "#b".toList], "#a".toList, [], "true".toList, []⟩, ⟨[], "#c".toList, "#d".toList, [], []⟩, ⟨[], "#a".toList, [], [], "down".toList⟩]

theorem arpEls_clean : ∀ e ∈ arpEls, e.Clean := by
  have h : ∀ e ∈ arpEls, e.plist.Nodup ∧ ∀ x ∈ arpIds e, ∀ y ∈ arpIds e, removeHash x = removeHash y → x = y := by decide +kernel
  intro e he
  refine ⟨(h e he).1, fun x y id hx hy h1 h2 => (h e he).2 x ((arpIds_mem e x).2 hx) y ((arpIds_mem e y).2 hy) ?_⟩
  rw [(strip_iff x id).2 h1, (strip_iff y id).2 h2]

example : ∀ e ∈ arpEls, e.Standard := by unfold ArpEl.Standard; decide +kernel

example : OneJoin arpEls ∧ OneMark arpEls := by
  have h : ∀ p ∈ arpEls.zipIdx, ∀ q ∈ arpEls.zipIdx, (1 < (arpIds p.1).length ↔ 1 < (arpIds q.1).length) →
      ∀ x ∈ arpIds p.1, ∀ y ∈ arpIds q.1, removeHash x = removeHash y → p.2 = q.2 := by decide +kernel
  have key : ∀ (i j : Nat) (a b : ArpEl) (id : Str), arpEls[i]? = some a → arpEls[j]? = some b → (a.Joined ↔ b.Joined) → a.Names id → b.Names id → i = j := by
    rintro i j a b id ha hb hab ⟨x, hx, hxi⟩ ⟨y, hy, hyi⟩
    rw [← joined_iff a (arpEls_clean a (List.mem_of_getElem? ha)), ← joined_iff b (arpEls_clean b (List.mem_of_getElem? hb))] at hab
    exact h (a, i) (List.mem_zipIdx_iff_getElem?.2 ha) (b, j) (List.mem_zipIdx_iff_getElem?.2 hb) hab x ((arpIds_mem a x).2 hx) y
      ((arpIds_mem b y).2 hy) (((strip_iff x id).2 hxi).trans ((strip_iff y id).2 hyi).symm)
  exact ⟨fun i j a b id ha hb h1 h2 => key i j a b id ha hb ⟨fun _ => h2, fun _ => h1⟩,
    fun i j a b id ha hb h1 h2 => key i j a b id ha hb ⟨fun g => absurd g h1, fun g => absurd g h2⟩⟩

example : arpSpanOf arpEls "a".toList = some (0, "up".toList) ∧ arpSpanOf arpEls "d".toList = some (1, "normal".toList) ∧ arpMarkOf arpEls "a".toList = some "down".toList ∧
    arpMarkOf arpEls "d".toList = none := by decide +kernel

end C21
