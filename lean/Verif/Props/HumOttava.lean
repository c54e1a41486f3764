import Verif.Model.HumOttava
import Verif.Lemmas.Tac
import Mathlib.Data.List.Chain
import Mathlib.Data.List.Induction
import Mathlib.Data.List.Pairwise
import Mathlib.Algebra.Order.Ring.Unbundled.Rat
/-
C106: octave lines in Humdrum.
-/
namespace C21

/-! ## Specification -/

/-- The elements of some lines. -/
def elemsOf (ds : List OtData) : List OtElem := ds.flatMap fun d => d.2.filterMap id

/-- The elements of one voice. -/
def voiceOf (v : Nat) (ds : List OtData) : List OtElem := ds.filterMap fun d => d.2[v]?.join

/-- A staff of `n` voices ending at `T`: lines in order of time, elements starting at their lines, and voices
without gaps. -/
structure Staff (n : Nat) (T : Rat) (ds : List OtData) : Prop where
  width : ∀ d ∈ ds, d.2.length = n
  times : ds.Pairwise fun a b => a.1 < b.1
  before : ∀ d ∈ ds, d.1 < T
  starts : ∀ d ∈ ds, ∀ x, some x ∈ d.2 → x.start = d.1
  filled : ∀ v < n, (voiceOf v ds).IsChain (fun a b => a.stop = b.start) ∧
    ∀ x, (voiceOf v ds).getLast? = some x → x.stop = T

/-- Ottavas of one kind in a staff: one after the other, starting where an element starts and ending where one
starts or at the end of the staff, and no element that starts within one ends after it. -/
structure Spans (T : Rat) (ds : List OtData) (spans : List (Rat × Rat)) : Prop where
  order : spans.Pairwise fun a b => a.2 ≤ b.1
  pos : ∀ sp ∈ spans, sp.1 < sp.2
  opens : ∀ sp ∈ spans, ∃ d ∈ ds, hasEvent d = true ∧ d.1 = sp.1
  closes : ∀ sp ∈ spans, sp.2 = T ∨ ∃ d ∈ ds, hasEvent d = true ∧ d.1 = sp.2
  inside : ∀ sp ∈ spans, ∀ x ∈ elemsOf ds, sp.1 ≤ x.start → x.start < sp.2 → x.stop ≤ sp.2

/-! ## The order of the elements of a spanner -/

theorem lowest_head (x : OtElem) (l : List OtElem) (h : ∀ y ∈ l, x.start ≤ y.start) :
    lowestElem (x :: l) = some x := by
  have key : ∀ l : List OtElem, ∀ y, lowestElem l = some y → y ∈ l := by
    intro l
    induction l with
    | nil => intro y hy; cases hy
    | cons a l ih =>
      intro y hy
      rw [lowestElem] at hy
      cases hl : lowestElem l with
      | none => rw [hl] at hy; simp at hy; rw [hy]; simp
      | some z =>
        rw [hl] at hy
        simp only at hy
        split at hy
        · injection hy with hy; rw [← hy]; exact List.mem_cons_of_mem _ (ih z hl)
        · injection hy with hy; rw [hy]; simp
  rw [lowestElem]
  cases hl : lowestElem l with
  | none => rfl
  | some z =>
    have := h z (key l z hl)
    simp only
    rw [if_neg (by exact not_lt.2 this)]

theorem highest_spec (l : List OtElem) :
    (l ≠ [] → ∃ y, highestElem l = some y) ∧
    ∀ y, highestElem l = some y → y ∈ l ∧ (∀ x ∈ l, x.stop ≤ y.stop) ∧
      ∃ pre post, l = pre ++ y :: post ∧ ∀ x ∈ post, x.stop < y.stop := by
  induction l with
  | nil => exact ⟨fun h => absurd rfl h, fun y hy => by cases hy⟩
  | cons a l ih =>
    rw [highestElem]
    cases hl : highestElem l with
    | none =>
      have hnil : l = [] := by
        by_contra hne
        obtain ⟨y, hy⟩ := ih.1 hne
        rw [hl] at hy; cases hy
      subst hnil
      refine ⟨fun _ => ⟨a, rfl⟩, ?_⟩
      intro y hy
      injection hy with hy
      subst hy
      exact ⟨by simp, by simp, [], [], rfl, by simp⟩
    | some z =>
      obtain ⟨h1, h2, pre, post, h3, h4⟩ := ih.2 z hl
      simp only
      by_cases hz : z.stop ≥ a.stop
      · rw [if_pos hz]
        refine ⟨fun _ => ⟨z, rfl⟩, ?_⟩
        intro y hy
        injection hy with hy
        subst hy
        refine ⟨List.mem_cons_of_mem _ h1, ?_, a :: pre, post, by rw [h3]; rfl, h4⟩
        intro x hx
        rw [List.mem_cons] at hx
        rcases hx with rfl | hx
        · exact hz
        · exact h2 x hx
      · rw [if_neg hz]
        refine ⟨fun _ => ⟨a, rfl⟩, ?_⟩
        intro y hy
        injection hy with hy
        subst hy
        have hz' : z.stop < a.stop := not_le.1 hz
        refine ⟨by simp, ?_, [], l, rfl, ?_⟩
        · intro x hx
          rw [List.mem_cons] at hx
          rcases hx with rfl | hx
          · exact le_refl _
          · exact le_trans (h2 x hx) (le_of_lt hz')
        · intro x hx
          exact lt_of_le_of_lt (h2 x hx) hz'

/-- An ottava whose elements lie within its time, with one that starts last and ends at its end. -/
theorem extent_of (ms : List OtElem) (s e : Rat) (hd : ms.Nodup) (hh : ∃ x, ms.head? = some x ∧ x.start = s)
    (hin : ∀ x ∈ ms, s ≤ x.start ∧ x.stop ≤ e)
    (hl : ∃ l ∈ ms, l.stop = e ∧ ∀ x ∈ ms, x.start ≤ l.start) : otExtent ms = some (s, e) := by
  obtain ⟨x, hx, hxs⟩ := hh
  obtain ⟨l, hlm, hle, hlx⟩ := hl
  cases ms with
  | nil => simp at hx
  | cons a rest =>
    simp at hx
    subst hx
    cases rest with
    | nil =>
      simp at hlm
      subst hlm
      simp [otExtent, adjustOrder, hxs, hle]
    | cons b rest =>
      have hne : (a :: b :: rest).head? ≠ (a :: b :: rest).getLast? := by
        intro he
        have : a ∈ b :: rest := by
          rw [List.head?_cons, List.getLast?_cons_cons] at he
          exact List.mem_of_getLast? he.symm
        exact (List.nodup_cons.1 hd).1 this
      have hlow : lowestElem (a :: b :: rest) = some a :=
        lowest_head a _ (fun y hy => by rw [hxs]; exact (hin y (List.mem_cons_of_mem _ hy)).1)
      obtain ⟨hi, hhi⟩ := (highest_spec (a :: b :: rest)).1 (by simp)
      obtain ⟨h1, h2, pre, post, h3, h4⟩ := (highest_spec (a :: b :: rest)).2 hi hhi
      have hstop : hi.stop = e := le_antisymm (hin hi h1).2 (by rw [← hle]; exact h2 l hlm)
      have hadj : adjustOrder (a :: b :: rest) = (a :: b :: rest).filter (· ≠ hi) ++ [hi] := by
        unfold adjustOrder
        rw [if_neg hne, hlow, hhi]
        simp
      unfold otExtent
      rw [hadj]
      have hlast : ((a :: b :: rest).filter (· ≠ hi) ++ [hi]).getLast? = some hi := by
        rw [List.getLast?_concat]
      by_cases hah : a = hi
      · -- the first element also ends last: then all start together
        have hal : l = a := by
          cases pre with
          | nil =>
            rw [List.nil_append] at h3
            injection h3 with _ h3
            rw [List.mem_cons] at hlm
            rcases hlm with h | h
            · exact h
            · exfalso
              rw [h3] at h
              have := h4 l h
              rw [hle, hstop] at this
              exact lt_irrefl _ this
          | cons p pre =>
            exfalso
            rw [List.cons_append] at h3
            injection h3 with h31 h32
            have : a ∈ b :: rest := by rw [h32, hah]; simp
            exact (List.nodup_cons.1 hd).1 this
        have hb : b.start = s := by
          apply le_antisymm
          · have := hlx b (by simp)
            rw [hal, hxs] at this
            exact this
          · exact (hin b (by simp)).1
        have hba : b ≠ hi := by
          intro hbe
          exact (List.nodup_cons.1 hd).1 (by rw [hah, ← hbe]; simp)
        have hf : ∃ r, (a :: b :: rest).filter (· ≠ hi) ++ [hi] = b :: r := by
          rw [List.filter_cons_of_neg (by simp [hah]), List.filter_cons_of_pos (by simp [hba])]
          exact ⟨_, rfl⟩
        obtain ⟨r, hr⟩ := hf
        rw [hlast, hr]
        simp [hb, hstop]
      · have hf : ∃ r, (a :: b :: rest).filter (· ≠ hi) ++ [hi] = a :: r := by
          rw [List.filter_cons_of_pos (by simp [hah])]
          exact ⟨_, rfl⟩
        obtain ⟨r, hr⟩ := hf
        rw [hlast, hr]
        simp [hxs, hstop]

/-! ## What sounds -/

theorem voiceOf_append (v : Nat) (a b : List OtData) : voiceOf v (a ++ b) = voiceOf v a ++ voiceOf v b := by
  unfold voiceOf; rw [List.filterMap_append]

theorem elemsOf_append (a b : List OtData) : elemsOf (a ++ b) = elemsOf a ++ elemsOf b := by
  unfold elemsOf; rw [List.flatMap_append]

theorem mem_elemsOf (ds : List OtData) (x : OtElem) : x ∈ elemsOf ds ↔ ∃ d ∈ ds, some x ∈ d.2 := by
  unfold elemsOf
  simp [List.mem_flatMap, List.mem_filterMap]

theorem mem_voiceOf (v : Nat) (ds : List OtData) (x : OtElem) :
    x ∈ voiceOf v ds ↔ ∃ d ∈ ds, d.2[v]? = some (some x) := by
  unfold voiceOf
  rw [List.mem_filterMap]
  constructor
  · rintro ⟨d, hd, h⟩
    refine ⟨d, hd, ?_⟩
    cases hv : d.2[v]? with
    | none => rw [hv] at h; cases h
    | some o => rw [hv] at h; simp at h; rw [h]
  · rintro ⟨d, hd, h⟩
    exact ⟨d, hd, by rw [h]; rfl⟩

/-- What sounds in all voices after some data lines. -/
def soundOf (n : Nat) (ds : List OtData) : List (Option OtElem) :=
  ds.foldl (fun s d => resolveCells s d.2) (List.replicate n none)

theorem soundOf_spec (n : Nat) (ds : List OtData) (h : ∀ d ∈ ds, d.2.length = n) :
    (soundOf n ds).length = n ∧ ∀ v < n, (soundOf n ds)[v]? = some ((voiceOf v ds).getLast?) := by
  induction ds using List.reverseRecOn with
  | nil =>
    refine ⟨by simp [soundOf], ?_⟩
    intro v hv
    simp [soundOf, voiceOf, hv]
  | append_singleton ds d ih =>
    obtain ⟨i1, i2⟩ := ih (fun x hx => h x (by simp [hx]))
    have hlen := h d (by simp)
    have e : soundOf n (ds ++ [d]) = resolveCells (soundOf n ds) d.2 := by
      unfold soundOf; rw [List.foldl_append]; rfl
    rw [e]
    unfold resolveCells
    refine ⟨by simp [i1, hlen], ?_⟩
    intro v hv
    rw [List.getElem?_zipWith, i2 v hv, voiceOf_append]
    have hd : d.2[v]? = some d.2[v] := List.getElem?_eq_getElem (by omega)
    rw [hd]
    have hone : voiceOf v [d] = (match d.2[v] with | some x => [x] | none => []) := by
      unfold voiceOf
      rw [List.filterMap_cons, hd]
      cases d.2[v] <;> rfl
    rw [hone]
    cases d.2[v] with
    | none => simp
    | some x => simp

theorem latest_spec (l : List (Option OtElem)) :
    ((∃ x, some x ∈ l) → ∃ y, latest l = some y) ∧
    ∀ y, latest l = some y → some y ∈ l ∧ ∀ x, some x ∈ l → x.start ≤ y.start := by
  induction l with
  | nil => exact ⟨(by rintro ⟨x, hx⟩; cases hx), (fun y hy => by cases hy)⟩
  | cons a l ih =>
    cases a with
    | none =>
      rw [latest]
      refine ⟨?_, ?_⟩
      · rintro ⟨x, hx⟩
        exact ih.1 ⟨x, by simpa using hx⟩
      · intro y hy
        obtain ⟨h1, h2⟩ := ih.2 y hy
        exact ⟨List.mem_cons_of_mem _ h1, fun x hx => h2 x (by simpa using hx)⟩
    | some a =>
      rw [latest]
      cases hl : latest l with
      | none =>
        refine ⟨fun _ => ⟨a, rfl⟩, ?_⟩
        intro y hy
        injection hy with hy
        subst hy
        refine ⟨by simp, ?_⟩
        intro x hx
        rw [List.mem_cons] at hx
        rcases hx with hx | hx
        · injection hx with hx; rw [hx]
        · obtain ⟨y, hy⟩ := ih.1 ⟨x, hx⟩
          rw [hl] at hy; cases hy
      | some z =>
        obtain ⟨h1, h2⟩ := ih.2 z hl
        simp only
        by_cases hz : z.start > a.start
        · rw [if_pos hz]
          refine ⟨fun _ => ⟨z, rfl⟩, ?_⟩
          intro y hy
          injection hy with hy
          subst hy
          refine ⟨List.mem_cons_of_mem _ h1, ?_⟩
          intro x hx
          rw [List.mem_cons] at hx
          rcases hx with hx | hx
          · injection hx with hx; rw [hx]; exact le_of_lt hz
          · exact h2 x hx
        · rw [if_neg hz]
          refine ⟨fun _ => ⟨a, rfl⟩, ?_⟩
          intro y hy
          injection hy with hy
          subst hy
          refine ⟨by simp, ?_⟩
          intro x hx
          rw [List.mem_cons] at hx
          rcases hx with hx | hx
          · injection hx with hx; rw [hx]
          · exact le_trans (h2 x hx) (not_lt.1 hz)

theorem voice_starts (n : Nat) (T : Rat) (ds : List OtData) (h : Staff n T ds) (v : Nat) :
    (voiceOf v ds).Pairwise fun a b => a.start < b.start := by
  unfold voiceOf
  rw [List.pairwise_filterMap]
  refine h.times.imp_of_mem ?_
  intro a b ha hb hab x hx y hy
  have hxm : some x ∈ a.2 := by
    cases hv : a.2[v]? with
    | none => rw [hv] at hx; cases hx
    | some o => rw [hv] at hx; simp at hx; rw [hx] at hv; exact List.mem_of_getElem? hv
  have hym : some y ∈ b.2 := by
    cases hv : b.2[v]? with
    | none => rw [hv] at hy; cases hy
    | some o => rw [hv] at hy; simp at hy; rw [hy] at hv; exact List.mem_of_getElem? hv
  rw [h.starts a ha x hxm, h.starts b hb y hym]
  exact hab

/-- The element found for a stop mark: the latest to start of all before it, ending no earlier than anything that
bounds the rest of the staff from below. -/
theorem stop_element (n : Nat) (T : Rat) (pre post : List OtData) (h : Staff n T (pre ++ post)) (B : Rat)
    (hT : B ≤ T) (hB : ∀ d ∈ post, B ≤ d.1) (hne : ∃ x, x ∈ elemsOf pre) :
    ∃ l, latest (soundOf n pre) = some l ∧ l ∈ elemsOf pre ∧ (∀ x ∈ elemsOf pre, x.start ≤ l.start) ∧ B ≤ l.stop := by
  have hw : ∀ d ∈ pre, d.2.length = n := fun d hd => h.width d (by simp [hd])
  obtain ⟨s1, s2⟩ := soundOf_spec n pre hw
  -- each element is not later than the last of its voice
  have hvoice : ∀ x ∈ elemsOf pre, ∃ z, some z ∈ soundOf n pre ∧ x.start ≤ z.start := by
    intro x hx
    rw [mem_elemsOf] at hx
    obtain ⟨d, hd, hxd⟩ := hx
    obtain ⟨v, hv, hvx⟩ := List.mem_iff_getElem.1 hxd
    have hvn : v < n := by rw [← hw d hd]; exact hv
    have hxv : x ∈ voiceOf v pre := by
      rw [mem_voiceOf]
      exact ⟨d, hd, by rw [List.getElem?_eq_getElem hv, hvx]⟩
    have hpw : (voiceOf v pre).Pairwise fun a b => a.start < b.start := by
      have := voice_starts n T _ h v
      rw [voiceOf_append, List.pairwise_append] at this
      exact this.1
    cases hlast : (voiceOf v pre).getLast? with
    | none => rw [List.getLast?_eq_none_iff] at hlast; rw [hlast] at hxv; cases hxv
    | some z =>
      refine ⟨z, ?_, ?_⟩
      · have := s2 v hvn
        rw [hlast] at this
        exact List.mem_of_getElem? this
      · obtain ⟨ini, hini⟩ : ∃ ini, voiceOf v pre = ini ++ [z] := by
          refine ⟨(voiceOf v pre).dropLast, ?_⟩
          have hne : voiceOf v pre ≠ [] := by intro e; rw [e] at hxv; cases hxv
          rw [List.getLast?_eq_some_getLast hne] at hlast
          injection hlast with hlast
          rw [← hlast, List.dropLast_append_getLast hne]
        rw [hini] at hxv hpw
        rw [List.mem_append] at hxv
        rcases hxv with hxv | hxv
        · rw [List.pairwise_append] at hpw
          exact le_of_lt (hpw.2.2 x hxv z (by simp))
        · simp at hxv; rw [hxv]
  obtain ⟨x0, hx0⟩ := hne
  obtain ⟨z0, hz0, -⟩ := hvoice x0 hx0
  obtain ⟨l, hl⟩ := (latest_spec (soundOf n pre)).1 ⟨z0, hz0⟩
  obtain ⟨hm, hmax⟩ := (latest_spec (soundOf n pre)).2 l hl
  obtain ⟨v, hv, hvl⟩ := List.mem_iff_getElem.1 hm
  have hvn : v < n := by rw [← s1]; exact hv
  have hgl : (voiceOf v pre).getLast? = some l := by
    have := s2 v hvn
    rw [List.getElem?_eq_getElem hv, hvl] at this
    injection this with this
    exact this.symm
  refine ⟨l, hl, ?_, ?_, ?_⟩
  · have := List.mem_of_getLast? hgl
    rw [mem_voiceOf] at this
    obtain ⟨d, hd, he⟩ := this
    rw [mem_elemsOf]
    exact ⟨d, hd, List.mem_of_getElem? he⟩
  · intro x hx
    obtain ⟨z, hz, hxz⟩ := hvoice x hx
    exact le_trans hxz (hmax z hz)
  · obtain ⟨hch, hend⟩ := h.filled v hvn
    rw [voiceOf_append] at hch hend
    cases hp : voiceOf v post with
    | nil =>
      rw [hp, List.append_nil] at hend
      rw [hend l hgl]
      exact hT
    | cons y ys =>
      rw [hp, List.isChain_append] at hch
      have := hch.2.2 l (by rw [hgl]; rfl) y (by simp)
      rw [this]
      have hy : y ∈ voiceOf v post := by rw [hp]; simp
      rw [mem_voiceOf] at hy
      obtain ⟨d, hd, he⟩ := hy
      rw [h.starts d (by simp [hd]) y (List.mem_of_getElem? he)]
      exact hB d hd

/-! ## The reader follows the writer -/

/-- The elements of the ottava being read. -/
def Live (s e : Rat) (pre : List OtData) (ms : List OtElem) : Prop :=
  ms.Nodup ∧ (∃ x, ms.head? = some x ∧ x.start = s) ∧ ∀ x ∈ ms, (s ≤ x.start ∧ x.stop ≤ e) ∧ x ∈ elemsOf pre

/-- The reader after the lines `pre`: finished `D`, in the middle of `c`. -/
def OtRel (st : OtState) (D : List (Rat × Rat)) (c : Option (Nat × Rat × Rat)) (pre : List OtData) : Prop :=
  st.done.map otExtent = D.map some ∧
  match c with
  | none => st.cur = none
  | some (m0, s, e) => ∃ ms, st.cur = some (m0, s, ms) ∧ Live s e pre ms

/-- The span in the middle of which we are. -/
def curSpan : Option (Nat × Rat × Rat) → List (Rat × Rat)
  | none => []
  | some (_, s, e) => [(s, e)]

/-- The writer after the lines `pre`, before `post`. -/
structure OtInv (T : Rat) (spans : List (Rat × Rat)) (post : List OtData) (D : List (Rat × Rat))
    (c : Option (Nat × Rat × Rat)) (S : List (Rat × Rat)) (pend : List Rat) : Prop where
  split : spans = D ++ curSpan c ++ S
  waits : pend = (curSpan c).map (·.2)
  past : ∀ sp ∈ D ++ curSpan c, ∀ d ∈ post, sp.1 < d.1
  ahead : ∀ sp ∈ S, ∃ d ∈ post, hasEvent d = true ∧ d.1 = sp.1
  open' : ∀ sp ∈ curSpan c, sp.2 = T ∨ ∃ d ∈ post, hasEvent d = true ∧ d.1 = sp.2

theorem live_mono (s e : Rat) (pre pre' : List OtData) (ms : List OtElem) (h : Live s e pre ms) :
    Live s e (pre ++ pre') ms :=
  ⟨h.1, h.2.1, fun x hx => ⟨(h.2.2 x hx).1, by rw [elemsOf_append]; exact List.mem_append_left _ (h.2.2 x hx).2⟩⟩

theorem rel_mono (st : OtState) (D : List (Rat × Rat)) (c : Option (Nat × Rat × Rat)) (pre pre' : List OtData)
    (h : OtRel st D c pre) : OtRel st D c (pre ++ pre') := by
  refine ⟨h.1, ?_⟩
  have h2 := h.2
  cases c with
  | none => exact h2
  | some c =>
    obtain ⟨m0, s, e⟩ := c
    obtain ⟨ms, h3, h4⟩ := h2
    exact ⟨ms, h3, live_mono s e pre pre' ms h4⟩

theorem live_add (s e : Rat) (pre : List OtData) (ms : List OtElem) (x : OtElem) (h : Live s e pre ms)
    (hx : (s ≤ x.start ∧ x.stop ≤ e) ∧ x ∈ elemsOf pre) : Live s e pre (addElem x ms) := by
  unfold addElem
  by_cases hm : x ∈ ms
  · rw [if_pos hm]; exact h
  · rw [if_neg hm]
    obtain ⟨h1, ⟨y, h2, h3⟩, h4⟩ := h
    refine ⟨?_, ⟨y, ?_, h3⟩, ?_⟩
    · rw [List.nodup_append]
      refine ⟨h1, by simp, ?_⟩
      intro a ha b hb
      simp at hb
      rw [hb]
      intro e
      exact hm (by rw [← e]; exact ha)
    · rw [List.head?_append, h2]; rfl
    · intro z hz
      rw [List.mem_append] at hz
      rcases hz with hz | hz
      · exact h4 z hz
      · simp at hz; rw [hz]; exact hx

/-- Elements that belong to the ottava, or are filtered out, keep the reader in step. -/
theorem rel_elems (m : Nat) (xs : List OtElem) (st : OtState) (D : List (Rat × Rat)) (c : Option (Nat × Rat × Rat))
    (pre : List OtData) (h : OtRel st D c pre)
    (hx : ∀ x ∈ xs, x ∈ elemsOf pre ∧ ∀ m0 s e, c = some (m0, s, e) → ¬ (m = m0 ∧ x.start < s) →
      s ≤ x.start ∧ x.stop ≤ e) :
    OtRel ((xs.map (OtItem.elem m)).foldl stepItem st) D c pre := by
  induction xs generalizing st with
  | nil => exact h
  | cons x xs ih =>
    rw [List.map_cons, List.foldl_cons]
    apply ih
    · obtain ⟨hx1, hx2⟩ := hx x (by simp)
      unfold stepItem
      by_cases hn : x.note = true
      · simp only [hn, if_true]
        cases c with
        | none =>
          have := h.2
          simp only at this
          rw [this]
          exact h
        | some c =>
          obtain ⟨m0, s, e⟩ := c
          obtain ⟨h1, ms, h2, h3⟩ := h
          rw [h2]
          simp only
          by_cases hf : m = m0 ∧ x.start < s
          · rw [if_pos hf]
            exact ⟨h1, ms, h2, h3⟩
          · rw [if_neg hf]
            exact ⟨h1, addElem x ms, rfl, live_add s e pre ms x h3 ⟨hx2 m0 s e rfl hf, hx1⟩⟩
      · simp only [hn]
        exact h
    · intro y hy
      exact hx y (List.mem_cons_of_mem _ hy)

theorem voiceItems_append (m v : Nat) (a b after : List OtLine) (s : List (Option OtElem)) :
    voiceItems m v s (a ++ b) after = voiceItems m v s a (b ++ after) ++ voiceItems m v (soundAfter s a) b after := by
  induction a generalizing s with
  | nil => rfl
  | cons l a ih =>
    cases l with
    | data d => rw [List.cons_append, voiceItems, voiceItems, ih, soundAfter, List.append_assoc]
    | on t => rw [List.cons_append, voiceItems, voiceItems, ih, soundAfter, List.append_assoc, List.append_assoc]
    | off => rw [List.cons_append, voiceItems, voiceItems, ih, soundAfter, List.append_assoc]

theorem soundAfter_append (a b : List OtLine) (s : List (Option OtElem)) :
    soundAfter s (a ++ b) = soundAfter (soundAfter s a) b := by
  induction a generalizing s with
  | nil => rfl
  | cons l a ih => cases l <;> exact ih _

theorem soundAfter_marks (a : List OtLine) (h : ∀ l ∈ a, l = .off ∨ ∃ t, l = .on t) (s : List (Option OtElem)) :
    soundAfter s a = s := by
  induction a with
  | nil => rfl
  | cons l a ih =>
    rcases h l (by simp) with rfl | ⟨t, rfl⟩
    · exact ih (fun x hx => h x (List.mem_cons_of_mem _ hx))
    · exact ih (fun x hx => h x (List.mem_cons_of_mem _ hx))

theorem soundAfter_export (spans : List (Rat × Rat)) (pend : List Rat) (d : OtData) (s : List (Option OtElem)) :
    soundAfter s (exportAt spans pend d).1 = resolveCells s d.2 := by
  unfold exportAt
  by_cases h : hasEvent d = true
  · rw [if_pos h]
    simp only
    rw [soundAfter_append]
    have hm := soundAfter_marks ((pend.filter (· = d.1)).reverse.map (fun _ => OtLine.off) ++
        (spans.filter (·.1 = d.1)).reverse.map (fun _ => OtLine.on d.1)) ?_ s
    · rw [hm]; rfl
    · intro l hl
      rw [List.mem_append, List.mem_map, List.mem_map] at hl
      rcases hl with ⟨_, _, rfl⟩ | ⟨_, _, rfl⟩
      · exact Or.inl rfl
      · exact Or.inr ⟨_, rfl⟩
  · rw [if_neg h]; rfl

theorem soundAfter_lines (n : Nat) (spans : List (Rat × Rat)) (ds pre : List OtData) (pend : List Rat) :
    soundAfter (soundOf n pre) (exportLines spans pend ds).1 = soundOf n (pre ++ ds) := by
  induction ds generalizing pre pend with
  | nil => rw [List.append_nil]; rfl
  | cons d ds ih =>
    rw [exportLines]
    simp only
    rw [soundAfter_append, soundAfter_export]
    have : resolveCells (soundOf n pre) d.2 = soundOf n (pre ++ [d]) := by
      unfold soundOf; rw [List.foldl_append]; rfl
    rw [this, ih, List.append_assoc]
    rfl

theorem event_cell (d : OtData) (h : hasEvent d = true) : ∃ x, d.2.findSome? id = some x ∧ some x ∈ d.2 := by
  unfold hasEvent at h
  rw [List.any_eq_true] at h
  obtain ⟨o, ho, hs⟩ := h
  cases hf : d.2.findSome? id with
  | none =>
    rw [List.findSome?_eq_none_iff] at hf
    have := hf o ho
    simp at this
    rw [this] at hs
    cases hs
  | some x =>
    obtain ⟨a, ha, he⟩ := List.exists_of_findSome?_eq_some hf
    simp at he
    exact ⟨x, rfl, by rw [← he]; exact ha⟩

theorem no_event_cell (d : OtData) (h : ¬ hasEvent d = true) (v : Nat) : d.2[v]?.join = none := by
  cases hv : d.2[v]? with
  | none => rfl
  | some o =>
    cases o with
    | none => rfl
    | some x =>
      exfalso
      apply h
      unfold hasEvent
      rw [List.any_eq_true]
      exact ⟨some x, List.mem_of_getElem? hv, rfl⟩

/-- The stop mark closes the ottava with the right times. -/
theorem close_step (n : Nat) (T : Rat) (pre post : List OtData) (hst : Staff n T (pre ++ post))
    (spans : List (Rat × Rat)) (hsp : Spans T (pre ++ post) spans) (st : OtState) (D : List (Rat × Rat)) (m0 : Nat)
    (s e : Rat) (hmem : (s, e) ∈ spans) (h : OtRel st D (some (m0, s, e)) pre) (hT : e ≤ T)
    (he : ∀ d ∈ post, e ≤ d.1) (hpre : ∀ d ∈ pre, d.1 < e) :
    OtRel (stepItem st (.off (latest (soundOf n pre)))) (D ++ [(s, e)]) none pre := by
  obtain ⟨h1, ms, h2, h3⟩ := h
  obtain ⟨hd, ⟨x, hx, hxs⟩, hin⟩ := h3
  have hxm : x ∈ ms := List.mem_of_head? hx
  obtain ⟨l, hl, hle, hlmax, hlB⟩ := stop_element n T pre post hst e hT he ⟨x, (hin x hxm).2⟩
  have hlstart : s ≤ l.start := by
    have := hlmax x (hin x hxm).2
    rw [hxs] at this
    exact this
  have hllt : l.start < e := by
    rw [mem_elemsOf] at hle
    obtain ⟨d, hd', hld⟩ := hle
    rw [hst.starts d (by simp [hd']) l hld]
    exact hpre d hd'
  have hlstop : l.stop = e := by
    apply le_antisymm _ hlB
    exact hsp.inside (s, e) hmem l (by rw [elemsOf_append]; exact List.mem_append_left _ hle) hlstart hllt
  have hlive := live_add s e pre ms l ⟨hd, ⟨x, hx, hxs⟩, hin⟩ ⟨⟨hlstart, le_of_eq hlstop⟩, hle⟩
  have hml : l ∈ addElem l ms := by
    unfold addElem
    by_cases hm : l ∈ ms
    · rw [if_pos hm]; exact hm
    · rw [if_neg hm]; simp
  unfold stepItem
  rw [h2, hl]
  simp only
  refine ⟨?_, rfl⟩
  simp only [List.map_append, List.map_cons, List.map_nil]
  rw [h1]
  congr 1
  rw [extent_of (addElem l ms) s e hlive.1 hlive.2.1 (fun z hz => (hlive.2.2 z hz).1)
    ⟨l, hml, hlstop, fun z hz => hlmax z (hlive.2.2 z hz).2⟩]

theorem filter_start_none (S : List (Rat × Rat)) (t : Rat) (h : ∀ sp ∈ S, sp.1 ≠ t) :
    S.filter (fun sp => decide (sp.1 = t)) = [] := by
  rw [List.filter_eq_nil_iff]
  intro sp hs
  simpa using h sp hs

/-- One line. -/
theorem line_step (n : Nat) (T : Rat) (pre : List OtData) (d : OtData) (post : List OtData)
    (hst : Staff n T (pre ++ d :: post)) (spans : List (Rat × Rat)) (hsp : Spans T (pre ++ d :: post) spans)
    (m : Nat) (after : List OtLine) (st : OtState) (D : List (Rat × Rat)) (c : Option (Nat × Rat × Rat))
    (S : List (Rat × Rat)) (pend : List Rat) (hi : OtInv T spans (d :: post) D c S pend) (h : OtRel st D c pre) :
    ∃ D' c' S', OtInv T spans post D' c' S' (exportAt spans pend d).2 ∧
      OtRel ((voiceItems m 0 (soundOf n pre) (exportAt spans pend d).1 after).foldl stepItem st) D' c' (pre ++ [d]) ∧
      (c' = c ∨ ∃ s e, c' = some (m, s, e)  ∨ c' = none) := by
  have htimes := hst.times
  rw [List.pairwise_append] at htimes
  have hpost : ∀ x ∈ post, d.1 < x.1 := (List.pairwise_cons.1 htimes.2.1).1
  have hpre : ∀ x ∈ pre, d.1 > x.1 := fun x hx => htimes.2.2 x hx d (by simp)
  by_cases hev : hasEvent d = true
  · -- spans starting here
    have hDc : ∀ sp ∈ D ++ curSpan c, sp.1 < d.1 := fun sp hs => hi.past sp hs d (by simp)
    have hord := hsp.order
    rw [hi.split, List.pairwise_append] at hord
    have hS : ∀ sp ∈ S, d.1 ≤ sp.1 := by
      intro sp hs
      obtain ⟨x, hx, -, he⟩ := hi.ahead sp hs
      rw [← he]
      rw [List.mem_cons] at hx
      rcases hx with rfl | hx
      · exact le_refl _
      · exact le_of_lt (hpost x hx)
    have hfilter : spans.filter (fun sp => decide (sp.1 = d.1)) = S.filter (fun sp => decide (sp.1 = d.1)) := by
      rw [hi.split, List.filter_append, filter_start_none (D ++ curSpan c) d.1 (fun sp hs => ne_of_lt (hDc sp hs))]
      rfl
    have hspos : ∀ sp ∈ S, sp.1 < sp.2 := fun sp hs => hsp.pos sp (by rw [hi.split]; simp [hs])
    -- the head of S starts here, or nothing does
    have hhead : (S.filter (fun sp => decide (sp.1 = d.1)) = [] ∧ (∀ sp ∈ S, ∃ x ∈ post, hasEvent x = true ∧ x.1 = sp.1)) ∨
        ∃ e S', S = (d.1, e) :: S' ∧ S.filter (fun sp => decide (sp.1 = d.1)) = [(d.1, e)] ∧
          (∀ sp ∈ S', ∃ x ∈ post, hasEvent x = true ∧ x.1 = sp.1) := by
      cases S with
      | nil => exact Or.inl ⟨rfl, by simp⟩
      | cons sp S' =>
        have hS' : ∀ x ∈ S', sp.2 ≤ x.1 := by
          have := hord.2.1
          exact (List.pairwise_cons.1 this).1
        have hlt : ∀ x ∈ S', d.1 < x.1 := fun x hx =>
          lt_of_le_of_lt (hS sp (by simp)) (lt_of_lt_of_le (hspos sp (by simp)) (hS' x hx))
        have hahead' : ∀ x ∈ S', ∃ y ∈ post, hasEvent y = true ∧ y.1 = x.1 := by
          intro x hx
          obtain ⟨y, hy, hy1, hy2⟩ := hi.ahead x (by simp [hx])
          rw [List.mem_cons] at hy
          rcases hy with rfl | hy
          · exact absurd hy2 (ne_of_lt (hlt x hx))
          · exact ⟨y, hy, hy1, hy2⟩
        by_cases hsd : sp.1 = d.1
        · right
          refine ⟨sp.2, S', by rw [← hsd], ?_, hahead'⟩
          rw [List.filter_cons_of_pos (by simpa using hsd), filter_start_none S' d.1 (fun x hx => (ne_of_lt (hlt x hx)).symm),
            ← hsd]
        · left
          refine ⟨?_, ?_⟩
          · rw [List.filter_cons_of_neg (by simpa using hsd), filter_start_none S' d.1 (fun x hx => (ne_of_lt (hlt x hx)).symm)]
          · intro x hx
            rw [List.mem_cons] at hx
            rcases hx with rfl | hx
            · obtain ⟨y, hy, hy1, hy2⟩ := hi.ahead x (by simp)
              rw [List.mem_cons] at hy
              rcases hy with rfl | hy
              · exact absurd hy2.symm hsd
              · exact ⟨y, hy, hy1, hy2⟩
            · exact hahead' x hx
    -- the cell of the first voice
    have hcell : ∃ xs : List OtElem, cellItem m d.2[0]?.join =
        xs.map (OtItem.elem m) ∧ ∀ x ∈ xs, some x ∈ d.2 := by
      cases hv : d.2[0]? with
      | none => exact ⟨[], rfl, by simp⟩
      | some o =>
        cases o with
        | none => exact ⟨[], rfl, by simp⟩
        | some x =>
          refine ⟨[x], rfl, ?_⟩
          intro y hy
          simp at hy
          rw [hy]
          exact List.mem_of_getElem? hv
    obtain ⟨xs, hxs, hxmem⟩ := hcell
    have helems : ∀ x ∈ xs, x ∈ elemsOf (pre ++ [d]) := by
      intro x hx
      rw [mem_elemsOf]
      exact ⟨d, by simp, hxmem x hx⟩
    have hxstart : ∀ x ∈ xs, x.start = d.1 := fun x hx => hst.starts d (by simp) x (hxmem x hx)
    have hall : ∀ x ∈ elemsOf (pre ++ [d]), x ∈ elemsOf (pre ++ d :: post) := by
      intro x hx
      rw [mem_elemsOf] at hx ⊢
      obtain ⟨y, hy, he⟩ := hx
      exact ⟨y, by simp at hy ⊢; tauto, he⟩
    -- what follows once the state before the starts is known
    have hrest : ∀ (st1 : OtState) (D1 : List (Rat × Rat)) (c1 : Option (Nat × Rat × Rat)),
        spans = D1 ++ curSpan c1 ++ S → (∀ sp ∈ D1 ++ curSpan c1, sp.1 < d.1) →
        (∀ sp ∈ curSpan c1, d.1 < sp.2 ∧ (sp.2 = T ∨ ∃ x ∈ post, hasEvent x = true ∧ x.1 = sp.2)) →
        (c1 ≠ none → ∀ sp ∈ S, sp.1 ≠ d.1) → OtRel st1 D1 c1 pre →
        ∃ D' c' S', OtInv T spans post D' c' S' ((curSpan c1).map (·.2) ++ (spans.filter (·.1 = d.1)).map (·.2)) ∧
          OtRel ((voiceItems m 0 (soundOf n pre)
            ((spans.filter (·.1 = d.1)).reverse.map (fun _ => OtLine.on d.1) ++ [.data d]) after).foldl stepItem st1)
            D' c' (pre ++ [d]) ∧ (c' = c1 ∨ ∃ s e, c' = some (m, s, e) ∨ c' = none) := by
      intro st1 D1 c1 hsplit hpast hopen hex hrel
      rcases hhead with ⟨hnil, hah⟩ | ⟨e, S', hS', hone, hah⟩
      · rw [hfilter, hnil]
        refine ⟨D1, c1, S, ⟨hsplit, by simp, ?_, hah, fun sp hs => (hopen sp hs).2⟩, ?_, Or.inl rfl⟩
        · intro sp hs x hx
          exact lt_trans (hpast sp hs) (hpost x hx)
        · simp only [List.reverse_nil, List.map_nil, List.nil_append]
          rw [voiceItems, hxs]
          simp only [voiceItems, List.append_nil]
          refine rel_elems m xs st1 D1 c1 _ (rel_mono _ _ _ _ _ hrel) ?_
          intro x hx
          refine ⟨helems x hx, ?_⟩
          intro m0 s e hc _
          subst hc
          have hse := hpast (s, e) (by simp [curSpan])
          have hde := (hopen (s, e) (by simp [curSpan])).1
          have hs1 : s ≤ x.start := by rw [hxstart x hx]; exact le_of_lt hse
          refine ⟨hs1, hsp.inside (s, e) (by rw [hsplit]; simp [curSpan]) x (hall x (helems x hx)) hs1 ?_⟩
          rw [hxstart x hx]; exact hde
      · have hc1 : c1 = none := by
          by_contra hne
          exact hex hne (d.1, e) (by rw [hS']; simp) rfl
        subst hc1
        rw [hfilter, hone]
        have hmem : (d.1, e) ∈ spans := by rw [hsplit, hS']; simp
        have hlt : d.1 < e := hsp.pos (d.1, e) hmem
        refine ⟨D1, some (m, d.1, e), S', ⟨?_, ?_, ?_, hah, ?_⟩, ?_, Or.inr ⟨d.1, e, Or.inl rfl⟩⟩
        · rw [hsplit, hS']; simp [curSpan]
        · simp [curSpan]
        · intro sp hs x hx
          rw [List.mem_append] at hs
          rcases hs with hs | hs
          · exact lt_trans (hpast sp (by simp [hs])) (hpost x hx)
          · simp [curSpan] at hs; rw [hs]; exact hpost x hx
        · intro sp hs
          simp [curSpan] at hs
          subst hs
          rcases hsp.closes (d.1, e) hmem with h | ⟨x, hx, hx1, hx2⟩
          · exact Or.inl h
          · right
            refine ⟨x, ?_, hx1, hx2⟩
            rw [List.mem_append, List.mem_cons] at hx
            rcases hx with hx | rfl | hx
            · exfalso
              have h1 := hpre x hx
              simp only at hx2
              rw [hx2] at h1
              exact absurd h1 (not_lt.2 (le_of_lt hlt))
            · exfalso
              simp only at hx2
              rw [← hx2] at hlt
              exact lt_irrefl _ hlt
            · exact hx
        · obtain ⟨f, hf, hfm⟩ := event_cell d hev
          have hfs : f.start = d.1 := hst.starts d (by simp) f hfm
          have hfe : f ∈ elemsOf (pre ++ [d]) := by
            rw [mem_elemsOf]; exact ⟨d, by simp, hfm⟩
          have hfstop : f.stop ≤ e :=
            hsp.inside (d.1, e) hmem f (hall f hfe) (by rw [hfs]) (by rw [hfs]; exact hlt)
          have hcur : st1.cur = none := hrel.2
          simp only [List.reverse_cons, List.reverse_nil, List.nil_append, List.map_cons, List.map_nil]
          rw [List.cons_append, voiceItems, if_pos rfl, List.nil_append, voiceItems, hxs]
          simp only [voiceItems, List.append_nil]
          rw [List.foldl_append, List.foldl_cons, List.foldl_nil]
          refine rel_elems m xs _ D1 (some (m, d.1, e)) _ ?_ ?_
          · have hnext : nextData ([OtLine.data d] ++ after) = some f := by
              rw [List.cons_append, nextData, hf]
            rw [hnext]
            unfold stepItem
            rw [hcur]
            refine ⟨hrel.1, [f], rfl, by simp, ⟨f, rfl, hfs⟩, ?_⟩
            intro x hx
            simp at hx
            rw [hx]
            exact ⟨⟨le_of_eq hfs.symm, hfstop⟩, hfe⟩
          · intro x hx
            refine ⟨helems x hx, ?_⟩
            intro m0 s e' hc _
            injection hc with hc
            injection hc with _ hc
            injection hc with hc1 hc2
            subst hc1
            subst hc2
            refine ⟨le_of_eq (hxstart x hx).symm, ?_⟩
            exact hsp.inside (d.1, e) hmem x (hall x (helems x hx)) (by rw [hxstart x hx])
              (by rw [hxstart x hx]; exact hlt)
    unfold exportAt
    rw [if_pos hev]
    simp only
    cases c with
    | none =>
      have hp : pend = [] := by rw [hi.waits]; rfl
      rw [hp]
      simp only [List.filter_nil, List.reverse_nil, List.map_nil, List.nil_append]
      have := hrest st D none hi.split hDc (by simp [curSpan]) (fun h => absurd rfl h) h
      simpa [curSpan] using this
    | some c =>
      obtain ⟨m0, s, e⟩ := c
      have hp : pend = [e] := by rw [hi.waits]; rfl
      rw [hp]
      have hmem : (s, e) ∈ spans := by rw [hi.split]; simp [curSpan]
      have hopen := hi.open' (s, e) (by simp [curSpan])
      simp only at hopen
      have hdT : d.1 < T := hst.before d (by simp)
      by_cases hed : e = d.1
      · -- it closes here
        have hfil : [e].filter (fun x => decide (x = d.1)) = [e] := by simp [hed]
        have hfil2 : [e].filter (fun x => decide (x ≠ d.1)) = [] := by simp [hed]
        rw [hfil, hfil2]
        simp only [List.reverse_cons, List.reverse_nil, List.nil_append, List.map_cons, List.map_nil]
        have hclose := close_step n T pre (d :: post) hst spans hsp st D m0 s e hmem h
          (by rw [hed]; exact le_of_lt hdT)
          (by
            intro x hx
            rw [hed]
            rw [List.mem_cons] at hx
            rcases hx with rfl | hx
            · exact le_refl _
            · exact le_of_lt (hpost x hx))
          (by intro x hx; rw [hed]; exact hpre x hx)
        obtain ⟨D', c', S', r1, r2, r3⟩ := hrest _ (D ++ [(s, e)]) none (by rw [hi.split]; simp [curSpan])
          (by simpa [curSpan] using hDc) (by simp [curSpan]) (fun h => absurd rfl h) hclose
        refine ⟨D', c', S', by simpa [curSpan] using r1, ?_, ?_⟩
        · rw [List.append_assoc, List.cons_append, List.nil_append, voiceItems, if_pos rfl, List.foldl_append,
            List.foldl_cons, List.foldl_nil]
          exact r2
        · rcases r3 with r3 | r3
          · exact Or.inr ⟨0, 0, Or.inr r3⟩
          · exact Or.inr r3
      · have hfil : [e].filter (fun x => decide (x = d.1)) = [] := by simp [hed]
        have hfil2 : [e].filter (fun x => decide (x ≠ d.1)) = [e] := by simp [hed]
        rw [hfil, hfil2]
        simp only [List.reverse_nil, List.map_nil, List.nil_append]
        have hopen' : d.1 < e ∧ (e = T ∨ ∃ x ∈ post, hasEvent x = true ∧ x.1 = e) := by
          rcases hopen with ho | ⟨x, hx, hx1, hx2⟩
          · exact ⟨by rw [ho]; exact hdT, Or.inl ho⟩
          · rw [List.mem_cons] at hx
            rcases hx with rfl | hx
            · exact absurd hx2.symm hed
            · exact ⟨by rw [← hx2]; exact hpost x hx, Or.inr ⟨x, hx, hx1, hx2⟩⟩
        have hSe : ∀ sp ∈ S, sp.1 ≠ d.1 := by
          intro sp hs
          have := hord.2.2 (s, e) (by simp [curSpan]) sp hs
          exact (ne_of_lt (lt_of_lt_of_le hopen'.1 this)).symm
        have := hrest st D (some (m0, s, e)) hi.split hDc
          (by intro sp hs; simp [curSpan] at hs; subst hs; exact hopen') (fun _ => hSe) h
        simpa [curSpan] using this
  · -- nothing of this staff starts here
    unfold exportAt
    rw [if_neg hev]
    refine ⟨D, c, S, ⟨hi.split, hi.waits, ?_, ?_, ?_⟩, ?_, Or.inl rfl⟩
    · intro sp hs x hx
      exact hi.past sp hs x (List.mem_cons_of_mem _ hx)
    · intro sp hs
      obtain ⟨x, hx, hx1, hx2⟩ := hi.ahead sp hs
      rw [List.mem_cons] at hx
      rcases hx with rfl | hx
      · exact absurd hx1 hev
      · exact ⟨x, hx, hx1, hx2⟩
    · intro sp hs
      rcases hi.open' sp hs with ho | ⟨x, hx, hx1, hx2⟩
      · exact Or.inl ho
      · rw [List.mem_cons] at hx
        rcases hx with rfl | hx
        · exact absurd hx1 hev
        · exact Or.inr ⟨x, hx, hx1, hx2⟩
    · simp only
      rw [voiceItems, no_event_cell d hev 0]
      simp only [voiceItems, List.append_nil, List.foldl_nil]
      exact rel_mono _ _ _ _ _ h

/-- The lines of a measure. -/
theorem lines_sim (n : Nat) (T : Rat) (spans : List (Rat × Rat)) (m : Nat) (lines : List OtData) (pre post : List OtData)
    (hst : Staff n T (pre ++ lines ++ post)) (hsp : Spans T (pre ++ lines ++ post) spans) (after : List OtLine)
    (st : OtState) (D : List (Rat × Rat)) (c : Option (Nat × Rat × Rat))
    (S : List (Rat × Rat)) (pend : List Rat) (hi : OtInv T spans (lines ++ post) D c S pend) (h : OtRel st D c pre) :
    ∃ D' c' S', OtInv T spans post D' c' S' (exportLines spans pend lines).2 ∧
      OtRel ((voiceItems m 0 (soundOf n pre) (exportLines spans pend lines).1 after).foldl stepItem st)
        D' c' (pre ++ lines) ∧
      (c' = c ∨ ∃ s e, c' = some (m, s, e) ∨ c' = none) := by
  induction lines generalizing pre st D c S pend with
  | nil =>
    rw [List.append_nil]
    exact ⟨D, c, S, hi, h, Or.inl rfl⟩
  | cons d lines ih =>
    rw [exportLines]
    simp only
    rw [voiceItems_append, List.foldl_append]
    obtain ⟨D1, c1, S1, h1, h2, h3⟩ := line_step n T pre d (lines ++ post) (by simpa using hst) spans (by simpa using hsp)
      m ((exportLines spans (exportAt spans pend d).2 lines).1 ++ after) st D c S pend hi h
    rw [soundAfter_export]
    have hs : resolveCells (soundOf n pre) d.2 = soundOf n (pre ++ [d]) := by
      unfold soundOf; rw [List.foldl_append]; rfl
    rw [hs]
    obtain ⟨D2, c2, S2, k1, k2, k3⟩ := ih (pre ++ [d]) (by simpa using hst) (by simpa using hsp) _ D1 c1 S1 _ h1 h2
    refine ⟨D2, c2, S2, k1, by simpa using k2, ?_⟩
    rcases k3 with k3 | k3
    · rw [k3]; exact h3
    · exact Or.inr k3

theorem voiceItems_other (spans : List (Rat × Rat)) (m v : Nat) (lines : List OtData) (s : List (Option OtElem))
    (pend : List Rat) (after : List OtLine) :
    voiceItems m (v + 1) s (exportLines spans pend lines).1 after = (voiceOf (v + 1) lines).map (OtItem.elem m) := by
  have hmarks : ∀ (a : List OtLine) (s : List (Option OtElem)) (after : List OtLine),
      (∀ l ∈ a, l = .off ∨ ∃ t, l = .on t) → voiceItems m (v + 1) s a after = [] := by
    intro a
    induction a with
    | nil => intro s after _; rfl
    | cons l a ih =>
      intro s after h
      have := ih s after (fun x hx => h x (List.mem_cons_of_mem _ hx))
      rcases h l (by simp) with rfl | ⟨t, rfl⟩
      · rw [voiceItems, this, if_neg (by omega)]; rfl
      · rw [voiceItems, this, if_neg (by omega)]; rfl
  have hcell : ∀ d : OtData, cellItem m d.2[v + 1]?.join = (voiceOf (v + 1) [d]).map (OtItem.elem m) := by
    intro d
    unfold voiceOf
    cases hd : d.2[v + 1]?.join with
    | none => simp [cellItem, hd]
    | some x => simp [cellItem, hd]
  induction lines generalizing s pend with
  | nil => rfl
  | cons d lines ih =>
    rw [exportLines]
    simp only
    rw [voiceItems_append, ih]
    have : voiceOf (v + 1) (d :: lines) = voiceOf (v + 1) [d] ++ voiceOf (v + 1) lines := by
      rw [← voiceOf_append]; rfl
    rw [this, List.map_append]
    congr 1
    unfold exportAt
    by_cases hev : hasEvent d = true
    · rw [if_pos hev]
      simp only
      rw [voiceItems_append, hmarks]
      · rw [voiceItems, hcell]
        simp [voiceItems]
      · intro l hl
        rw [List.mem_append, List.mem_map, List.mem_map] at hl
        rcases hl with ⟨_, _, rfl⟩ | ⟨_, _, rfl⟩
        · exact Or.inl rfl
        · exact Or.inr ⟨_, rfl⟩
    · rw [if_neg hev]
      simp only
      rw [voiceItems, hcell]
      simp [voiceItems]

/-- The items of the other voices of a measure. -/
theorem others_rel (n : Nat) (T : Rat) (spans : List (Rat × Rat)) (m : Nat) (pre lines post : List OtData)
    (hst : Staff n T (pre ++ lines ++ post)) (hsp : Spans T (pre ++ lines ++ post) spans)
    (st : OtState) (D : List (Rat × Rat)) (c : Option (Nat × Rat × Rat))
    (S : List (Rat × Rat)) (pend : List Rat) (hi : OtInv T spans post D c S pend)
    (h : OtRel st D c (pre ++ lines))
    (hm : ∀ m0 s e, c = some (m0, s, e) → m = m0 ∨ ∀ d ∈ lines, s ≤ d.1)
    (hce : ∀ m0 s e, c = some (m0, s, e) → ∀ d ∈ lines, d.1 < e) (vs : List Nat) :
    OtRel ((vs.flatMap fun v => (voiceOf (v + 1) lines).map (OtItem.elem m)).foldl stepItem st) D c (pre ++ lines) := by
  induction vs generalizing st with
  | nil => exact h
  | cons v vs ih =>
    rw [List.flatMap_cons, List.foldl_append]
    apply ih
    apply rel_elems m _ st D c _ h
    intro x hx
    rw [mem_voiceOf] at hx
    obtain ⟨d, hd, hxd⟩ := hx
    have hxm : some x ∈ d.2 := by
      cases hv : d.2[v + 1]? with
      | none => rw [hv] at hxd; cases hxd
      | some o =>
        rw [hv] at hxd
        simp at hxd
        rw [← hxd]
        exact List.mem_of_getElem? hv
    have hxs : x.start = d.1 := hst.starts d (by simp [hd]) x hxm
    have hxe : x ∈ elemsOf (pre ++ lines) := by
      rw [mem_elemsOf]; exact ⟨d, by simp [hd], hxm⟩
    refine ⟨hxe, ?_⟩
    intro m0 s e hc hf
    have hs1 : s ≤ x.start := by
      rcases hm m0 s e hc with rfl | h
      · by_contra hlt
        exact hf ⟨rfl, not_le.1 hlt⟩
      · rw [hxs]; exact h d hd
    refine ⟨hs1, hsp.inside (s, e) ?_ x ?_ hs1 ?_⟩
    · rw [hi.split, hc]; simp [curSpan]
    · rw [elemsOf_append]; exact List.mem_append_left _ hxe
    · simp only; rw [hxs]; exact hce m0 s e hc d hd

theorem cur_ends_later (T : Rat) (spans : List (Rat × Rat)) (pre post : List OtData)
    (ht : (pre ++ post).Pairwise fun a b => a.1 < b.1) (hb : ∀ d ∈ pre, d.1 < T)
    (D : List (Rat × Rat)) (c : Option (Nat × Rat × Rat)) (S : List (Rat × Rat)) (pend : List Rat)
    (hi : OtInv T spans post D c S pend) : ∀ m0 s e, c = some (m0, s, e) → ∀ d ∈ pre, d.1 < e := by
  intro m0 s e hc d hd
  rcases hi.open' (s, e) (by rw [hc]; simp [curSpan]) with h | ⟨x, hx, -, hx2⟩
  · simp only at h; rw [h]; exact hb d hd
  · simp only at hx2
    rw [← hx2]
    exact (List.pairwise_append.1 ht).2.2 d hd x hx

/-- The measures. -/
theorem measures_sim (n : Nat) (T : Rat) (spans : List (Rat × Rat)) (ms : List (List OtData)) (m : Nat)
    (pre : List OtData) (hne : ms ≠ [])
    (hst : Staff n T (pre ++ ms.flatten)) (hsp : Spans T (pre ++ ms.flatten) spans)
    (st : OtState) (D : List (Rat × Rat)) (c : Option (Nat × Rat × Rat))
    (S : List (Rat × Rat)) (pend : List Rat) (hi : OtInv T spans ms.flatten D c S pend) (h : OtRel st D c pre) :
    OtRel ((readItems n m (soundOf n pre) (exportOttavas spans pend ms)).foldl stepItem st) spans none
      (pre ++ ms.flatten) := by
  induction ms generalizing m pre st D c S pend with
  | nil => exact absurd rfl hne
  | cons M ms ih =>
    rw [List.flatten_cons] at hst hsp hi
    cases ms with
    | nil =>
      rw [exportOttavas, readItems, readItems, List.append_nil, List.foldl_append]
      simp only [List.flatten_nil, List.flatten_cons, List.append_nil] at hst hsp hi ⊢
      have hst' : Staff n T (pre ++ M ++ []) := by simpa using hst
      have hsp' : Spans T (pre ++ M ++ []) spans := by simpa using hsp
      obtain ⟨D1, c1, S1, h1, h2, h3⟩ := lines_sim n T spans m M pre [] hst' hsp'
        (((exportLines spans pend M).2.map fun _ => OtLine.off) ++ []) st D c S pend (by simpa using hi) h
      have hS1 : S1 = [] := by
        cases S1 with
        | nil => rfl
        | cons sp S1 =>
          obtain ⟨x, hx, _⟩ := h1.ahead sp (by simp)
          cases hx
      rw [voiceItems_append, List.foldl_append, soundAfter_lines]
      have hother : ∀ v : Nat, voiceItems m (v + 1) (soundOf n pre)
          ((exportLines spans pend M).1 ++ (exportLines spans pend M).2.map fun _ => OtLine.off) [] =
          (voiceOf (v + 1) M).map (OtItem.elem m) := by
        intro v
        rw [voiceItems_append, voiceItems_other]
        have : ∀ (l : List Rat) (s : List (Option OtElem)),
            voiceItems m (v + 1) s (l.map fun _ => OtLine.off) [] = [] := by
          intro l
          induction l with
          | nil => intro s; rfl
          | cons a l ihl =>
            intro s
            rw [List.map_cons, voiceItems, ihl, if_neg (by omega)]; rfl
        rw [this, List.append_nil]
      simp only [hother]
      have hend : OtRel ((voiceItems m 0 (soundOf n (pre ++ M)) ((exportLines spans pend M).2.map fun _ => OtLine.off)
          []).foldl stepItem ((voiceItems m 0 (soundOf n pre) (exportLines spans pend M).1
          (((exportLines spans pend M).2.map fun _ => OtLine.off) ++ [])).foldl stepItem st)) spans none (pre ++ M) := by
        cases c1 with
        | none =>
          have : (exportLines spans pend M).2 = [] := by rw [h1.waits]; rfl
          rw [this] at h2 ⊢
          simp only [List.map_nil, voiceItems, List.foldl_nil]
          have hD : spans = D1 := by rw [h1.split, hS1]; simp [curSpan]
          rw [← hD] at h2
          exact h2
        | some c1 =>
          obtain ⟨m0, s, e⟩ := c1
          have hp : (exportLines spans pend M).2 = [e] := by rw [h1.waits]; rfl
          rw [hp] at h2 ⊢
          simp only [List.map_cons, List.map_nil]
          rw [voiceItems, if_pos rfl]
          simp only [voiceItems, List.append_nil, List.foldl_cons, List.foldl_nil]
          have heT : e = T := by
            rcases h1.open' (s, e) (by simp [curSpan]) with h | ⟨x, hx, _⟩
            · exact h
            · cases hx
          have hD : spans = D1 ++ [(s, e)] := by rw [h1.split, hS1]; simp [curSpan]
          have := close_step n T (pre ++ M) [] hst' spans hsp' _ D1 m0 s e (by rw [hD]; simp) h2 (le_of_eq heT)
            (by intro d hd; cases hd) (by intro d hd; rw [heT]; exact hst.before d hd)
          rw [← hD] at this
          exact this
      have hi' : OtInv T spans [] spans none [] [] :=
        ⟨(by simp [curSpan]), rfl, (by intro _ _ d hd; cases hd), (by intro _ h; cases h), (by intro _ h; cases h)⟩
      exact others_rel n T spans m pre M [] hst' hsp' _ spans none [] [] hi' hend (by intro _ _ _ h; cases h)
        (by intro _ _ _ h; cases h) _
    | cons M' ms =>
      rw [exportOttavas, readItems, List.foldl_append, List.foldl_append]
      have hst' : Staff n T (pre ++ M ++ (M' :: ms).flatten) := by simpa using hst
      have hsp' : Spans T (pre ++ M ++ (M' :: ms).flatten) spans := by simpa using hsp
      obtain ⟨D1, c1, S1, h1, h2, h3⟩ := lines_sim n T spans m M pre (M' :: ms).flatten hst' hsp'
        (exportOttavas spans (exportLines spans pend M).2 (M' :: ms)).flatten st D c S pend hi h
      rw [soundAfter_lines]
      simp only [voiceItems_other]
      have key := ih (m + 1) (pre ++ M) (by simp) hst' hsp' _ D1 c1 S1 (exportLines spans pend M).2 h1
        (others_rel n T spans m pre M (M' :: ms).flatten hst' hsp' _ D1 c1 S1 (exportLines spans pend M).2 h1 h2 ?_ ?_
          (List.range (n - 1)))
      · rw [List.append_assoc] at key
        exact key
      · intro m0 s e hc
        rcases h3 with h3 | ⟨s', e', h3 | h3⟩
        · right
          intro d hd
          exact le_of_lt (hi.past (s, e) (by rw [← h3, hc]; simp [curSpan]) d (by simp [hd]))
        · left
          rw [h3] at hc
          injection hc with hc
          injection hc
        · rw [h3] at hc; cases hc
      · intro m0 s e hc d hd
        exact cur_ends_later T spans (pre ++ M) (M' :: ms).flatten hst'.times
          (fun x hx => hst'.before x (List.mem_append_left _ hx)) D1 c1 S1 _ h1 m0 s e hc d (by simp [hd])

/-- **C106 (partial)** Octave lines of one kind in a staff that follow one another, start and end where elements of
the staff start (or at the end), and contain every element that starts within them, are read back with the same
times, in the same order, whatever the voices and the measures.
Missing: see the theorems below. -/
theorem ottavas_round_trip_partial (n : Nat) (T : Rat) (measures : List (List OtData)) (spans : List (Rat × Rat))
    (hst : Staff n T measures.flatten) (hsp : Spans T measures.flatten spans) :
    readOttavas n (exportOttavas spans [] measures) = spans.map some := by
  unfold readOttavas
  by_cases hne : measures = []
  · subst hne
    have : spans = [] := by
      cases spans with
      | nil => rfl
      | cons sp l =>
        obtain ⟨d, hd, _⟩ := hsp.opens sp (by simp)
        cases hd
    subst this
    rfl
  · have key := measures_sim n T spans measures 0 [] hne (by simpa using hst) (by simpa using hsp) ⟨[], none⟩ [] none
      spans [] ⟨by simp [curSpan], rfl, by intro _ h; simp [curSpan] at h, hsp.opens, by intro _ h; simp [curSpan] at h⟩
      ⟨rfl, rfl⟩
    have hs : soundOf n [] = List.replicate n none := rfl
    rw [hs] at key
    have h2 : (List.foldl stepItem ⟨[], none⟩ (readItems n 0 (List.replicate n none)
      (exportOttavas spans [] measures))).cur = none := key.2
    simp only [h2, List.append_nil]
    exact key.1

/-- A staff of two voices and two measures, with two ottavas: one across the barline, one to the end. -/
def otDemo : List (List OtData) :=
  [[(0, [some ⟨0, true, 0, 2⟩, some ⟨1, true, 0, 1⟩]), (1, [none, some ⟨2, true, 1, 4⟩]),
    (2, [some ⟨3, true, 2, 4⟩, none])],
   [(4, [some ⟨4, true, 4, 6⟩, some ⟨5, false, 4, 8⟩]), (6, [some ⟨6, true, 6, 8⟩, none])]]

def otDemoSpans : List (Rat × Rat) := [(0, 4), (4, 8)]

example : Staff 2 8 otDemo.flatten := by
  refine ⟨by decide, by decide +kernel, by decide +kernel, ?_, ?_⟩
  · intro d hd x hx
    have : ∀ d ∈ otDemo.flatten, ∀ o ∈ d.2, ∀ x ∈ o, x.start = d.1 := by decide +kernel
    exact this d hd (some x) hx x rfl
  · intro v hv
    have h0 : v = 0 ∨ v = 1 := by omega
    rcases h0 with rfl | rfl
    · refine ⟨by decide +kernel, ?_⟩
      intro x hx
      have : (voiceOf 0 otDemo.flatten).getLast? = some ⟨6, true, 6, 8⟩ := by decide +kernel
      rw [this] at hx
      injection hx with hx
      rw [← hx]
    · refine ⟨by decide +kernel, ?_⟩
      intro x hx
      have : (voiceOf 1 otDemo.flatten).getLast? = some ⟨5, false, 4, 8⟩ := by decide +kernel
      rw [this] at hx
      injection hx with hx
      rw [← hx]

example : Spans 8 otDemo.flatten otDemoSpans :=
  ⟨by decide +kernel, by decide +kernel, by decide +kernel, by decide +kernel, by decide +kernel⟩

example : readOttavas 2 (exportOttavas otDemoSpans [] otDemo) = [some (0, 4), some (4, 8)] := by decide +kernel

/-- **C106** The marks of the octave lines of one and two octaves, up and down, are told apart. -/
theorem ottava_marks_read (type : Str) (isStart : Bool)
    (h : type ∈ ["8va".toList, "8vb".toList, "15ma".toList, "15mb".toList]) :
    readOttavaMark (ottavaMark type isStart) = some (type, isStart) := by
  simp only [List.mem_cons, List.not_mem_nil, or_false] at h
  cases isStart <;> rcases h with rfl | rfl | rfl | rfl <;> decide

/-- **C106 (disagreement)** Octave lines of three octaves (music21's `22da` and `22db`) are read as of one octave up. -/
theorem three_octaves_read_as_one (isStart : Bool) :
    readOttavaMark (ottavaMark "22da".toList isStart) = some ("8va".toList, isStart) ∧
    readOttavaMark (ottavaMark "22db".toList isStart) = some ("8va".toList, isStart) := by
  cases isStart <;> decide

/-- **C106 (disagreement)** An octave line over the first of two half notes in a lower voice, under a whole note of
the upper voice, is read as covering the whole measure. -/
theorem lower_voice_stretched :
    readOttavas 2 (exportOttavas [(0, 2)] []
      [[(0, [some ⟨0, true, 0, 4⟩, some ⟨1, true, 0, 2⟩]), (2, [none, some ⟨2, true, 2, 4⟩])]]) = [some (0, 4)] := by
  decide +kernel

/-- **C106 (disagreement)** An octave line that ends where nothing of its staff starts (there is a gap) is read as
covering everything to the end of the score, across the barline. -/
theorem stop_in_gap_never_written :
    readOttavas 1 (exportOttavas [(0, 2)] []
      [[(0, [some ⟨0, true, 0, 2⟩]), (2, [none]), (3, [some ⟨2, true, 3, 4⟩])],
       [(4, [some ⟨3, true, 4, 8⟩])]]) = [some (0, 8)] := by
  decide +kernel

/-- **C106 (disagreement)** Of two overlapping octave lines of the same kind only the first is read. -/
theorem overlapping_ottava_lost :
    readOttavas 1 (exportOttavas [(0, 2), (1, 3)] []
      [[(0, [some ⟨0, true, 0, 1⟩]), (1, [some ⟨1, true, 1, 2⟩]), (2, [some ⟨2, true, 2, 3⟩]),
        (3, [some ⟨3, true, 3, 4⟩])]]) = [some (0, 2)] := by
  decide +kernel

end C21
