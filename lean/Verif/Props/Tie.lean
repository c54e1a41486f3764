import Verif.Spec.Tie
import Verif.Model.Tie
import Verif.Props.SlurRecord
import Mathlib.Data.List.Induction
/-
C28: linked ties.
-/
namespace C21

/-- At most one kind of linked tie mark. -/
def OneTieMark (sig text : Str) : Prop :=
  ¬ (hasTieMark sig '[' text = true ∧ hasTieMark sig ']' text = true) ∧
  ¬ (hasTieMark sig '[' text = true ∧ hasTieMark sig '_' text = true) ∧
  ¬ (hasTieMark sig ']' text = true ∧ hasTieMark sig '_' text = true)

/-- The state after one note. -/
def tieNext {α : Type} (sig : Str) (n : α) (text : Str) (S : TieSt α) : TieSt α :=
  let p := (kernToBase40 text).toNat
  if tieMarked sig text then
    { db := fun q => if q = p then (if opensTie sig text then some n else none) else S.db q
      starts := S.starts ++ (if closesTie sig text then (S.db p).toList else [])
      ends := S.ends ++ (if closesTie sig text then (S.db p).toList.map (fun _ => n) else []) }
  else S

theorem tieNote_eq {α : Type} (sig : Str) (n : α) (text : Str) (S : TieSt α) (h1 : OneTieMark sig text)
    (hp : tieMarked sig text = true → 0 ≤ kernToBase40 text ∧ kernToBase40 text < 400) :
    tieNote sig n text S = .ok (tieNext sig n text S) := by
  obtain ⟨a, b, c⟩ := h1
  unfold hasTieMark at a b c
  by_cases hm : tieMarked sig text = true
  · obtain ⟨p0, p1⟩ := hp hm
    have hi : pyIndex 400 (kernToBase40 text) = some (kernToBase40 text).toNat := by
      unfold pyIndex; rw [if_pos ⟨p0, by exact_mod_cast p1⟩]
    unfold tieNote tieStartStep tieNext
    rw [hi, if_pos hm]
    unfold tieMarked opensTie closesTie hasTieMark at *
    cases s1 : isInfix (sig ++ ['[']) text <;> cases s2 : isInfix (sig ++ [']']) text <;> cases s3 : isInfix (sig ++ ['_']) text <;>
      simp only [s1, s2, s3, Bool.or_true, Bool.or_false, Bool.true_or, Bool.false_or, Bool.false_eq_true, if_true, if_false, List.append_nil, and_self, not_true_eq_false,
        tieEndStep, tieMiddleStep, hi] at a b c hm ⊢
    · cases hd : S.db (kernToBase40 text).toNat with
      | none =>
        simp only [TieSt.put, Option.toList, List.map_nil, List.append_nil]
      | some m => simp only [TieSt.put, Option.toList, List.map_cons, List.map_nil]
    · cases hd : S.db (kernToBase40 text).toNat with
      | none =>
        simp only [Option.toList, List.map_nil, List.append_nil]
        congr 1
        cases S
        congr 1
        funext q
        by_cases hq : q = (kernToBase40 text).toNat
        · subst hq; simpa using hd
        · rw [if_neg hq]
      | some m => simp only [TieSt.put, Option.toList, List.map_cons, List.map_nil]
    · simp only [TieSt.put]
  · have hm' : tieMarked sig text = false := by simpa using hm
    unfold tieNote tieStartStep tieNext
    rw [if_neg hm]
    unfold tieMarked opensTie closesTie hasTieMark at hm'
    simp only [Bool.or_eq_false_iff] at hm'
    obtain ⟨⟨s1, s3⟩, s2, _⟩ := hm'
    simp only [s1, s2, s3, Bool.false_eq_true, if_false, tieEndStep, tieMiddleStep]

theorem tieNotes_append {α : Type} (sig : Str) (l m : List (α × Str)) (S : TieSt α) :
    tieNotes sig (l ++ m) S = match tieNotes sig l S with
      | .error e => .error e
      | .ok S => tieNotes sig m S := by
  induction l generalizing S with
  | nil => rfl
  | cons x xs ih =>
    simp only [List.cons_append, tieNotes]
    cases tieNote sig x.1 x.2 S with
    | error e => rfl
    | ok S => exact ih S

/-- Name of the note at a place. -/
def refAt {α : Type} (l : List (α × Str)) (i : Nat) : Option α := (l[i]?).map Prod.fst

theorem refAt_append {α : Type} (l : List (α × Str)) (x : α × Str) (i : Nat) (h : i < l.length) : refAt (l ++ [x]) i = refAt l i := by
  unfold refAt; rw [List.getElem?_append_left h]

structure TieInv {α : Type} (sig : Str) (l : List (α × Str)) (pairs : List (Nat × Nat)) (idb : Nat → Option Nat) (S : TieSt α) : Prop where
  hdb : ∀ p, S.db p = (idb p).bind (refAt l)
  hidb : ∀ p i, idb p = some i ↔ ∃ x, l[i]? = some x ∧ kernToBase40 x.2 = (p : Int) ∧ opensTie sig x.2 = true ∧
    ∀ k z, i < k → l[k]? = some z → tieMarked sig z.2 = true → kernToBase40 z.2 ≠ (p : Int)
  hst : S.starts = pairs.filterMap (fun p => refAt l p.1)
  hen : S.ends = pairs.filterMap (fun p => refAt l p.2)
  hpairs : ∀ i j, (i, j) ∈ pairs ↔ TiedAt sig l i j
  hord : pairs.Pairwise (fun a b => a.2 < b.2)

theorem TiedAt.lt {α : Type} {sig : Str} {l : List (α × Str)} {i j : Nat} (h : TiedAt sig l i j) : i < j ∧ j < l.length := by
  obtain ⟨x, y, hx, hy, hij, _⟩ := h
  exact ⟨hij, (List.getElem?_eq_some_iff.mp hy).1⟩

theorem tiedAt_append_lt {α : Type} (sig : Str) (l : List (α × Str)) (x : α × Str) (i j : Nat) (hj : j < l.length) :
    TiedAt sig (l ++ [x]) i j ↔ TiedAt sig l i j := by
  have g : ∀ k, k ≤ j → (l ++ [x])[k]? = l[k]? := fun k hk => List.getElem?_append_left (by omega)
  constructor
  · rintro ⟨a, b, ha, hb, hij, h1, h2, h3, h4⟩
    rw [g i (by omega)] at ha
    rw [g j (by omega)] at hb
    exact ⟨a, b, ha, hb, hij, h1, h2, h3, fun k z hk hk' hz => h4 k z hk hk' (by rw [g k (by omega)]; exact hz)⟩
  · rintro ⟨a, b, ha, hb, hij, h1, h2, h3, h4⟩
    refine ⟨a, b, by rw [g i (by omega)]; exact ha, by rw [g j (by omega)]; exact hb, hij, h1, h2, h3, fun k z hk hk' hz => h4 k z hk hk' ?_⟩
    rw [g k (by omega)] at hz; exact hz

theorem tieInv_step {α : Type} (sig : Str) (l : List (α × Str)) (pairs : List (Nat × Nat)) (idb : Nat → Option Nat) (S : TieSt α)
    (inv : TieInv sig l pairs idb S) (x : α × Str)
    (hp : tieMarked sig x.2 = true → 0 ≤ kernToBase40 x.2 ∧ kernToBase40 x.2 < 400) :
    ∃ pairs' idb', TieInv sig (l ++ [x]) pairs' idb' (tieNext sig x.1 x.2 S) := by
  have idbLt : ∀ p i, idb p = some i → i < l.length := by
    intro p i h
    obtain ⟨y, hy, _⟩ := (inv.hidb p i).mp h
    exact (List.getElem?_eq_some_iff.mp hy).1
  have fm : ∀ (f : Nat × Nat → Nat), (∀ p ∈ pairs, f p < l.length) →
      pairs.filterMap (fun p => refAt (l ++ [x]) (f p)) = pairs.filterMap (fun p => refAt l (f p)) := by
    intro f hf
    apply List.filterMap_congr
    intro p hp
    exact refAt_append l x _ (hf p hp)
  have lt1 : ∀ p ∈ pairs, p.1 < l.length := fun p hp => by
    have := ((inv.hpairs p.1 p.2).mp hp).lt; omega
  have lt2 : ∀ p ∈ pairs, p.2 < l.length := fun p hp => ((inv.hpairs p.1 p.2).mp hp).lt.2
  have last : (l ++ [x])[l.length]? = some x := by simp
  by_cases hm : tieMarked sig x.2 = true
  · obtain ⟨p0, p1⟩ := hp hm
    set P := (kernToBase40 x.2).toNat with hP
    have hPc : ((P : Nat) : Int) = kernToBase40 x.2 := by omega
    let add : List (Nat × Nat) := if closesTie sig x.2 then (idb P).toList.map (fun i => (i, l.length)) else []
    refine ⟨pairs ++ add, fun q => if q = P then (if opensTie sig x.2 then some l.length else none) else idb q, ?_⟩
    have hS : S.db P = (idb P).bind (refAt l) := inv.hdb P
    have hmem : ∀ i j, (i, j) ∈ add ↔ closesTie sig x.2 = true ∧ idb P = some i ∧ j = l.length := by
      intro i j
      by_cases hc : closesTie sig x.2 = true
      · simp only [add, hc, if_true, true_and]
        cases idb P <;> simp [eq_comm]
      · simp only [add, hc, Bool.false_eq_true, if_false, List.not_mem_nil, false_and]
    constructor
    · intro q
      unfold tieNext
      rw [if_pos hm]
      simp only [← hP]
      by_cases hq : q = P
      · simp only [hq, if_true]
        by_cases ho : opensTie sig x.2 = true
        · simp [ho, refAt]
        · simp [ho]
      · simp only [hq, if_false]
        rw [inv.hdb q]
        cases hi : idb q with
        | none => rfl
        | some i => exact (refAt_append l x i (idbLt q i hi)).symm
    · intro q i
      by_cases hq : q = P
      · simp only [hq, if_true]
        constructor
        · intro h
          by_cases ho : opensTie sig x.2 = true
          · simp only [ho, if_true, Option.some.injEq] at h
            subst h
            refine ⟨x, last, hPc.symm, ho, ?_⟩
            intro k z hk hz
            have := (List.getElem?_eq_some_iff.mp hz).1
            simp at this; omega
          · simp [ho] at h
        · rintro ⟨y, hy, h1, h2, h3⟩
          have hil : i < (l ++ [x]).length := (List.getElem?_eq_some_iff.mp hy).1
          rw [List.length_append, List.length_singleton] at hil
          by_cases hi : i = l.length
          · subst hi
            rw [last] at hy
            cases hy
            simp [h2]
          · exact absurd hPc.symm (h3 l.length x (by omega) last hm)
      · simp only [hq, if_false]
        rw [inv.hidb q i]
        constructor
        · rintro ⟨y, hy, h1, h2, h3⟩
          have hil := (List.getElem?_eq_some_iff.mp hy).1
          refine ⟨y, by rw [List.getElem?_append_left hil]; exact hy, h1, h2, ?_⟩
          intro k z hk hz hzm
          by_cases hkl : k < l.length
          · rw [List.getElem?_append_left hkl] at hz
            exact h3 k z hk hz hzm
          · have := (List.getElem?_eq_some_iff.mp hz).1
            simp only [List.length_append, List.length_singleton] at this
            have hk' : k = l.length := by omega
            subst hk'
            rw [last] at hz
            cases hz
            intro e
            apply hq
            have : (q : Int) = (P : Int) := by rw [← e, hPc]
            exact_mod_cast this
        · rintro ⟨y, hy, h1, h2, h3⟩
          have hil : i < (l ++ [x]).length := (List.getElem?_eq_some_iff.mp hy).1
          rw [List.length_append, List.length_singleton] at hil
          by_cases hi : i = l.length
          · subst hi
            rw [last] at hy
            cases hy
            exact absurd (by have : (q : Int) = (P : Int) := by rw [← h1, hPc]
                             exact_mod_cast this) hq
          · have hil' : i < l.length := by omega
            rw [List.getElem?_append_left hil'] at hy
            refine ⟨y, hy, h1, h2, fun k z hk hz hzm => h3 k z hk ?_ hzm⟩
            rw [List.getElem?_append_left (List.getElem?_eq_some_iff.mp hz).1]; exact hz
    · unfold tieNext
      rw [if_pos hm]
      simp only [← hP]
      rw [List.filterMap_append, fm _ lt1, inv.hst, hS]
      congr 1
      by_cases hc : closesTie sig x.2 = true
      · simp only [hc, if_true, add]
        cases hi : idb P with
        | none => rfl
        | some i =>
          have hil := idbLt P i hi
          simp only [Option.bind_some, Option.toList_some, List.map_cons, List.map_nil, List.filterMap_cons, List.filterMap_nil, refAt_append l x i hil]
          cases refAt l i <;> rfl
      · simp [hc, add]
    · unfold tieNext
      rw [if_pos hm]
      simp only [← hP]
      rw [List.filterMap_append, fm _ lt2, inv.hen, hS]
      congr 1
      by_cases hc : closesTie sig x.2 = true
      · simp only [hc, if_true, add]
        cases hi : idb P with
        | none => rfl
        | some i =>
          have hil := idbLt P i hi
          have : refAt l i = some (l[i].1) := by unfold refAt; rw [List.getElem?_eq_getElem hil]; rfl
          have e2 : refAt (l ++ [x]) l.length = some x.1 := by unfold refAt; rw [last]; rfl
          simp only [Option.bind_some, this, Option.toList_some, List.map_cons, List.map_nil, List.filterMap_cons, List.filterMap_nil, e2]
      · simp [hc, add]
    · intro i j
      rw [List.mem_append, inv.hpairs, hmem]
      by_cases hj : j < l.length
      · rw [tiedAt_append_lt sig l x i j hj]
        constructor
        · rintro (h | ⟨_, _, h⟩)
          · exact h
          · omega
        · exact Or.inl
      · constructor
        · rintro (h | ⟨hc, hi, rfl⟩)
          · exact absurd h.lt.2 hj
          · obtain ⟨y, hy, h1, h2, h3⟩ := (inv.hidb P i).mp hi
            have hil := idbLt P i hi
            refine ⟨y, x, by rw [List.getElem?_append_left hil]; exact hy, last, hil, h2, hc, by rw [h1, hPc], ?_⟩
            intro k z hk hk' hz hzm
            rw [List.getElem?_append_left hk'] at hz
            rw [h1]
            exact h3 k z hk hz hzm
        · intro h
          have h' := h.lt
          simp only [List.length_append, List.length_singleton] at h'
          have hjl : j = l.length := by omega
          subst hjl
          obtain ⟨y, z, hy, hz, hij, h1, h2, h3, h4⟩ := h
          rw [last] at hz
          cases hz
          rw [List.getElem?_append_left hij] at hy
          refine Or.inr ⟨h2, ?_, rfl⟩
          rw [inv.hidb]
          refine ⟨y, hy, by rw [h3, hPc], h1, ?_⟩
          intro k w hk hw hwm
          rw [hPc, ← h3]
          have hkl := (List.getElem?_eq_some_iff.mp hw).1
          exact h4 k w hk hkl (by rw [List.getElem?_append_left hkl]; exact hw) hwm
    · rw [List.pairwise_append]
      refine ⟨inv.hord, ?_, ?_⟩
      · simp only [add]
        split
        · cases idb P <;> simp
        · simp
      · intro a ha b hb
        have := lt2 a ha
        have := (hmem b.1 b.2).mp hb
        omega
  · refine ⟨pairs, idb, ?_⟩
    have hmm : ∀ y, l ++ [x] = y → True := fun _ _ => trivial
    have un : tieNext sig x.1 x.2 S = S := by unfold tieNext; rw [if_neg hm]
    rw [un]
    have hno : opensTie sig x.2 = false ∧ closesTie sig x.2 = false := by
      unfold tieMarked at hm
      simpa using hm
    constructor
    · intro q
      rw [inv.hdb q]
      cases hi : idb q with
      | none => rfl
      | some i => exact (refAt_append l x i (idbLt q i hi)).symm
    · intro q i
      rw [inv.hidb q i]
      constructor
      · rintro ⟨y, hy, h1, h2, h3⟩
        have hil := (List.getElem?_eq_some_iff.mp hy).1
        refine ⟨y, by rw [List.getElem?_append_left hil]; exact hy, h1, h2, ?_⟩
        intro k z hk hz hzm
        by_cases hkl : k < l.length
        · rw [List.getElem?_append_left hkl] at hz
          exact h3 k z hk hz hzm
        · have := (List.getElem?_eq_some_iff.mp hz).1
          simp only [List.length_append, List.length_singleton] at this
          have hk' : k = l.length := by omega
          subst hk'
          rw [last] at hz
          cases hz
          exact absurd hzm hm
      · rintro ⟨y, hy, h1, h2, h3⟩
        have hil : i < (l ++ [x]).length := (List.getElem?_eq_some_iff.mp hy).1
        rw [List.length_append, List.length_singleton] at hil
        by_cases hi : i = l.length
        · subst hi
          rw [last] at hy
          cases hy
          rw [hno.1] at h2
          cases h2
        · have hil' : i < l.length := by omega
          rw [List.getElem?_append_left hil'] at hy
          refine ⟨y, hy, h1, h2, fun k z hk hz hzm => h3 k z hk ?_ hzm⟩
          rw [List.getElem?_append_left (List.getElem?_eq_some_iff.mp hz).1]; exact hz
    · rw [fm _ lt1]; exact inv.hst
    · rw [fm _ lt2]; exact inv.hen
    · intro i j
      rw [inv.hpairs]
      by_cases hj : j < l.length
      · exact (tiedAt_append_lt sig l x i j hj).symm
      · constructor
        · intro h; exact absurd h.lt.2 hj
        · intro h
          have h' := h.lt
          simp only [List.length_append, List.length_singleton] at h'
          have hjl : j = l.length := by omega
          subst hjl
          obtain ⟨y, z, hy, hz, hij, h1, h2, h3, h4⟩ := h
          rw [last] at hz
          cases hz
          rw [hno.2] at h2
          cases h2
    · exact inv.hord

theorem zip_filterMap {β γ : Type} (f g : γ → Option β) (l : List γ) (h : ∀ p ∈ l, (f p).isSome = true ∧ (g p).isSome = true) :
    List.zip (l.filterMap f) (l.filterMap g) = l.filterMap (fun p => (f p).bind (fun a => (g p).map (fun b => (a, b)))) := by
  induction l with
  | nil => rfl
  | cons p l ih =>
    obtain ⟨h1, h2⟩ := h p (by simp)
    obtain ⟨a, ha⟩ := Option.isSome_iff_exists.mp h1
    obtain ⟨b, hb⟩ := Option.isSome_iff_exists.mp h2
    simp only [List.filterMap_cons, ha, hb, Option.bind_some, Option.map_some, List.zip_cons_cons]
    rw [ih (fun q hq => h q (by simp [hq]))]

/-- C28. The linked ties made are exactly the pairs of the specification, in the order of their ends, when no note has two kinds of
linked tie mark and the pitches are in the ten octaves from C0. -/
theorem linked_ties_partial {α : Type} (sig : Str) (notes : List (α × Str)) (hs : sig ≠ [])
    (h1 : ∀ x ∈ notes, OneTieMark sig x.2)
    (hp : ∀ x ∈ notes, tieMarked sig x.2 = true → 0 ≤ kernToBase40 x.2 ∧ kernToBase40 x.2 < 400) :
    ∃ pairs : List (Nat × Nat), (∀ i j, (i, j) ∈ pairs ↔ TiedAt sig notes i j) ∧ pairs.Pairwise (fun a b => a.2 < b.2) ∧
      linkedTies sig notes = .ok (pairs.filterMap (fun p => (refAt notes p.1).bind (fun a => (refAt notes p.2).map (fun b => (a, b))))) := by
  have key : ∀ l : List (α × Str), (∀ x ∈ l, x ∈ notes) → ∃ pairs idb S, tieNotes sig l ⟨fun _ => none, [], []⟩ = .ok S ∧ TieInv sig l pairs idb S := by
    intro l
    induction l using List.reverseRecOn with
    | nil =>
      intro _
      refine ⟨[], fun _ => none, _, rfl, ⟨fun p => rfl, ?_, rfl, rfl, ?_, List.Pairwise.nil⟩⟩
      · intro p i; simp
      · intro i j
        constructor
        · intro h; simp at h
        · intro h; have := h.lt.2; simp at this
    | append_singleton l x ih =>
      intro hl
      obtain ⟨pairs, idb, S, hS, inv⟩ := ih (fun y hy => hl y (by simp [hy]))
      have hx : x ∈ notes := hl x (by simp)
      obtain ⟨pairs', idb', inv'⟩ := tieInv_step sig l pairs idb S inv x (hp x hx)
      refine ⟨pairs', idb', tieNext sig x.1 x.2 S, ?_, inv'⟩
      rw [tieNotes_append, hS]
      simp only [tieNotes]
      rw [tieNote_eq sig x.1 x.2 S (h1 x hx) (hp x hx)]
  obtain ⟨pairs, idb, S, hS, inv⟩ := key notes (fun x hx => hx)
  refine ⟨pairs, inv.hpairs, inv.hord, ?_⟩
  have hse : sig.isEmpty = false := by cases sig <;> simp_all
  unfold linkedTies
  rw [hse, hS]
  simp only [Bool.false_eq_true, if_false]
  rw [inv.hst, inv.hen]
  congr 1
  apply zip_filterMap
  intro p hp'
  obtain ⟨x, y, hx, hy, _⟩ := (inv.hpairs p.1 p.2).mp hp'
  unfold refAt
  rw [hx, hy]
  exact ⟨rfl, rfl⟩

/-- C28: no note is tied forward twice, or backward twice. -/
theorem tied_unique {α : Type} (sig : Str) (notes : List (α × Str)) (i i' j j' : Nat) :
    (TiedAt sig notes i j → TiedAt sig notes i j' → j = j') ∧ (TiedAt sig notes i j → TiedAt sig notes i' j → i = i') := by
  constructor
  · rintro ⟨x, y, hx, hy, hij, ho, hc, hp, hb⟩ ⟨x', y', hx', hy', hij', ho', hc', hp', hb'⟩
    rw [hx] at hx'; cases hx'
    rcases Nat.lt_trichotomy j j' with h | h | h
    · exact absurd hp.symm (hb' j y hij h hy (by unfold tieMarked; simp [hc]))
    · exact h
    · exact absurd hp'.symm (hb j' y' hij' h hy' (by unfold tieMarked; simp [hc']))
  · rintro ⟨x, y, hx, hy, hij, ho, hc, hp, hb⟩ ⟨x', y', hx', hy', hij', ho', hc', hp', hb'⟩
    rw [hy] at hy'; cases hy'
    rcases Nat.lt_trichotomy i i' with h | h | h
    · exact absurd (hp'.trans hp.symm) (hb i' x' h hij' hx' (by unfold tieMarked; simp [ho']))
    · exact h
    · exact absurd (hp.trans hp'.symm) (hb' i x h hij hx (by unfold tieMarked; simp [ho]))

/-- Without a linking signifier no ties are linked. -/
theorem linked_ties_off {α : Type} (notes : List (α × Str)) : linkedTies [] notes = .ok [] := rfl

example : (∀ x ∈ [(0, "l[4c".toList), (1, "l[4e".toList), (2, "4cl_".toList), (3, "4c".toList), (4, "2cl]".toList), (5, "l]4e".toList)], OneTieMark "l".toList x.2) ∧
    linkedTies "l".toList [(0, "l[4c".toList), (1, "l[4e".toList), (2, "4cl_".toList), (3, "4c".toList), (4, "2cl]".toList), (5, "l]4e".toList)] =
      .ok [(0, 2), (2, 4), (1, 5)] := by
  constructor
  · unfold OneTieMark; decide
  · rfl

/-- A note with both a start and an end mark is tied to itself, and the tie that should end there is lost. -/
theorem tie_two_marks_wrong : linkedTies "l".toList [(0, "l[4c".toList), (1, "l]l[4c".toList)] = .ok [(1, 1)] := rfl

/-- A pitch below C0 shares its place with one near the top: notes of different pitch are tied. -/
theorem tie_low_pitch_wrong :
    kernToBase40 "l[1CCCCC".toList ≠ kernToBase40 "l]1cccccc".toList ∧
    linkedTies "l".toList [(0, "l[1CCCCC".toList), (1, "l]1cccccc".toList)] = .ok [(0, 1)] := by
  constructor
  · decide
  · rfl

/-- A pitch from C10 up, or a marked subtoken with no pitch, makes the analysis fail. -/
theorem tie_high_pitch_fails :
    linkedTies "l".toList [(0, "l[1ccccccc".toList)] = .error .indexError ∧ linkedTies "l".toList [(0, "l[1".toList)] = .error .indexError :=
  ⟨rfl, rfl⟩

/-! ### What is recorded -/

theorem tieTag_stem (isChord : TokId → Bool) (a : Str) (ha : ∀ c ∈ a, isDig c = false) (n : TokId × Nat) : keyStem (tieTag isChord a n) = a := by
  unfold tieTag
  split
  · unfold keyStem
    rw [List.takeWhile_append_of_pos (by intro c hc; simp [ha c hc])]
    cases h : natStr (n.2 + 1) with
    | nil => exact absurd h (natStr_ne_nil _)
    | cons c l =>
      have : isDig c = true := natStr_isDig (n.2 + 1) c (by simp [h])
      simp [this]
  · have := keyStem_numberTag a ha 1
    rwa [numberTag_one] at this

theorem tieTag_inj (isChord : TokId → Bool) (a : Str) (n m : TokId × Nat) (ht : n.1 = m.1)
    (hn : isChord n.1 = false → n.2 = 0) (hm : isChord m.1 = false → m.2 = 0) (h : tieTag isChord a n = tieTag isChord a m) : n = m := by
  unfold tieTag at h
  rw [← ht] at h hm
  by_cases hc : isChord n.1 = true
  · rw [if_pos hc, if_pos hc] at h
    have := congrArg parseNat (List.append_cancel_left h)
    rw [parse_natStr, parse_natStr] at this
    exact Prod.ext ht (by omega)
  · have hc' : isChord n.1 = false := by simpa using hc
    exact Prod.ext ht (by rw [hn hc', hm hc'])

theorem tie_ne (a b : Str) (h : keyStem a ≠ keyStem b) : a ≠ b := fun e => h (by rw [e])

/-- What one link writes under the tags that are read. -/
theorem linkTie_get (isChord : TokId → Bool) (time : TokId → Rat) (P : AutoParams) (s e n : TokId × Nat)
    (hn : isChord n.1 = false → n.2 = 0) (hs : isChord s.1 = false → s.2 = 0) (he : isChord e.1 = false → e.2 = 0) :
    (getTieStart isChord (linkTieEndpoints isChord time P s e) n = if n = e then some s.1 else getTieStart isChord P n) ∧
    (getTieEnd isChord (linkTieEndpoints isChord time P s e) n = if n = s then some e.1 else getTieEnd isChord P n) ∧
    (getTieEndNumber isChord (linkTieEndpoints isChord time P s e) n = if n = s then ((e.2 + 1 : Nat) : Int) else getTieEndNumber isChord P n) := by
  have st := fun a ha n => tieTag_stem isChord a ha n
  have d1 : ∀ c ∈ "tieStart".toList, isDig c = false := by decide
  have d2 : ∀ c ∈ "tieEnd".toList, isDig c = false := by decide
  have d3 : ∀ c ∈ "tieStartSubtokenNumber".toList, isDig c = false := by decide
  have d4 : ∀ c ∈ "tieEndSubtokenNumber".toList, isDig c = false := by decide
  have d5 : ∀ c ∈ "tieDuration".toList, isDig c = false := by decide
  have i0 : keyStem "id".toList = "id".toList := by decide
  have ij : ∀ a (m : TokId × Nat), (isChord m.1 = false → m.2 = 0) → ((n.1 = m.1 ∧ tieTag isChord a n = tieTag isChord a m) ↔ n = m) := by
    intro a m hm
    constructor
    · rintro ⟨h1, h2⟩; exact tieTag_inj isChord a n m h1 hn hm h2
    · rintro rfl; exact ⟨rfl, rfl⟩
  refine ⟨?_, ?_, ?_⟩
  · have ne : ∀ a m, (∀ c ∈ a, isDig c = false) → a ≠ "tieStart".toList → tieTag isChord "tieStart".toList n ≠ tieTag isChord a m := by
      intro a m ha h; apply tie_ne; rw [st _ d1, st a ha]; exact fun e => h e.symm
    have ni : tieTag isChord "tieStart".toList n ≠ "id".toList := by apply tie_ne; rw [st _ d1, i0]; decide
    unfold getTieStart linkTieEndpoints
    simp only [setAuto_get, ni, ne _ _ d2 (by decide), ne _ _ d3 (by decide), ne _ _ d4 (by decide), ne _ _ d5 (by decide), and_false, if_false, ij _ e he]
    by_cases h : n = e <;> simp [h]
  · have ne : ∀ a m, (∀ c ∈ a, isDig c = false) → a ≠ "tieEnd".toList → tieTag isChord "tieEnd".toList n ≠ tieTag isChord a m := by
      intro a m ha h; apply tie_ne; rw [st _ d2, st a ha]; exact fun e => h e.symm
    have ni : tieTag isChord "tieEnd".toList n ≠ "id".toList := by apply tie_ne; rw [st _ d2, i0]; decide
    unfold getTieEnd linkTieEndpoints
    simp only [setAuto_get, ni, ne _ _ d1 (by decide), ne _ _ d3 (by decide), ne _ _ d4 (by decide), ne _ _ d5 (by decide), and_false, if_false, ij _ s hs]
    by_cases h : n = s <;> simp [h]
  · have ne : ∀ a m, (∀ c ∈ a, isDig c = false) → a ≠ "tieEndSubtokenNumber".toList → tieTag isChord "tieEndSubtokenNumber".toList n ≠ tieTag isChord a m := by
      intro a m ha h; apply tie_ne; rw [st _ d4, st a ha]; exact fun e => h e.symm
    have ni : tieTag isChord "tieEndSubtokenNumber".toList n ≠ "id".toList := by apply tie_ne; rw [st _ d4, i0]; decide
    unfold getTieEndNumber getAutoInt linkTieEndpoints
    simp only [setAuto_get, ni, ne _ _ d1 (by decide), ne _ _ d2 (by decide), ne _ _ d3 (by decide), ne _ _ d5 (by decide), and_false, if_false, ij _ s hs]
    by_cases h : n = s <;> simp [h]

/-- C28: what the importer reads back. After recording any list of ties in which no note is tied forward twice or backward twice,
the tie can be read at both ends: from its end the token it starts on, from its start the token and subtoken it ends on. -/
theorem ties_recorded (isChord : TokId → Bool) (time : TokId → Rat) (links : List ((TokId × Nat) × (TokId × Nat)))
    (hc : ∀ l ∈ links, (isChord l.1.1 = false → l.1.2 = 0) ∧ (isChord l.2.1 = false → l.2.2 = 0))
    (h1 : (links.map (·.1)).Nodup) (h2 : (links.map (·.2)).Nodup) :
    ∀ l ∈ links, getTieStart isChord (recordTies isChord time links noParams) l.2 = some l.1.1 ∧
      getTieEnd isChord (recordTies isChord time links noParams) l.1 = some l.2.1 ∧
      getTieEndNumber isChord (recordTies isChord time links noParams) l.1 = (l.2.2 + 1 : Nat) := by
  induction links using List.reverseRecOn with
  | nil => intro l hl; simp at hl
  | append_singleton links m ih =>
    intro l hl
    have eq : recordTies isChord time (links ++ [m]) noParams = linkTieEndpoints isChord time (recordTies isChord time links noParams) m.1 m.2 := by
      unfold recordTies; rw [List.foldl_append]; rfl
    have cm := hc m (by simp)
    have cl := hc l hl
    rw [List.map_append, List.nodup_append] at h1 h2
    have g2 := (linkTie_get isChord time (recordTies isChord time links noParams) m.1 m.2 l.2 cl.2 cm.1 cm.2).1
    have g1 := (linkTie_get isChord time (recordTies isChord time links noParams) m.1 m.2 l.1 cl.1 cm.1 cm.2).2
    rw [eq, g2, g1.1, g1.2]
    rw [List.mem_append, List.mem_singleton] at hl
    rcases hl with hl | rfl
    · have n1 : l.1 ≠ m.1 := h1.2.2 l.1 (List.mem_map.mpr ⟨l, hl, rfl⟩) m.1 (by simp)
      have n2 : l.2 ≠ m.2 := h2.2.2 l.2 (List.mem_map.mpr ⟨l, hl, rfl⟩) m.2 (by simp)
      rw [if_neg n1, if_neg n2, if_neg n1]
      exact ih (fun l hl => hc l (by simp [hl])) h1.1 h2.1 l hl
    · simp

example : let ch : TokId → Bool := fun t => t == (1, 0)
    let P := recordTies ch (fun t => t.1) [(((0, 0), 0), ((1, 0), 1)), (((1, 0), 1), ((2, 0), 0))] noParams
    getTieStart ch P ((1, 0), 1) = some (0, 0) ∧ getTieEnd ch P ((1, 0), 1) = some (2, 0) ∧ getTieEndNumber ch P ((0, 0), 0) = 2 ∧
      getTieEnd ch P ((1, 0), 0) = none := by
  decide +kernel

end C21
