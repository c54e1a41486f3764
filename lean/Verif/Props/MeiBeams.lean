import Verif.Model.MeiBeams
import Verif.Lemmas.Tac
import Mathlib.Data.List.Forall2
/-
C92: beams survive MEI export and import.
-/
namespace C21

/-! ## Specification -/

/-- Type of one beam of a note, from four facts: is it the first note of the group; is the beam there in the previous note and not
broken before this one (`l`); is it there in the next note and not broken after this one (`r`). -/
def beamShould (first l r : Bool) : BeamT :=
  if l && r then .cont else if l then .stop else if r then .start else if first then .partR else .partL

/-- What a group is: for each note the number of beams, and perhaps a secondary break after it, with the number of beams that go on. -/
abbrev BeamGroup := List (Nat × Option Nat)

/-- Is beam `l` (counted from 0) there in the note? -/
def hasBeam (l : Nat) (x : Option (Nat × Option Nat)) : Bool :=
  match x with
  | none => false
  | some x => decide (l < x.1)

/-- Is beam `l` broken after the note? -/
def brokenAfter (l : Nat) (x : Option (Nat × Option Nat)) : Bool :=
  match x with
  | some (_, some k) => decide (k ≤ l)
  | _ => false

/-- The beams that the notes of a group should have, after a note `prev`. -/
def beamsShould : Option (Nat × Option Nat) → BeamGroup → List (List BeamT)
  | _, [] => []
  | prev, x :: r =>
    ((List.range x.1).map fun l =>
      beamShould prev.isNone (hasBeam l prev && !brokenAfter l prev) (hasBeam l r.head? && !brokenAfter l (some x))) ::
    beamsShould (some x) r

/-- The notes of a `beam` element that its beams are for: shorter than a quarter note, and no grace note (unless all notes are). -/
def beamedIn (ts : List BeamThing) (t : BeamThing) : Bool :=
  t.has && decide (0 < t.flags) && (!t.grace || ts.all fun u => if u.has then u.grace else true)

/-! ## Reading -/

/-- What the reader makes of one beam. `p`: the previous note has it, `q`: the next note has it, `bp`: it is broken before the note, `bn`:
it is broken after it. -/
def beamAsRead (first last p q bp bn : Bool) : BeamT :=
  let b := if last then .stop else if first then .start else .cont
  let b := if !last && !q then noNext b else b
  let b := if !first && !p then noPrev b else b
  let b := if bp then startsHere b else b
  if bn then stopsHere b else b

/-- All beams as they are read. -/
def beamsAsRead : Option (Nat × Option Nat) → BeamGroup → List (List BeamT)
  | _, [] => []
  | prev, x :: r =>
    ((List.range x.1).map fun l =>
      beamAsRead prev.isNone r.isEmpty (hasBeam l prev) (hasBeam l r.head?) (brokenAfter l prev) (brokenAfter l (some x))) ::
    beamsAsRead (some x) r

/-- The group of the things of a `beam` element that are beamed. -/
def groupOf (ts : List BeamThing) : BeamGroup := (ts.filter (beamedIn ts)).map fun t => (t.flags, t.brk)

theorem beamable_iff (ts : List BeamThing) (t : BeamThing) (ht : t ∈ ts) : t.beamable (graceBeam ts) = beamedIn ts t := by
  unfold BeamThing.beamable beamedIn
  have hg : (ts.all fun u => if u.has then u.grace else true) = graceBeam ts := by
    unfold graceBeam
    congr 1
    funext u
    cases u.has <;> simp
  rw [hg]
  cases hh : t.has with
  | false => simp
  | true =>
    cases hgr : t.grace with
    | true => cases graceBeam ts <;> simp
    | false =>
      have : graceBeam ts = false := by
        rw [← Bool.not_eq_true]
        intro h
        have := List.all_eq_true.mp h t ht
        simp [hh, hgr] at this
      simp [this]

/-- What the passes do not touch. -/
def BeamKept (g : Bool) (t u : BeamThing) : Prop :=
  u.has = t.has ∧ u.grace = t.grace ∧ u.flags = t.flags ∧ u.brk = t.brk ∧ (t.beamable g = false → u = t)

theorem BeamKept.refl (g : Bool) (t : BeamThing) : BeamKept g t t := ⟨rfl, rfl, rfl, rfl, fun _ => rfl⟩

theorem BeamKept.trans {g : Bool} {t u v : BeamThing} (h1 : BeamKept g t u) (h2 : BeamKept g u v) : BeamKept g t v := by
  obtain ⟨a, b, c, d, e⟩ := h1
  obtain ⟨a', b', c', d', e'⟩ := h2
  refine ⟨a'.trans a, b'.trans b, c'.trans c, d'.trans d, fun h => ?_⟩
  rw [e' (by rw [e h]; exact h), e h]

theorem kept_trans {g : Bool} {a b c : List BeamThing} (h1 : List.Forall₂ (BeamKept g) a b) (h2 : List.Forall₂ (BeamKept g) b c) :
    List.Forall₂ (BeamKept g) a c := by
  induction h1 generalizing c with
  | nil => cases h2; exact .nil
  | cons h _ ih =>
    cases h2 with
    | cons h' t' => exact .cons (h.trans h') (ih t')

theorem kept_beams (g : Bool) (t : BeamThing) (bs : List BeamT) (h : t.beamable g = true) : BeamKept g t { t with beams := bs } :=
  ⟨rfl, rfl, rfl, rfl, fun h' => by rw [h] at h'; cases h'⟩

theorem fill_kept (g : Bool) (ts : List BeamThing) (seen : Bool) : List.Forall₂ (BeamKept g) ts (fillBeams g seen ts) := by
  induction ts generalizing seen with
  | nil => exact .nil
  | cons t r ih =>
    unfold fillBeams
    by_cases hf : t.toFill g = true
    · rw [if_pos hf]
      refine .cons (kept_beams g t _ ?_) (ih true)
      unfold BeamThing.toFill at hf
      rw [Bool.and_eq_true] at hf
      exact hf.1
    · rw [if_neg hf]
      exact .cons (.refl g t) (ih seen)

theorem trimNext_kept (g : Bool) (ts : List BeamThing) : List.Forall₂ (BeamKept g) ts (trimNext g ts) := by
  induction ts with
  | nil => exact .nil
  | cons t r ih =>
    unfold trimNext
    refine .cons ?_ ih
    by_cases hb : t.beamable g = true
    · rw [if_pos hb]
      cases r.find? (BeamThing.beamable g) with
      | none => exact .refl g t
      | some u => exact kept_beams g t _ hb
    · rw [if_neg hb]
      exact .refl g t

theorem trimPrev_kept (g : Bool) (ts : List BeamThing) (prev : Option Nat) : List.Forall₂ (BeamKept g) ts (trimPrev g prev ts) := by
  induction ts generalizing prev with
  | nil => exact .nil
  | cons t r ih =>
    unfold trimPrev
    by_cases hb : t.beamable g = true
    · rw [if_pos hb]
      refine .cons ?_ (ih _)
      cases prev with
      | none => exact .refl g t
      | some n => exact kept_beams g t _ hb
    · rw [if_neg hb]
      exact .cons (.refl g t) (ih prev)

theorem breaksecs_kept (g : Bool) (ts : List BeamThing) (prev : Option Nat) : List.Forall₂ (BeamKept g) ts (applyBreaksecs g prev ts) := by
  induction ts generalizing prev with
  | nil => exact .nil
  | cons t r ih =>
    unfold applyBreaksecs
    by_cases hb : t.beamable g = true
    · rw [if_pos hb]
      exact .cons (kept_beams g t _ hb) (ih _)
    · rw [if_neg hb]
      exact .cons (.refl g t) (ih prev)

theorem beamElement_kept' (ts : List BeamThing) : List.Forall₂ (BeamKept (graceBeam ts)) ts (beamElement ts) :=
  kept_trans (kept_trans (kept_trans (fill_kept _ ts false) (trimNext_kept _ _)) (trimPrev_kept _ _ none)) (breaksecs_kept _ _ none)

theorem forall2_mem_imp {α β : Type} {R S : α → β → Prop} {a : List α} {b : List β} (h : List.Forall₂ R a b)
    (hi : ∀ x ∈ a, ∀ y, R x y → S x y) : List.Forall₂ S a b := by
  induction h with
  | nil => exact .nil
  | cons h _ ih => exact .cons (hi _ List.mem_cons_self _ h) (ih fun x hx => hi x (List.mem_cons_of_mem _ hx))

/-- C92, reading: rests, long notes, and grace notes among other notes are left as they are; of the others only the beams change. -/
theorem beamElement_others (ts : List BeamThing) :
    List.Forall₂ (fun t u => u = { t with beams := u.beams } ∧ (beamedIn ts t = false → u = t)) ts (beamElement ts) := by
  refine forall2_mem_imp (beamElement_kept' ts) ?_
  rintro t ht u ⟨a, b, c, d, e⟩
  refine ⟨?_, ?_⟩
  · obtain ⟨_, _, _, _, _⟩ := u
    simp only at a b c d
    subst a b c d
    rfl
  · rw [← beamable_iff ts t ht]
    exact e

theorem filter_selected (ts : List BeamThing) :
    (beamElement ts).filter (beamedIn ts) = (beamElement ts).filter (BeamThing.beamable (graceBeam ts)) := by
  refine List.filter_congr fun u hu => ?_
  have hk := beamElement_kept' ts
  generalize beamElement ts = us at hk hu
  have : ∃ t ∈ ts, BeamKept (graceBeam ts) t u := by
    generalize graceBeam ts = g at hk
    clear * - hk hu
    induction hk with
    | nil => cases hu
    | cons h _ ih =>
      rcases List.mem_cons.mp hu with rfl | hu'
      · exact ⟨_, List.mem_cons_self, h⟩
      · obtain ⟨t, ht, h⟩ := ih hu'
        exact ⟨t, List.mem_cons_of_mem _ ht, h⟩
  obtain ⟨t, ht, a, b, c, _, _⟩ := this
  have := beamable_iff ts t ht
  unfold BeamThing.beamable beamedIn at *
  rw [a, b, c]
  exact this.symm

theorem beamable_beams (g : Bool) (t : BeamThing) (bs : List BeamT) :
    BeamThing.beamable g { t with beams := bs } = BeamThing.beamable g t := rfl

theorem fill_filter (g : Bool) (ts : List BeamThing) (seen : Bool) :
    (fillBeams g seen ts).filter (BeamThing.beamable g) = fillBeams g seen (ts.filter (BeamThing.beamable g)) := by
  induction ts generalizing seen with
  | nil => rfl
  | cons t r ih =>
    have hany : ∀ r : List BeamThing, (r.filter (BeamThing.beamable g)).any (BeamThing.toFill g) = r.any (BeamThing.toFill g) := by
      intro r
      rw [List.any_filter]
      congr 1
      funext x
      unfold BeamThing.toFill
      cases x.beamable g <;> simp
    unfold fillBeams
    by_cases hb : t.beamable g = true
    · by_cases hf : t.toFill g = true
      · rw [if_pos hf, List.filter_cons_of_pos (by rw [beamable_beams]; exact hb), List.filter_cons_of_pos hb]
        simp only [hf, if_true, ih, hany]
      · rw [if_neg hf, List.filter_cons_of_pos hb, List.filter_cons_of_pos hb]
        simp only [hf, if_false, ih]
        rfl
    · have hf : ¬ t.toFill g = true := by
        unfold BeamThing.toFill
        rw [Bool.and_eq_true]
        exact fun h => hb h.1
      rw [if_neg hf, List.filter_cons_of_neg hb, List.filter_cons_of_neg hb, ih]
      cases (r.filter (BeamThing.beamable g)) <;> rfl

theorem find_filter_self {α : Type} (p : α → Bool) (l : List α) : (l.filter p).find? p = l.find? p := by
  rw [List.find?_filter]
  congr 1
  funext x
  cases p x <;> rfl

theorem trimNext_filter (g : Bool) (ts : List BeamThing) :
    (trimNext g ts).filter (BeamThing.beamable g) = trimNext g (ts.filter (BeamThing.beamable g)) := by
  induction ts with
  | nil => rfl
  | cons t r ih =>
    by_cases hb : t.beamable g = true
    · simp only [trimNext, hb, if_true, List.filter_cons, find_filter_self]
      cases hf : r.find? (BeamThing.beamable g) with
      | none => simp only [hb, if_true, ih]
      | some u => simp only [beamable_beams, hb, if_true, ih]
    · rw [Bool.not_eq_true] at hb
      simp only [trimNext, hb, if_false, List.filter_cons, Bool.false_eq_true, ih]

theorem trimPrev_filter (g : Bool) (ts : List BeamThing) (prev : Option Nat) :
    (trimPrev g prev ts).filter (BeamThing.beamable g) = trimPrev g prev (ts.filter (BeamThing.beamable g)) := by
  induction ts generalizing prev with
  | nil => rfl
  | cons t r ih =>
    by_cases hb : t.beamable g = true
    · cases prev with
      | none => simp only [trimPrev, hb, if_true, List.filter_cons, ih]
      | some n => simp only [trimPrev, hb, if_true, List.filter_cons, beamable_beams, ih]
    · rw [Bool.not_eq_true] at hb
      simp only [trimPrev, hb, if_false, List.filter_cons, Bool.false_eq_true, ih]

theorem applyBreaksecs_filter (g : Bool) (ts : List BeamThing) (prev : Option Nat) :
    (applyBreaksecs g prev ts).filter (BeamThing.beamable g) = applyBreaksecs g prev (ts.filter (BeamThing.beamable g)) := by
  induction ts generalizing prev with
  | nil => rfl
  | cons t r ih =>
    by_cases hb : t.beamable g = true
    · simp only [applyBreaksecs, hb, if_true, List.filter_cons, beamable_beams, ih]
    · rw [Bool.not_eq_true] at hb
      simp only [applyBreaksecs, hb, if_false, List.filter_cons, Bool.false_eq_true, ih]

theorem changeAbove_map (m n : Nat) (f : BeamT → BeamT) (h : Nat → BeamT) :
    changeAbove m f ((List.range n).map h) = (List.range n).map fun l => if m ≤ l then f (h l) else h l := by
  unfold changeAbove
  apply List.ext_getElem?
  intro i
  rw [List.getElem?_append]
  simp only [List.length_take, List.length_map, List.length_range, List.getElem?_take, List.getElem?_map, List.getElem?_drop]
  by_cases hi : i < m
  · by_cases hn : i < n
    · have : ¬ m ≤ i := by omega
      simp [hi, hn, this]
    · simp [hn]
      omega
  · by_cases hn : i < n
    · have h1 : ¬ i < min m n := by omega
      have h2 : m + (i - min m n) = i := by omega
      have h3 : m ≤ i := by omega
      rw [if_neg h1, h2]
      simp [hn, h3]
    · have h1 : ¬ i < min m n := by omega
      rw [if_neg h1]
      simp [hn]
      omega

theorem changeAbove_range (m n : Nat) (f : BeamT → BeamT) (h : Nat → BeamT) (P : Nat → Bool) (hP : ∀ l, P l = decide (m ≤ l)) :
    changeAbove m f ((List.range n).map h) = (List.range n).map fun l => if P l then f (h l) else h l := by
  rw [changeAbove_map]
  refine List.map_congr_left fun l _ => ?_
  rw [hP]
  by_cases hl : m ≤ l <;> simp [hl]

theorem fill_lengths (g : Bool) (ts : List BeamThing) (seen : Bool) (hb : ∀ t ∈ ts, t.beamable g = true ∧ t.beams = []) :
    (fillBeams g seen ts).find? (BeamThing.beamable g) = (fillBeams g seen ts).head? ∧
      (fillBeams g seen ts).head?.map (fun u => u.beams.length) = ts.head?.map BeamThing.flags := by
  cases ts with
  | nil => exact ⟨rfl, rfl⟩
  | cons t r =>
    obtain ⟨h1, h2⟩ := hb t List.mem_cons_self
    have hf : t.toFill g = true := by unfold BeamThing.toFill; rw [h1, h2]; rfl
    simp only [fillBeams, hf, if_true, List.find?_cons, beamable_beams, h1, List.head?_cons, Option.map_some, List.length_replicate,
      and_self]

/-- The three passes and the breaks, for things that are all beamed. -/
theorem beams_read_aux (g : Bool) : ∀ (ts : List BeamThing) (prev : Option (Nat × Option Nat)),
    (∀ t ∈ ts, t.beamable g = true ∧ t.beams = []) →
    (applyBreaksecs g (prev.bind Prod.snd) (trimPrev g (prev.map Prod.fst) (trimNext g (fillBeams g prev.isSome ts)))).map BeamThing.beams =
      beamsAsRead prev (ts.map fun t => (t.flags, t.brk))
  | [], _, _ => rfl
  | t :: r, prev, hb => by
    obtain ⟨h1, h2⟩ := hb t List.mem_cons_self
    have hr : ∀ u ∈ r, u.beamable g = true ∧ u.beams = [] := fun u hu => hb u (List.mem_cons_of_mem _ hu)
    have hf : t.toFill g = true := by unfold BeamThing.toFill; rw [h1, h2]; rfl
    have ih := beams_read_aux g r (some (t.flags, t.brk)) hr
    obtain ⟨hfind, hlen⟩ := fill_lengths g r true hr
    have hany : r.any (BeamThing.toFill g) = !r.isEmpty := by
      cases r with
      | nil => rfl
      | cons u r' =>
        obtain ⟨h1, h2⟩ := hr u List.mem_cons_self
        have : u.toFill g = true := by unfold BeamThing.toFill; rw [h1, h2]; rfl
        simp [this]
    -- the beams of the first thing after the first two passes
    have hstep2 : ∃ t2 : BeamThing, t2.beamable g = true ∧ t2.brk = t.brk ∧ t2.flags = t.flags ∧
        t2.beams = (List.range t.flags).map (fun l =>
          let b := if r.isEmpty then BeamT.stop else if prev.isNone then .start else .cont
          if !r.isEmpty && !hasBeam l (r.map fun t => (t.flags, t.brk)).head? then noNext b else b) ∧
        trimNext g (fillBeams g prev.isSome (t :: r)) = t2 :: trimNext g (fillBeams g true r) := by
      have hrep : ∀ b : BeamT, List.replicate t.flags b = (List.range t.flags).map fun _ => b := by
        intro b; simp
      have hseen : (if prev.isSome = true then BeamT.cont else .start) = if prev.isNone = true then .start else .cont := by
        cases prev <;> rfl
      simp only [fillBeams, hf, if_true, trimNext, beamable_beams, h1, hfind, hany]
      cases r with
      | nil =>
        refine ⟨_, ?_, ?_, ?_, ?_, rfl⟩
        · exact h1
        · rfl
        · rfl
        · simp [fillBeams]
      | cons u r' =>
        obtain ⟨hu1, hu2⟩ := hr u List.mem_cons_self
        have hfu : u.toFill g = true := by unfold BeamThing.toFill; rw [hu1, hu2]; rfl
        simp only [fillBeams, hfu, if_true, List.head?_cons, List.isEmpty_cons, Bool.not_false, Bool.false_eq_true, if_false, hseen,
          List.length_replicate, Bool.true_and, List.map_cons]
        refine ⟨_, ?_, ?_, ?_, ?_, rfl⟩
        · exact h1
        · rfl
        · rfl
        · simp only
          rw [hrep, changeAbove_range u.flags t.flags noNext _ (fun l => !hasBeam l (some (u.flags, u.brk)))]
          intro l
          unfold hasBeam
          by_cases hl : l < u.flags
          · have : ¬ u.flags ≤ l := by omega
            simp [hl, this]
          · have : u.flags ≤ l := by omega
            simp [hl, this]
    obtain ⟨t2, hb2, hbrk2, hfl2, hbeams2, heq2⟩ := hstep2
    rw [heq2]
    have hlen2 : t2.beams.length = t.flags := by rw [hbeams2]; simp
    have hstep3 : ∃ t3 : BeamThing, t3.beamable g = true ∧ t3.brk = t.brk ∧
        t3.beams = (List.range t.flags).map (fun l =>
          let b := if r.isEmpty then BeamT.stop else if prev.isNone then .start else .cont
          let b := if !r.isEmpty && !hasBeam l (r.map fun t => (t.flags, t.brk)).head? then noNext b else b
          if !prev.isNone && !hasBeam l prev then noPrev b else b) ∧
        trimPrev g (prev.map Prod.fst) (t2 :: trimNext g (fillBeams g true r)) =
          t3 :: trimPrev g (some t.flags) (trimNext g (fillBeams g true r)) := by
      simp only [trimPrev, hb2, if_true, hlen2]
      cases prev with
      | none =>
        refine ⟨_, hb2, hbrk2, ?_, rfl⟩
        rw [hbeams2]
        simp
      | some x =>
        simp only [Option.map_some]
        refine ⟨_, ?_, ?_, ?_, rfl⟩
        · exact hb2
        · exact hbrk2
        · simp only
          rw [hbeams2, changeAbove_range x.1 t.flags noPrev _ (fun l => !hasBeam l (some x))]
          · simp
          · intro l
            unfold hasBeam
            by_cases hl : l < x.1
            · have : ¬ x.1 ≤ l := by omega
              simp [hl, this]
            · have : x.1 ≤ l := by omega
              simp [hl, this]
    obtain ⟨t3, hb3, hbrk3, hbeams3, heq3⟩ := hstep3
    rw [heq3]
    simp only [applyBreaksecs, hb3, if_true, List.map_cons, beamsAsRead]
    have hopt : ∀ (y : Option (Nat × Option Nat)) (f : BeamT → BeamT) (h : Nat → BeamT),
        changeOpt (y.bind Prod.snd) f ((List.range t.flags).map h) =
          (List.range t.flags).map fun l => if brokenAfter l y then f (h l) else h l := by
      intro y f h
      unfold changeOpt
      cases y with
      | none => simp [brokenAfter]
      | some y =>
        obtain ⟨a, b⟩ := y
        cases b with
        | none => simp [brokenAfter]
        | some k =>
          simp only [Option.bind_some]
          rw [changeAbove_range k t.flags f h (fun l => brokenAfter l (some (a, some k)))]
          intro l
          rfl
    congr 1
    · rw [hbeams3, hopt prev, hbrk3]
      have hopt' := hopt (some (t.flags, t.brk)) stopsHere
      simp only [Option.bind_some] at hopt'
      rw [hopt']
      refine List.map_congr_left fun l _ => ?_
      unfold beamAsRead
      simp only [List.isEmpty_map]
    · rw [hbrk3]
      exact ih

/-- C92, reading: the beams of the notes of a `beam` element with no other `beam` in it, exactly. Things that are not beamed (rests, long
notes, grace notes among other notes) are left as they are. -/
theorem beamElement_reads (ts : List BeamThing) (h : ∀ t ∈ ts, t.beams = []) :
    ((beamElement ts).filter (beamedIn ts)).map BeamThing.beams = beamsAsRead none (groupOf ts) := by
  rw [filter_selected]
  have hg : groupOf ts = (ts.filter (BeamThing.beamable (graceBeam ts))).map fun t => (t.flags, t.brk) := by
    unfold groupOf
    rw [List.filter_congr fun t ht => (beamable_iff ts t ht).symm]
  rw [hg]
  unfold beamElement beamTogether
  rw [applyBreaksecs_filter, trimPrev_filter, trimNext_filter, fill_filter]
  exact beams_read_aux _ _ none fun t ht => by
    obtain ⟨h1, h2⟩ := List.mem_filter.mp ht
    exact ⟨h2, h t h1⟩

/-- The cases where one beam is read wrongly: the only note of the group; a break leaves one note alone with the beam; a beam begins at an
inner note, and there is no break before it. -/
def BeamWrong (first last p q bp bn : Bool) : Prop :=
  (first = true ∧ last = true) ∨
  (first = true ∧ q = true ∧ bn = true) ∨
  (first = false ∧ last = true ∧ p = true ∧ bp = true) ∨
  (first = false ∧ last = false ∧
    ((p = true ∧ bp = true ∧ (q = false ∨ bn = true)) ∨ (p = false ∧ q = true ∧ (bp = false ∨ bn = true))))

instance (first last p q bp bn : Bool) : Decidable (BeamWrong first last p q bp bn) := by
  unfold BeamWrong; infer_instance

/-- One beam is read as it should be, or the case is one of these. -/
theorem beamAsRead_iff (first last p q bp bn : Bool) (h1 : first = true → p = false) (h2 : last = true → q = false) :
    beamAsRead first last p q bp bn = beamShould first (p && !bp) (q && !bn) ↔ ¬ BeamWrong first last p q bp bn := by
  revert h1 h2
  cases first <;> cases last <;> cases p <;> cases q <;> cases bp <;> cases bn <;> decide

/-- No beam of the group is in one of these cases. -/
def BeamsOk : Option (Nat × Option Nat) → BeamGroup → Prop
  | _, [] => True
  | prev, x :: r =>
    (∀ l < x.1, ¬ BeamWrong prev.isNone r.isEmpty (hasBeam l prev) (hasBeam l r.head?) (brokenAfter l prev) (brokenAfter l (some x))) ∧
    BeamsOk (some x) r

theorem beamsAsRead_iff (g : BeamGroup) (prev : Option (Nat × Option Nat)) :
    beamsAsRead prev g = beamsShould prev g ↔ BeamsOk prev g := by
  induction g generalizing prev with
  | nil => simp [beamsAsRead, beamsShould, BeamsOk]
  | cons x r ih =>
    simp only [beamsAsRead, beamsShould, BeamsOk, List.cons.injEq, ih]
    refine and_congr_left fun _ => ?_
    rw [List.map_inj_left]
    simp only [List.mem_range]
    refine forall_congr' fun l => forall_congr' fun _ => ?_
    refine beamAsRead_iff _ _ _ _ _ _ ?_ ?_
    · intro h
      cases prev with
      | none => rfl
      | some _ => cases h
    · intro h
      cases r with
      | nil => rfl
      | cons _ _ => cases h

/-- C92, reading: exactly which `beam` elements are read with the beams that they should have. -/
theorem beamElement_right_iff (ts : List BeamThing) (h : ∀ t ∈ ts, t.beams = []) :
    ((beamElement ts).filter (beamedIn ts)).map BeamThing.beams = beamsShould none (groupOf ts) ↔
      BeamsOk none (groupOf ts) := by
  rw [beamElement_reads ts h, beamsAsRead_iff]

/-- No note has more beams than the previous one, unless the next one has no more than the previous one. -/
def NoInnerStart (ns : List Nat) : Prop := ∀ a b c, [a, b, c] <:+: ns → a < b → c ≤ a

theorem noInnerStart_cons (a b : Nat) (r : List Nat) :
    NoInnerStart (a :: b :: r) ↔ (∀ c, r.head? = some c → a < b → c ≤ a) ∧ NoInnerStart (b :: r) := by
  constructor
  · intro h
    refine ⟨fun c hc hab => ?_, fun x y z hz => h x y z (hz.trans (List.suffix_cons _ _).isInfix)⟩
    cases r with
    | nil => cases hc
    | cons c' r =>
      injection hc with hc
      subst hc
      exact h a b c' ⟨[], r, rfl⟩ hab
  · rintro ⟨h1, h2⟩ x y z hz hxy
    rcases List.infix_cons_iff.mp hz with hp | hi
    · obtain ⟨t, ht⟩ := hp
      injection ht with e1 ht
      injection ht with e2 ht
      subst e1 e2
      exact h1 z (by rw [← ht]; rfl) hxy
    · exact h2 x y z hi hxy

theorem unbroken_aux (ns : List Nat) : ∀ a, BeamsOk (some (a, none)) (ns.map fun n => (n, none)) ↔ NoInnerStart (a :: ns) := by
  induction ns with
  | nil =>
    intro a
    simp only [List.map_nil, BeamsOk, true_iff]
    intro x y z hz
    have := hz.length_le
    simp at this
  | cons b r ih =>
    intro a
    rw [noInnerStart_cons, ← ih b]
    simp only [List.map_cons, BeamsOk]
    refine and_congr_left fun _ => ?_
    cases r with
    | nil =>
      simp [BeamWrong, brokenAfter, hasBeam]
    | cons c r =>
      simp only [BeamWrong, brokenAfter, hasBeam, List.map_cons, List.head?_cons, List.isEmpty_cons, Option.isNone_some, Bool.false_eq_true,
        false_and, false_or, and_false, or_false, true_and, decide_eq_true_eq, decide_eq_false_iff_not, and_true, Option.some.injEq]
      constructor
      · rintro h _ rfl hab
        have := h a hab
        omega
      · intro h l hl hw
        have := h c rfl
        omega

/-- C92, reading: a `beam` element with two or more beamed notes and no breaks is read with the right beams if, and only if, no beam begins
at an inner note and goes on to the next. -/
theorem unbroken_right_iff (ts : List BeamThing) (h : ∀ t ∈ ts, t.beams = []) (hb : ∀ t ∈ ts, t.brk = none)
    (h2 : 2 ≤ (groupOf ts).length) :
    ((beamElement ts).filter (beamedIn ts)).map BeamThing.beams = beamsShould none (groupOf ts) ↔
      NoInnerStart ((groupOf ts).map Prod.fst) := by
  rw [beamElement_right_iff ts h]
  have hg : groupOf ts = ((groupOf ts).map Prod.fst).map fun n => (n, none) := by
    unfold groupOf
    simp only [List.map_map]
    refine List.map_congr_left fun t ht => ?_
    simp [hb t (List.mem_filter.mp ht).1]
  generalize (groupOf ts).map Prod.fst = ns at *
  rw [hg] at h2 ⊢
  rcases ns with _ | ⟨a, _ | ⟨b, r⟩⟩
  · simp at h2
  · simp at h2
  · have := unbroken_aux (b :: r) a
    rw [← this]
    simp [BeamsOk, BeamWrong, brokenAfter]

/-! ## Writing -/

/-- A voice, in order: notes with no beams, and groups of beamed notes with their numbers of beams and breaks. -/
inductive BeamSeg
  | plain (id : Nat)
  | group (xs : List (Nat × Nat × Option Nat))

/-- The group with no names. -/
def groupShape (xs : List (Nat × Nat × Option Nat)) : BeamGroup := xs.map Prod.snd

/-- The notes with the beams they should have. -/
def BeamSeg.notes : BeamSeg → List BeamNote
  | .plain i => [⟨i, []⟩]
  | .group xs => List.zipWith BeamNote.mk (xs.map Prod.fst) (beamsShould none (groupShape xs))

/-- The groups of a voice. -/
def beamGroups : List BeamSeg → List (List Nat)
  | [] => []
  | .plain _ :: r => beamGroups r
  | .group xs :: r => xs.map Prod.fst :: beamGroups r

/-- The breaks of a voice: the note before each break, and the number of beams that go on. -/
def beamBreaks : List BeamSeg → List (Nat × Nat)
  | [] => []
  | .plain _ :: r => beamBreaks r
  | .group xs :: r => xs.filterMap (fun x => x.2.2.map fun k => (x.1, k)) ++ beamBreaks r

/-- A group proper: two or more notes; all have a beam; at least one beam goes on at a break. -/
def GroupProper (g : BeamGroup) : Prop := 2 ≤ g.length ∧ (∀ x ∈ g, 0 < x.1) ∧ ∀ x ∈ g, ∀ k, x.2 = some k → 0 < k

/-- Breaks are between notes with as many beams, and some beams are broken; none is after the last note. -/
def BreaksEven : BeamGroup → Prop
  | [] => True
  | [x] => x.2 = none
  | x :: y :: r => (∀ k, x.2 = some k → x.1 = y.1 ∧ k < x.1) ∧ BreaksEven (y :: r)

/-- The beams of one note, from its neighbours. -/
def beamsAt (prev : Option (Nat × Option Nat)) (x : Nat × Option Nat) (next : Option (Nat × Option Nat)) : List BeamT :=
  (List.range x.1).map fun l =>
    beamShould prev.isNone (hasBeam l prev && !brokenAfter l prev) (hasBeam l next && !brokenAfter l (some x))

theorem beamsShould_cons (prev : Option (Nat × Option Nat)) (x : Nat × Option Nat) (r : BeamGroup) :
    beamsShould prev (x :: r) = beamsAt prev x r.head? :: beamsShould (some x) r := rfl

theorem not_broken_first (x : Nat × Option Nat) (hk : ∀ k, x.2 = some k → 0 < k) : brokenAfter 0 (some x) = false := by
  obtain ⟨n, _ | k⟩ := x
  · rfl
  · have := hk k rfl
    simp [brokenAfter]
    omega

theorem beamsAt_ne_nil (prev : Option (Nat × Option Nat)) (x : Nat × Option Nat) (next : Option (Nat × Option Nat)) (h : 0 < x.1) :
    (beamsAt prev x next).isEmpty = false := by
  obtain ⟨_ | n, k⟩ := x
  · omega
  · simp [beamsAt]

theorem beamsAt_all (f : BeamT → Bool) (prev : Option (Nat × Option Nat)) (x : Nat × Option Nat) (next : Option (Nat × Option Nat)) :
    (beamsAt prev x next).all f = true ↔ ∀ l < x.1, f (beamShould prev.isNone (hasBeam l prev && !brokenAfter l prev)
      (hasBeam l next && !brokenAfter l (some x))) = true := by
  simp [beamsAt, List.all_eq_true]

/-- A note with a next one does not stop all beams. -/
theorem not_allStop (prev : Option (Nat × Option Nat)) (x y : Nat × Option Nat) (hx : 0 < x.1) (hy : 0 < y.1)
    (hk : ∀ k, x.2 = some k → 0 < k) : (beamsAt prev x (some y)).all stopsBeam = false := by
  rw [Bool.eq_false_iff]
  intro h
  rw [beamsAt_all] at h
  have := h 0 hx
  rw [not_broken_first x hk] at this
  have h1 : hasBeam 0 (some y) = true := by simp [hasBeam, hy]
  rw [h1] at this
  revert this
  cases (hasBeam 0 prev && !brokenAfter 0 prev) <;> simp [beamShould, stopsBeam]

/-- A note with a previous one does not start all beams. -/
theorem not_allStart (x y : Nat × Option Nat) (next : Option (Nat × Option Nat)) (hx : 0 < x.1) (hy : 0 < y.1)
    (hk : ∀ k, x.2 = some k → 0 < k) : (beamsAt (some x) y next).all startsBeam = false := by
  rw [Bool.eq_false_iff]
  intro h
  rw [beamsAt_all] at h
  have := h 0 hy
  rw [not_broken_first x hk] at this
  have h1 : hasBeam 0 (some x) = true := by simp [hasBeam, hx]
  rw [h1] at this
  revert this
  cases (hasBeam 0 next && !brokenAfter 0 (some y)) <;> simp [beamShould, startsBeam]

theorem allStop_last (x y : Nat × Option Nat) : (beamsAt (some x) y none).all stopsBeam = true := by
  rw [beamsAt_all]
  intro l _
  have : hasBeam l none = false := rfl
  rw [this]
  cases (hasBeam l (some x) && !brokenAfter l (some x)) <;> simp [beamShould, stopsBeam]

theorem allStart_first (x : Nat × Option Nat) (next : Option (Nat × Option Nat)) : (beamsAt none x next).all startsBeam = true := by
  rw [beamsAt_all]
  intro l _
  have : hasBeam l none = false := rfl
  rw [this]
  cases (hasBeam l next && !brokenAfter l (some x)) <;> simp [beamShould, startsBeam]

/-- The breaks that are written for a group, after the note `x` with the previous note `pp`. -/
def writtenBreaks : Option (Nat × Option Nat) → Nat × Nat × Option Nat → List (Nat × Nat × Option Nat) → List (Nat × Nat)
  | _, _, [] => []
  | _, _, [_] => []
  | pp, x, y :: z :: r =>
    (let k := computeBreakSec (beamsAt pp x.2 (some y.2)) (beamsAt (some x.2) y.2 (some z.2))
     if k = 0 then [] else [(x.1, k)]) ++ writtenBreaks (some x.2) y (z :: r)

theorem annotate_rest (r : List (Nat × Nat × Option Nat)) : ∀ (pp : Option (Nat × Option Nat)) (x : Nat × Nat × Option Nat)
    (cur : List Nat) (stack done : List (List Nat)) (brks : List (Nat × Nat)),
    r ≠ [] → (∀ y ∈ x :: r, 0 < y.2.1) → (∀ y ∈ x :: r, ∀ k, y.2.2 = some k → 0 < k) →
    (List.zipWith BeamNote.mk (r.map Prod.fst) (beamsShould (some x.2) (groupShape r))).foldl annotateBeam
        ⟨cur :: stack, done, some ⟨x.1, beamsAt pp x.2 (groupShape r).head?⟩, brks⟩ =
      ⟨stack, done ++ [cur ++ r.map Prod.fst], none, brks ++ writtenBreaks pp x r⟩ := by
  induction r with
  | nil => intro _ _ _ _ _ _ h; exact absurd rfl h
  | cons y r ih =>
    intro pp x cur stack done brks _ hf hk
    have hx := hf x List.mem_cons_self
    have hy := hf y (List.mem_cons_of_mem _ List.mem_cons_self)
    have hkx := hk x List.mem_cons_self
    have hky := hk y (List.mem_cons_of_mem _ List.mem_cons_self)
    simp only [groupShape, List.map_cons, beamsShould_cons, List.zipWith_cons_cons, List.foldl_cons]
    cases r with
    | nil =>
      simp [annotateBeam, beamsAt_ne_nil _ _ _ hy, not_allStart x.2 y.2 _ hx hy hkx, allStop_last, beamsShould, writtenBreaks]
    | cons z r =>
      have hz := hf z (List.mem_cons_of_mem _ (List.mem_cons_of_mem _ List.mem_cons_self))
      have ih' := ih (some x.2) y (cur ++ [y.1]) stack done
        (brks ++ (let k := computeBreakSec (beamsAt pp x.2 (some y.2)) (beamsAt (some x.2) y.2 (some z.2))
          if k = 0 then [] else [(x.1, k)])) (by simp)
        (fun w hw => hf w (List.mem_cons_of_mem _ hw)) (fun w hw => hk w (List.mem_cons_of_mem _ hw))
      simp only [groupShape, List.map_cons, List.head?_cons] at ih' ⊢
      have hstep : annotateBeam ⟨cur :: stack, done, some ⟨x.1, beamsAt pp x.2 (some y.2)⟩, brks⟩ ⟨y.1, beamsAt (some x.2) y.2 (some z.2)⟩ =
          ⟨(cur ++ [y.1]) :: stack, done, some ⟨y.1, beamsAt (some x.2) y.2 (some z.2)⟩,
            brks ++ (let k := computeBreakSec (beamsAt pp x.2 (some y.2)) (beamsAt (some x.2) y.2 (some z.2))
              if k = 0 then [] else [(x.1, k)])⟩ := by
        simp [annotateBeam, beamsAt_ne_nil _ _ _ hy, not_allStart x.2 y.2 _ hx hy hkx, not_allStop _ y.2 z.2 hy hz hky]
      rw [hstep, ih']
      simp [writtenBreaks, List.append_assoc]

/-- One group of a voice. -/
theorem annotate_group (xs : List (Nat × Nat × Option Nat)) (h : GroupProper (groupShape xs)) (st : BeamState) (x : Nat × Nat × Option Nat)
    (r : List (Nat × Nat × Option Nat)) (hxs : xs = x :: r) (hp : st.prev = none) :
    ((BeamSeg.group xs).notes).foldl annotateBeam st =
      ⟨st.opened, st.done ++ [xs.map Prod.fst], none, st.brks ++ writtenBreaks none x r⟩ := by
  subst hxs
  obtain ⟨h2, hf, hk⟩ := h
  have hf' : ∀ y ∈ x :: r, 0 < y.2.1 := fun y hy => hf y.2 (List.mem_map_of_mem hy)
  have hk' : ∀ y ∈ x :: r, ∀ k, y.2.2 = some k → 0 < k := fun y hy => hk y.2 (List.mem_map_of_mem hy)
  have hne : r ≠ [] := by
    rintro rfl
    simp [groupShape] at h2
  obtain ⟨y, r', rfl⟩ := List.exists_cons_of_ne_nil hne
  have hx := hf' x List.mem_cons_self
  have hy := hf' y (List.mem_cons_of_mem _ List.mem_cons_self)
  have hrest := annotate_rest (y :: r') none x [x.1] st.opened st.done st.brks hne hf' hk'
  simp only [BeamSeg.notes, groupShape, List.map_cons, beamsShould_cons none, List.zipWith_cons_cons, List.foldl_cons,
    List.head?_cons] at hrest ⊢
  have hstep : annotateBeam st ⟨x.1, beamsAt none x.2 (some y.2)⟩ =
      ⟨[x.1] :: st.opened, st.done, some ⟨x.1, beamsAt none x.2 (some y.2)⟩, st.brks⟩ := by
    simp [annotateBeam, beamsAt_ne_nil _ _ _ hx, allStart_first, not_allStop none x.2 y.2 hx hy (hk' x List.mem_cons_self), hp]
  rw [hstep, hrest]
  rfl

theorem annotate_voice (segs : List BeamSeg) (h : ∀ xs, BeamSeg.group xs ∈ segs → GroupProper (groupShape xs)) (st : BeamState)
    (hp : st.prev = none) :
    ((segs.flatMap BeamSeg.notes).foldl annotateBeam st).opened = st.opened ∧
      ((segs.flatMap BeamSeg.notes).foldl annotateBeam st).done = st.done ++ beamGroups segs := by
  induction segs generalizing st with
  | nil => simp [beamGroups]
  | cons s r ih =>
    have hr : ∀ xs, BeamSeg.group xs ∈ r → GroupProper (groupShape xs) := fun xs hxs => h xs (List.mem_cons_of_mem _ hxs)
    rw [List.flatMap_cons, List.foldl_append]
    cases s with
    | plain i =>
      have : (BeamSeg.plain i).notes.foldl annotateBeam st = { st with prev := none } := rfl
      rw [this]
      exact ih hr { st with prev := none } rfl
    | group xs =>
      have hg := h xs List.mem_cons_self
      cases xs with
      | nil => simp [GroupProper, groupShape] at hg
      | cons x xr =>
        rw [annotate_group (x :: xr) hg st x xr rfl hp]
        obtain ⟨h1, h2⟩ := ih hr ⟨st.opened, st.done ++ [(x :: xr).map Prod.fst], none, st.brks ++ writtenBreaks none x xr⟩ rfl
        refine ⟨h1, ?_⟩
        rw [h2]
        simp [beamGroups]

/-- C92, writing: exactly the groups of a voice are written as beams, each with its notes in order. -/
theorem beams_written (segs : List BeamSeg) (h : ∀ xs, BeamSeg.group xs ∈ segs → GroupProper (groupShape xs)) :
    (annotateBeams (segs.flatMap BeamSeg.notes)).done = beamGroups segs ∧
      (annotateBeams (segs.flatMap BeamSeg.notes)).opened = [] := by
  obtain ⟨h1, h2⟩ := annotate_voice segs h ⟨[], [], none, []⟩ rfl
  exact ⟨h2, h1⟩

theorem filter_ge_range (k n : Nat) : ((List.range n).filter fun l => decide (k ≤ l)).length = n - k := by
  induction n with
  | zero => simp
  | succ n ih =>
    rw [List.range_succ, List.filter_append, List.length_append, ih]
    by_cases h : k ≤ n
    · simp [h]; omega
    · simp [h]; omega

/-- Breaks between two notes that are not the last: as they were. -/
theorem computeBreakSec_given (pp : Option (Nat × Option Nat)) (x y z : Nat × Option Nat) (r : BeamGroup)
    (hok : BeamsOk pp (x :: y :: z :: r)) (he : ∀ k, x.2 = some k → x.1 = y.1 ∧ k < x.1) (hk : ∀ k, x.2 = some k → 0 < k) :
    computeBreakSec (beamsAt pp x (some y)) (beamsAt (some x) y (some z)) = x.2.getD 0 := by
  unfold computeBreakSec
  have hl1 : (beamsAt pp x (some y)).length = x.1 := by simp [beamsAt]
  have hl2 : (beamsAt (some x) y (some z)).length = y.1 := by simp [beamsAt]
  rw [hl1, hl2]
  by_cases hn : x.1 = y.1
  · rw [if_neg (by simp [hn])]
    have hz : ((beamsAt pp x (some y)).zip (beamsAt (some x) y (some z))).filter (fun b => stopsBeam b.1 && startsBeam b.2) =
        ((List.range x.1).filter fun l => brokenAfter l (some x)).map fun l =>
          (beamShould pp.isNone (hasBeam l pp && !brokenAfter l pp) (hasBeam l (some y) && !brokenAfter l (some x)),
           beamShould (some x).isNone (hasBeam l (some x) && !brokenAfter l (some x)) (hasBeam l (some z) && !brokenAfter l (some y))) := by
      unfold beamsAt
      rw [← hn, List.zip_map', List.filter_map]
      congr 1
      refine List.filter_congr fun l hl => ?_
      have hl : l < x.1 := List.mem_range.mp hl
      obtain ⟨w1, w2, _⟩ := hok
      have w1 := w1 l hl
      have w2 := w2 l (hn ▸ hl)
      have q1 : hasBeam l (some y) = true := by simp [hasBeam, ← hn, hl]
      have q2 : hasBeam l (some x) = true := by simp [hasBeam, hl]
      simp only [List.head?_cons, List.isEmpty_cons, Option.isNone_some] at w1 w2
      simp only [Function.comp, Option.isNone_some]
      rw [q1] at w1 ⊢
      rw [q2] at w2 ⊢
      revert w1 w2
      cases pp.isNone <;> cases hasBeam l pp <;> cases brokenAfter l pp <;> cases brokenAfter l (some x) <;>
        cases hasBeam l (some z) <;> cases brokenAfter l (some y) <;> decide
    simp only [hz, List.length_map]
    obtain ⟨n, _ | k⟩ := x
    · simp [brokenAfter]
    · obtain ⟨_, hkn⟩ := he k rfl
      have hk0 := hk k rfl
      have : (List.range n).filter (fun l => brokenAfter l (some (n, some k))) = (List.range n).filter fun l => decide (k ≤ l) := rfl
      simp only at hkn hn ⊢
      rw [this, filter_ge_range, if_neg (by omega)]
      simp
      omega
  · rw [if_pos hn]
    obtain ⟨n, _ | k⟩ := x
    · rfl
    · exact absurd (he k rfl).1 hn

theorem writtenBreaks_given (r : List (Nat × Nat × Option Nat)) : ∀ (pp : Option (Nat × Option Nat)) (x : Nat × Nat × Option Nat),
    BeamsOk pp (groupShape (x :: r)) → BreaksEven (groupShape (x :: r)) → (∀ y ∈ x :: r, ∀ k, y.2.2 = some k → 0 < k) →
    writtenBreaks pp x r = (x :: r).filterMap fun x => x.2.2.map fun k => (x.1, k) := by
  induction r with
  | nil =>
    intro pp x _ he _
    have : x.2.2 = none := he
    simp [writtenBreaks, this]
  | cons y r ih =>
    intro pp x hok he hk
    cases r with
    | nil =>
      obtain ⟨h1, h2⟩ := he
      have hy : y.2.2 = none := h2
      have hx : x.2.2 = none := by
        cases hb : x.2.2 with
        | none => rfl
        | some k =>
          obtain ⟨e, hlt⟩ := h1 k hb
          obtain ⟨_, w, _⟩ := hok
          exfalso
          have := w k (e ▸ hlt)
          apply this
          right; right; left
          refine ⟨rfl, rfl, ?_, ?_⟩
          · simp [hasBeam, hlt]
          · have : x.2 = (x.2.1, some k) := by rw [← hb]
            rw [this]
            simp [brokenAfter]
      simp [writtenBreaks, hx, hy]
    | cons z r =>
      obtain ⟨h1, h2⟩ := he
      have hc := computeBreakSec_given pp x.2 y.2 z.2 (groupShape r) hok h1 (hk x List.mem_cons_self)
      have ih' := ih (some x.2) y hok.2 h2 (fun w hw => hk w (List.mem_cons_of_mem _ hw))
      simp only [writtenBreaks]
      rw [hc, ih', List.filterMap_cons (a := x)]
      cases hb : x.2.2 with
      | none => simp
      | some k =>
        have := hk x List.mem_cons_self k hb
        have hk0 : ¬ k = 0 := by omega
        simp [hk0]

theorem annotate_breaks (segs : List BeamSeg) (h : ∀ xs, BeamSeg.group xs ∈ segs → GroupProper (groupShape xs))
    (hok : ∀ xs, BeamSeg.group xs ∈ segs → BeamsOk none (groupShape xs) ∧ BreaksEven (groupShape xs)) (st : BeamState)
    (hp : st.prev = none) :
    ((segs.flatMap BeamSeg.notes).foldl annotateBeam st).brks = st.brks ++ beamBreaks segs := by
  induction segs generalizing st with
  | nil => simp [beamBreaks]
  | cons s r ih =>
    have hr : ∀ xs, BeamSeg.group xs ∈ r → GroupProper (groupShape xs) := fun xs hxs => h xs (List.mem_cons_of_mem _ hxs)
    have hr' := fun xs (hxs : BeamSeg.group xs ∈ r) => hok xs (List.mem_cons_of_mem _ hxs)
    rw [List.flatMap_cons, List.foldl_append]
    cases s with
    | plain i =>
      have : (BeamSeg.plain i).notes.foldl annotateBeam st = { st with prev := none } := rfl
      rw [this]
      exact ih hr hr' { st with prev := none } rfl
    | group xs =>
      have hg := h xs List.mem_cons_self
      obtain ⟨o1, o2⟩ := hok xs List.mem_cons_self
      cases xs with
      | nil => simp [GroupProper, groupShape] at hg
      | cons x xr =>
        rw [annotate_group (x :: xr) hg st x xr rfl hp,
          ih hr hr' ⟨st.opened, st.done ++ [(x :: xr).map Prod.fst], none, st.brks ++ writtenBreaks none x xr⟩ rfl]
        rw [writtenBreaks_given xr none x o1 o2 (fun y hy => hg.2.2 y.2 (List.mem_map_of_mem hy))]
        simp [beamBreaks]

/-! ## Export, then import -/

/-- The `beam` element of a group: its notes, with breaksec as it was written. -/
def writtenBeam (st : BeamState) (grace : Bool) (xs : List (Nat × Nat × Option Nat)) : List BeamThing :=
  xs.map fun x => ⟨true, grace, x.2.1, (st.brks.find? fun b => b.1 == x.1).map Prod.snd, []⟩

/-- The notes of a voice. -/
def segIds : List BeamSeg → List Nat
  | [] => []
  | .plain i :: r => i :: segIds r
  | .group xs :: r => xs.map Prod.fst ++ segIds r

theorem breaks_ids (segs : List BeamSeg) (b : Nat × Nat) (h : b ∈ beamBreaks segs) : b.1 ∈ segIds segs := by
  induction segs with
  | nil => cases h
  | cons s r ih =>
    cases s with
    | plain i => exact List.mem_cons_of_mem _ (ih h)
    | group xs =>
      rcases List.mem_append.mp h with h | h
      · obtain ⟨x, hx, he⟩ := List.mem_filterMap.mp h
        obtain ⟨k, _, rfl⟩ := Option.map_eq_some_iff.mp he
        exact List.mem_append_left _ (List.mem_map_of_mem hx)
      · exact List.mem_append_right _ (ih h)

/-- Breaks in a list of notes that are all different. -/
theorem find_break (xs : List (Nat × Nat × Option Nat)) (hd : (xs.map Prod.fst).Nodup) (x : Nat × Nat × Option Nat) (hx : x ∈ xs) :
    (xs.filterMap (fun x => x.2.2.map fun k => (x.1, k))).find? (fun b => b.1 == x.1) = x.2.2.map fun k => (x.1, k) := by
  induction xs with
  | nil => cases hx
  | cons y r ih =>
    simp only [List.map_cons, List.nodup_cons] at hd
    rw [List.filterMap_cons]
    rcases List.mem_cons.mp hx with rfl | hx
    · cases hb : x.2.2 with
      | none =>
        simp only [Option.map_none]
        rw [List.find?_eq_none]
        intro b hbm
        obtain ⟨z, hz, he⟩ := List.mem_filterMap.mp hbm
        obtain ⟨k, _, rfl⟩ := Option.map_eq_some_iff.mp he
        intro heq
        exact hd.1 (by rw [← eq_of_beq heq]; exact List.mem_map_of_mem hz)
      | some k => simp
    · have hne : ¬ y.1 = x.1 := fun e => hd.1 (by rw [e]; exact List.mem_map_of_mem hx)
      cases hb : y.2.2 with
      | none => simpa using ih hd.2 hx
      | some k => simpa [hne] using ih hd.2 hx

theorem find_breaks (segs : List BeamSeg) (hd : (segIds segs).Nodup) (xs : List (Nat × Nat × Option Nat)) (hxs : BeamSeg.group xs ∈ segs)
    (x : Nat × Nat × Option Nat) (hx : x ∈ xs) :
    ((beamBreaks segs).find? fun b => b.1 == x.1).map Prod.snd = x.2.2 := by
  induction segs with
  | nil => cases hxs
  | cons s r ih =>
    cases s with
    | plain i =>
      simp only [segIds, List.nodup_cons] at hd
      rcases List.mem_cons.mp hxs with h | h
      · cases h
      · exact ih hd.2 h
    | group ys =>
      simp only [segIds, List.nodup_append] at hd
      obtain ⟨d1, d2, d3⟩ := hd
      simp only [beamBreaks, List.find?_append]
      rcases List.mem_cons.mp hxs with h | h
      · injection h with h
        subst h
        rw [find_break xs d1 x hx]
        cases hb : x.2.2 with
        | some k => simp
        | none =>
          simp only [Option.map_none, Option.none_or, Option.map_eq_none_iff, List.find?_eq_none]
          intro b hbm heq
          have := breaks_ids r b hbm
          exact d3 x.1 (List.mem_map_of_mem hx) b.1 this (eq_of_beq heq).symm
      · have hin : x.1 ∈ segIds r := by
          clear ih d1 d2 d3 hxs
          induction r with
          | nil => cases h
          | cons s r ih =>
            rcases List.mem_cons.mp h with rfl | h'
            · exact List.mem_append_left _ (List.mem_map_of_mem hx)
            · cases s with
              | plain _ => exact List.mem_cons_of_mem _ (ih h')
              | group _ => exact List.mem_append_right _ (ih h')
        have hnone : (ys.filterMap (fun x => x.2.2.map fun k => (x.1, k))).find? (fun b => b.1 == x.1) = none := by
          rw [List.find?_eq_none]
          intro b hbm heq
          obtain ⟨z, hz, he⟩ := List.mem_filterMap.mp hbm
          obtain ⟨k, _, rfl⟩ := Option.map_eq_some_iff.mp he
          exact d3 z.1 (List.mem_map_of_mem hz) x.1 hin (eq_of_beq heq)
        rw [hnone]
        simpa using ih d2 h

theorem zipWith_beams (is : List Nat) (bs : List (List BeamT)) (h : is.length = bs.length) :
    (List.zipWith BeamNote.mk is bs).map BeamNote.beams = bs := by
  induction is generalizing bs with
  | nil => cases bs <;> simp_all
  | cons i is ih =>
    cases bs with
    | nil => cases h
    | cons b bs => simp [ih bs (by simpa using h)]

theorem beamsShould_length (g : BeamGroup) (prev : Option (Nat × Option Nat)) : (beamsShould prev g).length = g.length := by
  induction g generalizing prev with
  | nil => rfl
  | cons x r ih => simp [beamsShould, ih]

/-- C92: a voice is written and read: each group is one `beam` element with its notes, and when it is read each note has the beams it had.
For groups in which no beam begins at an inner note (unless there is a break before it), and no break leaves one note alone. -/
theorem beams_round_trip_partial (segs : List BeamSeg) (hd : (segIds segs).Nodup)
    (h : ∀ xs, BeamSeg.group xs ∈ segs → GroupProper (groupShape xs))
    (hok : ∀ xs, BeamSeg.group xs ∈ segs → BeamsOk none (groupShape xs) ∧ BreaksEven (groupShape xs)) :
    (annotateBeams (segs.flatMap BeamSeg.notes)).done = beamGroups segs ∧
    ∀ xs, BeamSeg.group xs ∈ segs → ∀ grace : Bool,
      (beamElement (writtenBeam (annotateBeams (segs.flatMap BeamSeg.notes)) grace xs)).map BeamThing.beams =
        (BeamSeg.group xs).notes.map BeamNote.beams := by
  refine ⟨(beams_written segs h).1, fun xs hxs grace => ?_⟩
  have hb : (annotateBeams (segs.flatMap BeamSeg.notes)).brks = beamBreaks segs := by
    have := annotate_breaks segs h hok ⟨[], [], none, []⟩ rfl
    simpa [annotateBeams] using this
  have hw : writtenBeam (annotateBeams (segs.flatMap BeamSeg.notes)) grace xs =
      xs.map fun x => (⟨true, grace, x.2.1, x.2.2, []⟩ : BeamThing) := by
    unfold writtenBeam
    rw [hb]
    refine List.map_congr_left fun x hx => ?_
    rw [find_breaks segs hd xs hxs x hx]
  rw [hw]
  have hpos := (h xs hxs).2.1
  have hlen := (h xs hxs).1
  generalize hts : (xs.map fun x => (⟨true, grace, x.2.1, x.2.2, []⟩ : BeamThing)) = ts
  have hts0 : ∀ t ∈ ts, t.beams = [] := by
    intro t ht
    rw [← hts] at ht
    obtain ⟨x, _, rfl⟩ := List.mem_map.mp ht
    rfl
  have hgrace : graceBeam ts = grace := by
    rw [← hts]
    unfold graceBeam
    cases xs with
    | nil => simp [groupShape] at hlen
    | cons x r => cases grace <;> simp
  have hall : ∀ t ∈ ts, t.beamable (graceBeam ts) = true := by
    intro t ht
    rw [hgrace]
    rw [← hts] at ht
    obtain ⟨x, hx, rfl⟩ := List.mem_map.mp ht
    have := hpos x.2 (List.mem_map_of_mem hx)
    simp [BeamThing.beamable, this]
  have hgroup : groupOf ts = groupShape xs := by
    unfold groupOf
    rw [List.filter_eq_self.mpr fun t ht => (beamable_iff ts t ht).symm.trans (hall t ht), ← hts, List.map_map]
    rfl
  have hread := (beamElement_right_iff ts hts0).mpr (by rw [hgroup]; exact (hok xs hxs).1)
  have hself : (beamElement ts).filter (BeamThing.beamable (graceBeam ts)) = beamElement ts := by
    unfold beamElement beamTogether
    rw [applyBreaksecs_filter, trimPrev_filter, trimNext_filter, fill_filter, List.filter_eq_self.mpr hall]
  rw [filter_selected, hself, hgroup] at hread
  rw [hread]
  unfold BeamSeg.notes
  rw [zipWith_beams]
  rw [beamsShould_length]
  simp [groupShape]

/-! ## A sample -/

/-- Four sixteenths with a break in the middle; a quarter note; sixteenth, eighth, sixteenth. -/
def beamSample : List BeamSeg :=
  [.group [(1, 2, none), (2, 2, some 1), (3, 2, none), (4, 2, none)], .plain 5, .group [(6, 2, none), (7, 1, none), (8, 2, none)]]

instance : ∀ (g : BeamGroup) (prev : Option (Nat × Option Nat)), Decidable (BeamsOk prev g)
  | [], _ => isTrue trivial
  | x :: r, prev =>
    have := instDecidableBeamsOk r (some x)
    inferInstanceAs (Decidable (_ ∧ _))

theorem beamSample_ok : (segIds beamSample).Nodup ∧
    (∀ xs, BeamSeg.group xs ∈ beamSample → GroupProper (groupShape xs)) ∧
    ∀ xs, BeamSeg.group xs ∈ beamSample → BeamsOk none (groupShape xs) ∧ BreaksEven (groupShape xs) := by
  refine ⟨by decide, fun xs h => ?_, fun xs h => ?_⟩
  · simp only [beamSample, List.mem_cons, List.not_mem_nil, or_false, BeamSeg.group.injEq, reduceCtorEq, false_or] at h
    rcases h with rfl | rfl
    · refine ⟨by decide, by decide, ?_⟩
      simp [groupShape]
    · refine ⟨by decide, by decide, ?_⟩
      simp [groupShape]
  · simp only [beamSample, List.mem_cons, List.not_mem_nil, or_false, BeamSeg.group.injEq, reduceCtorEq, false_or] at h
    rcases h with rfl | rfl
    · refine ⟨by decide, ?_⟩
      simp [groupShape, BreaksEven]
    · refine ⟨by decide, ?_⟩
      simp [groupShape, BreaksEven]

/-- The beams of the first group. -/
example : (BeamSeg.group [(1, 2, none), (2, 2, some 1), (3, 2, none), (4, 2, none)]).notes.map BeamNote.beams =
    [[.start, .start], [.cont, .stop], [.cont, .start], [.stop, .stop]] := by decide

/-! ## Where it is not so -/

/-- An eighth and two sixteenths: the second beam continues and stops, but it never starts. -/
theorem inner_beam_never_starts :
    (beamElement [⟨true, false, 1, none, []⟩, ⟨true, false, 2, none, []⟩, ⟨true, false, 2, none, []⟩]).map BeamThing.beams =
      [[.start], [.cont, .cont], [.stop, .stop]] ∧
    beamsShould none [(1, none), (2, none), (2, none)] = [[.start], [.cont, .start], [.stop, .stop]] := by decide

/-- A break between notes with different numbers of beams is not written. -/
theorem uneven_break_lost :
    computeBreakSec [.cont, .stop, .stop] [.cont, .start] = 0 ∧
    (beamsShould none [(3, none), (3, some 1), (2, none), (2, none)])[1]? = some [.cont, .stop, .stop] ∧
    (beamsShould none [(3, none), (3, some 1), (2, none), (2, none)])[2]? = some [.cont, .start] := by decide

/-- A break after the first note: the second beam starts twice. -/
theorem broken_first_note :
    (beamElement [⟨true, false, 2, some 1, []⟩, ⟨true, false, 2, none, []⟩, ⟨true, false, 2, none, []⟩]).map BeamThing.beams =
      [[.start, .start], [.cont, .start], [.stop, .stop]] := by decide

/-- A `beamSpan` with startid (as all that are written have) is not read. -/
theorem beamSpan_not_read (m : BeamAttrs) (e : BeamSpanEl) (h : e.startid ≠ []) : ppBeamSpan m e = m := by
  unfold ppBeamSpan
  rw [if_pos (Or.inl h)]

/-- So a beam over a bar line is lost. -/
theorem beamSpan_lost : ∃ e : BeamSpanEl, e.startid = "n1".toList ∧ e.endid = "n3".toList ∧ e.plist = ["n1".toList, "n2".toList, "n3".toList] ∧
    ∀ i, ppBeamSpan (fun _ => none) e i = none :=
  ⟨⟨"n1".toList, "n3".toList, ["n1".toList, "n2".toList, "n3".toList]⟩, rfl, rfl, rfl, fun _ => by
    rw [beamSpan_not_read _ _ (by decide)]⟩

end C21
