import Verif.Model.MeiTies
import Verif.Lemmas.Tac
import Mathlib.Data.List.Nodup
import Mathlib.Data.List.Induction
import Mathlib.Algebra.Order.Ring.Unbundled.Rat
/-
C91: ties survive MEI export and import.
-/
namespace C21

/-! ## Specification -/

/-- A note of a part: its measure, when it begins, how long it is, and the note. -/
structure TPlace where
  meas : Nat
  off : Rat
  dur : Rat
  note : TieNote
  deriving DecidableEq

/-- The notes of an object of measure `k`. -/
def placesOfObj (k : Nat) (o : TieObj) : List TPlace := o.notes.map fun n => ⟨k, o.off, o.dur, n⟩

/-- All notes of the measures, from measure `k` on: measure by measure, voice by voice. -/
def placesFrom : Nat → List (List (List TieObj)) → List TPlace
  | _, [] => []
  | k, m :: ms => m.flatten.flatMap (placesOfObj k) ++ placesFrom (k + 1) ms

/-- All notes of a part. -/
def places (measures : List (List (List TieObj))) : List TPlace := placesFrom 0 measures

/-- `y` is the next note with the pitch of `x`. -/
def NextSame (l : List TPlace) (x y : TPlace) : Prop :=
  ∃ a b c, l = a ++ x :: b ++ y :: c ∧ y.note.pitch = x.note.pitch ∧ ∀ z ∈ b, z.note.pitch ≠ x.note.pitch

/-- A note that is to be tied to the next. -/
def WantsTie (x : TPlace) : Prop := x.note.tie = some .start ∨ x.note.tie = some .cont

/-- `x` is tied to `y`: it is the next note with this pitch, not later than in the next measure. -/
def TiedTo (l : List TPlace) (x y : TPlace) : Prop := NextSame l x y ∧ WantsTie x ∧ y.meas ≤ x.meas + 1

/-- Parts in which the same pitch never sounds twice at a time, and no voice has a pitch before an earlier voice has it in the same measure.
A grace note may have the pitch and offset of its main note. -/
structure TiesPlain (measures : List (List (List TieObj))) : Prop where
  ids : ((places measures).map fun x => x.note.id).Nodup
  chords : ∀ m ∈ measures, ∀ v ∈ m, ∀ o ∈ v, (o.notes.map TieNote.pitch).Nodup
  durs : ∀ x ∈ places measures, 0 ≤ x.dur
  apart : (places measures).Pairwise fun x y => x.note.pitch = y.note.pitch →
    x.off + x.dur ≤ y.off ∧ (x.off < y.off ∨ 0 < y.dur)

/-! ## Which notes are joined -/

theorem starts_iff (n : TieNote) : n.starts = true ↔ n.tie = some .start ∨ n.tie = some .cont := by
  unfold TieNote.starts
  rw [Bool.or_eq_true, beq_iff_eq, beq_iff_eq]

/-- The last note of each pitch. -/
def lasts : List TPlace → List TPlace
  | [] => []
  | x :: r => if r.any (fun y => y.note.pitch == x.note.pitch) then lasts r else x :: lasts r

theorem lasts_append (a b : List TPlace) :
    lasts (a ++ b) = (lasts a).filter (fun x => !b.any (fun y => y.note.pitch == x.note.pitch)) ++ lasts b := by
  induction a with
  | nil => rfl
  | cons x r ih =>
    simp only [List.cons_append, lasts, List.any_append]
    by_cases h1 : r.any (fun y => y.note.pitch == x.note.pitch) = true
    · simp only [h1, Bool.true_or, if_true, ih]
    · rw [Bool.not_eq_true] at h1
      by_cases h2 : b.any (fun y => y.note.pitch == x.note.pitch) = true
      · simp only [h1, h2, Bool.false_or, if_true, ih, Bool.false_eq_true, if_false, List.filter_cons, Bool.not_true]
      · rw [Bool.not_eq_true] at h2
        simp only [h1, h2, Bool.false_or, ih, Bool.false_eq_true, if_false, List.filter_cons, Bool.not_false, if_true, List.cons_append]

theorem lasts_distinct {l : List TPlace} (h : (l.map fun x => x.note.pitch).Nodup) : lasts l = l := by
  induction l with
  | nil => rfl
  | cons x r ih =>
    rw [List.map_cons, List.nodup_cons] at h
    have : ¬ r.any (fun y => y.note.pitch == x.note.pitch) = true := by
      intro hh
      obtain ⟨y, hy, he⟩ := List.any_eq_true.mp hh
      exact h.1 (List.mem_map.mpr ⟨y, hy, by simpa using he⟩)
    rw [lasts, if_neg this, ih h.2]

theorem mem_lasts {l : List TPlace} {x : TPlace} (h : x ∈ lasts l) :
    ∃ a b, l = a ++ x :: b ∧ ∀ z ∈ b, z.note.pitch ≠ x.note.pitch := by
  induction l with
  | nil => simp [lasts] at h
  | cons y r ih =>
    rw [lasts] at h
    split at h
    · obtain ⟨a, b, rfl, hb⟩ := ih h
      exact ⟨y :: a, b, rfl, hb⟩
    · rename_i hn
      rcases List.mem_cons.mp h with rfl | h
      · refine ⟨[], r, rfl, fun z hz he => hn ?_⟩
        exact List.any_eq_true.mpr ⟨z, hz, by simpa using he⟩
      · obtain ⟨a, b, rfl, hb⟩ := ih h
        exact ⟨y :: a, b, rfl, hb⟩

theorem last_mem_lasts {a b : List TPlace} {x : TPlace} (h : ∀ z ∈ b, z.note.pitch ≠ x.note.pitch) : x ∈ lasts (a ++ x :: b) := by
  rw [lasts_append, List.mem_append]
  right
  rw [lasts, if_neg]
  · exact List.mem_cons_self
  · intro hh
    obtain ⟨y, hy, he⟩ := List.any_eq_true.mp hh
    exact h y hy (by simpa using he)

theorem lasts_pairwise (l : List TPlace) : (lasts l).Pairwise fun x y => x.note.pitch ≠ y.note.pitch := by
  induction l with
  | nil => exact List.Pairwise.nil
  | cons x r ih =>
    rw [lasts]
    split
    · exact ih
    · rename_i hn
      refine List.Pairwise.cons (fun y hy he => hn ?_) ih
      obtain ⟨a, b, rfl, _⟩ := mem_lasts hy
      exact List.any_eq_true.mpr ⟨y, by simp, by simpa using he.symm⟩

/-- The notes whose ties are waitingTies for an end when measure `k` is being processed. -/
def waitingTies (k : Nat) (seen : List TPlace) : List TPlace := (lasts seen).filter fun x => x.note.starts && decide (k ≤ x.meas + 1)

/-- Their spanners. -/
def spAt (k : Nat) (x : TPlace) : TieSp := ⟨x.note.id, x.note.pitch, x.off + x.dur, k + 1 - x.meas⟩

/-- The ties made when the notes `new` come after `seen`. -/
def newTies (k : Nat) (seen new : List TPlace) : List (Nat × Nat) :=
  new.filterMap fun y => ((waitingTies k seen).find? fun x => x.note.pitch == y.note.pitch).map fun x => (x.note.id, y.note.id)

theorem bump_waiting (k : Nat) (seen : List TPlace) (h : ∀ x ∈ seen, x.meas ≤ k) :
    bumpTies ((waitingTies k seen).map (spAt k)) = (waitingTies (k + 1) seen).map (spAt (k + 1)) := by
  unfold bumpTies waitingTies
  have hl : ∀ x ∈ lasts seen, x.meas ≤ k := fun x hx => by
    obtain ⟨a, b, rfl, _⟩ := mem_lasts hx
    exact h x (by simp)
  generalize lasts seen = l at hl
  induction l with
  | nil => rfl
  | cons x r ih =>
    have ih := ih fun y hy => hl y (List.mem_cons_of_mem _ hy)
    have hx := hl x List.mem_cons_self
    by_cases hs : x.note.starts = true
    · by_cases h1 : k ≤ x.meas + 1
      · by_cases h2 : k + 1 ≤ x.meas + 1
        · have h3 : k + 1 - x.meas < 2 := by omega
          simp only [List.filter_cons, hs, h1, h2, decide_true, Bool.and_true, if_true, List.map_cons, spAt, h3]
          rw [ih]
          congr 2
          omega
        · have h3 : ¬ k + 1 - x.meas < 2 := by omega
          simp only [List.filter_cons, hs, h1, h2, decide_true, decide_false, Bool.and_true, Bool.and_false, if_true, List.map_cons, spAt, h3,
            Bool.false_eq_true, if_false]
          exact ih
      · have h2 : ¬ k + 1 ≤ x.meas + 1 := by omega
        simp only [List.filter_cons, h1, h2, decide_false, Bool.and_false, Bool.false_eq_true, if_false]
        exact ih
    · rw [Bool.not_eq_true] at hs
      simp only [List.filter_cons, hs, Bool.false_and, Bool.false_eq_true, if_false]
      exact ih

/-- The search for the spanner that a note ends, when the waitingTies spanners all end before the note, and `new` are spanners of other notes at the
same time or of the note itself. -/
theorem find_fits (k : Nat) (off : Rat) (n : TieNote) (old : List TPlace) (new : List TieSp)
    (hold : ∀ x ∈ old, x.note.pitch = n.pitch → x.note.id ≠ n.id ∧ x.off + x.dur ≤ off)
    (hnew : ∀ sp ∈ new, sp.pitch = n.pitch → sp.start = n.id) :
    ((old.map (spAt k)) ++ new).find? (TieSp.fits off n) = (old.find? fun x => x.note.pitch == n.pitch).map (spAt k) := by
  induction old with
  | nil =>
    simp only [List.map_nil, List.nil_append, List.find?_nil, Option.map_none]
    rw [List.find?_eq_none]
    intro sp hsp hf
    unfold TieSp.fits at hf
    simp only [Bool.and_eq_true, bne_iff_ne, ne_eq, beq_iff_eq] at hf
    exact hf.1.1 (hnew sp hsp hf.1.2)
  | cons x r ih =>
    have ih := ih fun y hy => hold y (List.mem_cons_of_mem _ hy)
    simp only [List.map_cons, List.cons_append, List.find?_cons]
    by_cases hp : x.note.pitch = n.pitch
    · obtain ⟨h1, h2⟩ := hold x List.mem_cons_self hp
      have hf : TieSp.fits off n (spAt k x) = true := by
        unfold TieSp.fits spAt
        simp [h1, h2, hp]
      simp [hf, hp]
    · have hf : TieSp.fits off n (spAt k x) = false := by
        unfold TieSp.fits spAt
        simp [hp]
      have : (x.note.pitch == n.pitch) = false := by simpa using hp
      rw [hf, this]
      exact ih

theorem erase_waiting (k : Nat) {old : List TPlace} {x : TPlace} (new : List TieSp)
    (hpw : old.Pairwise fun x y => x.note.pitch ≠ y.note.pitch) (hx : x ∈ old) :
    ((old.map (spAt k)) ++ new).erase (spAt k x) = (old.filter (fun y => !(y.note.pitch == x.note.pitch))).map (spAt k) ++ new := by
  induction old with
  | nil => simp at hx
  | cons y r ih =>
    rw [List.pairwise_cons] at hpw
    simp only [List.map_cons, List.cons_append, List.filter_cons]
    rcases List.mem_cons.mp hx with rfl | hx
    · have : r.filter (fun y => !(y.note.pitch == x.note.pitch)) = r := by
        rw [List.filter_eq_self]
        intro z hz
        have := hpw.1 z hz
        simpa using fun h : z.note.pitch = x.note.pitch => this h.symm
      simp [this]
    · have hne : y.note.pitch ≠ x.note.pitch := hpw.1 x hx
      have hsp : spAt k y ≠ spAt k x := fun h => hne (congrArg TieSp.pitch h)
      rw [List.erase_cons_tail (by simpa using hsp), ih hpw.2 hx]
      simp [hne]

/-- All notes of an object, against the waitingTies spanners. -/
theorem fold_stops (k : Nat) (off : Rat) (new : List TieSp) : ∀ (ns : List TieNote) (old : List TPlace) (done : List (Nat × Nat)),
    (old.Pairwise fun x y => x.note.pitch ≠ y.note.pitch) →
    (∀ n ∈ ns, ∀ x ∈ old, x.note.pitch = n.pitch → x.note.id ≠ n.id ∧ x.off + x.dur ≤ off) →
    (∀ n ∈ ns, ∀ sp ∈ new, sp.pitch = n.pitch → sp.start = n.id) →
    (ns.map TieNote.pitch).Nodup →
    ns.foldl (stopNote off) ⟨old.map (spAt k) ++ new, done⟩ =
      ⟨(old.filter fun x => !ns.any fun n => n.pitch == x.note.pitch).map (spAt k) ++ new,
        done ++ ns.filterMap fun n => (old.find? fun x => x.note.pitch == n.pitch).map fun x => (x.note.id, n.id)⟩
  | [], old, done, _, _, _, _ => by simp
  | n :: ns, old, done, hpw, hold, hnew, hnd => by
    rw [List.map_cons, List.nodup_cons] at hnd
    rw [List.foldl_cons]
    have hf := find_fits k off n old new (hold n List.mem_cons_self) (hnew n List.mem_cons_self)
    cases hx : old.find? (fun x => x.note.pitch == n.pitch) with
    | none =>
      rw [hx] at hf
      have hst : stopNote off ⟨old.map (spAt k) ++ new, done⟩ n = ⟨old.map (spAt k) ++ new, done⟩ := by
        unfold stopNote
        simp only [hf, Option.map_none]
      rw [hst, fold_stops k off new ns old done hpw (fun m hm => hold m (List.mem_cons_of_mem _ hm))
        (fun m hm => hnew m (List.mem_cons_of_mem _ hm)) hnd.2]
      rw [List.find?_eq_none] at hx
      have he : (old.filter fun x => !(n :: ns).any fun n => n.pitch == x.note.pitch) =
          old.filter fun x => !ns.any fun n => n.pitch == x.note.pitch := by
        refine List.filter_congr fun x hx' => ?_
        have : (n.pitch == x.note.pitch) = false := by
          have := hx x hx'
          simp only [beq_iff_eq] at this
          simpa using fun h : n.pitch = x.note.pitch => this h.symm
        simp [this]
      have hx' : old.find? (fun x => x.note.pitch == n.pitch) = none := List.find?_eq_none.mpr hx
      rw [he, List.filterMap_cons]
      simp only [hx', Option.map_none]
    | some x =>
      rw [hx] at hf
      have hxm := List.mem_of_find?_eq_some hx
      have hxp : x.note.pitch = n.pitch := by simpa using List.find?_some hx
      have hst : stopNote off ⟨old.map (spAt k) ++ new, done⟩ n =
          ⟨(old.filter (fun y => !(y.note.pitch == x.note.pitch))).map (spAt k) ++ new, done ++ [(x.note.id, n.id)]⟩ := by
        unfold stopNote
        simp only [hf, Option.map_some, erase_waiting k new hpw hxm]
        rfl
      rw [hst, fold_stops k off new ns _ _ (hpw.filter _)
        (fun m hm y hy => hold m (List.mem_cons_of_mem _ hm) y (List.mem_filter.mp hy).1)
        (fun m hm => hnew m (List.mem_cons_of_mem _ hm)) hnd.2]
      rw [List.filterMap_cons]
      simp only [hx, Option.map_some, List.filter_filter, List.append_assoc, List.singleton_append, hxp]
      congr 1
      · congr 2
        refine List.filter_congr fun y _ => ?_
        have he : (y.note.pitch == n.pitch) = (n.pitch == y.note.pitch) := by
          rw [Bool.eq_iff_iff, beq_iff_eq, beq_iff_eq]; exact eq_comm
        rw [List.any_cons, Bool.not_or, he, Bool.and_comm]
      · congr 2
        have : ∀ m ∈ ns, ((old.filter (fun y => !(y.note.pitch == n.pitch))).find? fun y => y.note.pitch == m.pitch) =
            old.find? fun y => y.note.pitch == m.pitch := by
          intro m hm
          have hmn : m.pitch ≠ n.pitch := fun h => hnd.1 (List.mem_map.mpr ⟨m, hm, h⟩)
          rw [List.find?_filter]
          congr 1
          funext y
          by_cases hy : y.note.pitch = m.pitch
          · have : y.note.pitch ≠ n.pitch := by rw [hy]; exact hmn
            simp [hy, hmn]
          · simp [hy]
        exact List.filterMap_congr fun m hm => by rw [this m hm]

theorem nextSame_iff (l : List TPlace) (x y : TPlace) :
    NextSame l x y ↔ ∃ p c, l = p ++ y :: c ∧ x ∈ lasts p ∧ y.note.pitch = x.note.pitch := by
  constructor
  · rintro ⟨a, b, c, rfl, hp, hb⟩
    exact ⟨a ++ x :: b, c, rfl, last_mem_lasts hb, hp⟩
  · rintro ⟨p, c, rfl, hx, hp⟩
    obtain ⟨a, b, rfl, hb⟩ := mem_lasts hx
    exact ⟨a, b, c, rfl, hp, hb⟩

theorem mem_waiting {k : Nat} {seen : List TPlace} {x : TPlace} :
    x ∈ waitingTies k seen ↔ x ∈ lasts seen ∧ WantsTie x ∧ k ≤ x.meas + 1 := by
  unfold waitingTies WantsTie
  rw [List.mem_filter, Bool.and_eq_true, starts_iff, decide_eq_true_eq]

theorem waiting_pairwise (k : Nat) (seen : List TPlace) : (waitingTies k seen).Pairwise fun x y => x.note.pitch ≠ y.note.pitch :=
  (lasts_pairwise seen).filter _

theorem lasts_mem {l : List TPlace} {x : TPlace} (h : x ∈ lasts l) : x ∈ l := by
  obtain ⟨a, b, rfl, _⟩ := mem_lasts h
  simp

theorem find_waiting {l : List TPlace} (h : l.Pairwise fun x y => x.note.pitch ≠ y.note.pitch) (q : Str) (x : TPlace) :
    (l.find? fun z => z.note.pitch == q) = some x ↔ x ∈ l ∧ x.note.pitch = q := by
  constructor
  · intro hf
    exact ⟨List.mem_of_find?_eq_some hf, by simpa using List.find?_some hf⟩
  · rintro ⟨hx, hq⟩
    induction l with
    | nil => simp at hx
    | cons y r ih =>
      rw [List.pairwise_cons] at h
      rw [List.find?_cons]
      rcases List.mem_cons.mp hx with rfl | hx
      · simp [hq]
      · have : (y.note.pitch == q) = false := by
          have := h.1 x hx
          rw [hq] at this
          simpa using this
        rw [this]
        exact ih h.2 hx

theorem mem_newTies {k : Nat} {seen new : List TPlace} {ab : Nat × Nat} :
    ab ∈ newTies k seen new ↔
      ∃ x y, y ∈ new ∧ x ∈ waitingTies k seen ∧ x.note.pitch = y.note.pitch ∧ ab = (x.note.id, y.note.id) := by
  unfold newTies
  rw [List.mem_filterMap]
  constructor
  · rintro ⟨y, hy, h⟩
    rw [Option.map_eq_some_iff] at h
    obtain ⟨x, hx, rfl⟩ := h
    rw [find_waiting (waiting_pairwise k seen)] at hx
    exact ⟨x, y, hy, hx.1, hx.2, rfl⟩
  · rintro ⟨x, y, hy, hx, hp, rfl⟩
    refine ⟨y, hy, ?_⟩
    rw [(find_waiting (waiting_pairwise k seen) _ x).mpr ⟨hx, hp⟩]
    rfl

theorem tied_append {k : Nat} {seen new : List TPlace} (hnew : ∀ y ∈ new, y.meas = k)
    (hd : (new.map fun x => x.note.pitch).Nodup) (x y : TPlace) :
    TiedTo (seen ++ new) x y ↔ TiedTo seen x y ∨ (y ∈ new ∧ x ∈ waitingTies k seen ∧ x.note.pitch = y.note.pitch) := by
  unfold TiedTo
  rw [nextSame_iff, nextSame_iff, mem_waiting]
  constructor
  · rintro ⟨⟨p, c, hl, hx, hp⟩, hw, hm⟩
    rcases List.append_eq_append_iff.mp hl with ⟨p', rfl, hn⟩ | ⟨c', hs, hc⟩
    · right
      have hy : y ∈ new := by rw [hn]; simp
      refine ⟨hy, ⟨?_, hw, by rw [← hnew y hy]; exact hm⟩, hp.symm⟩
      rw [lasts_append, List.mem_append] at hx
      rcases hx with hx | hx
      · exact (List.mem_filter.mp hx).1
      · exfalso
        have hx' := lasts_mem hx
        rw [hn, List.map_append, List.nodup_append] at hd
        exact hd.2.2 _ (List.mem_map.mpr ⟨x, hx', rfl⟩) _ (List.mem_map.mpr ⟨y, List.mem_cons_self, rfl⟩) hp.symm
    · cases c' with
      | nil =>
        right
        have hy : y ∈ new := by
          rw [List.nil_append] at hc
          rw [← hc]; simp
        rw [List.append_nil] at hs
        refine ⟨hy, ⟨?_, hw, by rw [← hnew y hy]; exact hm⟩, hp.symm⟩
        rw [hs]; exact hx
      | cons z c' =>
        left
        rw [List.cons_append, List.cons.injEq] at hc
        obtain ⟨rfl, _⟩ := hc
        exact ⟨⟨p, c', hs, hx, hp⟩, hw, hm⟩
  · rintro (⟨⟨p, c, rfl, hx, hp⟩, hw, hm⟩ | ⟨hy, ⟨hx, hw, hm⟩, hp⟩)
    · exact ⟨⟨p, c ++ new, by simp, hx, hp⟩, hw, hm⟩
    · obtain ⟨a, b, rfl⟩ := List.append_of_mem hy
      refine ⟨⟨seen ++ a, b, by simp, ?_, hp.symm⟩, hw, by rw [hnew y hy]; exact hm⟩
      rw [lasts_append, List.mem_append]
      left
      refine List.mem_filter.mpr ⟨hx, ?_⟩
      rw [Bool.not_eq_true', ← Bool.not_eq_true]
      intro hh
      obtain ⟨z, hz, he⟩ := List.any_eq_true.mp hh
      rw [List.map_append, List.nodup_append] at hd
      refine hd.2.2 _ (List.mem_map.mpr ⟨z, hz, rfl⟩) _ (List.mem_map.mpr ⟨y, List.mem_cons_self, rfl⟩) ?_
      rw [← hp]; simpa using he

/-! ## One object, one measure, the part -/

/-- The conditions on the notes seen, as in `TiesPlain`. -/
structure SeenOk (l : List TPlace) : Prop where
  ids : (l.map fun x => x.note.id).Nodup
  durs : ∀ x ∈ l, 0 ≤ x.dur
  apart : l.Pairwise fun x y => x.note.pitch = y.note.pitch → x.off + x.dur ≤ y.off ∧ (x.off < y.off ∨ 0 < y.dur)

theorem SeenOk.prefix {a b : List TPlace} (h : SeenOk (a ++ b)) : SeenOk a := by
  refine ⟨?_, fun x hx => h.durs x (List.mem_append_left _ hx), (List.pairwise_append.mp h.apart).1⟩
  have := h.ids
  rw [List.map_append, List.nodup_append] at this
  exact this.1

theorem starting_eq (k : Nat) (o : TieObj) : o.starting = ((placesOfObj k o).filter fun x => x.note.starts).map (spAt k) := by
  unfold TieObj.starting placesOfObj
  rw [List.filter_map, List.map_map]
  refine List.map_congr_left fun n _ => ?_
  simp [spAt]

theorem obj_step {k : Nat} {seen : List TPlace} {o : TieObj} (hok : SeenOk (seen ++ placesOfObj k o))
    (hch : (o.notes.map TieNote.pitch).Nodup) (done : List (Nat × Nat)) :
    annotateTies false ⟨(waitingTies k seen).map (spAt k), done⟩ o =
      ⟨(waitingTies k (seen ++ placesOfObj k o)).map (spAt k), done ++ newTies k seen (placesOfObj k o)⟩ := by
  unfold annotateTies
  simp only [Bool.false_eq_true, if_false]
  have hd : ((placesOfObj k o).map fun x => x.note.pitch).Nodup := by
    unfold placesOfObj
    rw [List.map_map]
    exact hch
  rw [fold_stops k o.off o.starting o.notes (waitingTies k seen) done (waiting_pairwise k seen) ?_ ?_ hch]
  · congr 1
    · unfold waitingTies
      rw [lasts_append, List.filter_append, List.map_append, lasts_distinct hd, starting_eq k o]
      congr 1
      · congr 1
        rw [List.filter_filter, List.filter_filter]
        refine List.filter_congr fun x _ => ?_
        have : o.notes.any (fun n => n.pitch == x.note.pitch) =
            (placesOfObj k o).any (fun y => y.note.pitch == x.note.pitch) := by
          unfold placesOfObj
          rw [List.any_map]
          rfl
        rw [this, Bool.and_comm]
      · congr 1
        refine List.filter_congr fun x hx => ?_
        unfold placesOfObj at hx
        obtain ⟨n, _, rfl⟩ := List.mem_map.mp hx
        simp
    · congr 1
      unfold newTies placesOfObj
      rw [List.filterMap_map]
      rfl
  · intro n hn x hx hp
    have hxs : x ∈ seen := lasts_mem (mem_waiting.mp hx).1
    have hy : (⟨k, o.off, o.dur, n⟩ : TPlace) ∈ placesOfObj k o := List.mem_map.mpr ⟨n, hn, rfl⟩
    refine ⟨fun he => ?_, ((List.pairwise_append.mp hok.apart).2.2 x hxs _ hy hp).1⟩
    have := hok.ids
    rw [List.map_append, List.nodup_append] at this
    exact this.2.2 _ (List.mem_map.mpr ⟨x, hxs, rfl⟩) _ (List.mem_map.mpr ⟨_, hy, rfl⟩) he
  · intro n hn sp hsp hp
    unfold TieObj.starting at hsp
    obtain ⟨m, hm, rfl⟩ := List.mem_map.mp hsp
    have hm := (List.mem_filter.mp hm).1
    have : m = n := by
      have hinj := List.inj_on_of_nodup_map hch
      exact hinj hm hn hp
    rw [this]

/-- The second look at the voices finds nothing. -/
theorem obj_stops {k : Nat} {seen : List TPlace} {o : TieObj} (hok : SeenOk seen) (hsub : ∀ x ∈ placesOfObj k o, x ∈ seen)
    (done : List (Nat × Nat)) :
    annotateTies true ⟨(waitingTies k seen).map (spAt k), done⟩ o = ⟨(waitingTies k seen).map (spAt k), done⟩ := by
  unfold annotateTies
  simp only [if_true]
  have key : ∀ n ∈ o.notes, stopNote o.off ⟨(waitingTies k seen).map (spAt k), done⟩ n = ⟨(waitingTies k seen).map (spAt k), done⟩ := by
    intro n hn
    have hnone : ((waitingTies k seen).map (spAt k)).find? (TieSp.fits o.off n) = none := by
      rw [List.find?_eq_none]
      intro sp hsp hf
      obtain ⟨x, hx, rfl⟩ := List.mem_map.mp hsp
      unfold TieSp.fits spAt at hf
      simp only [Bool.and_eq_true, bne_iff_ne, ne_eq, beq_iff_eq, decide_eq_true_eq] at hf
      obtain ⟨⟨hid, hp⟩, hoff⟩ := hf
      have hy := hsub ⟨k, o.off, o.dur, n⟩ (List.mem_map.mpr ⟨n, hn, rfl⟩)
      obtain ⟨a, b, rfl, hb⟩ := mem_lasts (mem_waiting.mp hx).1
      have hya : (⟨k, o.off, o.dur, n⟩ : TPlace) ∈ a := by
        rcases List.mem_append.mp hy with h | h
        · exact h
        · rcases List.mem_cons.mp h with h | h
          · exact absurd (congrArg (fun t : TPlace => t.note.id) h).symm hid
          · exact absurd hp.symm (hb _ h)
      have hr := (List.pairwise_append.mp hok.apart).2.2 _ hya x List.mem_cons_self hp.symm
      have h1 := hok.durs x (by simp)
      have h2 := hok.durs _ hy
      simp only at hr h2
      rcases hr.2 with h | h <;> linarith [hr.1]
    unfold stopNote
    simp only [hnone]
  have : ∀ ns : List TieNote, (∀ n ∈ ns, n ∈ o.notes) →
      ns.foldl (stopNote o.off) ⟨(waitingTies k seen).map (spAt k), done⟩ = ⟨(waitingTies k seen).map (spAt k), done⟩ := by
    intro ns
    induction ns with
    | nil => intro _; rfl
    | cons n ns ih =>
      intro h
      rw [List.foldl_cons, key n (h n List.mem_cons_self)]
      exact ih fun m hm => h m (List.mem_cons_of_mem _ hm)
  exact this o.notes fun n hn => hn

/-- The state of the writer, when all notes of `seen` have been looked at. -/
def StateOk (k : Nat) (seen : List TPlace) (st : TieState) : Prop :=
  st.pending = (waitingTies k seen).map (spAt k) ∧
    ∀ ab, ab ∈ st.done ↔ ∃ x y, TiedTo seen x y ∧ ab = (x.note.id, y.note.id)

theorem objs_step (k : Nat) : ∀ (os : List TieObj) (seen : List TPlace) (st : TieState),
    SeenOk (seen ++ os.flatMap (placesOfObj k)) → (∀ o ∈ os, (o.notes.map TieNote.pitch).Nodup) → StateOk k seen st →
    StateOk k (seen ++ os.flatMap (placesOfObj k)) (os.foldl (annotateTies false) st)
  | [], seen, st, _, _, h => by simpa using h
  | o :: os, seen, st, hok, hch, h => by
    rw [List.flatMap_cons, ← List.append_assoc] at hok ⊢
    rw [List.foldl_cons]
    refine objs_step k os _ _ hok (fun o' ho' => hch o' (List.mem_cons_of_mem _ ho')) ?_
    obtain ⟨pending, done⟩ := st
    obtain ⟨hp, hd⟩ := h
    simp only at hp hd
    rw [hp, obj_step hok.prefix (hch o List.mem_cons_self)]
    refine ⟨rfl, fun ab => ?_⟩
    have hnew : ∀ y ∈ placesOfObj k o, y.meas = k := by
      intro y hy
      obtain ⟨n, _, rfl⟩ := List.mem_map.mp hy
      rfl
    have hdist : ((placesOfObj k o).map fun x => x.note.pitch).Nodup := by
      unfold placesOfObj
      rw [List.map_map]
      exact hch o List.mem_cons_self
    rw [List.mem_append, hd, mem_newTies]
    constructor
    · rintro (⟨x, y, ht, rfl⟩ | ⟨x, y, hy, hx, hpp, rfl⟩)
      · exact ⟨x, y, (tied_append hnew hdist x y).mpr (Or.inl ht), rfl⟩
      · exact ⟨x, y, (tied_append hnew hdist x y).mpr (Or.inr ⟨hy, hx, hpp⟩), rfl⟩
    · rintro ⟨x, y, ht, rfl⟩
      rcases (tied_append hnew hdist x y).mp ht with ht | ⟨hy, hx, hpp⟩
      · exact Or.inl ⟨x, y, ht, rfl⟩
      · exact Or.inr ⟨x, y, hy, hx, hpp, rfl⟩

theorem objs_stops (k : Nat) {seen : List TPlace} (hok : SeenOk seen) : ∀ (os : List TieObj) (st : TieState),
    (∀ x ∈ os.flatMap (placesOfObj k), x ∈ seen) → StateOk k seen st → os.foldl (annotateTies true) st = st
  | [], _, _, _ => rfl
  | o :: os, st, hsub, h => by
    rw [List.flatMap_cons] at hsub
    rw [List.foldl_cons]
    have : annotateTies true st o = st := by
      obtain ⟨pending, done⟩ := st
      have hp : pending = _ := h.1
      rw [hp]
      exact obj_stops hok (fun x hx => hsub x (List.mem_append_left _ hx)) done
    rw [this]
    exact objs_stops k hok os st (fun x hx => hsub x (List.mem_append_right _ hx)) h

theorem measure_step {k : Nat} {seen : List TPlace} {st : TieState} {m : List (List TieObj)}
    (hok : SeenOk (seen ++ m.flatten.flatMap (placesOfObj k))) (hch : ∀ v ∈ m, ∀ o ∈ v, (o.notes.map TieNote.pitch).Nodup)
    (h : StateOk k seen { st with pending := bumpTies st.pending }) :
    StateOk k (seen ++ m.flatten.flatMap (placesOfObj k)) (tieMeasure st m) := by
  unfold tieMeasure
  have h1 := objs_step k m.flatten seen _ hok (fun o ho => by
    obtain ⟨v, hv, ho⟩ := List.mem_flatten.mp ho
    exact hch v hv o ho) h
  rw [objs_stops k hok m.flatten _ (fun x hx => List.mem_append_right _ hx) h1]
  exact h1

theorem measures_step : ∀ (ms : List (List (List TieObj))) (k : Nat) (seen : List TPlace) (st : TieState),
    SeenOk (seen ++ placesFrom k ms) → (∀ m ∈ ms, ∀ v ∈ m, ∀ o ∈ v, (o.notes.map TieNote.pitch).Nodup) →
    (∀ x ∈ seen, x.meas < k) → StateOk k seen { st with pending := bumpTies st.pending } →
    ∀ ab, ab ∈ (ms.foldl tieMeasure st).done ↔ ∃ x y, TiedTo (seen ++ placesFrom k ms) x y ∧ ab = (x.note.id, y.note.id)
  | [], k, seen, st, _, _, _, h => by
    simp only [placesFrom, List.append_nil, List.foldl_nil]
    exact h.2
  | m :: ms, k, seen, st, hok, hch, hk, h => by
    rw [placesFrom, ← List.append_assoc] at hok ⊢
    rw [List.foldl_cons]
    have h1 := measure_step hok.prefix (hch m List.mem_cons_self) h
    have hle : ∀ x ∈ seen ++ m.flatten.flatMap (placesOfObj k), x.meas ≤ k := by
      intro x hx
      rcases List.mem_append.mp hx with hx | hx
      · exact le_of_lt (hk x hx)
      · obtain ⟨o, _, hx⟩ := List.mem_flatMap.mp hx
        obtain ⟨n, _, rfl⟩ := List.mem_map.mp hx
        exact le_refl k
    refine measures_step ms (k + 1) _ _ hok (fun m' hm' => hch m' (List.mem_cons_of_mem _ hm'))
      (fun x hx => Nat.lt_succ_of_le (hle x hx)) ⟨?_, h1.2⟩
    simp only [h1.1]
    exact bump_waiting k _ hle

/-- C91, what is written: a note is joined to another exactly when it is to be tied and the other is the next note with its pitch, not later
than in the next measure. -/
theorem ties_made_partial {measures : List (List (List TieObj))} (h : TiesPlain measures) (a b : Nat) :
    (a, b) ∈ (tieMeasures measures).done ↔ ∃ x y, TiedTo (places measures) x y ∧ x.note.id = a ∧ y.note.id = b := by
  have := measures_step measures 0 [] ⟨[], []⟩ ⟨h.ids, h.durs, h.apart⟩ h.chords (by simp) ⟨rfl, fun ab => by
    simp only [List.not_mem_nil, false_iff]
    rintro ⟨x, y, ⟨⟨p, q, c, hl, _⟩, _⟩, _⟩
    simp at hl⟩ (a, b)
  unfold tieMeasures
  rw [this]
  unfold places
  constructor
  · rintro ⟨x, y, ht, he⟩
    rw [Prod.mk.injEq] at he
    exact ⟨x, y, ht, he.1.symm, he.2.symm⟩
  · rintro ⟨x, y, ht, rfl, rfl⟩
    exact ⟨x, y, ht, rfl⟩

theorem split_at {l : List TPlace} (hnd : l.Nodup) {a a' t t' : List TPlace} {x : TPlace} (h : l = a ++ x :: t) (h' : l = a' ++ x :: t') :
    a = a' ∧ t = t' := by
  have hx : ∀ {a t : List TPlace}, l = a ++ x :: t → x ∉ a := by
    intro a t h hm
    rw [h, List.nodup_append] at hnd
    exact hnd.2.2 x hm x List.mem_cons_self rfl
  have h1 := hx h
  have h2 := hx h'
  clear hx hnd
  rw [h'] at h
  clear h'
  induction a generalizing a' with
  | nil =>
    cases a' with
    | nil => exact ⟨rfl, (List.cons.inj h).2.symm⟩
    | cons b a' => exact absurd ((List.cons.inj h).1 ▸ List.mem_cons_self) h2
  | cons c a ih =>
    cases a' with
    | nil => exact absurd ((List.cons.inj h).1 ▸ List.mem_cons_self) h1
    | cons b a' =>
      obtain ⟨rfl, hh⟩ := List.cons.inj h
      obtain ⟨rfl, rfl⟩ := ih hh (fun hm => h1 (List.mem_cons_of_mem _ hm)) (fun hm => h2 (List.mem_cons_of_mem _ hm))
      exact ⟨rfl, rfl⟩

theorem find_first {b c : List TPlace} {y : TPlace} {q : Str} (hy : y.note.pitch = q) (hb : ∀ z ∈ b, z.note.pitch ≠ q) :
    (b ++ y :: c).find? (fun z => z.note.pitch == q) = some y := by
  rw [List.find?_append, List.find?_eq_none.mpr (by simpa using hb)]
  simp [hy]

theorem nextSame_fun {l : List TPlace} (hnd : l.Nodup) {x y y' : TPlace} (h : NextSame l x y) (h' : NextSame l x y') : y = y' := by
  obtain ⟨a, b, c, hl, hp, hb⟩ := h
  obtain ⟨a', b', c', hl', hp', hb'⟩ := h'
  rw [List.append_assoc, List.cons_append] at hl hl'
  obtain ⟨_, ht⟩ := split_at hnd hl hl'
  have h1 := find_first (c := c) hp hb
  rw [ht, find_first hp' hb'] at h1
  exact (Option.some.inj h1).symm

theorem nextSame_inj {l : List TPlace} (hnd : l.Nodup) {x x' y : TPlace} (h : NextSame l x y) (h' : NextSame l x' y) : x = x' := by
  rw [nextSame_iff] at h h'
  obtain ⟨p, c, hl, hx, hp⟩ := h
  obtain ⟨p', c', hl', hx', hp'⟩ := h'
  obtain ⟨rfl, _⟩ := split_at hnd hl hl'
  have h1 := (find_waiting (lasts_pairwise p) y.note.pitch x).mpr ⟨hx, hp.symm⟩
  rw [(find_waiting (lasts_pairwise p) y.note.pitch x').mpr ⟨hx', hp'.symm⟩] at h1
  exact (Option.some.inj h1).symm

theorem nextSame_ne {l : List TPlace} (hnd : l.Nodup) {x y : TPlace} (h : NextSame l x y) : x ≠ y := by
  rintro rfl
  obtain ⟨a, b, c, rfl, _⟩ := h
  rw [List.nodup_append] at hnd
  exact hnd.2.2 x (by simp) x List.mem_cons_self rfl

theorem tied_mem {l : List TPlace} {x y : TPlace} (h : NextSame l x y) : x ∈ l ∧ y ∈ l := by
  obtain ⟨a, b, c, rfl, _⟩ := h
  simp

/-! ## The elements, and reading them -/

theorem places_notes (measures : List (List (List TieObj))) (k : Nat) :
    (placesFrom k measures).map TPlace.note = measures.flatten.flatten.flatMap TieObj.notes := by
  induction measures generalizing k with
  | nil => rfl
  | cons m ms ih =>
    rw [placesFrom, List.map_append, ih, List.flatten_cons, List.flatten_append, List.flatMap_append]
    congr 1
    generalize m.flatten = os
    induction os with
    | nil => rfl
    | cons o os ih =>
      rw [List.flatMap_cons, List.map_append, ih, List.flatMap_cons]
      congr 1
      unfold placesOfObj
      rw [List.map_map]
      exact List.map_id _

theorem writeTies_eq (measures : List (List (List TieObj))) :
    writeTies measures = ((places measures).filter fun x => x.note.starts && !x.note.hidden).map
      fun x => ⟨x.note.id, (tieMeasures measures).done.lookup x.note.id⟩ := by
  unfold writeTies
  simp only
  have h : ∀ (os : List TieObj) (f : TieNote → Bool) (g : TieNote → TieEl),
      (os.flatMap fun o => (o.notes.filter f).map g) = ((os.flatMap TieObj.notes).filter f).map g := by
    intro os f g
    induction os with
    | nil => rfl
    | cons o os ih => rw [List.flatMap_cons, ih, List.flatMap_cons, List.filter_append, List.map_append]
  rw [h, ← places_notes measures 0, List.filter_map, List.map_map]
  rfl

theorem lookup_some_of_fun {d : List (Nat × Nat)} {a b : Nat} (h : (a, b) ∈ d) (hf : ∀ b', (a, b') ∈ d → b' = b) : d.lookup a = some b := by
  induction d with
  | nil => simp at h
  | cons e d ih =>
    obtain ⟨c, f⟩ := e
    rw [List.lookup_cons]
    by_cases hc : a = c
    · subst hc
      simp only [beq_self_eq_true]
      rw [hf f List.mem_cons_self]
    · have : (a == c) = false := by simpa using hc
      rw [this]
      refine ih ?_ fun b' hb' => hf b' (List.mem_cons_of_mem _ hb')
      rcases List.mem_cons.mp h with h | h
      · exact absurd (Prod.mk.inj h).1 hc
      · exact h

theorem lookup_mem_pair {d : List (Nat × Nat)} {a b : Nat} (h : d.lookup a = some b) : (a, b) ∈ d := by
  induction d with
  | nil => simp at h
  | cons e d ih =>
    obtain ⟨c, f⟩ := e
    rw [List.lookup_cons] at h
    by_cases hc : a = c
    · subst hc
      simp only [beq_self_eq_true, Option.some.injEq] at h
      subst h
      exact List.mem_cons_self
    · have : (a == c) = false := by simpa using hc
      rw [this] at h
      exact List.mem_cons_of_mem _ (ih h)

theorem TiesPlain.nodup {measures : List (List (List TieObj))} (h : TiesPlain measures) : (places measures).Nodup := h.ids.of_map

theorem TiesPlain.inj {measures : List (List (List TieObj))} (h : TiesPlain measures) {x y : TPlace} (hx : x ∈ places measures)
    (hy : y ∈ places measures) (he : x.note.id = y.note.id) : x = y := List.inj_on_of_nodup_map h.ids hx hy he

/-- C91, the elements: `<tie startid endid>` for exactly the ties that are not hidden. -/
theorem ties_written_partial {measures : List (List (List TieObj))} (h : TiesPlain measures) (a b : Nat) :
    (⟨a, some b⟩ : TieEl) ∈ writeTies measures ↔
      ∃ x y, TiedTo (places measures) x y ∧ x.note.hidden = false ∧ x.note.id = a ∧ y.note.id = b := by
  rw [writeTies_eq, List.mem_map]
  constructor
  · rintro ⟨x, hx, he⟩
    obtain ⟨hx, hs⟩ := List.mem_filter.mp hx
    rw [TieEl.mk.injEq] at he
    obtain ⟨rfl, hl⟩ := he
    obtain ⟨x', y, ht, hid, rfl⟩ := (ties_made_partial h _ _).mp (lookup_mem_pair hl)
    have := h.inj (tied_mem ht.1).1 hx hid
    subst this
    rw [Bool.and_eq_true, Bool.not_eq_true'] at hs
    exact ⟨x', y, ht, hs.2, rfl, rfl⟩
  · rintro ⟨x, y, ht, hh, rfl, rfl⟩
    refine ⟨x, List.mem_filter.mpr ⟨(tied_mem ht.1).1, ?_⟩, ?_⟩
    · rw [(starts_iff _).mpr ht.2.1, hh]; rfl
    · rw [TieEl.mk.injEq]
      refine ⟨rfl, lookup_some_of_fun ((ties_made_partial h _ _).mpr ⟨x, y, ht, rfl, rfl⟩) ?_⟩
      intro b' hb'
      obtain ⟨x', y', ht', hid, rfl⟩ := (ties_made_partial h _ _).mp hb'
      have := h.inj (tied_mem ht'.1).1 (tied_mem ht.1).1 hid
      subst this
      rw [nextSame_fun h.nodup ht.1 ht'.1]

/-- The text of the attribute for a note where a tie starts (`s`) or ends (`t`). -/
def AttrSays (m : Str) (s t : Prop) : Prop :=
  (m = [] ∧ ¬ s ∧ ¬ t) ∨ (m = ['i'] ∧ s ∧ ¬ t) ∨ (m = ['t'] ∧ ¬ s ∧ t) ∨ ((m = ['t', 'i'] ∨ m = ['i', 't']) ∧ s ∧ t)

theorem AttrSays.congr {m : Str} {s s' t t' : Prop} (h : AttrSays m s t) (hs : s ↔ s') (ht : t ↔ t') : AttrSays m s' t' := by
  unfold AttrSays at *
  rwa [← hs, ← ht]

/-- No note where two of the ties start or two end, and no tie from a note to itself. -/
def TiesDistinct (els : List TieEl) : Prop :=
  els.Pairwise (fun e f => e.startid ≠ f.startid ∧ (e.endid = f.endid → e.endid = none)) ∧ ∀ e ∈ els, e.endid ≠ some e.startid

theorem ppTies_says : ∀ (els : List TieEl), TiesDistinct els → ∀ i,
    AttrSays (els.foldl ppTie noTieAttrs i) (∃ b, (⟨i, some b⟩ : TieEl) ∈ els) (∃ a, (⟨a, some i⟩ : TieEl) ∈ els) := by
  intro els
  induction els using List.reverseRecOn with
  | nil =>
    intro _ i
    left
    exact ⟨rfl, by simp, by simp⟩
  | append_singleton els e ih =>
    rintro ⟨hpw, hself⟩ i
    rw [List.pairwise_append] at hpw
    have ih := ih ⟨hpw.1, fun f hf => hself f (List.mem_append_left _ hf)⟩
    rw [List.foldl_append, List.foldl_cons, List.foldl_nil]
    obtain ⟨a, eb⟩ := e
    cases eb with
    | none =>
      simp only [ppTie]
      refine (ih i).congr ?_ ?_
      · simp
      · simp
    | some b =>
      have hab : a ≠ b := fun h => hself ⟨a, some b⟩ (by simp) (by simp [h])
      have hna : ¬ ∃ b', (⟨a, some b'⟩ : TieEl) ∈ els := by
        rintro ⟨b', hb'⟩
        exact (hpw.2.2 _ hb' _ List.mem_cons_self).1 rfl
      have hnb : ¬ ∃ a', (⟨a', some b⟩ : TieEl) ∈ els := by
        rintro ⟨a', ha'⟩
        have := (hpw.2.2 _ ha' _ List.mem_cons_self).2 rfl
        simp at this
      simp only [ppTie, TieAttrs.set]
      have ha := ih a
      have hb := ih b
      by_cases hi : i = b
      · subst hi
        have hia : ¬ i = a := fun h => hab h.symm
        simp only [if_true, hia, if_false]
        have hs : (∃ b', (⟨i, some b'⟩ : TieEl) ∈ els ++ [⟨a, some i⟩]) ↔ ∃ b', (⟨i, some b'⟩ : TieEl) ∈ els := by
          simp [hia]
        have ht : (∃ a', (⟨a', some i⟩ : TieEl) ∈ els ++ [⟨a, some i⟩]) := ⟨a, by simp⟩
        unfold AttrSays at hb ⊢
        rw [hs]
        rcases hb with ⟨hm, h1, _⟩ | ⟨hm, h1, _⟩ | ⟨_, _, h2⟩ | ⟨_, _, h2⟩
        · rw [hm]
          exact Or.inr (Or.inr (Or.inl ⟨by simp, h1, ht⟩))
        · rw [hm]
          exact Or.inr (Or.inr (Or.inr ⟨by simp, h1, ht⟩))
        · exact absurd h2 hnb
        · exact absurd h2 hnb
      · by_cases hia : i = a
        · subst hia
          simp only [if_true, hi, if_false]
          have ht : (∃ a', (⟨a', some i⟩ : TieEl) ∈ els ++ [⟨i, some b⟩]) ↔ ∃ a', (⟨a', some i⟩ : TieEl) ∈ els := by
            simp [hi]
          have hs : (∃ b', (⟨i, some b'⟩ : TieEl) ∈ els ++ [⟨i, some b⟩]) := ⟨b, by simp⟩
          unfold AttrSays at ha ⊢
          rw [ht]
          rcases ha with ⟨hm, _, h2⟩ | ⟨_, h1, _⟩ | ⟨hm, _, h2⟩ | ⟨_, h1, _⟩
          · rw [hm]
            exact Or.inr (Or.inl ⟨by simp, hs, h2⟩)
          · exact absurd h1 hna
          · rw [hm]
            exact Or.inr (Or.inr (Or.inr ⟨by simp, hs, h2⟩))
          · exact absurd h1 hna
        · simp only [hi, hia, if_false]
          refine (ih i).congr ?_ ?_
          · simp [hia]
          · simp [hi]

/-- What a note should be after reading: `s` says that a tie starts there, `t` that a tie ends there. -/
def TieReads (r : Option TieType) (s t : Prop) : Prop :=
  (r = none ↔ ¬ s ∧ ¬ t) ∧ (r = some .start ↔ s ∧ ¬ t) ∧ (r = some .stop ↔ ¬ s ∧ t) ∧ (r = some .cont ↔ s ∧ t)

/-- C91, reading alone: for any ties, no two of which start at the same note or end at the same note, the notes get the right ties. -/
theorem ties_read_partial (els : List TieEl) (h : TiesDistinct els) (i : Nat) :
    TieReads (readTies els i) (∃ b, (⟨i, some b⟩ : TieEl) ∈ els) (∃ a, (⟨a, some i⟩ : TieEl) ∈ els) := by
  unfold TieReads readTies
  rcases ppTies_says els h i with ⟨hm, h1, h2⟩ | ⟨hm, h1, h2⟩ | ⟨hm, h1, h2⟩ | ⟨hm | hm, h1, h2⟩ <;> rw [hm] <;>
    simp [h1, h2, tieFromAttr]

theorem writeTies_distinct {measures : List (List (List TieObj))} (h : TiesPlain measures) : TiesDistinct (writeTies measures) := by
  have hmem : ∀ {x : TPlace} {b : Nat}, x ∈ places measures → (tieMeasures measures).done.lookup x.note.id = some b →
      ∃ y, TiedTo (places measures) x y ∧ y.note.id = b := by
    intro x b hx hl
    obtain ⟨x', y, ht, hid, rfl⟩ := (ties_made_partial h _ _).mp (lookup_mem_pair hl)
    have := h.inj (tied_mem ht.1).1 hx hid
    subst this
    exact ⟨y, ht, rfl⟩
  constructor
  · rw [writeTies_eq, List.pairwise_map]
    have hnd : ((places measures).filter fun x => x.note.starts && !x.note.hidden).Nodup := h.nodup.filter _
    refine List.Pairwise.imp_of_mem ?_ hnd
    intro x x' hx hx' hne
    have hx := (List.mem_filter.mp hx).1
    have hx' := (List.mem_filter.mp hx').1
    refine ⟨fun he => hne (h.inj hx hx' he), fun he => ?_⟩
    simp only at he ⊢
    cases hl : (tieMeasures measures).done.lookup x.note.id with
    | none => rfl
    | some b =>
      exfalso
      rw [hl] at he
      obtain ⟨y, ht, rfl⟩ := hmem hx hl
      obtain ⟨y', ht', hid⟩ := hmem hx' he.symm
      have := h.inj (tied_mem ht'.1).2 (tied_mem ht.1).2 hid
      subst this
      exact hne (nextSame_inj h.nodup ht.1 ht'.1)
  · intro e he
    rw [writeTies_eq] at he
    obtain ⟨x, hx, rfl⟩ := List.mem_map.mp he
    have hx := (List.mem_filter.mp hx).1
    intro hl
    obtain ⟨y, ht, hid⟩ := hmem hx hl
    exact nextSame_ne h.nodup ht.1 (h.inj hx (tied_mem ht.1).2 hid.symm)

/-- C91, the whole way: after writing and reading, a note starts a tie exactly when it was tied to the next note with its pitch, in the same or the
next measure, and the tie was not hidden; and it ends one exactly when such a note was tied to it. It is false for other parts:
`tie_to_wrong_note`, `tie_start_lost`. -/
theorem ties_round_trip_partial {measures : List (List (List TieObj))} (h : TiesPlain measures) (x : TPlace) (hx : x ∈ places measures) :
    TieReads (readTies (writeTies measures) x.note.id)
      (∃ y, TiedTo (places measures) x y ∧ x.note.hidden = false) (∃ w, TiedTo (places measures) w x ∧ w.note.hidden = false) := by
  have hr := ties_read_partial _ (writeTies_distinct h) x.note.id
  have hs : (∃ b, (⟨x.note.id, some b⟩ : TieEl) ∈ writeTies measures) ↔ ∃ y, TiedTo (places measures) x y ∧ x.note.hidden = false := by
    constructor
    · rintro ⟨b, hb⟩
      obtain ⟨x', y, ht, hh, hid, _⟩ := (ties_written_partial h _ _).mp hb
      have := h.inj (tied_mem ht.1).1 hx hid
      subst this
      exact ⟨y, ht, hh⟩
    · rintro ⟨y, ht, hh⟩
      exact ⟨y.note.id, (ties_written_partial h _ _).mpr ⟨x, y, ht, hh, rfl, rfl⟩⟩
  have ht : (∃ a, (⟨a, some x.note.id⟩ : TieEl) ∈ writeTies measures) ↔ ∃ w, TiedTo (places measures) w x ∧ w.note.hidden = false := by
    constructor
    · rintro ⟨a, ha⟩
      obtain ⟨w, y, ht, hh, _, hid⟩ := (ties_written_partial h _ _).mp ha
      have := h.inj (tied_mem ht.1).2 hx hid
      subst this
      exact ⟨w, ht, hh⟩
    · rintro ⟨w, ht, hh⟩
      exact ⟨w.note.id, (ties_written_partial h _ _).mpr ⟨w, x, ht, hh, rfl, rfl⟩⟩
  rw [hs, ht] at hr
  exact hr

/-- The ties of a part fit together: a note that is to be tied is followed by a note of its pitch, in the same or the next measure, that is
marked as tied to it, and the other way round; no tie is hidden. -/
structure TiesFit (l : List TPlace) : Prop where
  ends : ∀ x ∈ l, WantsTie x → ∃ y, NextSame l x y ∧ y.meas ≤ x.meas + 1
  marked : ∀ x y, NextSame l x y → (WantsTie x ↔ y.note.tie = some .stop ∨ y.note.tie = some .cont)
  first : ∀ y ∈ l, y.note.tie = some .stop ∨ y.note.tie = some .cont → ∃ x, NextSame l x y
  shown : ∀ x ∈ l, x.note.hidden = false

/-- C91 for parts whose ties fit together: every note has the tie it had. -/
theorem ties_same_partial {measures : List (List (List TieObj))} (h : TiesPlain measures) (hf : TiesFit (places measures))
    (x : TPlace) (hx : x ∈ places measures) : readTies (writeTies measures) x.note.id = x.note.tie := by
  have hr := ties_round_trip_partial h x hx
  have hs : (∃ y, TiedTo (places measures) x y ∧ x.note.hidden = false) ↔ WantsTie x := by
    constructor
    · rintro ⟨y, ht, _⟩; exact ht.2.1
    · intro hw
      obtain ⟨y, hn, hm⟩ := hf.ends x hx hw
      exact ⟨y, ⟨hn, hw, hm⟩, hf.shown x hx⟩
  have ht : (∃ w, TiedTo (places measures) w x ∧ w.note.hidden = false) ↔ (x.note.tie = some .stop ∨ x.note.tie = some .cont) := by
    constructor
    · rintro ⟨w, ht, _⟩; exact (hf.marked w x ht.1).mp ht.2.1
    · intro hw
      obtain ⟨w, hn⟩ := hf.first x hx hw
      have hww := (hf.marked w x hn).mpr hw
      obtain ⟨y, hn', hm⟩ := hf.ends w (tied_mem hn).1 hww
      have := nextSame_fun h.nodup hn hn'
      subst this
      exact ⟨w, ⟨hn, hww, hm⟩, hf.shown w (tied_mem hn).1⟩
  rw [hs, ht] at hr
  unfold TieReads WantsTie at hr
  obtain ⟨h1, h2, h3, h4⟩ := hr
  cases htie : x.note.tie with
  | none => rw [htie] at h1; exact h1.mpr (by simp)
  | some t =>
    rw [htie] at h2 h3 h4
    cases t with
    | start => exact h2.mpr (by simp)
    | cont => exact h4.mpr (by simp)
    | stop => exact h3.mpr (by simp)

/-! ## Examples, and parts for which it is false -/

/-- C5, tied over two bar lines; in the second measure an E5 below a chord, in another voice. -/
def tiesSample : List (List (List TieObj)) :=
  [[[⟨0, 3, [⟨0, "G4".toList, none, false⟩]⟩, ⟨3, 1, [⟨1, "C5".toList, some .start, false⟩, ⟨2, "E4".toList, some .start, false⟩]⟩]],
   [[⟨4, 4, [⟨3, "C5".toList, some .cont, false⟩]⟩], [⟨4, 2, [⟨4, "E4".toList, some .stop, false⟩]⟩]],
   [[⟨8, 1, [⟨5, "C5".toList, some .stop, false⟩]⟩]]]

example : writeTies tiesSample = [⟨1, some 3⟩, ⟨2, some 4⟩, ⟨3, some 5⟩] := by decide +kernel
example : (List.range 6).map (readTies (writeTies tiesSample)) =
    [none, some .start, some .start, some .cont, some .stop, some .stop] := by decide +kernel
theorem tiesSample_plain : TiesPlain tiesSample := ⟨by decide +kernel, by decide +kernel, by decide +kernel, by decide +kernel⟩

theorem nextSame_find {l : List TPlace} (hnd : l.Nodup) (x y : TPlace) :
    NextSame l x y ↔ x ∈ l ∧ ((l.dropWhile (· != x)).drop 1).find? (fun z => z.note.pitch == x.note.pitch) = some y := by
  have hdrop : ∀ {a t : List TPlace}, l = a ++ x :: t → (l.dropWhile (· != x)).drop 1 = t := by
    intro a t hl
    have hx : x ∉ a := by
      intro hm
      rw [hl, List.nodup_append] at hnd
      exact hnd.2.2 x hm x List.mem_cons_self rfl
    rw [hl, List.dropWhile_append_of_pos]
    · simp
    · intro z hz
      have : z ≠ x := fun h => hx (h ▸ hz)
      simpa using this
  constructor
  · rintro ⟨a, b, c, hl, hp, hb⟩
    refine ⟨by rw [hl]; simp, ?_⟩
    rw [List.append_assoc, List.cons_append] at hl
    rw [hdrop hl]
    exact find_first hp hb
  · rintro ⟨hx, hf⟩
    obtain ⟨a, t, hl⟩ := List.append_of_mem hx
    rw [hdrop hl, List.find?_eq_some_iff_append] at hf
    obtain ⟨hp, b, c, rfl, hb⟩ := hf
    exact ⟨a, b, c, by rw [hl]; simp, by simpa using hp, fun z hz => by simpa using hb z hz⟩

/-- The ties of the sample fit together. -/
theorem tiesSample_fit : TiesFit (places tiesSample) := by
  have hnd := tiesSample_plain.nodup
  have key : ∀ x ∈ places tiesSample,
      (WantsTie x → ∃ y ∈ places tiesSample, (((places tiesSample).dropWhile (· != x)).drop 1).find? (fun z => z.note.pitch == x.note.pitch) =
        some y ∧ y.meas ≤ x.meas + 1) ∧
      (∀ y ∈ places tiesSample, (((places tiesSample).dropWhile (· != x)).drop 1).find? (fun z => z.note.pitch == x.note.pitch) = some y →
        (WantsTie x ↔ y.note.tie = some .stop ∨ y.note.tie = some .cont)) ∧
      (x.note.tie = some .stop ∨ x.note.tie = some .cont → ∃ w ∈ places tiesSample,
        (((places tiesSample).dropWhile (· != w)).drop 1).find? (fun z => z.note.pitch == w.note.pitch) = some x) ∧
      x.note.hidden = false := by
    unfold WantsTie
    decide +kernel
  refine ⟨fun x hx hw => ?_, fun x y hn => ?_, fun y hy hw => ?_, fun x hx => (key x hx).2.2.2⟩
  · obtain ⟨y, hy, hf, hm⟩ := (key x hx).1 hw
    exact ⟨y, (nextSame_find hnd x y).mpr ⟨hx, hf⟩, hm⟩
  · exact (key x (tied_mem hn).1).2.1 y (tied_mem hn).2 ((nextSame_find hnd x y).mp hn).2
  · obtain ⟨w, hw', hf⟩ := (key y hy).2.2.1 hw
    exact ⟨w, (nextSame_find hnd w y).mpr ⟨hw', hf⟩⟩

example : ∀ x ∈ places tiesSample, readTies (writeTies tiesSample) x.note.id = x.note.tie :=
  ties_same_partial tiesSample_plain tiesSample_fit

/-- Two voices in one measure: a C4 of the first voice is tied to a C4 of the second on the second beat; the first voice has another C4 on the
third beat. -/
def tiesCross : List (List (List TieObj)) :=
  [[[⟨0, 1, [⟨0, "C4".toList, some .start, false⟩]⟩, ⟨1, 1, [⟨1, "D4".toList, none, false⟩]⟩, ⟨2, 1, [⟨2, "C4".toList, none, false⟩]⟩],
    [⟨1, 1, [⟨3, "C4".toList, some .stop, false⟩]⟩]]]

/-- C91 is false of the code: the voices are searched one after the other, so the tie goes to the later note of the first voice, whatever the notes
say. -/
theorem tie_to_wrong_note : writeTies tiesCross = [⟨0, some 2⟩] ∧ readTies (writeTies tiesCross) 3 = none ∧
    readTies (writeTies tiesCross) 2 = some .stop := by decide +kernel

/-- A tie from each of two voices to one note, which is tied to another. -/
def tiesJoin : List (List (List TieObj)) :=
  [[[⟨0, 1, [⟨0, "C4".toList, some .start, false⟩]⟩, ⟨1, 1, [⟨1, "C4".toList, some .cont, false⟩]⟩, ⟨2, 1, [⟨2, "C4".toList, some .stop, false⟩]⟩],
    [⟨0, 1, [⟨3, "C4".toList, some .start, false⟩]⟩]]]

/-- C91 is false of the code: the elements are written correctly, but the second tie that ends at a note makes the reader forget that a tie starts
there. -/
theorem tie_start_lost : writeTies tiesJoin = [⟨0, some 1⟩, ⟨1, some 2⟩, ⟨3, some 1⟩] ∧ readTies (writeTies tiesJoin) 1 = some .stop := by
  decide +kernel

/-- C91 is false of the code: hidden ties are not written. -/
theorem hidden_tie_lost :
    writeTies [[[⟨0, 1, [⟨0, "C4".toList, some .start, true⟩]⟩, ⟨1, 1, [⟨1, "C4".toList, some .stop, true⟩]⟩]]] = [] := by decide +kernel

/-- C91 is false of the code: a tie whose other end is not marked, or is missing, is joined to any later note of its pitch in the next measure. -/
theorem open_tie_closed :
    readTies (writeTies [[[⟨0, 1, [⟨0, "C4".toList, some .start, false⟩]⟩]], [[⟨3, 1, [⟨1, "C4".toList, none, false⟩]⟩]]]) 1 = some .stop := by
  decide +kernel

end C21
