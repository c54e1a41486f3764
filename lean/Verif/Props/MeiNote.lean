import Verif.Model.MeiNote
import Verif.Props.Dates
import Verif.Lemmas.Tac
/-
C80: durations survive MEI export and import. C81: pitches. C82: tremolos.
-/
namespace C21

/-! ## Durations: specification -/

/-- The note types of music21 and their lengths in quarter notes (music21/duration.py). -/
def m21Lengths : List (String × Rat) :=
  [("duplex-maxima", 64), ("maxima", 32), ("longa", 16), ("breve", 8), ("whole", 4), ("half", 2), ("quarter", 1), ("eighth", 1/2),
   ("16th", 1/4), ("32nd", 1/8), ("64th", 1/16), ("128th", 1/32), ("256th", 1/64), ("512th", 1/128), ("1024th", 1/256),
   ("2048th", 1/512)]

/-- The length of a type with dots. -/
def writtenLength (q : Rat) (dots : Nat) : Rat := q * (2 - 1 / 2 ^ dots)

/-- What music21's `Duration(q)` does with the length of a note with at most four dots: it finds the type and the dots. -/
def FindsTypes (mk : Rat → String × Nat) : Prop :=
  ∀ tq ∈ m21Lengths, ∀ d, d ≤ 4 → mk (writtenLength tq.2 d) = (tq.1, d)

/-- The types that MEI has too. -/
def MeiType (t : String) (q : Rat) : Prop := (t, q) ∈ m21Lengths ∧ t ≠ "duplex-maxima"

/-- Product of the tuplet multipliers. -/
def factor (ms : List Rat) : Rat := ms.prod

/-! ## Durations: theorems -/

/-- For an MEI type, the writer's and the reader's tables are inverse. -/
theorem meiType_tables {t : String} {q : Rat} (h : MeiType t q) :
    ∃ a, meiDurTable.lookup t = some a ∧ qlOfAttr a = some q ∧ 0 < q := by
  obtain ⟨h, hne⟩ := h
  unfold m21Lengths at h
  simp only [List.mem_cons, Prod.mk.injEq, List.not_mem_nil, or_false] at h
  rcases h with ⟨rfl, rfl⟩ | ⟨rfl, rfl⟩ | ⟨rfl, rfl⟩ | ⟨rfl, rfl⟩ | ⟨rfl, rfl⟩ | ⟨rfl, rfl⟩ | ⟨rfl, rfl⟩ | ⟨rfl, rfl⟩ | ⟨rfl, rfl⟩ |
    ⟨rfl, rfl⟩ | ⟨rfl, rfl⟩ | ⟨rfl, rfl⟩ | ⟨rfl, rfl⟩ | ⟨rfl, rfl⟩ | ⟨rfl, rfl⟩ | ⟨rfl, rfl⟩
  · exact absurd rfl hne
  all_goals exact ⟨_, rfl, rfl, by decide +kernel⟩

theorem writtenLength_zero (q : Rat) : writtenLength q 0 = q := by unfold writtenLength; norm_num

theorem makeDuration_type {mk : Rat → String × Nat} (hmk : FindsTypes mk) {t : String} {q : Rat} (h : MeiType t q) (dots : Nat) :
    makeDuration mk q dots = ⟨t, dots, true, writtenLength q dots⟩ := by
  have := hmk (t, q) h.1 0 (by omega)
  rw [writtenLength_zero] at this
  unfold makeDuration
  rw [this, if_pos rfl]
  rfl

theorem readDots_natStr (n : Nat) : readDots (if n = 0 then none else some (natStr n)) = .ok n := by
  by_cases h : n = 0
  · rw [if_pos h, h]; rfl
  · rw [if_neg h]
    have : pyInt (natStr n) = some (n : Int) := by
      have := (intStr_signed (n : Int)).pyInt
      unfold intStr at this
      rwa [if_neg (by omega)] at this
    simp only [readDots, this]; rfl

theorem readDotsGes_natStr (n : Nat) : readDotsGes (some (natStr n)) = .ok (some n) := by
  have : pyInt (natStr n) = some (n : Int) := by
    have := (intStr_signed (n : Int)).pyInt
    unfold intStr at this
    rwa [if_neg (by omega)] at this
  simp only [readDotsGes, this]; rfl

theorem readLength_some {a : String} {q : Rat} (h : qlOfAttr a = some q) : readLength (some a) = .ok q := by
  simp only [readLength, h]

/-- Two types with the same MEI name are the same. -/
theorem meiType_inj {t t' a : String} {q q' : Rat} (h : MeiType t q) (h' : MeiType t' q')
    (ha : meiDurTable.lookup t = some a) (ha' : meiDurTable.lookup t' = some a) : q = q' := by
  obtain ⟨b, h1, h2, _⟩ := meiType_tables h
  obtain ⟨b', h1', h2', _⟩ := meiType_tables h'
  rw [ha] at h1; rw [ha'] at h1'
  cases h1; cases h1'
  rw [h2] at h2'; exact Option.some.inj h2'

theorem writtenLength_inj_dots {q : Rat} (hq : 0 < q) {d e : Nat} (h : writtenLength q d = writtenLength q e) : d = e := by
  unfold writtenLength at h
  have h1 : (2 : Rat) - 1 / 2 ^ d = 2 - 1 / 2 ^ e := mul_left_cancel₀ (ne_of_gt hq) h
  have h2 : (1 : Rat) / 2 ^ d = 1 / 2 ^ e := by linarith
  have h3 : (2 : Rat) ^ d = 2 ^ e := by
    have hd : (2 : Rat) ^ d ≠ 0 := pow_ne_zero _ (by norm_num)
    have he : (2 : Rat) ^ e ≠ 0 := pow_ne_zero _ (by norm_num)
    field_simp at h2
    exact h2.symm
  exact_mod_cast Nat.pow_right_injective (le_refl 2) (by exact_mod_cast h3)

/-- C80 for ordinary linked durations: type, dots (any number) and length come back. -/
theorem linked_duration_round_trip (mk : Rat → String × Nat) (hmk : FindsTypes mk) (inF : Bool) (dflt : Rat)
    (d : MDur) (q : Rat) (ht : MeiType d.type q) (hg : d.grace = none) (hl : d.linked = true) :
    readDur mk dflt (writeDur mk inF d) = .ok ⟨d.type, d.dots, true, writtenLength q d.dots⟩ := by
  obtain ⟨a, h1, h2, h3⟩ := meiType_tables ht
  unfold writeDur
  rw [hg, hl]
  simp only [if_true, h1]
  unfold readDur
  simp only [readLength_some h2, readDots_natStr]
  show Except.ok (assembleDur mk dflt q 0 d.dots none) = _
  unfold assembleDur
  simp only [ne_of_gt h3, if_false, makeDuration_type hmk ht, ne_eq, not_true_eq_false]

/-- The attributes of a note in an MEI file, written by any program: a type with dots, perhaps a performed type, perhaps dots for it. -/
def anyDurAttr (a : String) (dots : Nat) (ga : Option String) (gd : Option Nat) : DurAttr :=
  ⟨some a, if dots = 0 then none else some (natStr dots), ga, gd.map natStr, none⟩

/-- C80, reading alone: any written type and dots with a performed type: the written type and dots are kept, and the length is that of the
performed type with as many dots as are given for it, none if none are given. -/
theorem performed_type_read (mk : Rat → String × Nat) (hmk : FindsTypes mk) (dflt : Rat) {t gt a ga : String} {q gq : Rat}
    (ht : MeiType t q) (hgt : MeiType gt gq) (ha : qlOfAttr a = some q) (hga : qlOfAttr ga = some gq) (dots : Nat) (gd : Option Nat) :
    ∃ r, readDur mk dflt (anyDurAttr a dots (some ga) gd) = .ok r ∧ r.type = t ∧ r.dots = dots ∧
      r.ql = writtenLength gq (gd.getD 0) := by
  obtain ⟨_, _, _, h3⟩ := meiType_tables ht
  obtain ⟨_, _, _, h3'⟩ := meiType_tables hgt
  unfold readDur anyDurAttr
  simp only [readLength_some ha, readLength_some hga, readDots_natStr]
  cases gd with
  | none =>
    refine ⟨_, rfl, ?_⟩
    unfold assembleDur
    simp only [ne_of_gt h3, ne_of_gt h3', if_false, makeDuration_type hmk ht, makeDuration_type hmk hgt, ne_eq, not_false_eq_true, if_true,
      Option.getD_none]
    split <;> simp_all
  | some k =>
    simp only [Option.map_some, readDotsGes_natStr]
    refine ⟨_, rfl, ?_⟩
    unfold assembleDur
    simp only [ne_of_gt h3, ne_of_gt h3', if_false, makeDuration_type hmk ht, makeDuration_type hmk hgt, ne_eq, not_false_eq_true, if_true,
      Option.getD_some]
    split <;> simp_all

/-- C80, reading alone: a written type with dots and no performed type: dots for the performance change the length only. -/
theorem performed_dots_read (mk : Rat → String × Nat) (hmk : FindsTypes mk) (dflt : Rat) {t a : String} {q : Rat}
    (ht : MeiType t q) (ha : qlOfAttr a = some q) (dots : Nat) (gd : Option Nat) :
    ∃ r, readDur mk dflt (anyDurAttr a dots none gd) = .ok r ∧ r.type = t ∧ r.dots = dots ∧
      r.ql = writtenLength q (gd.getD dots) := by
  obtain ⟨_, _, _, h3⟩ := meiType_tables ht
  unfold readDur anyDurAttr
  simp only [readLength_some ha, readDots_natStr]
  cases gd with
  | none =>
    refine ⟨_, rfl, ?_⟩
    unfold assembleDur
    simp only [ne_of_gt h3, if_false, makeDuration_type hmk ht, ne_eq, not_true_eq_false, Option.getD_none, and_self]
  | some k =>
    simp only [Option.map_some, readDotsGes_natStr]
    refine ⟨_, rfl, ?_⟩
    unfold assembleDur
    simp only [ne_of_gt h3, if_false, makeDuration_type hmk ht, ne_eq, not_true_eq_false, Option.getD_some]
    split <;> simp_all

/-- C80, the part that holds for durations whose performed length is not the written one: when the performed length (without the
tuplets, and doubled in a two-note tremolo) is that of some MEI type with at most four dots, type, dots and performed length come
back. It is false for other performed lengths: `complex_length_lost`, `tuplet_length_lost`. -/
theorem unlinked_duration_round_trip_partial (mk : Rat → String × Nat) (hmk : FindsTypes mk) (inF : Bool) (dflt : Rat)
    (d : MDur) (q : Rat) (ht : MeiType d.type q) (hg : d.grace = none) (hl : d.linked = false)
    (gt : String) (gq : Rat) (gd : Nat) (hgt : MeiType gt gq) (hgd : gd ≤ 4)
    (hlen : gesLength inF d = writtenLength gq gd) :
    ∃ r, readDur mk dflt (writeDur mk inF d) = .ok r ∧ r.type = d.type ∧ r.dots = d.dots ∧ r.ql = gesLength inF d := by
  obtain ⟨a, h1, h2, h3⟩ := meiType_tables ht
  obtain ⟨g, h1', h2', h3'⟩ := meiType_tables hgt
  have hm := hmk (gt, gq) hgt.1 gd hgd
  simp only at hm
  unfold writeDur
  rw [hg, hl, hlen, hm]
  simp only [Bool.false_eq_true, if_false, h1, h1']
  unfold gesAttrs
  simp only [Option.some.injEq]
  by_cases hag : g = a
  · subst hag
    have hqq : q = gq := meiType_inj ht hgt h1 h1'
    subst hqq
    simp only [if_true]
    by_cases hdd : gd = d.dots
    · subst hdd
      simp only [if_true]
      unfold readDur
      simp only [readLength_some h2, readDots_natStr]
      refine ⟨_, rfl, ?_⟩
      unfold assembleDur
      simp only [ne_of_gt h3, if_false, makeDuration_type hmk ht, ne_eq, not_true_eq_false]
      exact ⟨trivial, trivial, trivial⟩
    · simp only [hdd, if_false]
      unfold readDur
      simp only [readLength_some h2, readDots_natStr, readDotsGes_natStr]
      refine ⟨_, rfl, ?_⟩
      unfold assembleDur
      have hne : writtenLength q gd ≠ writtenLength q d.dots := fun h => hdd (writtenLength_inj_dots h3 h)
      simp only [ne_of_gt h3, if_false, makeDuration_type hmk ht, ne_eq, not_true_eq_false, hne, not_false_eq_true, if_true]
      exact ⟨trivial, trivial, trivial⟩
  · simp only [hag, if_false, reduceCtorEq]
    by_cases hz : gd = 0 ∧ d.dots = 0
    · simp only [hz, and_self, if_true]
      unfold readDur
      simp only [readLength_some h2, readLength_some h2']
      refine ⟨_, rfl, ?_⟩
      unfold assembleDur
      simp only [ne_of_gt h3, ne_of_gt h3', if_false, makeDuration_type hmk ht, makeDuration_type hmk hgt, ne_eq,
        not_false_eq_true, if_true]
      by_cases he : writtenLength gq 0 = writtenLength q 0
      · simp [he]
      · simp [he]
    · simp only [if_neg hz]
      unfold readDur
      simp only [readLength_some h2, readLength_some h2', readDots_natStr, readDotsGes_natStr]
      refine ⟨_, rfl, ?_⟩
      unfold assembleDur
      simp only [ne_of_gt h3, ne_of_gt h3', if_false, makeDuration_type hmk ht, makeDuration_type hmk hgt, ne_eq,
        not_false_eq_true, if_true]
      by_cases he : writtenLength gq gd = writtenLength q d.dots
      · simp [he]
      · simp [he]

theorem scaleAll_ql (ms : List Rat) (r : RDur) :
    scaleAll ms r = { r with ql := r.ql * factor ms } := by
  induction ms generalizing r with
  | nil => simp [scaleAll, factor]
  | cons m ms ih =>
    show scaleAll ms (scaleDur m r) = _
    rw [ih]
    simp only [scaleDur, factor, List.prod_cons, RDur.mk.injEq, true_and]
    ring

theorem foldl_mul_factor (ms : List Rat) (x : Rat) : ms.foldl (· * ·) x = x * factor ms := by
  induction ms generalizing x with
  | nil => simp [factor]
  | cons m ms ih =>
    rw [List.foldl_cons, ih]
    simp only [factor, List.prod_cons]; ring

theorem gesLength_factor (d : MDur) (h : factor d.tuplets ≠ 0) (inF : Bool) :
    gesLength inF d * factor d.tuplets = if inF then d.ql * 2 else d.ql := by
  unfold gesLength
  rw [foldl_mul_factor]
  have hq : (if d.tuplets.isEmpty = true then d.ql else d.ql / (1 * factor d.tuplets)) * factor d.tuplets = d.ql := by
    by_cases he : d.tuplets.isEmpty = true
    · rw [if_pos he]
      have : d.tuplets = [] := List.isEmpty_iff.1 he
      rw [this]; simp [factor]
    · rw [if_neg he, one_mul]; field_simp
  cases inF with
  | false => simpa using hq
  | true =>
    simp only [if_true]
    rw [mul_right_comm, hq]

theorem factor_ne_zero (ms : List Rat) (h : ∀ m ∈ ms, m ≠ 0) : factor ms ≠ 0 := by
  induction ms with
  | nil => simp [factor]
  | cons m ms ih =>
    simp only [factor, List.prod_cons]
    exact mul_ne_zero (h m (List.mem_cons_self)) (ih (fun x hx => h x (List.mem_cons_of_mem _ hx)))

/-- C80 for a note in tuplets, outside tremolos: after the tuplets around it, the note lasts as long as it did. -/
theorem tuplet_duration_round_trip_partial (mk : Rat → String × Nat) (hmk : FindsTypes mk) (dflt : Rat)
    (d : MDur) (q : Rat) (ht : MeiType d.type q) (hg : d.grace = none) (hm : ∀ m ∈ d.tuplets, m ≠ 0)
    (hlen : (d.linked = true ∧ d.ql = writtenLength q d.dots * factor d.tuplets) ∨
      (d.linked = false ∧ ∃ gt gq gd, MeiType gt gq ∧ gd ≤ 4 ∧ d.ql = writtenLength gq gd * factor d.tuplets)) :
    ∃ r, readDur mk dflt (writeDur mk false d) = .ok r ∧
      (scaleAll d.tuplets r).type = d.type ∧ (scaleAll d.tuplets r).dots = d.dots ∧ (scaleAll d.tuplets r).ql = d.ql := by
  have hf : factor d.tuplets ≠ 0 := factor_ne_zero _ hm
  rcases hlen with ⟨hl, hq⟩ | ⟨hl, gt, gq, gd, hgt, hgd, hq⟩
  · refine ⟨_, linked_duration_round_trip mk hmk false dflt d q ht hg hl, ?_⟩
    rw [scaleAll_ql]
    exact ⟨rfl, rfl, hq.symm⟩
  · have hlen : gesLength false d = writtenLength gq gd := by
      have h1 := gesLength_factor d hf false
      simp only [Bool.false_eq_true, if_false] at h1
      rw [hq] at h1
      exact mul_right_cancel₀ hf h1
    obtain ⟨r, h1, h2, h3, h4⟩ := unlinked_duration_round_trip_partial mk hmk false dflt d q ht hg hl gt gq gd hgt hgd hlen
    refine ⟨r, h1, ?_⟩
    rw [scaleAll_ql]
    refine ⟨h2, h3, ?_⟩
    show r.ql * factor d.tuplets = d.ql
    rw [h4, gesLength_factor d hf]; rfl

/-- C80 for the notes of a two-note tremolo in tuplets: each performed for half its written length, and read back so. -/
theorem ftrem_duration_round_trip_partial (mk : Rat → String × Nat) (hmk : FindsTypes mk) (dflt : Rat)
    (d : MDur) (q : Rat) (ht : MeiType d.type q) (hg : d.grace = none) (hl : d.linked = false) (hd : d.dots ≤ 4)
    (hm : ∀ m ∈ d.tuplets, m ≠ 0) (hlen : d.ql = writtenLength q d.dots / 2 * factor d.tuplets) :
    ∃ r, readDur mk dflt (writeDur mk true d) = .ok r ∧
      scaleAll d.tuplets (halveDur r r) = ⟨d.type, d.dots, false, d.ql⟩ := by
  have hf : factor d.tuplets ≠ 0 := factor_ne_zero _ hm
  have hlen' : gesLength true d = writtenLength q d.dots := by
    have h1 := gesLength_factor d hf true
    simp only [if_true] at h1
    rw [hlen] at h1
    have : gesLength true d * factor d.tuplets = writtenLength q d.dots * factor d.tuplets := by rw [h1]; ring
    exact mul_right_cancel₀ hf this
  obtain ⟨r, h1, h2, h3, h4⟩ := unlinked_duration_round_trip_partial mk hmk true dflt d q ht hg hl d.type q d.dots ht hd hlen'
  refine ⟨r, h1, ?_⟩
  rw [scaleAll_ql]
  simp only [halveDur, h2, h3, h4, hlen', RDur.mk.injEq, true_and]
  exact hlen.symm

/-- The music21 of the examples: look for the type and dots, give up otherwise. -/
def findType (q : Rat) : String × Nat :=
  ((m21Lengths.flatMap fun tq => (List.range 5).map fun d => (writtenLength tq.2 d, (tq.1, d))).lookup q).getD ("complex", 0)

/-- It does what `FindsTypes` asks. -/
theorem findType_findsTypes : FindsTypes findType := by
  have : ∀ tq ∈ m21Lengths, ∀ d ∈ List.range 5, findType (writtenLength tq.2 d) = (tq.1, d) := by decide +kernel
  intro tq h d hd
  exact this tq h d (List.mem_range.2 (by omega))

/-- A dotted eighth of a triplet, played as an eighth. -/
def sampleDur : MDur := ⟨"eighth", 1, none, false, [2/3], 1/3⟩
example : ∃ r, readDur findType 1 (writeDur findType false sampleDur) = .ok r ∧
    (scaleAll [2/3] r).type = "eighth" ∧ (scaleAll [2/3] r).dots = 1 ∧ (scaleAll [2/3] r).ql = 1/3 :=
  tuplet_duration_round_trip_partial findType findType_findsTypes 1 sampleDur (1/2)
    ⟨by decide +kernel, by decide⟩ rfl (by decide +kernel)
    (Or.inr ⟨rfl, "eighth", 1/2, 0, ⟨by decide +kernel, by decide⟩, by omega, by decide +kernel⟩)
example : writeDur findType false sampleDur = ⟨some "8", some "1".toList, none, some "0".toList, none⟩ := by decide +kernel

/-- `<note dur="4" dots="1" dur.ges="8"/>` -/
example : ∃ r, readDur findType 1 (anyDurAttr "4" 1 (some "8") none) = .ok r ∧ r.type = "quarter" ∧ r.dots = 1 ∧
    r.ql = writtenLength (1/2) 0 :=
  performed_type_read findType findType_findsTypes 1 (q := 1) (gt := "eighth") ⟨by decide +kernel, by decide⟩
    ⟨by decide +kernel, by decide⟩ (by decide +kernel) (by decide +kernel) 1 none

/-- C80 for grace notes: type and dots are kept, and the note is an accented grace note exactly when it is an appoggiatura, or takes
its time from the following note only, or (when neither is known) is explicitly without a slash. -/
theorem grace_round_trip (mk : Rat → String × Nat) (hmk : FindsTypes mk) (inF : Bool) (dflt : Rat) (d : MDur) (q : Rat)
    (ht : MeiType d.type q) (g : GraceKind) (hg : d.grace = some g) :
    readDur mk dflt (writeDur mk inF d) = .ok ⟨d.type, d.dots, true, writtenLength q d.dots⟩ ∧
    (readGrace (writeDur mk inF d).grace = some true ↔
      g = .appoggiatura ∨ (∃ s, g = .grace false true s) ∨ g = .grace false false (some false)) ∧
    (readGrace (writeDur mk inF d).grace = some false ∨ readGrace (writeDur mk inF d).grace = some true) := by
  obtain ⟨a, h1, h2, h3⟩ := meiType_tables ht
  unfold writeDur
  rw [hg]
  refine ⟨?_, ?_, ?_⟩
  · simp only [h1]
    unfold readDur
    simp only [readLength_some h2, readDots_natStr]
    show Except.ok (assembleDur mk dflt q 0 d.dots none) = _
    unfold assembleDur
    simp only [ne_of_gt h3, if_false, makeDuration_type hmk ht, ne_eq, not_true_eq_false]
  · rcases g with _ | ⟨_ | _, _ | _, _ | _ | _⟩ <;> simp [readGrace, graceAttr]
  · rcases g with _ | ⟨_ | _, _ | _, _ | _ | _⟩ <;> simp [readGrace, graceAttr]

/-- Writing a grace note that was read gives the same attribute again. -/
theorem grace_stable (g : GraceKind) : (readGraceKind (some (graceAttr g))).map graceAttr = some (graceAttr g) := by
  rcases g with _ | ⟨_ | _, _ | _, _ | _ | _⟩ <;> rfl

/-- C80 is false: a half note performed for two and a half quarters (which music21 calls complex) is performed for two. -/
theorem complex_length_lost (mk : Rat → String × Nat) (hmk : FindsTypes mk) (h : mk (5/2) = ("complex", 0)) :
    readDur mk 1 (writeDur mk false ⟨"half", 0, none, false, [], 5/2⟩) = .ok ⟨"half", 0, true, 2⟩ := by
  have h2 := hmk ("half", 2) (by decide +kernel) 0 (by omega)
  rw [writtenLength_zero] at h2
  have hw : writeDur mk false ⟨"half", 0, none, false, [], 5/2⟩ = ⟨some "2", none, none, none, none⟩ := by
    unfold writeDur gesLength
    simp only [List.isEmpty_nil, if_true, Bool.false_eq_true, if_false, h]
    rfl
  rw [hw]
  show Except.ok (assembleDur mk 1 2 0 0 none) = _
  unfold assembleDur makeDuration
  have : (2 : Rat) ≠ 0 := by norm_num
  simp only [this, if_false, h2, if_true, dotLengthen, ne_eq, not_true_eq_false]
  congr 2
  norm_num

/-- C80 is false: a quarter performed for a third of a quarter (an eighth in a triplet for music21) is performed for a half. -/
theorem tuplet_length_lost (mk : Rat → String × Nat) (hmk : FindsTypes mk) (h : mk (1/3) = ("eighth", 0)) :
    ∃ r, readDur mk 1 (writeDur mk false ⟨"quarter", 0, none, false, [], 1/3⟩) = .ok r ∧ r.ql = 1/2 := by
  have h1 := hmk ("quarter", 1) (by decide +kernel) 0 (by omega)
  have h2 := hmk ("eighth", 1/2) (by decide +kernel) 0 (by omega)
  rw [writtenLength_zero] at h1 h2
  have hw : writeDur mk false ⟨"quarter", 0, none, false, [], 1/3⟩ = ⟨some "4", none, some "8", none, none⟩ := by
    unfold writeDur gesLength
    simp only [List.isEmpty_nil, if_true, Bool.false_eq_true, if_false, h]
    rfl
  rw [hw]
  refine ⟨assembleDur mk 1 1 (1/2) 0 none, rfl, ?_⟩
  unfold assembleDur makeDuration
  have h3 : (1 : Rat) ≠ 0 := by norm_num
  have h4 : (1 / 2 : Rat) ≠ 0 := by norm_num
  have h5 : ((1 / 2 : Rat) * dotLengthen 0) ≠ 1 * dotLengthen 0 := by unfold dotLengthen; norm_num
  simp only [h3, if_false, h1, h2, ne_eq, h4, not_false_eq_true, if_true, h5]
  unfold dotLengthen; norm_num

/-- C80 is false: a duplex maxima has no `dur` and is read as the default duration. -/
theorem duplex_maxima_lost : readDur findType 1 (writeDur findType false ⟨"duplex-maxima", 0, none, true, [], 64⟩) =
    .ok ⟨"quarter", 0, true, 1⟩ := by
  have : findType 1 = ("quarter", 0) := by decide +kernel
  show Except.ok (assembleDur findType 1 0 0 0 none) = _
  unfold assembleDur makeDuration
  simp only [if_true, this, ne_eq, not_true_eq_false, if_false]
  unfold dotLengthen
  congr 2
  norm_num

/-! ## Pitches: specification -/

/-- Accidentals of music21 and the semitones by which they raise. -/
def m21Alters : List (String × Rat) :=
  [("natural", 0), ("sharp", 1), ("double-sharp", 2), ("triple-sharp", 3), ("quadruple-sharp", 4), ("flat", -1), ("double-flat", -2),
   ("triple-flat", -3), ("quadruple-flat", -4), ("half-sharp", 1/2), ("one-and-a-half-sharp", 3/2), ("half-flat", -1/2),
   ("one-and-a-half-flat", -3/2)]

/-- How much an accidental raises a note, and whether it is displayed. -/
def alterOf (a : Option (String × Bool)) : Option Rat := match a with
  | none => some 0
  | some (n, _) => m21Alters.lookup n
def shown (a : Option (String × Bool)) : Option String := match a with
  | some (n, true) => some n
  | _ => none

/-- The octave that sounds. -/
def soundingOctave (o : Option Ottava) (p : MPitch) : Option Int := match o with
  | none => some p.octave
  | some o => (ottavaTable.lookup o.type).map fun s => if o.transposing then p.octave + s else p.octave

/-! ## Pitches: theorems -/

/-- Accidentals other than the quadruple ones, and when hidden the triple ones, come back. -/
theorem accid_round_trip (a : Option (String × Bool)) (h : ∀ n s, a = some (n, s) →
    (n, s) ∈ [("natural", true), ("sharp", true), ("double-sharp", true), ("triple-sharp", true), ("flat", true), ("double-flat", true),
      ("triple-flat", true), ("half-sharp", true), ("one-and-a-half-sharp", true), ("half-flat", true), ("one-and-a-half-flat", true),
      ("natural", false), ("sharp", false), ("double-sharp", false), ("flat", false), ("double-flat", false), ("half-sharp", false),
      ("one-and-a-half-sharp", false), ("half-flat", false), ("one-and-a-half-flat", false)]) :
    alterOf (readAccid (accidAttrs a).1 (accidAttrs a).2) = alterOf a ∧
    shown (readAccid (accidAttrs a).1 (accidAttrs a).2) = shown a := by
  rcases a with _ | ⟨n, s⟩
  · exact ⟨rfl, rfl⟩
  · have := h n s rfl
    revert this
    generalize (n, s) = ns
    revert ns
    decide +kernel

/-- A pitch's step is a capital letter of the seven. -/
def IsStep (c : Char) : Prop := c ∈ ['A', 'B', 'C', 'D', 'E', 'F', 'G']

theorem step_round_trip (c : Char) (h : IsStep c) : c.toLower.toUpper = c := by
  unfold IsStep at h
  revert c; decide

theorem intStr_ne_nil (i : Int) : (intStr i).isEmpty = false := by
  unfold intStr
  by_cases h : i < 0
  · rw [if_pos h]; rfl
  · rw [if_neg h]
    cases hh : natStr i.natAbs with
    | nil => exact absurd hh (natStr_ne_nil _)
    | cons _ _ => rfl

/-- The ottava types of music21. -/
def ottavaTypes : List String := ["8va", "8vb", "15ma", "15mb", "22da", "22db"]

/-- An ottava comes back, transposing. -/
theorem ottava_round_trip (o : Ottava) (h : o.type ∈ ottavaTypes) : readOttava o = some ⟨o.type, true⟩ := by
  obtain ⟨t, tr⟩ := o
  unfold ottavaTypes at h
  simp only [List.mem_cons, List.not_mem_nil, or_false] at h
  rcases h with rfl | rfl | rfl | rfl | rfl | rfl <;> rfl

/-- C81, the part that holds: the export of a note, under an ottava or not, succeeds; read back, the step, the accidental (its
alteration, and what is displayed) and the sounding octave are what they were. It is false for quadruple accidentals and hidden
triple ones: `quadruple_sharp_lost`, `hidden_triple_sharp_lost`. -/
theorem pitch_round_trip_partial (o : Option Ottava) (p : MPitch) (ho : ∀ x, o = some x → x.type ∈ ottavaTypes) (hs : IsStep p.step)
    (ha : ∀ n s, p.accidental = some (n, s) →
      (n, s) ∈ [("natural", true), ("sharp", true), ("double-sharp", true), ("triple-sharp", true), ("flat", true), ("double-flat", true),
      ("triple-flat", true), ("half-sharp", true), ("one-and-a-half-sharp", true), ("half-flat", true), ("one-and-a-half-flat", true),
      ("natural", false), ("sharp", false), ("double-sharp", false), ("flat", false), ("double-flat", false), ("half-sharp", false),
      ("one-and-a-half-sharp", false), ("half-flat", false), ("one-and-a-half-flat", false)]) :
    ∃ w r, writePitch o p = .ok w ∧ readPitch w = some r ∧ r.step = p.step ∧ alterOf r.accidental = alterOf p.accidental ∧
      shown r.accidental = shown p.accidental ∧ soundingOctave (o.bind readOttava) r = soundingOctave o p := by
  obtain ⟨ha1, ha2⟩ := accid_round_trip _ ha
  have hread : ∀ (i : Int) (g : Option Str), readPitch ⟨p.step.toLower, intStr i, g, (accidAttrs p.accidental).1, (accidAttrs p.accidental).2⟩ =
      some ⟨p.step, i, readAccid (accidAttrs p.accidental).1 (accidAttrs p.accidental).2⟩ := by
    intro i g
    unfold readPitch
    simp only [intStr_ne_nil, Bool.false_eq_true, if_false, (intStr_signed i).pyInt, step_round_trip _ hs]
  cases o with
  | none => exact ⟨_, _, rfl, hread _ _, rfl, ha1, ha2, rfl⟩
  | some o =>
    have h := ho o rfl
    obtain ⟨s, h1, h2⟩ : ∃ s, ottavaTable.lookup o.type = some s ∧ s ≠ 0 := by
      unfold ottavaTypes at h
      simp only [List.mem_cons, List.not_mem_nil, or_false] at h
      rcases h with h | h | h | h | h | h <;> rw [h] <;> exact ⟨_, rfl, by decide⟩
    have hr : (some o).bind readOttava = some ⟨o.type, true⟩ := ottava_round_trip o h
    unfold writePitch ottavaShift
    simp only [h1, h2, if_false]
    cases htr : o.transposing with
    | true =>
      refine ⟨_, _, rfl, hread _ _, rfl, ha1, ha2, ?_⟩
      rw [hr]
      simp only [soundingOctave, h1, htr, if_true, Option.map_some]
    | false =>
      refine ⟨_, _, rfl, hread _ _, rfl, ha1, ha2, ?_⟩
      rw [hr]
      simp only [soundingOctave, h1, htr, if_true, Option.map_some, Bool.false_eq_true, if_false]
      congr 1; omega

/-- A hidden F sharp under a non-transposing 8va. -/
example : writePitch (some ⟨"8va", false⟩) ⟨'F', 6, some ("sharp", false)⟩ =
    .ok ⟨'f', "5".toList, some "6".toList, none, some "s"⟩ := rfl
example : readPitch ⟨'f', "5".toList, some "6".toList, none, some "s"⟩ = some ⟨'F', 5, some ("sharp", false)⟩ := by decide +kernel

/-- C81 is false: a displayed quadruple sharp is written as an empty accidental and lost. -/
theorem quadruple_sharp_lost :
    accidAttrs (some ("quadruple-sharp", true)) = (some "", none) ∧ readAccid (some "") none = none := by decide

/-- C81 is false: a triple sharp that is not displayed is not written at all. -/
theorem hidden_triple_sharp_lost :
    accidAttrs (some ("triple-sharp", false)) = (none, none) ∧ readAccid none none = none := by decide

/-! ## Tremolos -/

/-- The flags of a note type. -/
def flagsOf : List (String × Nat) :=
  [("eighth", 1), ("16th", 2), ("32nd", 3), ("64th", 4), ("128th", 5), ("256th", 6), ("512th", 7), ("1024th", 8), ("2048th", 9)]

/-- C82, the part that holds for a tremolo between two notes: without dots, it keeps its number of marks. It is false with dots:
`dotted_ftrem_wrong`. -/
theorem ftrem_marks_partial (t : String) (q : Rat) (h : (t, q) ∈ m21Lengths) (marks : Nat) (hm : 1 ≤ marks) (h8 : marks ≤ 8)
    (hsum : marks + (flagsOf.lookup t).getD 0 ≤ 9) :
    ∃ u, writeTrem marks q = some u ∧ readFTrem u (writtenLength q 0) = marks := by
  rw [writtenLength_zero]
  have : ∀ tq ∈ m21Lengths, ∀ m ∈ List.range 9, 1 ≤ m → m + (flagsOf.lookup tq.1).getD 0 ≤ 9 →
      (match writeTrem m tq.2 with | none => false | some u => readFTrem u tq.2 == m) = true := by decide +kernel
  have := this (t, q) h marks (List.mem_range.2 (by omega)) hm hsum
  cases hw : writeTrem marks q with
  | none => simp only [hw] at this; cases this
  | some u => simp only [hw] at this; exact ⟨u, rfl, by simpa using this⟩

/-- C82, the part that holds for a tremolo on one note: when the note has no flags, it keeps its number of marks. It is false for notes
with flags: `eighth_btrem_wrong`. -/
theorem btrem_marks_partial (t : String) (q : Rat) (h : (t, q) ∈ m21Lengths) (hf : flagsOf.lookup t = none) (marks : Nat)
    (hm : 1 ≤ marks) (h8 : marks ≤ 8) :
    ∃ u, writeTrem marks q = some u ∧ readBTrem u = marks := by
  have : ∀ tq ∈ m21Lengths, ∀ m ∈ List.range 9, 1 ≤ m → flagsOf.lookup tq.1 = none →
      (match writeTrem m tq.2 with | none => false | some u => readBTrem u == m) = true := by decide +kernel
  have := this (t, q) h marks (List.mem_range.2 (by omega)) hm hf
  cases hw : writeTrem marks q with
  | none => simp only [hw] at this; cases this
  | some u => simp only [hw] at this; exact ⟨u, rfl, by simpa using this⟩

/-- C82 is false: an eighth note with two tremolo marks is read back with three: the reader does not take away the note's flags. -/
theorem eighth_btrem_wrong : writeTrem 2 (1/2) = some "32" ∧ readBTrem "32" = 3 := by decide +kernel

/-- In general, such a tremolo gets as many marks too many as the note has flags. -/
theorem btrem_wrong (t : String) (q : Rat) (h : (t, q) ∈ m21Lengths) (f : Nat) (hf : flagsOf.lookup t = some f) (marks : Nat)
    (hm : 1 ≤ marks) (h8 : marks + f ≤ 8) :
    ∃ u, writeTrem marks q = some u ∧ readBTrem u = marks + f := by
  have : ∀ tq ∈ m21Lengths, ∀ m ∈ List.range 9, 1 ≤ m → ∀ f ∈ flagsOf.lookup tq.1, m + f ≤ 8 →
      (match writeTrem m tq.2 with | none => false | some u => readBTrem u == m + f) = true := by decide +kernel
  have := this (t, q) h marks (List.mem_range.2 (by omega)) hm f hf h8
  cases hw : writeTrem marks q with
  | none => simp only [hw] at this; cases this
  | some u => simp only [hw] at this; exact ⟨u, rfl, by simpa using this⟩

/-- C82 is false: a tremolo of two dotted eighths with two marks is read back with three: the reader looks up the dotted length. -/
theorem dotted_ftrem_wrong : writeTrem 2 (1/2) = some "32" ∧ readFTrem "32" (writtenLength (1/2) 1) = 3 := by decide +kernel

end C21
