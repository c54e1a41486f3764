import Verif.Model.HumChords
import Verif.Props.HumHarm
import Verif.Props.KernPitch
import Verif.Props.TextExport
import Verif.Lemmas.PyNum
import Verif.Lemmas.Tac
import Mathlib.Data.List.Forall2
/-
C116: chords in Humdrum.
-/
namespace C21
open HumParamSet

/-! ### Specification -/

/-- The signs of the chord are no parts of pitches. -/
structure QuietChord (c : ChordSigns) : Prop where
  recip : QuietText c.recip
  grace : QuietText c.grace
  slurStarts : QuietText c.slurStarts
  slurStops : QuietText c.slurStops
  sf : QuietText c.sf
  expr : QuietText c.expr
  artic : QuietText c.artic
  stem : QuietText c.stem
  beam : QuietText c.beam

/-- The note has step `st`, octave `o` and `z` semitones of alteration, and its other signs are no parts of pitches. -/
def NoteOf (n : ChordNote) (st : PStep) (o z : Int) : Prop :=
  ∃ suffix accid, n.pitch = kernPitch suffix st o accid ∧ alteredBy accid z ∧ 0 ≤ o ∧ QuietText suffix ∧ QuietText n.pre ∧ QuietText n.post

/-- The texts of a chord and its notes in which the character does not occur, apart from slurs and beams. -/
structure CharElsewhere (ch : Char) (c : ChordSigns) (ns : List ChordNote) : Prop where
  recip : ch ∉ c.recip
  grace : ch ∉ c.grace
  sf : ch ∉ c.sf
  expr : ch ∉ c.expr
  artic : ch ∉ c.artic
  notes : ∀ n ∈ ns, ch ∉ n.pre ∧ ch ∉ n.pitch ∧ ch ∉ n.post
  blank : ch ≠ ' '

/-- A layout comment of a category, with its parameters. -/
def loText (cat : Str) (ps : List Str) : Str := "!LO".toList ++ (cat :: ps).flatMap (fun q => ':' :: q)

/-- Category and parameters can stand in a comment, and no parameter is a note number. -/
def LoOk (l : Str × List Str) : Prop := ':' ∉ l.1 ∧ (∀ q ∈ l.2, ':' ∉ q) ∧ ∀ q ∈ l.2, (nameValue q).1 ≠ "n".toList

/-- The (last) value of a parameter, empty if there is none. -/
def valueOf (key : Str) (ps : List Str) : Str := ((((ps.map nameValue).filter (fun p => p.1 = key)).getLast?).map (·.2)).getD []

/-- The stem direction a reader can see: up, down, or nothing. -/
def directionSeen : StemDir → Option Bool
  | .up => some true
  | .down => some false
  | _ => none

/-! ### The notes -/

theorem chordTexts_length (c : ChordSigns) (len i : Nat) (ns : List ChordNote) : (chordTexts c len i ns).length = ns.length := by
  induction ns generalizing i with
  | nil => rfl
  | cons n ns ih => simp [chordTexts, ih]

theorem quiet_append {a b : Str} (ha : QuietText a) (hb : QuietText b) : QuietText (a ++ b) := by
  intro c hc
  rcases List.mem_append.1 hc with h | h
  · exact ha c h
  · exact hb c h

theorem chordPre_quiet {c : ChordSigns} (hc : QuietChord c) (i : Nat) {n : ChordNote} (h : QuietText n.pre) : QuietText (chordPre c i n) := by
  unfold chordPre
  split
  · exact quiet_append hc.slurStarts h
  · exact h

theorem chordPost_quiet {c : ChordSigns} (hc : QuietChord c) (len i : Nat) {n : ChordNote} (h : QuietText n.post) : QuietText (chordPost c len i n) := by
  have h0 : QuietText (n.post ++ c.sf ++ c.expr ++ c.artic ++ c.stem) :=
    quiet_append (quiet_append (quiet_append (quiet_append h hc.sf) hc.expr) hc.artic) hc.stem
  unfold chordPost
  split
  · exact h0
  · split
    · exact quiet_append (quiet_append h0 hc.beam) hc.slurStops
    · exact h0

theorem octaveStep_letters (st : PStep) (o : Int) (ho : 0 ≤ o) :
    kernOctaveAndStep o st ≠ [] ∧ ∀ c ∈ kernOctaveAndStep o st, c ∈ "abcdefgABCDEFG".toList ∧ c ≠ 'r' ∧ c ≠ ' ' := by
  unfold kernOctaveAndStep
  split
  · refine ⟨?_, ?_⟩
    · intro e
      have := congrArg List.length e
      simp at this
      omega
    · intro c hc
      rw [(List.mem_replicate.mp hc).2]
      cases st <;> decide
  · refine ⟨?_, ?_⟩
    · intro e
      have := congrArg List.length e
      simp at this
      omega
    · intro c hc
      rw [(List.mem_replicate.mp hc).2]
      cases st <;> decide

theorem kernPitch_chars (suffix : Str) (st : PStep) (o : Int) (accid : Option PAccid) (z : Int) (hz : alteredBy accid z) (ho : 0 ≤ o)
    (hs : QuietText suffix) : (∀ c ∈ kernPitch suffix st o accid, c ≠ 'r' ∧ c ≠ ' ') ∧
      ∃ c ∈ kernPitch suffix st o accid, c ∈ "abcdefgABCDEFG".toList := by
  obtain ⟨marks, hm, hmq⟩ := kernPitch_parts suffix st o accid z hz
  obtain ⟨h1, h2⟩ := octaveStep_letters st o ho
  rw [hm]
  constructor
  · intro c hc
    rcases List.mem_append.1 hc with hc | hc
    · exact (h2 c hc).2
    · rcases List.mem_append.1 hc with hc | hc
      · split at hc
        · rw [(List.mem_replicate.mp hc).2]; decide
        · rw [(List.mem_replicate.mp hc).2]; decide
      · rcases hmq c hc with rfl | rfl | h
        · decide
        · decide
        · have := hs c h
          constructor
          · rintro rfl; exact this (by decide)
          · rintro rfl; exact this (by decide)
  · cases hk : kernOctaveAndStep o st with
    | nil => exact absurd hk h1
    | cons c rest => exact ⟨c, by simp, (h2 c (by rw [hk]; simp)).1⟩

/-- The text of a note of a chord: no blank, a note of the chord, and its own pitch. -/
theorem chordNoteText_read {c : ChordSigns} (hc : QuietChord c) (len i : Nat) {n : ChordNote} {st : PStep} {o z : Int} (hn : NoteOf n st o z) :
    ' ' ∉ chordNoteText c len i n ∧ notInChord (chordNoteText c len i n) = false ∧
      readKernPitch (chordNoteText c len i n) = some (spelledName st z, o) := by
  obtain ⟨suffix, accid, hp, hz, ho, hs, hpre, hpost⟩ := hn
  have q1 : QuietText (chordPre c i n ++ c.recip ++ c.grace) := quiet_append (quiet_append (chordPre_quiet hc i hpre) hc.recip) hc.grace
  have q2 : QuietText (chordPost c len i n) := chordPost_quiet hc len i hpost
  have hread := kern_pitch_round_trip_partial suffix _ _ st o accid z hz ho hs q1 q2
  obtain ⟨k1, x, hx, hx'⟩ := kernPitch_chars suffix st o accid z hz ho hs
  have hnot : ∀ y, y = 'r' ∨ y = ' ' → y ∉ chordNoteText c len i n := by
    intro y hy hm
    unfold chordNoteText at hm
    rw [hp] at hm
    have hq : y ∈ "abcdefgABCDEFGr#- ".toList := by rcases hy with rfl | rfl <;> decide
    rcases List.mem_append.1 hm with hm | hm
    · rcases List.mem_append.1 hm with hm | hm
      · exact q1 y hm hq
      · rcases hy with rfl | rfl
        · exact (k1 _ hm).1 rfl
        · exact (k1 _ hm).2 rfl
    · exact q2 y hm hq
  have hxm : x ∈ chordNoteText c len i n := by
    unfold chordNoteText
    rw [hp]
    simp [hx]
  refine ⟨hnot ' ' (Or.inr rfl), ?_, ?_⟩
  · unfold notInChord
    have e1 : (chordNoteText c len i n).isEmpty = false := by
      cases h : chordNoteText c len i n with
      | nil => rw [h] at hxm; simp at hxm
      | cons => rfl
    have e2 : (chordNoteText c len i n).contains 'r' = false := by simpa using hnot 'r' (Or.inl rfl)
    have e3 : (chordNoteText c len i n).any (fun ch => "abcdefgABCDEFG".toList.contains ch) = true :=
      List.any_eq_true.2 ⟨x, hxm, by simpa using hx'⟩
    rw [e1, e2, e3]
    simp
  · unfold chordNoteText
    rw [hp]
    exact hread

/-- C116. Every chord comes back with all its notes, in order, each with its step, alteration and octave, and each known by its number in the
chord. -/
theorem chord_notes_round_trip_partial (c : ChordSigns) (hc : QuietChord c) (ns : List ChordNote) (ps : List (PStep × Int × Int)) (hne : ns ≠ [])
    (hn : List.Forall₂ (fun n p => NoteOf n p.1 p.2.1 p.2.2) ns ps) :
    (readChordNotes (chordToken c ns)).map (·.2) = ps.map (fun p => (spelledName p.1 p.2.2, p.2.1)) ∧
    (readChordNotes (chordToken c ns)).map (·.1) = List.range ns.length := by
  have hall : ∀ (ns : List ChordNote) (ps : List (PStep × Int × Int)) (len i : Nat), List.Forall₂ (fun n p => NoteOf n p.1 p.2.1 p.2.2) ns ps →
      (∀ t ∈ chordTexts c len i ns, ' ' ∉ t) ∧
      (chordNotesFrom i (chordTexts c len i ns)).map (·.2) = ps.map (fun p => (spelledName p.1 p.2.2, p.2.1)) ∧
      (chordNotesFrom i (chordTexts c len i ns)).map (·.1) = List.range' i ns.length := by
    intro ns ps len i h
    induction h generalizing i with
    | nil => exact ⟨by simp [chordTexts], rfl, rfl⟩
    | cons h _ ih =>
      obtain ⟨r1, r2, r3⟩ := chordNoteText_read hc len i h
      obtain ⟨i1, i2, i3⟩ := ih (i + 1)
      refine ⟨?_, ?_, ?_⟩
      · intro t ht
        rcases List.mem_cons.1 ht with rfl | ht
        · exact r1
        · exact i1 t ht
      · rw [chordTexts, chordNotesFrom, r2, r3]
        simp only [Bool.false_eq_true, if_false, List.map_cons, i2]
      · rw [chordTexts, chordNotesFrom, r2, r3]
        simp only [Bool.false_eq_true, if_false, List.map_cons, i3]
        rw [List.length_cons, List.range'_succ]
  obtain ⟨h1, h2, h3⟩ := hall ns ps ns.length 0 hn
  have hsplit : splitOn ' ' (chordToken c ns) = chordTexts c ns.length 0 ns := by
    apply splitOn_joinWith _ _ ?_ h1
    intro e
    have := chordTexts_length c ns.length 0 ns
    rw [e] at this
    cases ns with
    | nil => exact hne rfl
    | cons => simp at this
  unfold readChordNotes
  rw [hsplit]
  refine ⟨h2, ?_⟩
  rw [h3, List.range_eq_range']

/-- A chord of three notes that starts a slur and a beam. -/
def chordSample : List ChordNote :=
  [⟨[], kernPitch [] .C 4 none, [], []⟩, ⟨['['], kernPitch [] .E 4 (some ⟨-1, false, false⟩), [], []⟩, ⟨[], kernPitch [] .G 4 none, ['y', 'y'], []⟩]

example : chordToken { recip := "8".toList, slurStarts := ['('], stem := ['/'], beam := ['L'] } chordSample = "(8c/ [8e-/ 8gyy/L".toList := by decide +kernel

example : QuietChord { recip := "8".toList, slurStarts := ['('], stem := ['/'], beam := ['L'] } := by
  constructor <;> unfold QuietText <;> decide

example : List.Forall₂ (fun n (p : PStep × Int × Int) => NoteOf n p.1 p.2.1 p.2.2) chordSample [(.C, 4, 0), (.E, 4, -1), (.G, 4, 0)] := by
  refine .cons ⟨[], none, rfl, rfl, by decide, ?_, ?_, ?_⟩ (.cons ⟨[], some ⟨-1, false, false⟩, rfl, by simp [alteredBy], by decide, ?_, ?_, ?_⟩
    (.cons ⟨[], none, rfl, rfl, by decide, ?_, ?_, ?_⟩ .nil)) <;> unfold QuietText <;> decide

/-! ### Slurs, beams, stems -/

theorem countChar_join (ch : Char) (hb : ch ≠ ' ') (ts : List Str) : countChar ch (joinWith ' ' ts) = (ts.map (countChar ch)).sum := by
  induction ts with
  | nil => rfl
  | cons t ts ih =>
    cases ts with
    | nil => simp [joinWith]
    | cons u us =>
      rw [joinWith, countChar_app, List.map_cons, List.sum_cons, ← ih]
      congr 1
      have : countChar ch (' ' :: joinWith ' ' (u :: us)) = countChar ch ([' '] ++ joinWith ' ' (u :: us)) := rfl
      rw [this, countChar_app, countChar_absent ch [' '] (by simpa using hb), Nat.zero_add]

theorem countNote {ch : Char} {c : ChordSigns} {ns : List ChordNote} (h : CharElsewhere ch c ns) (hst : ch ∉ c.stem) (len i : Nat) (n : ChordNote) (hn : n ∈ ns) :
    countChar ch (chordNoteText c len i n) = (if i = 0 then countChar ch c.slurStarts else 0) +
      (if i ≠ 0 ∧ i + 1 = len then countChar ch c.beam + countChar ch c.slurStops else 0) := by
  obtain ⟨n1, n2, n3⟩ := h.notes n hn
  unfold chordNoteText chordPre chordPost
  have z := countChar_absent ch
  by_cases h0 : i = 0
  · subst h0
    simp only [if_true, countChar_app, z _ n1, z _ n2, z _ n3, z _ h.recip, z _ h.grace, z _ h.sf, z _ h.expr, z _ h.artic, z _ hst]
    simp
  · by_cases h1 : i + 1 = len
    · simp only [h0, h1, if_false, if_true, countChar_app, z _ n1, z _ n2, z _ n3, z _ h.recip, z _ h.grace, z _ h.sf, z _ h.expr, z _ h.artic, z _ hst]
      simp [h0]
    · simp only [h0, h1, if_false, countChar_app, z _ n1, z _ n2, z _ n3, z _ h.recip, z _ h.grace, z _ h.sf, z _ h.expr, z _ h.artic, z _ hst]
      simp

theorem countTexts {ch : Char} {c : ChordSigns} {all : List ChordNote} (h : CharElsewhere ch c all) (hst : ch ∉ c.stem) (len : Nat) :
    ∀ (ns : List ChordNote) (i : Nat), (∀ n ∈ ns, n ∈ all) → 0 < i → i + ns.length = len →
      ((chordTexts c len i ns).map (countChar ch)).sum = if ns = [] then 0 else countChar ch c.beam + countChar ch c.slurStops := by
  intro ns
  induction ns with
  | nil => intro i _ _ _; rfl
  | cons n ns ih =>
    intro i hm hi hlen
    rw [chordTexts, List.map_cons, List.sum_cons, countNote h hst len i n (hm n (by simp)), ih (i + 1) (fun x hx => hm x (List.mem_cons_of_mem _ hx)) (by omega)
      (by simp only [List.length_cons] at hlen; omega)]
    simp only [List.length_cons] at hlen
    cases ns with
    | nil =>
      have h1 : i + 1 = len := by simpa using hlen
      have h2 : i ≠ 0 := by omega
      simp [h1, h2]
    | cons m ms =>
      simp only [List.length_cons] at hlen
      have h1 : i + 1 ≠ len := by omega
      have h2 : i ≠ 0 := by omega
      simp [h1, h2]

/-- C116. In a chord of two or more notes the slur starts, the beams and the slur stops are written once, whatever the number of notes: a sign
used for nothing else occurs in the token as often as in them. -/
theorem chord_signs_once (ch : Char) (c : ChordSigns) (ns : List ChordNote) (h : CharElsewhere ch c ns) (hst : ch ∉ c.stem) (h2 : 2 ≤ ns.length) :
    countChar ch (chordToken c ns) = countChar ch c.slurStarts + (countChar ch c.beam + countChar ch c.slurStops) := by
  unfold chordToken
  rw [countChar_join ch h.blank]
  cases ns with
  | nil => simp at h2
  | cons n ns =>
    rw [chordTexts, List.map_cons, List.sum_cons, countNote h hst _ 0 n (by simp),
      countTexts h hst (n :: ns).length ns 1 (fun x hx => List.mem_cons_of_mem _ hx) (by omega) (by simp; omega)]
    cases ns with
    | nil => simp at h2
    | cons m ms => simp

/-- C116 (negated part). A chord of one note loses its beams and the ends of its slurs. -/
theorem single_note_chord_cut (c : ChordSigns) (n : ChordNote) (beam stops : Str) :
    chordToken { c with beam := beam, slurStops := stops } [n] = chordToken { c with beam := [], slurStops := [] } [n] := rfl

example : chordToken { recip := "8".toList, beam := ['L'], slurStops := [')'] } [⟨[], ['c'], [], []⟩] = "8c".toList := by decide +kernel

/-- C116. The first note starts the slurs, and the last ends slurs and has the beams. -/
theorem chord_signs_place (c : ChordSigns) (n m : ChordNote) (mid : List ChordNote) :
    ∃ a b, chordToken c (n :: (mid ++ [m])) = c.slurStarts ++ (a ++ [' '] ++ b) ++ (c.beam ++ c.slurStops) := by
  have hlast : ∀ (l : List ChordNote) (i len : Nat), 0 < i → i + l.length + 1 = len → ∃ b, joinWith ' ' (chordTexts c len i (l ++ [m])) = b ++ (c.beam ++ c.slurStops) := by
    intro l
    induction l with
    | nil =>
      intro i len hi hlen
      refine ⟨chordPre c i m ++ c.recip ++ c.grace ++ m.pitch ++ (m.post ++ c.sf ++ c.expr ++ c.artic ++ c.stem), ?_⟩
      have e1 : i + 1 = len := by simpa using hlen
      simp only [List.nil_append, chordTexts, joinWith, chordNoteText, chordPost]
      rw [if_neg (by omega), if_pos e1]
      simp
    | cons x l ih =>
      intro i len hi hlen
      obtain ⟨b, hb⟩ := ih (i + 1) len (by omega) (by simp only [List.length_cons] at hlen; omega)
      rw [List.cons_append, chordTexts]
      cases hk : chordTexts c len (i + 1) (l ++ [m]) with
      | nil =>
        have := chordTexts_length c len (i + 1) (l ++ [m])
        rw [hk] at this
        simp at this
      | cons u us =>
        rw [joinWith, ← hk, hb]
        exact ⟨chordNoteText c len i x ++ ' ' :: b, by simp⟩
  unfold chordToken
  obtain ⟨b, hb⟩ := hlast mid 1 (n :: (mid ++ [m])).length (by omega) (by simp; omega)
  rw [chordTexts]
  cases hk : chordTexts c (n :: (mid ++ [m])).length (0 + 1) (mid ++ [m]) with
  | nil =>
    have := chordTexts_length c (n :: (mid ++ [m])).length (0 + 1) (mid ++ [m])
    rw [hk] at this
    simp at this
  | cons u us =>
    rw [joinWith, ← hk, Nat.zero_add, hb]
    refine ⟨n.pre ++ c.recip ++ c.grace ++ n.pitch ++ chordPost c (n :: (mid ++ [m])).length 0 n, b, ?_⟩
    simp [chordNoteText, chordPre]

theorem mem_joined (c : Char) (ts : List Str) (x : Char) (h : ∃ t ∈ ts, x ∈ t) : x ∈ joinWith c ts := by
  induction ts with
  | nil => simp at h
  | cons t ts ih =>
    obtain ⟨u, hu, hx⟩ := h
    cases ts with
    | nil =>
      rcases List.mem_cons.1 hu with rfl | hu
      · exact hx
      · simp at hu
    | cons v vs =>
      rw [joinWith]
      rcases List.mem_cons.1 hu with rfl | hu
      · simp [hx]
      · simp [ih ⟨u, hu, hx⟩]

theorem stem_in_token (c : ChordSigns) (ns : List ChordNote) (ch : Char) (hne : ns ≠ []) (h : CharElsewhere ch c ns)
    (hb : ch ∉ c.beam ∧ ch ∉ c.slurStarts ∧ ch ∉ c.slurStops) : ch ∈ chordToken c ns ↔ ch ∈ c.stem := by
  have key : ∀ (l : List ChordNote) (len i : Nat), (∀ n ∈ l, n ∈ ns) → ∀ t ∈ chordTexts c len i l, (ch ∈ t ↔ ch ∈ c.stem) := by
    intro l
    induction l with
    | nil => intro len i _ t ht; simp [chordTexts] at ht
    | cons n l ih =>
      intro len i hm t ht
      rcases List.mem_cons.1 ht with rfl | ht
      · obtain ⟨n1, n2, n3⟩ := h.notes n (hm n (by simp))
        unfold chordNoteText chordPre chordPost
        by_cases h0 : i = 0
        · simp [h0, n1, n2, n3, h.recip, h.grace, h.sf, h.expr, h.artic, hb]
        · by_cases h1 : i + 1 = len
          · simp [h0, h1, n1, n2, n3, h.recip, h.grace, h.sf, h.expr, h.artic, hb]
          · simp [h0, h1, n1, n2, n3, h.recip, h.grace, h.sf, h.expr, h.artic, hb]
      · exact ih len (i + 1) (fun x hx => hm x (List.mem_cons_of_mem _ hx)) t ht
  constructor
  · intro hx
    rcases mem_joinWith _ _ _ hx with e | ⟨t, ht, hx⟩
    · exact absurd e h.blank
    · exact (key ns _ _ (fun _ h => h) t ht).1 hx
  · intro hx
    apply mem_joined
    cases ns with
    | nil => exact absurd rfl hne
    | cons n l => exact ⟨_, List.mem_cons_self, (key (n :: l) _ _ (fun _ h => h) _ List.mem_cons_self).2 hx⟩

/-- C116. The stem direction of a chord is read back, and no direction where none is written. -/
theorem chord_stem_round_trip (c : ChordSigns) (ns : List ChordNote) (hne : ns ≠ []) (d : StemDir) (hd : c.stem = stemText d)
    (h : ∀ ch, ch = '/' ∨ ch = '\\' → CharElsewhere ch c ns ∧ ch ∉ c.beam ∧ ch ∉ c.slurStarts ∧ ch ∉ c.slurStops) :
    chordStem (chordToken c ns) = directionSeen d := by
  have e1 : (chordToken c ns).contains '/' = decide ('/' ∈ c.stem) := by
    obtain ⟨h1, h2⟩ := h '/' (Or.inl rfl)
    rw [Bool.eq_iff_iff]
    simpa using stem_in_token c ns '/' hne h1 h2
  have e2 : (chordToken c ns).contains '\\' = decide ('\\' ∈ c.stem) := by
    obtain ⟨h1, h2⟩ := h '\\' (Or.inr rfl)
    rw [Bool.eq_iff_iff]
    simpa using stem_in_token c ns '\\' hne h1 h2
  unfold chordStem
  rw [e1, e2, hd]
  cases d <;> decide

/-! ### Hidden chords -/

/-- C116. A chord is hidden after import exactly if all its notes were written as hidden. -/
theorem chord_hidden_round_trip (c : ChordSigns) (ns : List (ChordNote × Bool)) (hne : ns ≠ []) (hb : ∀ t ∈ chordTexts c ns.length 0 (ns.map (·.1)), ' ' ∉ t)
    (hc : ∀ s ∈ [c.recip, c.grace, c.slurStarts, c.slurStops, c.sf, c.expr, c.artic, c.stem, c.beam], 'y' ∉ s)
    (hn : ∀ n ∈ ns, 'y' ∉ n.1.pre ∧ 'y' ∉ n.1.pitch ∧ ∃ a b, n.1.post = a ++ invisibleText n.2 ++ b ∧ 'y' ∉ a ∧ 'y' ∉ b) :
    chordHidden (chordToken c (ns.map (·.1))) = ns.all (·.2) := by
  have hlen : (ns.map (·.1)).length = ns.length := List.length_map _
  have hsplit : splitOn ' ' (chordToken c (ns.map (·.1))) = chordTexts c ns.length 0 (ns.map (·.1)) := by
    unfold chordToken
    rw [hlen]
    apply splitOn_joinWith _ _ ?_ hb
    intro e
    have := chordTexts_length c ns.length 0 (ns.map (·.1))
    rw [e] at this
    cases ns with
    | nil => exact hne rfl
    | cons => simp at this
  unfold chordHidden
  rw [hsplit]
  simp only [List.mem_cons, List.not_mem_nil, or_false, forall_eq_or_imp, forall_eq] at hc
  obtain ⟨c1, c2, c3, c4, c5, c6, c7, c8, c9⟩ := hc
  have key : ∀ (l : List (ChordNote × Bool)) (len i : Nat), (∀ n ∈ l, n ∈ ns) →
      (chordTexts c len i (l.map (·.1))).all (isInfix "yy".toList ·) = l.all (·.2) := by
    intro l
    induction l with
    | nil => intro len i _; rfl
    | cons n l ih =>
      intro len i hm
      rw [List.map_cons, chordTexts, List.all_cons, List.all_cons, ih len (i + 1) (fun x hx => hm x (List.mem_cons_of_mem _ hx))]
      congr 1
      obtain ⟨n1, n2, a, b, he, ha, hbb⟩ := hn n (hm n (by simp))
      have hpre : 'y' ∉ chordPre c i n.1 := by unfold chordPre; split <;> simp [n1, c3]
      obtain ⟨tl, htl, hty⟩ : ∃ tl, chordPost c len i n.1 = a ++ invisibleText n.2 ++ (b ++ tl) ∧ 'y' ∉ tl := by
        unfold chordPost
        rw [he]
        by_cases h0 : i = 0
        · exact ⟨c.sf ++ c.expr ++ c.artic ++ c.stem, by simp [h0], by simp [c5, c6, c7, c8]⟩
        · by_cases h1 : i + 1 = len
          · exact ⟨c.sf ++ c.expr ++ c.artic ++ c.stem ++ c.beam ++ c.slurStops, by simp [h0, h1], by simp [c5, c6, c7, c8, c9, c4]⟩
          · exact ⟨c.sf ++ c.expr ++ c.artic ++ c.stem, by simp [h0, h1], by simp [c5, c6, c7, c8]⟩
      have htext : chordNoteText c len i n.1 = (chordPre c i n.1 ++ c.recip ++ c.grace ++ n.1.pitch ++ a) ++ invisibleText n.2 ++ (b ++ tl) := by
        unfold chordNoteText
        rw [htl]
        simp
      rw [htext]
      cases hh : n.2
      · have : 'y' ∉ (chordPre c i n.1 ++ c.recip ++ c.grace ++ n.1.pitch ++ a) ++ invisibleText false ++ (b ++ tl) := by
          simp [invisibleText, hpre, c1, c2, n2, ha, hbb, hty]
        rw [Bool.eq_false_iff]
        intro hi
        rw [isInfix_iff] at hi
        exact this (hi.subset (by decide))
      · rw [isInfix_iff]
        exact ⟨_, _, rfl⟩
  exact key ns ns.length 0 (fun _ h => h)

example : chordHidden "4cyy/ 4eyy/".toList = true ∧ chordHidden "4c/ 4eyy/".toList = false := by decide +kernel

/-! ### Layout parameters of single notes -/

theorem addNoteNumber_loText (l : Str × List Str) (h : LoOk l) (n : Nat) :
    addNoteNumber (loText l.1 l.2) n = loText l.1 (("n=".toList ++ natStr n) :: l.2) := by
  unfold addNoteNumber loText
  rw [splitOn_pieces _ _ _ (by decide) (by
    intro q hq
    rcases List.mem_cons.1 hq with rfl | hq
    · exact h.1
    · exact h.2.1 q hq)]
  simp only [List.take_succ_cons, List.take_zero, List.drop_succ_cons, List.drop_zero]
  show joinWith ':' ("!LO".toList :: l.1 :: ("n=".toList ++ natStr n) :: l.2) = _
  rw [joinWith_flat]

theorem read_numbered (l : Str × List Str) (h : LoOk l) (n : Nat) :
    ({} : HumParamSet).readString (addNoteNumber (loText l.1 l.2) n) = ⟨"LO".toList, l.1, ("n".toList, natStr n) :: l.2.map nameValue⟩ := by
  rw [addNoteNumber_loText l h n]
  unfold loText
  rw [read_pieces_one _ _ _ h.1 (by
    intro q hq
    rcases List.mem_cons.1 hq with rfl | hq
    · intro hm
      rcases List.mem_append.1 hm with hm | hm
      · exact absurd hm (by decide)
      · exact natStr_not_mem n ':' (by decide) hm
    · exact h.2.1 q hq), List.map_cons, show nameValue ("n=".toList ++ natStr n) = ("n".toList, natStr n) from nameValue_eq "n".toList (natStr n) (by decide)]

theorem lpScan_note (key : Str) (i : Nat) (ps : List (Str × Str)) (hn : ∀ p ∈ ps, p.1 ≠ "n".toList) (out n : Str) :
    lpScan key (i : Int) out n ps = .inr ((((ps.filter (fun p => p.1 = key)).getLast?).map (·.2)).getD out, n) := by
  induction ps generalizing out with
  | nil => rfl
  | cons p ps ih =>
    have hneg : ¬ (p.1 = key ∧ (i : Int) < 0) := by omega
    rw [lpScan, if_neg hneg, if_neg (hn p (by simp)), ih (fun q hq => hn q (List.mem_cons_of_mem _ hq))]
    by_cases hk : p.1 = key
    · rw [if_pos hk, List.filter_cons_of_pos (by simpa using hk)]
      cases hf : ps.filter (fun p => p.1 = key) with
      | nil => rfl
      | cons q qs => rw [List.getLast?_cons_cons, List.getLast?_eq_getLast_of_ne_nil (by simp)]; rfl
    · rw [if_neg hk, List.filter_cons_of_neg (by simpa using hk)]

theorem noteNumber_nat (n : Nat) : noteNumber (natStr n) = .ok (n : Int) := by
  unfold noteNumber
  rw [if_pos ⟨natStr_ne_nil n, by rw [List.all_eq_true]; exact fun c hc => natStr_isDig n c hc⟩, parse_natStr]

/-- Nothing for note `i`: another category, or numbered for another note. -/
def NotFor (cat : Str) (i : Nat) (s : HumParamSet) : Prop :=
  s.ns1 ≠ "LO".toList ∨ s.ns2 ≠ cat ∨ ∃ j ps, s = ⟨"LO".toList, cat, ("n".toList, natStr j) :: ps⟩ ∧ j ≠ i + 1 ∧ ∀ p ∈ ps, p.1 ≠ "n".toList

theorem layoutParameter_skip (cat key : Str) (i : Nat) (hkey : key ≠ "n".toList) (l rest : List HumParamSet) (h : ∀ s ∈ l, NotFor cat i s) :
    ∀ n : Str, (n = [] ∨ ∃ j, n = natStr j) → ∃ n', (n' = [] ∨ ∃ j, n' = natStr j) ∧
      layoutParameter cat key (i : Int) n (l ++ rest) = layoutParameter cat key (i : Int) n' rest := by
  induction l with
  | nil => intro n hn; exact ⟨n, hn, rfl⟩
  | cons s l ih =>
    intro n hn
    have ih' := ih (fun x hx => h x (List.mem_cons_of_mem _ hx))
    rw [List.cons_append, layoutParameter]
    by_cases hc : s.ns1 ≠ "LO".toList ∨ s.ns2 ≠ cat
    · rw [if_pos hc]
      exact ih' n hn
    · rw [if_neg hc]
      rcases h s (by simp) with h1 | h1 | ⟨j, ps, rfl, hj, hps⟩
      · exact absurd (Or.inl h1) hc
      · exact absurd (Or.inr h1) hc
      · have hs : lpScan key (i : Int) [] n (("n".toList, natStr j) :: ps) =
            .inr ((((ps.filter (fun p => p.1 = key)).getLast?).map (·.2)).getD [], natStr j) := by
          rw [lpScan, if_neg (by omega), if_neg (fun e => hkey e.symm), if_pos rfl]
          exact lpScan_note key i ps hps [] (natStr j)
        simp only
        rw [hs]
        simp only
        rw [if_neg (by
          rintro (h | h)
          · exact natStr_ne_nil j h
          · omega), noteNumber_nat]
        simp only
        rw [if_neg (by omega)]
        exact ih' _ (Or.inr ⟨j, rfl⟩)

theorem layoutParameter_hit (cat key : Str) (i : Nat) (hkey : key ≠ "n".toList) (ps : List (Str × Str)) (hps : ∀ p ∈ ps, p.1 ≠ "n".toList) (n : Str) (rest : List HumParamSet) :
    layoutParameter cat key (i : Int) n (⟨"LO".toList, cat, ("n".toList, natStr (i + 1)) :: ps⟩ :: rest) =
      .ok ((((ps.filter (fun p => p.1 = key)).getLast?).map (·.2)).getD []) := by
  rw [layoutParameter, if_neg (by simp)]
  have hs : lpScan key (i : Int) [] n (("n".toList, natStr (i + 1)) :: ps) =
      .inr ((((ps.filter (fun p => p.1 = key)).getLast?).map (·.2)).getD [], natStr (i + 1)) := by
    rw [lpScan, if_neg (by omega), if_neg (fun e => hkey e.symm), if_pos rfl]
    exact lpScan_note key i ps hps [] _
  simp only
  rw [hs]
  simp only
  rw [if_neg (by
    rintro (h | h)
    · exact natStr_ne_nil _ h
    · omega), noteNumber_nat]
  simp only
  rw [if_pos (by push_cast; ring)]

theorem layoutParameter_tail (cat key : Str) (i : Nat) (n v : Str) (hn : n = [] ∨ ∃ j, n = natStr j) (hv : ':' ∉ v) (hvis : cat = ['N'] → key ≠ "vis".toList) :
    layoutParameter cat key (i : Int) n ((if v ≠ [] then ["!LO:N:vis=".toList ++ v] else []).map (({} : HumParamSet).readString ·)) = .ok [] := by
  by_cases h : v = []
  · rw [if_neg (by simp [h])]; rfl
  · rw [if_pos h]
    have e : ({} : HumParamSet).readString ("!LO:N:vis=".toList ++ v) = ⟨"LO".toList, ['N'], [("vis".toList, v)]⟩ := by
      have := read_pieces_one ['N'] ("vis=".toList ++ v) [] (by decide) (by
        intro q hq
        simp only [List.mem_cons, List.not_mem_nil, or_false] at hq
        subst hq
        intro hm
        rcases List.mem_append.1 hm with hm | hm
        · exact absurd hm (by decide)
        · exact hv hm)
      rw [List.map_cons, List.map_nil, show nameValue ("vis=".toList ++ v) = ("vis".toList, v) from nameValue_eq "vis".toList v (by decide)] at this
      simpa using this
    rw [List.map_cons, List.map_nil, e, layoutParameter]
    by_cases hc : cat = ['N']
    · subst hc
      rw [if_neg (by simp)]
      have hk := hvis rfl
      have hs : lpScan key (i : Int) [] n [("vis".toList, v)] = .inr ([], n) := by
        rw [lpScan_note key i _ (by
          intro p hp
          simp only [List.mem_cons, List.not_mem_nil, or_false] at hp
          subst hp
          exact (by decide : "vis".toList ≠ "n".toList)), List.filter_cons_of_neg (by simpa using fun e => hk e.symm)]
        rfl
      simp only
      rw [hs]
      simp only
      rcases hn with rfl | ⟨j, rfl⟩
      · rw [if_pos (Or.inl rfl)]; rfl
      · rw [if_neg (by
          rintro (h | h)
          · exact natStr_ne_nil _ h
          · omega), noteNumber_nat]
        simp only
        split <;> rfl
    · rw [if_pos (Or.inr (fun e => hc e.symm))]; rfl

theorem noteLayouts_split (ns : List ChordNote) (i k : Nat) (n : ChordNote) (h : ns[i]? = some n) :
    noteLayouts k ns = noteLayouts k (ns.take i) ++ (n.layouts.map (addNoteNumber · (k + i + 1)) ++ noteLayouts (k + i + 1) (ns.drop (i + 1))) := by
  induction ns generalizing i k with
  | nil => simp at h
  | cons m ns ih =>
    cases i with
    | zero =>
      simp only [List.getElem?_cons_zero, Option.some.injEq] at h
      subst h
      simp [noteLayouts]
    | succ i =>
      rw [List.getElem?_cons_succ] at h
      rw [noteLayouts, ih i (k + 1) h, List.take_succ_cons, noteLayouts, List.drop_succ_cons]
      have e : k + 1 + i + 1 = k + (i + 1) + 1 := by omega
      rw [e]
      simp

theorem noteLayouts_notFor (cat : Str) (i : Nat) (ns : List ChordNote) (k : Nat)
    (hok : ∀ n ∈ ns, ∃ lo : List (Str × List Str), n.layouts = lo.map (fun l => loText l.1 l.2) ∧ ∀ l ∈ lo, LoOk l)
    (hk : i + 1 ≤ k ∨ k + ns.length ≤ i) : ∀ s ∈ (noteLayouts k ns).map (({} : HumParamSet).readString ·), NotFor cat i s := by
  induction ns generalizing k with
  | nil => intro s hs; simp [noteLayouts] at hs
  | cons n ns ih =>
    intro s hs
    rw [noteLayouts, List.map_append, List.mem_append] at hs
    simp only [List.length_cons] at hk
    rcases hs with hs | hs
    · obtain ⟨lo, e, hlo⟩ := hok n (by simp)
      rw [e, List.map_map, List.map_map] at hs
      obtain ⟨l, hl, rfl⟩ := List.mem_map.1 hs
      simp only [Function.comp]
      rw [read_numbered l (hlo l hl)]
      by_cases hc : l.1 = cat
      · refine Or.inr (Or.inr ⟨k + 1, l.2.map nameValue, by rw [hc], by omega, ?_⟩)
        intro p hp
        obtain ⟨q, hq, rfl⟩ := List.mem_map.1 hp
        exact (hlo l hl).2.2 q hq
      · exact Or.inr (Or.inl hc)
    · exact ih (k + 1) (fun x hx => hok x (List.mem_cons_of_mem _ hx)) (by omega) s hs

/-- C116. Each note of a chord gets the parameters of its own layout comments and none of the other notes' (here: of its first comment of the
category; the exporter writes one of a category at most). -/
theorem chord_note_parameters (half : Str → Str) (c : ChordSigns) (ns : List ChordNote) (i : Nat) (n : ChordNote) (hi : ns[i]? = some n)
    (lo : List (Str × List Str)) (hlo : n.layouts = lo.map (fun l => loText l.1 l.2)) (hlok : ∀ l ∈ lo, LoOk l)
    (hok : ∀ n ∈ ns, ∃ lo : List (Str × List Str), n.layouts = lo.map (fun l => loText l.1 l.2) ∧ ∀ l ∈ lo, LoOk l)
    (cat key : Str) (hkey : key ≠ "n".toList) (hvis : cat = ['N'] → key ≠ "vis".toList)
    (hchord : ∀ x ∈ c.layouts, (({} : HumParamSet).readString x).ns1 ≠ "LO".toList ∨ (({} : HumParamSet).readString x).ns2 ≠ cat)
    (hv : ':' ∉ chordVdur half c ns.length 0 c.vdur ns) :
    tokenParameter (chordLayouts half c ns) cat key i = .ok (match lo.find? (fun l => l.1 = cat) with | some l => valueOf key l.2 | none => []) := by
  unfold tokenParameter chordLayouts
  simp only
  generalize chordVdur half c ns.length 0 c.vdur ns = v at hv
  rw [noteLayouts_split ns i 0 n hi, Nat.zero_add, hlo]
  simp only [List.map_append, List.append_assoc]
  obtain ⟨n1, hn1, e1⟩ := layoutParameter_skip cat key i hkey (c.layouts.map (({} : HumParamSet).readString ·))
    ((noteLayouts 0 (ns.take i)).map (({} : HumParamSet).readString ·) ++
      (((lo.map (fun l => loText l.1 l.2)).map (addNoteNumber · (i + 1))).map (({} : HumParamSet).readString ·) ++
        ((noteLayouts (i + 1) (ns.drop (i + 1))).map (({} : HumParamSet).readString ·) ++
          (if v ≠ [] then ["!LO:N:vis=".toList ++ v] else []).map (({} : HumParamSet).readString ·)))) (by
      intro s hs
      obtain ⟨x, hx, rfl⟩ := List.mem_map.1 hs
      rcases hchord x hx with h | h
      · exact Or.inl h
      · exact Or.inr (Or.inl h)) [] (Or.inl rfl)
  rw [e1]
  obtain ⟨n2, hn2, e2⟩ := layoutParameter_skip cat key i hkey ((noteLayouts 0 (ns.take i)).map (({} : HumParamSet).readString ·))
    (((lo.map (fun l => loText l.1 l.2)).map (addNoteNumber · (i + 1))).map (({} : HumParamSet).readString ·) ++
        ((noteLayouts (i + 1) (ns.drop (i + 1))).map (({} : HumParamSet).readString ·) ++
          (if v ≠ [] then ["!LO:N:vis=".toList ++ v] else []).map (({} : HumParamSet).readString ·)))
    (noteLayouts_notFor cat i (ns.take i) 0 (fun x hx => hok x (List.mem_of_mem_take hx)) (Or.inr (by
      rw [List.length_take]; omega))) n1 hn1
  rw [e2]
  have hmap : ((lo.map (fun l => loText l.1 l.2)).map (addNoteNumber · (i + 1))).map (({} : HumParamSet).readString ·) =
      lo.map (fun l => (⟨"LO".toList, l.1, ("n".toList, natStr (i + 1)) :: l.2.map nameValue⟩ : HumParamSet)) := by
    rw [List.map_map, List.map_map]
    apply List.map_congr_left
    intro l hl
    exact read_numbered l (hlok l hl) (i + 1)
  rw [hmap]
  clear hmap e1 e2 hlo
  have hrest : ∀ m : Str, (m = [] ∨ ∃ j, m = natStr j) → layoutParameter cat key (i : Int) m
      ((noteLayouts (i + 1) (ns.drop (i + 1))).map (({} : HumParamSet).readString ·) ++
        (if v ≠ [] then ["!LO:N:vis=".toList ++ v] else []).map (({} : HumParamSet).readString ·)) = .ok [] := by
    intro m hm
    obtain ⟨n3, hn3, e3⟩ := layoutParameter_skip cat key i hkey _ ((if v ≠ [] then ["!LO:N:vis=".toList ++ v] else []).map (({} : HumParamSet).readString ·))
      (noteLayouts_notFor cat i (ns.drop (i + 1)) (i + 1) (fun x hx => hok x (List.mem_of_mem_drop hx)) (Or.inl (le_refl _))) m hm
    rw [e3]
    exact layoutParameter_tail cat key i n3 v hn3 hv hvis
  induction lo with
  | nil => exact hrest n2 hn2
  | cons l lo ih =>
    rw [List.map_cons, List.cons_append]
    by_cases hc : l.1 = cat
    · rw [hc, layoutParameter_hit cat key i hkey _ (by
        intro p hp
        obtain ⟨q, hq, rfl⟩ := List.mem_map.1 hp
        exact (hlok l (by simp)).2.2 q hq), List.find?_cons_of_pos (by simpa using hc)]
      rfl
    · rw [layoutParameter, if_pos (Or.inr hc), List.find?_cons_of_neg (by simpa using hc)]
      exact ih (fun x hx => hlok x (List.mem_cons_of_mem _ hx))

/-- A chord whose second note has a notehead and a dotted tie, with a visual duration for the chord. -/
def layoutSample : List ChordNote :=
  [⟨[], ['c'], [], []⟩, ⟨['['], ['e'], [], [loText ['N'] ["head=diamond".toList], loText ['T'] ["dot".toList]]⟩]

example : chordLayouts id { vdur := ['4'] } layoutSample = ["!LO:N:n=2:head=diamond".toList, "!LO:T:n=2:dot".toList, "!LO:N:vis=4".toList] ∧
    (tokenParameter (chordLayouts id { vdur := ['4'] } layoutSample) ['N'] "head".toList 1).toOption = some "diamond".toList ∧
    (tokenParameter (chordLayouts id { vdur := ['4'] } layoutSample) ['N'] "head".toList 0).toOption = some [] ∧
    (tokenParameter (chordLayouts id { vdur := ['4'] } layoutSample) ['T'] "dot".toList 1).toOption = some "true".toList := by decide +kernel

example : LoOk (['N'], ["head=diamond".toList]) ∧ LoOk (['T'], ["dot".toList]) := by
  unfold LoOk
  decide +kernel

/-! ### The visual duration of the chord -/

theorem read_vis (v : Str) (hv : ':' ∉ v) : ({} : HumParamSet).readString ("!LO:N:vis=".toList ++ v) = ⟨"LO".toList, ['N'], [("vis".toList, v)]⟩ := by
  have := read_pieces_one ['N'] ("vis=".toList ++ v) [] (by decide) (by
    intro q hq
    simp only [List.mem_cons, List.not_mem_nil, or_false] at hq
    subst hq
    intro hm
    rcases List.mem_append.1 hm with hm | hm
    · exact absurd hm (by decide)
    · exact hv hm)
  rw [List.map_cons, List.map_nil, show nameValue ("vis=".toList ++ v) = ("vis".toList, v) from nameValue_eq "vis".toList v (by decide)] at this
  simpa using this

theorem lpScan_absent (key : Str) (ps : List (Str × Str)) (h : ∀ p ∈ ps, p.1 ≠ key) (n : Str) : ∃ n', lpScan key (-1) [] n ps = .inr ([], n') := by
  induction ps generalizing n with
  | nil => exact ⟨n, rfl⟩
  | cons p ps ih =>
    rw [lpScan, if_neg (by rintro ⟨e, _⟩; exact h p (by simp) e), if_neg (h p (by simp))]
    exact ih (fun q hq => h q (List.mem_cons_of_mem _ hq)) _

theorem layoutParameter_absent (cat key : Str) (l rest : List HumParamSet) (h : ∀ s ∈ l, s.ns1 ≠ "LO".toList ∨ s.ns2 ≠ cat ∨ ∀ p ∈ s.params, p.1 ≠ key) (n : Str) :
    ∃ n', layoutParameter cat key (-1) n (l ++ rest) = layoutParameter cat key (-1) n' rest := by
  induction l generalizing n with
  | nil => exact ⟨n, rfl⟩
  | cons s l ih =>
    have ih' := ih (fun x hx => h x (List.mem_cons_of_mem _ hx))
    rw [List.cons_append, layoutParameter]
    by_cases hc : s.ns1 ≠ "LO".toList ∨ s.ns2 ≠ cat
    · rw [if_pos hc]; exact ih' n
    · rw [if_neg hc]
      rcases h s (by simp) with h1 | h1 | h1
      · exact absurd (Or.inl h1) hc
      · exact absurd (Or.inr h1) hc
      · obtain ⟨n', e⟩ := lpScan_absent key s.params h1 n
        rw [e]
        simp only
        rw [if_pos (Or.inr (by decide)), if_neg (by simp)]
        exact ih' n'

/-- C116. The visual duration of a chord whose notes are under no two-beam tremolo is read back for the chord, whatever comments its notes
have. -/
theorem chord_visual_duration (half : Str → Str) (c : ChordSigns) (ns : List ChordNote)
    (hquiet : ∀ s ∈ [c.sf, c.expr, c.artic, c.stem, c.beam, c.slurStops], '@' ∉ s) (hpost : ∀ n ∈ ns, '@' ∉ n.post)
    (hok : ∀ n ∈ ns, ∃ lo : List (Str × List Str), n.layouts = lo.map (fun l => loText l.1 l.2) ∧ ∀ l ∈ lo, LoOk l ∧ ∀ q ∈ l.2, (nameValue q).1 ≠ "vis".toList)
    (hchord : ∀ x ∈ c.layouts, (({} : HumParamSet).readString x).ns1 ≠ "LO".toList ∨ (({} : HumParamSet).readString x).ns2 ≠ ['N'])
    (hv : ':' ∉ c.vdur) : tokenParameter (chordLayouts half c ns) ['N'] "vis".toList (-1) = .ok c.vdur := by
  simp only [List.mem_cons, List.not_mem_nil, or_false, forall_eq_or_imp, forall_eq] at hquiet
  obtain ⟨q1, q2, q3, q4, q5, q6⟩ := hquiet
  have hcp : ∀ s : Str, '@' ∉ s → countPairs s = 0 := by
    intro s
    induction s with
    | nil => intro _; rfl
    | cons x s ih =>
      intro h
      have hx : x ≠ '@' := fun e => h (by simp [e])
      rw [countPairs]
      · exact ih (fun hm => h (List.mem_cons_of_mem _ hm))
      · intro t e
        exact absurd e hx
  have hvd : ∀ (l : List ChordNote) (len i : Nat), (∀ n ∈ l, '@' ∉ n.post) → chordVdur half c len i c.vdur l = c.vdur := by
    intro l
    induction l with
    | nil => intro _ _ _; rfl
    | cons n l ih =>
      intro len i hm
      have hz : countPairs (chordPost c len i n) = 0 := by
        apply hcp
        have := hm n (by simp)
        unfold chordPost
        split
        · simp [this, q1, q2, q3, q4]
        · split
          · simp [this, q1, q2, q3, q4, q5, q6]
          · simp [this, q1, q2, q3, q4]
      rw [chordVdur, vdurStep, hz, if_neg (by simp)]
      exact ih len (i + 1) (fun x hx => hm x (List.mem_cons_of_mem _ hx))
  unfold tokenParameter chordLayouts
  simp only
  rw [hvd ns ns.length 0 hpost, List.map_append]
  have hnl : ∀ (l : List ChordNote) (k : Nat), (∀ n ∈ l, n ∈ ns) → ∀ s ∈ (noteLayouts k l).map (({} : HumParamSet).readString ·), ∀ p ∈ s.params, p.1 ≠ "vis".toList := by
    intro l
    induction l with
    | nil => intro k _ s hs; simp [noteLayouts] at hs
    | cons n l ih =>
      intro k hm s hs
      rw [noteLayouts, List.map_append, List.mem_append] at hs
      rcases hs with hs | hs
      · obtain ⟨lo, e, hlo⟩ := hok n (hm n (by simp))
        rw [e, List.map_map, List.map_map] at hs
        obtain ⟨x, hx, rfl⟩ := List.mem_map.1 hs
        simp only [Function.comp]
        rw [read_numbered x (hlo x hx).1]
        intro p hp
        rcases List.mem_cons.1 hp with rfl | hp
        · exact (by decide : "n".toList ≠ "vis".toList)
        · obtain ⟨q, hq, rfl⟩ := List.mem_map.1 hp
          exact (hlo x hx).2 q hq
      · exact ih (k + 1) (fun x hx => hm x (List.mem_cons_of_mem _ hx)) s hs
  obtain ⟨n', e⟩ := layoutParameter_absent ['N'] "vis".toList ((c.layouts ++ noteLayouts 0 ns).map (({} : HumParamSet).readString ·))
    ((if c.vdur ≠ [] then ["!LO:N:vis=".toList ++ c.vdur] else []).map (({} : HumParamSet).readString ·)) (by
      intro s hs
      rw [List.map_append, List.mem_append] at hs
      rcases hs with hs | hs
      · obtain ⟨x, hx, rfl⟩ := List.mem_map.1 hs
        rcases hchord x hx with h | h
        · exact Or.inl h
        · exact Or.inr (Or.inl h)
      · exact Or.inr (Or.inr (hnl ns 0 (fun _ h => h) s hs))) []
  rw [e]
  by_cases h : c.vdur = []
  · rw [if_neg (by simp [h]), h]; rfl
  · rw [if_pos h, List.map_cons, List.map_nil, read_vis c.vdur hv, layoutParameter, if_neg (by simp)]
    simp only
    rw [lpScan, if_pos ⟨rfl, by decide⟩]

/-! ### What goes wrong -/

/-- C116 (negated part). The number of one comment stays in force for later comments without a number: a parameter for all notes is found for the
numbered note only. -/
theorem number_leaks : (tokenParameter ["!LO:N:n=1:head=x".toList, "!LO:N:vis=8".toList] ['N'] "vis".toList 1).toOption = some [] ∧
    (tokenParameter ["!LO:N:vis=8".toList, "!LO:N:n=1:head=x".toList] ['N'] "vis".toList 1).toOption = some "8".toList := by decide +kernel

/-- C116 (negated part). Of two comments for the same note only the first counts, even if it does not have the parameter. -/
theorem second_comment_unread : (tokenParameter ["!LO:N:n=2:head=x".toList, "!LO:N:n=2:color=red".toList] ['N'] "color".toList 1).toOption = some [] := by
  decide +kernel

/-- C116 (negated part). A note number that is no number stops the import. -/
theorem bad_note_number_raises (cat key : Str) (hkey : key ≠ "n".toList) (i : Nat) (bad : Str) (hb : bad ≠ []) (hd : bad.all isDig = false) (ps : List (Str × Str))
    (hps : ∀ p ∈ ps, p.1 ≠ "n".toList) (n : Str) (rest : List HumParamSet) :
    layoutParameter cat key (i : Int) n (⟨"LO".toList, cat, ("n".toList, bad) :: ps⟩ :: rest) = .error .valueError := by
  rw [layoutParameter, if_neg (by simp)]
  have hs : lpScan key (i : Int) [] n (("n".toList, bad) :: ps) = .inr ((((ps.filter (fun p => p.1 = key)).getLast?).map (·.2)).getD [], bad) := by
    rw [lpScan, if_neg (by omega), if_neg (fun e => hkey e.symm), if_pos rfl]
    exact lpScan_note key i ps hps [] bad
  simp only
  rw [hs]
  simp only
  rw [if_neg (by
    rintro (h | h)
    · exact hb h
    · omega)]
  unfold noteNumber
  rw [if_neg (by simp [hd])]

/-- C116 (negated part). The visual duration is halved once for every note under a two-beam tremolo, not once for the chord. -/
theorem visual_duration_halved_per_note :
    chordVdur (fun v => if v = "2".toList then "4".toList else if v = "4".toList then "8".toList else "16".toList) { recip := "16".toList, vdur := "2".toList } 2 0 "2".toList
      [⟨[], ['c'], "@@32@@".toList, []⟩, ⟨[], ['e'], "@@32@@".toList, []⟩] = "8".toList := by decide +kernel

/-- C116 (negated part). A subtoken with a rest sign is dropped from the chord. -/
theorem rest_dropped_from_chord : (readChordNotes "4c 4r 4e".toList).map (·.1) = [0, 2] := by decide +kernel

end C21
