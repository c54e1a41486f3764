import Verif.Model.MeiAttrs
import Verif.Props.MeiNote
/-
C83: key signatures, time signatures and clefs survive MEI export and import. C84: the alterations implied for ornaments.
-/
namespace C21

/-! ## Keys -/

/-- C83, the number of sharps: it survives up to nine sharps or flats; beyond, it does not. -/
theorem sharps_round_trip (n : Int) : readSig (some (sigAttr n)) = some n ↔ -9 ≤ n ∧ n ≤ 9 := by
  have key : ∀ k ∈ List.range 25, (readSig (some (sigAttr ((k : Int) - 12))) = some ((k : Int) - 12) ↔ 3 ≤ k ∧ k ≤ 21) := by
    decide +kernel
  by_cases h : -12 ≤ n ∧ n ≤ 12
  · have := key (n + 12).toNat (List.mem_range.2 (by omega))
    have e : (((n + 12).toNat : Nat) : Int) - 12 = n := by omega
    rw [e] at this
    rw [this]; omega
  · have : sigAttr n = ['0'] := by
      unfold sigAttr
      rw [if_neg (by omega), if_neg (by omega)]
    rw [this]
    constructor
    · intro h'
      have : readSig (some ['0']) = some 0 := rfl
      rw [this] at h'
      have := Option.some.inj h'
      omega
    · omega

/-- Every key signature that is written can be read. -/
theorem sig_readable (n : Int) : ∃ m, readSig (some (sigAttr n)) = some m := by
  have key : ∀ k ∈ List.range 25, (readSig (some (sigAttr ((k : Int) - 12)))).isSome = true := by decide +kernel
  by_cases h : -12 ≤ n ∧ n ≤ 12
  · have := key (n + 12).toNat (List.mem_range.2 (by omega))
    have e : (((n + 12).toNat : Nat) : Int) - 12 = n := by omega
    rw [e] at this
    exact Option.isSome_iff_exists.1 this
  · have : sigAttr n = ['0'] := by
      unfold sigAttr
      rw [if_neg (by omega), if_neg (by omega)]
    rw [this]
    exact ⟨0, rfl⟩

/-- C83 is false: ten sharps are read as one. -/
theorem ten_sharps_read_as_one : sigAttr 10 = "10s".toList ∧ readSig (some "10s".toList) = some 1 := by decide +kernel
/-- C83 is false: thirteen sharps are read as none. -/
theorem thirteen_sharps_lost : readSig (some (sigAttr 13)) = some 0 := by decide +kernel

/-- A key that is a mere signature. -/
theorem keySig_round_trip_partial (keySharps : Char × Option String × String → Int)
    (asKey : Int → String → Char × Option String × String) (n : Int) (h : -9 ≤ n ∧ n ≤ 9) :
    readMeiKey keySharps asKey (writeKey ⟨n, none⟩) = some (some ⟨n, none⟩) := by
  have hr := (sharps_round_trip n).2 h
  unfold readMeiKey writeKey
  simp only [hr, writeTonic]
  rfl

/-- The accidentals of tonics. -/
def tonicAccidentals : List String := ["natural", "sharp", "double-sharp", "triple-sharp", "flat", "double-flat", "triple-flat"]

/-- C83, keys: tonic, mode and sharps survive, when the sharps are those of the tonic and mode and at most nine. -/
theorem key_round_trip_partial (keySharps : Char × Option String × String → Int)
    (asKey : Int → String → Char × Option String × String) (step : Char) (acc : Option String) (mode : String)
    (hs : IsStep step) (ha : ∀ a ∈ acc, a ∈ tonicAccidentals) (hm : mode ≠ "")
    (h : -9 ≤ keySharps (step, acc, mode) ∧ keySharps (step, acc, mode) ≤ 9) :
    readMeiKey keySharps asKey (writeKey ⟨keySharps (step, acc, mode), some (step, acc, mode)⟩) =
      some (some ⟨keySharps (step, acc, mode), some (step, acc, mode)⟩) := by
  have hr := (sharps_round_trip _).2 h
  have hacc : ((acc.bind (fun n => accidTable.lookup n)).bind (fun x => readAccidTable.lookup x)).bind (fun x => m21Modifiers.lookup x) = acc := by
    cases acc with
    | none => rfl
    | some a =>
      have := ha a rfl
      unfold tonicAccidentals at this
      simp only [List.mem_cons, List.not_mem_nil, or_false] at this
      rcases this with rfl | rfl | rfl | rfl | rfl | rfl | rfl <;> rfl
  unfold readMeiKey writeKey
  simp only [hr, writeTonic, hm, if_false, readTonic, step_round_trip step hs, hacc, ne_eq, not_true_eq_false]

/-- In all cases the sharps of the key that is read are those of the signature, whatever the tonic says. -/
theorem key_sharps_from_sig (keySharps : Char × Option String × String → Int)
    (asKey : Int → String → Char × Option String × String) (a : KeyAttr) (s : Str) (n : Int) (hs : a.sig = some s)
    (hn : readSig (some s) = some n) : ∃ k, readMeiKey keySharps asKey a = some (some k) ∧ k.sharps = n := by
  unfold readMeiKey
  simp only [hs, hn]
  have h1 : (match a.mode with
      | some m => if m = "" then (⟨n, none⟩ : MKey) else ⟨n, some (asKey n m)⟩
      | none => ⟨n, none⟩).sharps = n := by
    cases a.mode with
    | none => rfl
    | some m => simp only []; split <;> rfl
  cases readTonic keySharps a with
  | none => exact ⟨_, rfl, h1⟩
  | some k =>
    by_cases hk : k.sharps = n
    · simp only [hk, ne_eq, not_true_eq_false, if_false]; exact ⟨k, rfl, hk⟩
    · simp only [hk, ne_eq, not_false_eq_true, if_true]; exact ⟨_, rfl, h1⟩

/-- F sharp major: six sharps. -/
example : readMeiKey (fun _ => 6) (fun _ m => ('C', none, m)) (writeKey ⟨6, some ('F', some "sharp", "major")⟩) =
    some (some ⟨6, some ('F', some "sharp", "major")⟩) :=
  key_round_trip_partial (fun _ => 6) _ 'F' (some "sharp") "major" (by unfold IsStep; decide) (by decide) (by decide) (by decide)

/-! ## Meters -/

theorem natStr_isEmpty (n : Nat) : (natStr n).isEmpty = false := by
  cases h : natStr n with
  | nil => exact absurd h (natStr_ne_nil _)
  | cons _ _ => rfl

theorem absentOr_natStr (k n : Nat) : absentOr (natStr k) (some (natStr n)) = true ↔ n = k := by
  unfold absentOr
  simp only [beq_iff_eq]
  exact ⟨fun h => natStr_inj _ _ h, fun h => by rw [h]⟩

theorem readMeter_write (m : MMeter) : readMeter (writeMeter m) =
    some ⟨m.num, m.den, if (m.sym = some "cut" ∧ m.num = 2 ∧ m.den = 2) ∨ (m.sym = some "common" ∧ m.num = 4 ∧ m.den = 4)
      then m.sym else none⟩ := by
  have h2 : "2".toList = natStr 2 := by decide
  have h4 : "4".toList = natStr 4 := by decide
  have hsym : ∀ t : String, t ≠ "" → ((m.sym.bind (fun s => if s = "" then none else some s)) = some t ↔ m.sym = some t) := by
    intro t ht
    cases hm : m.sym with
    | none => simp
    | some s =>
      by_cases hs : s = ""
      · simp [hs, ht.symm]
      · simp [hs]
  unfold readMeter writeMeter
  rw [h2, h4]
  simp only [absentOr_natStr, hsym "cut" (by decide), hsym "common" (by decide), natStr_isEmpty, Bool.or_self, Bool.false_eq_true,
    if_false, parse_natStr]
  by_cases hc : m.sym = some "cut" ∧ m.num = 2 ∧ m.den = 2
  · rw [if_pos hc, if_pos (Or.inl hc)]
    rw [hc.2.1, hc.2.2, hc.1]
  · rw [if_neg hc]
    by_cases hd : m.sym = some "common" ∧ m.num = 4 ∧ m.den = 4
    · rw [if_pos hd, if_pos (Or.inr hd)]
      rw [hd.2.1, hd.2.2, hd.1]
    · rw [if_neg hd, if_neg (by tauto)]

/-- C83, time signatures: numerator and denominator always survive; the symbol survives exactly when there is none, or it is a cut 2/2
or a common 4/4. -/
theorem meter_round_trip (m : MMeter) : ∃ r, readMeter (writeMeter m) = some r ∧ r.num = m.num ∧ r.den = m.den ∧
    (r.sym = m.sym ↔ m.sym = none ∨ (m.sym = some "cut" ∧ m.num = 2 ∧ m.den = 2) ∨ (m.sym = some "common" ∧ m.num = 4 ∧ m.den = 4)) := by
  refine ⟨_, readMeter_write m, rfl, rfl, ?_⟩
  simp only []
  split
  · rename_i h; exact ⟨fun _ => Or.inr h, fun _ => rfl⟩
  · rename_i h
    constructor
    · intro e; exact Or.inl e.symm
    · rintro (e | e)
      · exact e.symm
      · exact absurd e h

/-- C83 is false: a cut sign on 4/4 is lost. -/
theorem cut_four_four_lost : readMeter (writeMeter ⟨4, 4, some "cut"⟩) = some ⟨4, 4, none⟩ := by decide +kernel

/-! ## Clefs -/

/-- C83, clefs, the part that holds: sign, line and octave change of clefs with at most three octaves survive. -/
theorem clef_round_trip_partial (c : MClef) (h1 : c.sign ∉ ["none", "percussion", "perc", "TAB", "GG"])
    (h2 : -3 ≤ c.octaveChange ∧ c.octaveChange ≤ 3) : (writeClef c).map readClef = some c := by
  obtain ⟨sign, line, oc⟩ := c
  simp only [List.mem_cons, List.not_mem_nil, or_false, not_or] at h1
  obtain ⟨g1, g2, g3, g4, g5⟩ := h1
  have hline : (line.map natStr).map parseNat = line := by
    cases line with
    | none => rfl
    | some n => simp [parse_natStr]
  have hoc : readOctaveShift ((if oc = 0 then none else octaveChangeTable.lookup oc).map (·.1))
      ((if oc = 0 then none else octaveChangeTable.lookup oc).map (·.2)) = oc := by
    have : ∀ k ∈ List.range 7, readOctaveShift ((if (k : Int) - 3 = 0 then none else octaveChangeTable.lookup ((k : Int) - 3)).map (·.1))
      ((if (k : Int) - 3 = 0 then none else octaveChangeTable.lookup ((k : Int) - 3)).map (·.2)) = (k : Int) - 3 := by decide +kernel
    have := this (oc + 3).toNat (List.mem_range.2 (by simp only at h2; omega))
    have e : (((oc + 3).toNat : Nat) : Int) - 3 = oc := by simp only at h2; omega
    rwa [e] at this
  unfold writeClef
  simp only [g1, if_false, Option.map_some, g2]
  unfold readClef
  simp only [g3, g4, g5, if_false, hline, hoc]

/-- An octave treble clef. -/
example : (writeClef ⟨"G", some 2, -1⟩).map readClef = some ⟨"G", some 2, -1⟩ :=
  clef_round_trip_partial _ (by decide) (by decide)

/-- C83 is false: the octave of a percussion clef, and of a clef four octaves up, is lost. -/
theorem clef_octave_lost : (writeClef ⟨"percussion", none, 1⟩).map readClef = some ⟨"percussion", none, 0⟩ ∧
    (writeClef ⟨"G", some 2, 4⟩).map readClef = some ⟨"G", some 2, 0⟩ := by decide +kernel

/-! ## Implied alterations -/

/-- The alteration of a step in a key (none: no key). -/
def keyStepAlter (k : Option (Nat → Int)) (i : Nat) : Int := match k with
  | none => 0
  | some k => k (i % 7)

/-- The key in force after some events. -/
def keyAfter (k : Option (Nat → Int)) : List AlterEv → Option (Nat → Int)
  | [] => k
  | .key k' :: es => keyAfter k' es
  | _ :: es => keyAfter k es

/-- The rule of notation: a note is altered as the last note on its place since the bar line (or the change of key), and by the key if
there is none. Events are given latest first. -/
def Implied (k : Option (Nat → Int)) (i : Nat) : List AlterEv → Int
  | [] => keyStepAlter k i
  | .key k' :: _ => keyStepAlter k' i
  | .barline :: past => keyStepAlter (keyAfter k past.reverse) i
  | .note j a :: past => if j = i then a else Implied k i past

/-- All notes are between C0 and B9. -/
def InRange (es : List AlterEv) : Prop := ∀ e ∈ es, ∀ j a, e = .note j a → 0 ≤ j ∧ j < 70

theorem altersForKey_length (k : Option (Nat → Int)) : (altersForKey k).length = 70 := by
  cases k <;> simp [altersForKey]

theorem altersForKey_get (k : Option (Nat → Int)) (i : Nat) (h : i < 70) : (altersForKey k)[i]? = some (keyStepAlter k i) := by
  cases k with
  | none =>
    unfold altersForKey keyStepAlter
    rw [List.getElem?_replicate, if_pos h]
  | some k => simp [altersForKey, keyStepAlter, h]

/-- What the state has to satisfy after the events. -/
structure AlterOk (s : AlterState) (past : List AlterEv) : Prop where
  key : s.key = keyAfter none past.reverse
  len : s.alters.length = 70
  get : ∀ i, i < 70 → s.alters[i]? = some (Implied none i past)

theorem keyAfter_append (k : Option (Nat → Int)) (es : List AlterEv) (e : AlterEv) :
    keyAfter k (es ++ [e]) = match e with | .key k' => k' | _ => keyAfter k es := by
  induction es generalizing k with
  | nil => cases e <;> rfl
  | cons x es ih => cases x <;> simp only [List.cons_append, keyAfter, ih]

theorem alterStep_ok (s : AlterState) (past : List AlterEv) (h : AlterOk s past) (e : AlterEv)
    (he : ∀ j a, e = .note j a → 0 ≤ j ∧ j < 70) : ∃ s', alterStep s e = .ok s' ∧ AlterOk s' (e :: past) := by
  cases e with
  | key k =>
    refine ⟨_, rfl, ⟨?_, altersForKey_length k, fun i hi => altersForKey_get k i hi⟩⟩
    rw [List.reverse_cons, keyAfter_append]
  | barline =>
    refine ⟨_, rfl, ⟨?_, altersForKey_length _, fun i hi => ?_⟩⟩
    · rw [List.reverse_cons, keyAfter_append]; exact h.key
    · rw [altersForKey_get _ i hi]
      show some (keyStepAlter s.key i) = some (keyStepAlter (keyAfter none past.reverse) i)
      rw [h.key]
  | note j a =>
    obtain ⟨h0, h1⟩ := he j a rfl
    have hset : pySet s.alters j a = .ok (s.alters.set j.toNat a) := by
      unfold pySet
      have : ¬ j < 0 := by omega
      simp only [this, if_false]
      rw [if_neg (by rw [h.len]; omega)]
    refine ⟨⟨s.key, s.alters.set j.toNat a⟩, ?_, ⟨?_, ?_, fun i hi => ?_⟩⟩
    · unfold alterStep; simp only [hset]
    · rw [List.reverse_cons, keyAfter_append]; exact h.key
    · simp [h.len]
    · simp only [Implied]
      rw [List.getElem?_set]
      by_cases hji : j = (i : Int)
      · rw [if_pos (by omega), if_pos hji, if_pos (by rw [h.len]; omega)]
      · rw [if_neg (by omega), if_neg hji]
        exact h.get i hi

/-- C84, the part that holds: whatever keys, bar lines and notes between C0 and B9 come, no step fails and the alteration implied for
every place from C0 to B9 is the one of the rule. It is false for other octaves: `high_note_fails`, `low_note_wrong`. -/
theorem implied_alterations_partial (es : List AlterEv) (h : InRange es) :
    ∃ s, alterRun alterStart es = .ok s ∧ ∀ i : Nat, i < 70 → pyGet s.alters i = .ok (Implied none i es.reverse) := by
  have gen : ∀ (es : List AlterEv) (s : AlterState) (past : List AlterEv), AlterOk s past → InRange es →
      ∃ s', alterRun s es = .ok s' ∧ AlterOk s' (es.reverse ++ past) := by
    intro es
    induction es with
    | nil => intro s past hs _; exact ⟨s, rfl, hs⟩
    | cons e es ih =>
      intro s past hs he
      obtain ⟨s1, h1, h2⟩ := alterStep_ok s past hs e (fun j a hj => he e List.mem_cons_self j a hj)
      obtain ⟨s2, h3, h4⟩ := ih s1 (e :: past) h2 (fun x hx => he x (List.mem_cons_of_mem _ hx))
      refine ⟨s2, ?_, ?_⟩
      · rw [alterRun]; simp only [h1, h3]
      · rw [List.reverse_cons, List.append_assoc]; exact h4
  obtain ⟨s, h1, h2⟩ := gen es alterStart [] ⟨rfl, altersForKey_length none, fun i hi => altersForKey_get none i hi⟩ h
  refine ⟨s, h1, fun i hi => ?_⟩
  rw [List.append_nil] at h2
  unfold pyGet
  have : ¬ ((i : Int) < 0) := by omega
  simp only [this, if_false, Int.toNat_natCast, h2.get i hi]

/-- G major; an F natural; then the next measure. -/
def gMajor : Nat → Int := fun s => if s = 3 then 1 else 0
def sampleAlters : List AlterEv := [.key (some gMajor), .note 31 0, .note 32 1, .barline, .note 32 (-1)]
example : InRange sampleAlters := by
  intro e he j a h
  subst h
  simp [sampleAlters] at he
  omega
example : Implied none 31 sampleAlters.reverse = 1 ∧ Implied none 32 sampleAlters.reverse = -1 ∧
    Implied none 31 [.note 31 0, .key (some gMajor)] = 0 := by decide

/-- C84 is false: a note in octave ten raises IndexError. -/
theorem high_note_fails : alterRun alterStart [.note 70 0] = .error .indexError := rfl

/-- C84 is false: a note below C0 changes a note in the highest octave: after C sharp -1, C9 counts as sharp. -/
theorem low_note_wrong : ∃ s, alterRun alterStart [.note (-7) 1] = .ok s ∧ pyGet s.alters 63 = .ok 1 ∧
    Implied none 63 [.note (-7) 1] = 0 := ⟨_, rfl, rfl, rfl⟩

end C21
