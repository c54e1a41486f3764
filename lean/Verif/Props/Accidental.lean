import Verif.Spec.Accidental
import Verif.Lemmas.Tac
/-
C29: accidentals are printed when needed, so that a reader recovers every alteration.
-/
namespace C21

/-! ### Text -/

theorem replace_ny_contains (c : Char) (hn : c ≠ 'n') (hy : c ≠ 'y') (s : Str) :
    (replaceAll "ny".toList [] s).contains c = s.contains c := by
  unfold replaceAll
  induction hl : s.length using Nat.strong_induction_on generalizing s with
  | _ n ih =>
    match s with
    | [] => rfl
    | [x] =>
      have : "ny".toList.isPrefixOf [x] = false := by simp [List.isPrefixOf]
      simp only [replaceGo, this, Bool.false_eq_true, if_false]
    | x :: y :: ys =>
      by_cases hp : "ny".toList.isPrefixOf (x :: y :: ys) = true
      · have : x = 'n' ∧ y = 'y' := by
          simp [List.isPrefixOf] at hp
          exact ⟨hp.1.symm, hp.2.symm⟩
        obtain ⟨rfl, rfl⟩ := this
        have e : replaceGo "ny".toList [] 0 ('n' :: 'y' :: ys) = replaceGo "ny".toList [] 0 ys := by
          rw [replaceGo, if_pos hp]
          rfl
        rw [e, ih ys.length (by simp at hl; omega) ys rfl]
        simp [hn, hy]
      · have e : replaceGo "ny".toList [] 0 (x :: y :: ys) = x :: replaceGo "ny".toList [] 0 (y :: ys) := by
          rw [replaceGo, if_neg hp]
        rw [e]
        have := ih (y :: ys).length (by simp at hl ⊢; omega) (y :: ys) rfl
        rw [List.contains_cons, List.contains_cons, this]

/-! ### Key signatures -/

/-- The key signature filled in is the one written. -/
theorem fillKeySignature_spec (text : Str) (i : Nat) (hi : i < 7) : fillKeySignature text i = keyAlter text i := by
  have h : i = 0 ∨ i = 1 ∨ i = 2 ∨ i = 3 ∨ i = 4 ∨ i = 5 ∨ i = 6 := by omega
  have ap : ∀ (b : Bool) (f g : Nat → Int) (j : Nat), (if b = true then f else g) j = if b = true then f j else g j := by
    intro b f g j; split <;> rfl
  unfold fillKeySignature keyTable keyAlter
  simp only [List.foldl_cons, List.foldl_nil, ap]
  rcases h with rfl | rfl | rfl | rfl | rfl | rfl | rfl <;>
    simp

/-! ### Ornaments -/

theorem diatonicPC_le (t : Str) : kernToDiatonicPC t ≤ 6 := by
  induction t with
  | nil => simp [kernToDiatonicPC]
  | cons c t ih =>
    simp only [kernToDiatonicPC]
    split
    · omega
    · split
      · omega
      · split
        · rename_i d hd
          unfold diatonicOf at hd
          split_ifs at hd <;> cases hd <;> omega
        · exact ih

theorem spellable (text : Str) (i : Int) (hi : i = 5 ∨ i = 6 ∨ i = -5 ∨ i = -6) (h0 : 0 ≤ kernToDiatonicPC text)
    (ha : -1 ≤ kernToAccidentalCount text ∧ kernToAccidentalCount text ≤ 1) :
    -2 ≤ base40ToAccidental (kernToBase40 text + i) ∧ base40ToAccidental (kernToBase40 text + i) ≤ 2 := by
  have h6 := diatonicPC_le text
  unfold kernToBase40 kernToBase40PC
  generalize kernToDiatonicPC text = dd at h0 h6 ⊢
  generalize kernToAccidentalCount text = a at ha ⊢
  generalize kernToOctaveNumber text = o
  have hd : dd = 0 ∨ dd = 1 ∨ dd = 2 ∨ dd = 3 ∨ dd = 4 ∨ dd = 5 ∨ dd = 6 := by omega
  have haa : a = -1 ∨ a = 0 ∨ a = 1 := by omega
  have key : ∀ b : Int, ((∃ v, accidentalTable[(b % 40).toNat]? = some v ∧ -2 ≤ v ∧ v ≤ 2)) →
      -2 ≤ base40ToAccidental b ∧ base40ToAccidental b ≤ 2 := by
    rintro b ⟨v, hv, h1, h2⟩
    unfold base40ToAccidental
    split
    · omega
    · rw [hv]; exact ⟨h1, h2⟩
  have m : ∀ x : Int, (x + 40 * o + i) % 40 = (x + i) % 40 := by intro x; omega
  rcases hd with rfl | rfl | rfl | rfl | rfl | rfl | rfl <;> rcases haa with rfl | rfl | rfl <;>
    simp only [Int.reduceLT, if_false, Int.reduceEq, if_true, Int.reduceAdd, Int.reduceNeg] <;>
    (apply key; rw [m]; rcases hi with rfl | rfl | rfl | rfl <;> exact ⟨_, rfl, by decide, by decide⟩)

/-- Restrictions on a note: no more than 99 sharps or flats, not hidden, no turn, trills and mordents only with at most one sharp or
flat, not below C0, and no layout parameter that hides the accidental. -/
structure ReadableNote (n : AccNote) : Prop where
  acc : -99 ≤ kernToAccidentalCount n.text ∧ kernToAccidentalCount n.text ≤ 99
  seen : isInfix "yy".toList n.text = false
  noTurn : n.text.contains '$' = false ∧ n.text.contains 'S' = false
  orn : (∃ c ∈ "tTMmWw".toList, n.text.contains c = true) → -1 ≤ kernToAccidentalCount n.text ∧ kernToAccidentalCount n.text ≤ 1
  low : 0 ≤ kernToDiatonicPC n.text → 0 ≤ kernToBase7 n.text
  layout : n.layout ≠ some false

theorem base7_pc (t : Str) (h : 0 ≤ kernToBase7 t) : 0 ≤ kernToDiatonicPC t := by
  unfold kernToBase7 at h
  by_contra hc
  simp only at h
  rw [if_pos (by omega)] at h
  omega

theorem ornStep_some (t : Str) (nm : Str) (i : Int) (h : ornStep t = some (nm, i)) :
    (i = 5 ∨ i = 6 ∨ i = -5 ∨ i = -6) ∧ ∃ c ∈ "tTMmWw".toList, t.contains c = true := by
  unfold ornStep at h
  by_cases h1 : t.contains 't' = true
  · rw [if_pos h1] at h; cases h; exact ⟨by omega, 't', by decide, h1⟩
  rw [if_neg h1] at h
  by_cases h2 : t.contains 'T' = true
  · rw [if_pos h2] at h; cases h; exact ⟨by omega, 'T', by decide, h2⟩
  rw [if_neg h2] at h
  by_cases h3 : t.contains 'M' = true
  · rw [if_pos h3] at h; cases h; exact ⟨by omega, 'M', by decide, h3⟩
  rw [if_neg h3] at h
  by_cases h4 : t.contains 'm' = true
  · rw [if_pos h4] at h; cases h; exact ⟨by omega, 'm', by decide, h4⟩
  rw [if_neg h4] at h
  by_cases h5 : t.contains 'W' = true
  · rw [if_pos h5] at h; cases h; exact ⟨by omega, 'W', by decide, h5⟩
  rw [if_neg h5] at h
  by_cases h6 : t.contains 'w' = true
  · rw [if_pos h6] at h; cases h; exact ⟨by omega, 'w', by decide, h6⟩
  rw [if_neg h6] at h
  cases h

/-- Trills and mordents only ever make the accidental of another position obligatory. -/
theorem ornament_forced (n : AccNote) (hn : ReadableNote n) (h0 : 0 ≤ kernToDiatonicPC n.text) (d d' : Nat → Int) (o : OrnOut)
    (h : ornament (replaceAll "ny".toList [] n.text) (kernToBase40 n.text) d = .ok (o, d')) (p : Nat) : d' p = d p ∨ d' p < -900 := by
  have e1 := fun c h1 h2 => replace_ny_contains c h1 h2 n.text
  generalize hT : replaceAll "ny".toList [] n.text = t at h e1
  unfold ornament at h
  cases ho : ornStep t with
  | none =>
    rw [ho] at h
    simp only at h
    rw [e1 '$' (by decide) (by decide), e1 'S' (by decide) (by decide), hn.noTurn.1, hn.noTurn.2] at h
    simp only [Bool.false_eq_true, if_false] at h
    cases h
    exact Or.inl rfl
  | some x =>
    obtain ⟨nm, i⟩ := x
    obtain ⟨hi, c, hc, hcc⟩ := ornStep_some t nm i ho
    have hc1 : n.text.contains c = true := by
      rw [← e1 c (by rintro rfl; revert hc; decide) (by rintro rfl; revert hc; decide)]; exact hcc
    have hacc := hn.orn ⟨c, hc, hc1⟩
    have sp := spellable n.text i hi h0 hacc
    rw [ho] at h
    simp only at h
    cases hx : pyIndex 70 (base40ToDiatonic (kernToBase40 n.text + i)) with
    | none => rw [hx] at h; cases h
    | some x =>
      rw [hx] at h
      simp only at h
      split at h
      · cases h
        unfold upd
        by_cases hp : p = x
        · right; rw [if_pos hp]; omega
        · left; rw [if_neg hp]
      · cases h; exact Or.inl rfl

/-! ### One note -/

/-- The analysis and the reader agree, on one staff, except where an accidental is obligatory. -/
structure AccAgree (S : AccSt) (R : Reader) (s : Nat) : Prop where
  key : ∀ i, i < 7 → S.key i = R.key s i
  d : ∀ p : Nat, ¬ S.d p < -900 → S.d p = R.force s p
  gd : ∀ p : Nat, ¬ S.gd p < -900 → S.gd p = R.force s p

/-- A reader sees a note, if it is on the staff. -/
def Reader.seeRes (R : Reader) (r : AccRes) : Reader := if onStaff r.1 then R.see (seenNote r) else R

/-- `conc` holds what was printed on the line before. -/
def ConcOK (conc : Nat → Int) (track : Nat) (earlier : List AccRes) : Prop :=
  ∀ p : Nat, conc p ≠ 0 → ∃ q ∈ earlier, q.1.track = track ∧ kernToBase7 q.1.text = (p : Int) ∧ kernToAccidentalCount q.1.text = conc p ∧
    q.2.any (·.visual) = true

/-- What is claimed of a note. -/
structure NoteOK (R : Reader) (earlier : List AccRes) (r : AccRes) : Prop where
  reads : onStaff r.1 = true → R.reads (seenNote r) =
    (if tieArrives r.1 && !r.2.any (·.visual) then none else some (kernToAccidentalCount r.1.text))
  needed : onStaff r.1 = true → plainAccidental r = true → printedBeside earlier r = false →
    R.force r.1.track (kernToBase7 r.1.text) ≠ kernToAccidentalCount r.1.text

theorem see_force (R : Reader) (r : AccRes) (hs : onStaff r.1 = true) :
    (R.seeRes r).force = (if r.2.any (·.visual) then
      (fun b p => if b = r.1.track ∧ p = kernToBase7 r.1.text then kernToAccidentalCount r.1.text else R.force b p) else R.force) ∧
    (R.seeRes r).key = R.key := by
  unfold Reader.seeRes
  rw [if_pos hs]
  unfold seenNote
  cases r.2.any (·.visual) <;> simp [Reader.see]

/-- Printing at one position. -/
theorem agree_print (S S' : AccSt) (R R' : Reader) (s p : Nat) (a : Int) (h : AccAgree S R s) (hk : S'.key = S.key) (hk' : R'.key = R.key)
    (hf : ∀ q : Nat, R'.force s q = if q = p then a else R.force s q)
    (hd : ∀ q : Nat, S'.d q < -900 ∨ (q = p ∧ S'.d q = a) ∨ (S'.d q = S.d q ∧ (q = p → S.d q = a ∨ R.force s q = a)))
    (hg : ∀ q : Nat, S'.gd q < -900 ∨ (q = p ∧ S'.gd q = a) ∨ (S'.gd q = S.gd q ∧ (q = p → S.gd q = a ∨ R.force s q = a))) :
    AccAgree S' R' s := by
  refine ⟨fun i hi => by rw [hk, hk']; exact h.key i hi, ?_, ?_⟩
  · intro q hq
    rw [hf]
    rcases hd q with h1 | ⟨h1, h2⟩ | ⟨h1, h2⟩
    · exact absurd h1 hq
    · rw [if_pos h1, h2]
    · rw [h1] at hq ⊢
      have := h.d q hq
      by_cases hqp : q = p
      · rw [if_pos hqp]
        rcases h2 hqp with h3 | h3
        · exact h3
        · rw [this, h3]
      · rw [if_neg hqp, this]
  · intro q hq
    rw [hf]
    rcases hg q with h1 | ⟨h1, h2⟩ | ⟨h1, h2⟩
    · exact absurd h1 hq
    · rw [if_pos h1, h2]
    · rw [h1] at hq ⊢
      have := h.gd q hq
      by_cases hqp : q = p
      · rw [if_pos hqp]
        rcases h2 hqp with h3 | h3
        · exact h3
        · rw [this, h3]
      · rw [if_neg hqp, this]

/-- Not printing changes nothing, or makes an accidental obligatory. -/
theorem agree_forced (S S' : AccSt) (R : Reader) (s : Nat) (h : AccAgree S R s) (hk : S'.key = S.key)
    (hd : ∀ q : Nat, S'.d q = S.d q ∨ S'.d q < -900) (hg : ∀ q : Nat, S'.gd q = S.gd q ∨ S'.gd q < -900) : AccAgree S' R s := by
  refine ⟨fun i hi => by rw [hk]; exact h.key i hi, ?_, ?_⟩
  · intro q hq
    rcases hd q with h1 | h1
    · rw [h1] at hq ⊢; exact h.d q hq
    · exact absurd h1 hq
  · intro q hq
    rcases hg q with h1 | h1
    · rw [h1] at hq ⊢; exact h.gd q hq
    · exact absurd h1 hq

/-- The decision for a note that is looked at. -/
theorem accDecide_ok (S : AccSt) (R : Reader) (conc : Nat → Int) (earlier : List AccRes) (n : AccNote) (t : Str) (p : Nat) (orn : OrnOut)
    (hn : ReadableNote n) (hp : kernToBase7 n.text = (p : Int)) (hS : AccAgree S R n.track) (hc : ConcOK conc n.track earlier) :
    let a := kernToAccidentalCount n.text
    let r := accDecide S conc n t p a
    let res : AccRes := (n, some (accFinish n r.1 r.2.1 orn))
    NoteOK R earlier res ∧ AccAgree r.2.2.2 (R.seeRes res) n.track ∧ ConcOK r.2.2.1 n.track (earlier ++ [res]) := by
  intro a r res
  have ha := hn.acc
  have hpc : 0 ≤ kernToDiatonicPC n.text := base7_pc _ (by omega)
  have hon : onStaff n = true := by unfold onStaff; simp [hpc]; exact hn.seen
  have hon' : onStaff res.1 = true := hon
  have hvis : ∀ v c o, (accFinish n v c o).visual = (v || n.editorial || n.layout.isSome) := by
    intro v c o
    unfold accFinish
    have := hn.layout
    cases hl : n.layout with
    | none => simp
    | some b =>
      cases b with
      | false => exact absurd hl this
      | true => simp
  have hcau : ∀ v c o, n.layout = none → (accFinish n v c o).caution = c := by
    intro v c o hl
    unfold accFinish; rw [hl]
  -- the state where nothing is needed
  have same : (n.grace = true → a = S.gd p) → (n.grace = false → a = S.d p) → R.force n.track p = a := by
    intro h1 h2
    cases hg : n.grace with
    | true => have := h1 hg; rw [this]; exact (hS.gd p (by rw [← this]; omega)).symm
    | false => have := h2 hg; rw [this]; exact (hS.d p (by rw [← this]; omega)).symm
  -- the three claims from the branch
  have fin : ∀ (v c : Bool) (conc' : Nat → Int) (S' : AccSt), r = (v, c, conc', S') →
      (S'.key = S.key) →
      (v = false → R.force n.track p = a) →
      (v = true → c = false → R.force n.track p ≠ a ∨ (conc p ≠ 0 ∧ conc p = a)) →
      (∀ q : Nat, S'.d q < -900 ∨ (q = p ∧ S'.d q = a) ∨ (S'.d q = S.d q ∧ (q = p → S.d q = a ∨ R.force n.track q = a))) →
      (∀ q : Nat, S'.gd q < -900 ∨ (q = p ∧ S'.gd q = a) ∨ (S'.gd q = S.gd q ∧ (q = p → S.gd q = a ∨ R.force n.track q = a))) →
      (conc' = conc ∨ (v = true ∧ conc' = upd conc p a)) →
      NoteOK R earlier res ∧ AccAgree r.2.2.2 (R.seeRes res) n.track ∧ ConcOK r.2.2.1 n.track (earlier ++ [res]) := by
    intro v c conc' S' hr hk hv hvc hd hg hcc
    have hres : res = (n, some (accFinish n v c orn)) := by simp only [res, hr]
    have hv' : res.2.any (·.visual) = (v || n.editorial || n.layout.isSome) := by
      rw [hres]; simp only [Option.any_some]; exact hvis v c orn
    have hr1 : res.1 = n := rfl
    refine ⟨⟨?_, ?_⟩, ?_, ?_⟩
    · intro _
      unfold seenNote
      rw [hr1]
      cases hb : res.2.any (·.visual) with
      | true => simp [Reader.reads]
      | false =>
        simp only [Bool.false_eq_true, if_false, Bool.not_false, Bool.and_true]
        cases ht : tieArrives n with
        | true => rfl
        | false =>
          simp only [Reader.reads, Bool.false_eq_true, if_false]
          rw [hp]
          have hvf : v = false := by rw [hv'] at hb; simp at hb; exact hb.1.1
          rw [hv hvf]
    · intro _ hpl hbes
      rw [hr1, hp]
      unfold plainAccidental at hpl
      rw [hr1] at hpl
      have hl : n.layout = none := by
        cases hl : n.layout with
        | none => rfl
        | some b => rw [hl] at hpl; simp at hpl
      have he : n.editorial = false := by
        cases he : n.editorial with
        | false => rfl
        | true => rw [he] at hpl; simp at hpl
      rw [hres] at hpl
      simp only [Option.any_some, hvis, hl, he, hcau v c orn hl, Bool.or_false, Option.isSome_none, Option.isNone_none, Bool.not_false, Bool.and_true,
        Bool.and_eq_true, Bool.not_eq_true'] at hpl
      rcases hvc hpl.1 hpl.2 with h | ⟨h1, h2⟩
      · exact h
      · exfalso
        obtain ⟨q, hq, q1, q2, q3, q4⟩ := hc p h1
        have : printedBeside earlier res = true := by
          unfold printedBeside
          rw [List.any_eq_true]
          refine ⟨q, hq, ?_⟩
          rw [hr1, q1, q2, hp, q3, h2, q4]
          simp [a]
        rw [this] at hbes
        cases hbes
    · have sf := see_force R res hon'
      rw [hr]
      cases hb : res.2.any (·.visual) with
      | true =>
        rw [hb] at sf
        simp only [if_true] at sf
        refine agree_print S S' R (R.seeRes res) n.track p a hS hk sf.2 ?_ hd hg
        intro q
        rw [sf.1, hr1, hp]
        simp only [true_and, Nat.cast_inj]
        rfl
      | false =>
        rw [hb] at sf
        simp only [Bool.false_eq_true, if_false] at sf
        have hvf : v = false := by rw [hv'] at hb; simp at hb; exact hb.1.1
        have hfo := hv hvf
        refine agree_print S S' R (R.seeRes res) n.track p a hS hk sf.2 ?_ hd hg
        intro q
        rw [sf.1]
        by_cases hq : q = p
        · rw [if_pos hq, hq, hfo]
        · rw [if_neg hq]
    · rw [hr]
      intro q hq
      rcases hcc with h | ⟨h1, h2⟩
      · simp only [h] at hq ⊢
        obtain ⟨x, hx, hx2⟩ := hc q hq
        exact ⟨x, by simp [hx], hx2⟩
      · simp only [h2, upd] at hq ⊢
        by_cases hqp : q = p
        · rw [if_pos hqp]
          refine ⟨res, by simp, rfl, by rw [hr1, hp, hqp], rfl, ?_⟩
          rw [hv', h1]; rfl
        · rw [if_neg hqp] at hq ⊢
          obtain ⟨x, hx, hx2⟩ := hc q hq
          exact ⟨x, by simp [hx], hx2⟩
  -- branches
  have stay : ∀ f : Nat → Int, ∀ q : Nat, (q = p → f q = a ∨ R.force n.track q = a) →
      f q < -900 ∨ (q = p ∧ f q = a) ∨ (f q = f q ∧ (q = p → f q = a ∨ R.force n.track q = a)) :=
    fun f q h => Or.inr (Or.inr ⟨rfl, h⟩)
  have hdef : r = accDecide S conc n t p a := rfl
  unfold accDecide at hdef
  by_cases c1 : (n.grace && decide (a ≠ S.gd p)) = true
  · rw [if_pos c1] at hdef
    simp only [Bool.and_eq_true, decide_eq_true_eq] at c1
    refine fin _ _ _ _ hdef rfl (by simp) ?_ ?_ ?_ (Or.inl rfl)
    · intro _ hcf
      left
      have : ¬ S.gd p < -900 := by simpa using hcf
      rw [← hS.gd p this]
      exact fun e => c1.2 e.symm
    · intro q
      simp only [upd]
      by_cases hq : q = p
      · left; rw [if_pos hq]; omega
      · right; right; rw [if_neg hq]; exact ⟨rfl, fun e => absurd e hq⟩
    · intro q
      simp only [upd]
      by_cases hq : q = p
      · right; left; rw [if_pos hq]; exact ⟨hq, rfl⟩
      · right; right; rw [if_neg hq]; exact ⟨rfl, fun e => absurd e hq⟩
  rw [if_neg c1] at hdef
  by_cases c2 : (!n.grace && (decide (conc p ≠ 0) && decide (conc p = a) || decide (a ≠ S.d p))) = true
  · rw [if_pos c2] at hdef
    simp only [Bool.and_eq_true, Bool.or_eq_true, decide_eq_true_eq] at c2
    refine fin _ _ _ _ hdef rfl (by simp) ?_ ?_ ?_ (Or.inr ⟨rfl, rfl⟩)
    · intro _ hcf
      rcases c2.2 with h | h
      · exact Or.inr h
      · left
        have : ¬ S.d p < -900 := by simpa using hcf
        rw [← hS.d p this]
        exact fun e => h e.symm
    · intro q
      simp only [upd]
      by_cases hq : q = p
      · right; left; rw [if_pos hq]; exact ⟨hq, rfl⟩
      · right; right; rw [if_neg hq]; exact ⟨rfl, fun e => absurd e hq⟩
    · intro q
      simp only [upd]
      by_cases hq : q = p
      · right; left; rw [if_pos hq]; exact ⟨hq, rfl⟩
      · right; right; rw [if_neg hq]; exact ⟨rfl, fun e => absurd e hq⟩
  rw [if_neg c2] at hdef
  have hsame : R.force n.track p = a := by
    apply same
    · intro hg
      by_contra hne
      exact c1 (by simp [hg, hne])
    · intro hg
      by_contra hne
      exact c2 (by simp [hg, hne])
  have st : ∀ (v c : Bool), r = (v, c, conc, S) → (v = true → c = true) →
      NoteOK R earlier res ∧ AccAgree r.2.2.2 (R.seeRes res) n.track ∧ ConcOK r.2.2.1 n.track (earlier ++ [res]) := by
    intro v c hr hvc
    refine fin v c conc S hr rfl (fun _ => hsame) ?_ ?_ ?_ (Or.inl rfl)
    · intro h1 h2; rw [hvc h1] at h2; cases h2
    · intro q; exact stay S.d q (fun e => Or.inr (by rw [e]; exact hsame))
    · intro q; exact stay S.gd q (fun e => Or.inr (by rw [e]; exact hsame))
  by_cases c3 : (decide (a = 0) && t.contains 'n') = true
  · rw [if_pos c3] at hdef
    exact st _ _ hdef (fun _ => rfl)
  rw [if_neg c3] at hdef
  by_cases c4 : (!isInfix "XX".toList t && (isInfix "#X".toList t || isInfix "-X".toList t || isInfix "nX".toList t)) = true
  · rw [if_pos c4] at hdef
    exact st _ _ hdef (fun _ => rfl)
  rw [if_neg c4] at hdef
  exact st _ _ hdef (fun h => h)

/-- One note. -/
theorem accNote_ok (first : Bool) (S S' : AccSt) (R : Reader) (conc conc' : Nat → Int) (earlier : List AccRes) (n : AccNote) (o : Option AccOut)
    (hn : ReadableNote n) (hS : AccAgree S R n.track) (hc : ConcOK conc n.track earlier) (h : accNote first conc S n = .ok (o, conc', S')) :
    NoteOK R earlier (n, o) ∧ AccAgree S' (R.seeRes (n, o)) n.track ∧ ConcOK conc' n.track (earlier ++ [(n, o)]) := by
  have more : ∀ x, ConcOK conc n.track (earlier ++ [x]) := by
    intro x q hq
    obtain ⟨y, hy, hy2⟩ := hc q hq
    exact ⟨y, by simp [hy], hy2⟩
  unfold accNote at h
  simp only at h
  by_cases hneg : kernToBase7 n.text < 0
  · rw [if_pos hneg] at h
    cases h
    have hoff : onStaff n = false := by
      unfold onStaff
      have : ¬ 0 ≤ kernToDiatonicPC n.text := fun h0 => by have := hn.low h0; omega
      simp [this]
    refine ⟨⟨fun h => absurd (hoff.symm.trans h) (by decide), fun h => absurd (hoff.symm.trans h) (by decide)⟩, ?_, more _⟩
    unfold Reader.seeRes
    rw [hoff]
    exact hS
  · rw [if_neg hneg] at h
    have hpc : 0 ≤ kernToDiatonicPC n.text := base7_pc _ (by omega)
    have hon : onStaff n = true := by unfold onStaff; simp [hpc]; exact hn.seen
    obtain ⟨p, hp⟩ := Int.eq_ofNat_of_zero_le (by omega : 0 ≤ kernToBase7 n.text)
    have hp' : kernToBase7 n.text = (p : Int) := hp
    rw [hn.seen] at h
    simp only [Bool.false_eq_true, if_false] at h
    have t1 := replace_ny_contains '_' (by decide) (by decide) n.text
    have t2 := replace_ny_contains ']' (by decide) (by decide) n.text
    have orF := ornament_forced n hn hpc
    generalize replaceAll "ny".toList [] n.text = t at h t1 t2 orF
    rw [t1, t2] at h
    have hta : (n.text.contains '_' || n.text.contains ']') = tieArrives n := rfl
    rw [hta] at h
    generalize hforce : (tieArrives n && decide (kernToAccidentalCount n.text ≠ S.key (kernToBase7 n.text % 7).toNat) && first) = force at h
    split at h
    · cases h
    · set S1 : AccSt := if force then { S with d := upd S.d (kernToBase7 n.text).toNat (-1000 + kernToAccidentalCount n.text), gd := upd S.gd (kernToBase7 n.text).toNat (-1000 + kernToAccidentalCount n.text) } else S with hS1
      have hS1a : AccAgree S1 R n.track := by
        have ha := hn.acc
        apply agree_forced S S1 R n.track hS
        · rw [hS1]; split <;> rfl
        · intro q; rw [hS1]
          split
          · simp only [upd]
            by_cases hq : q = (kernToBase7 n.text).toNat
            · right; rw [if_pos hq]; omega
            · left; rw [if_neg hq]
          · exact Or.inl rfl
        · intro q; rw [hS1]
          split
          · simp only [upd]
            by_cases hq : q = (kernToBase7 n.text).toNat
            · right; rw [if_pos hq]; omega
            · left; rw [if_neg hq]
          · exact Or.inl rfl
      split at h
      · rename_i hsil
        simp only [Except.ok.injEq, Prod.mk.injEq] at h
        obtain ⟨h1, h2, h3⟩ := h
        subst h1 h2
        rw [← h3]
        simp only [Bool.and_eq_true] at hsil
        have htie : tieArrives n = true := hsil.1.1.1
        refine ⟨⟨?_, ?_⟩, ?_, more _⟩
        · intro _
          simp [seenNote, Reader.reads, htie]
        · intro _ hpl
          simp [plainAccidental] at hpl
        · have sf := see_force R (n, none) hon
          simp only [Option.any_none, Bool.false_eq_true, if_false] at sf
          exact ⟨fun i hi => by rw [sf.2]; exact hS1a.key i hi, fun q hq => by rw [sf.1]; exact hS1a.d q hq, fun q hq => by rw [sf.1]; exact hS1a.gd q hq⟩
      · cases ho : ornament t (kernToBase40 n.text) S1.d with
        | error e => rw [ho] at h; cases h
        | ok x =>
          obtain ⟨orn, d⟩ := x
          rw [ho] at h
          simp only at h
          cases hi : pyIndex 70 (kernToBase7 n.text) with
          | none => rw [hi] at h; cases h
          | some p' =>
            rw [hi] at h
            have hpp : p' = p := by
              unfold pyIndex at hi
              split at hi
              · cases hi; omega
              · split at hi
                · omega
                · cases hi
            subst hpp
            simp only at h
            have hS2 : AccAgree { S1 with d := d } R n.track :=
              agree_forced S1 _ R n.track hS1a rfl (fun q => orF S1.d d orn ho q) (fun q => Or.inl rfl)
            have := accDecide_ok { S1 with d := d } R conc earlier n t p' orn hn hp' hS2 hc
            cases h
            exact this

/-! ### Lines -/

/-- The claims for the notes of a line in turn. -/
def AllOK : Reader → List AccRes → List AccRes → Prop
  | _, _, [] => True
  | R, earlier, r :: rs => NoteOK R earlier r ∧ AllOK (R.seeRes r) (earlier ++ [r]) rs

def seeAll (R : Reader) (rs : List AccRes) : Reader := rs.foldl Reader.seeRes R

theorem allOK_append (R : Reader) (e a b : List AccRes) : AllOK R e (a ++ b) ↔ AllOK R e a ∧ AllOK (seeAll R a) (e ++ a) b := by
  induction a generalizing R e with
  | nil => simp [AllOK, seeAll]
  | cons r a ih =>
    simp only [List.cons_append, AllOK, ih]
    rw [show e ++ r :: a = e ++ [r] ++ a by simp]
    simp only [seeAll, List.foldl_cons, and_assoc]

/-- Other staves are not touched. -/
theorem seeRes_other (R : Reader) (r : AccRes) (s : Nat) (h : s ≠ r.1.track) :
    (R.seeRes r).force s = R.force s ∧ (R.seeRes r).key s = R.key s := by
  unfold Reader.seeRes
  split
  · unfold seenNote
    cases r.2.any (·.visual) <;> simp [Reader.see, h]
  · exact ⟨rfl, rfl⟩

theorem AccAgree.other {S : AccSt} {R R' : Reader} {s : Nat} (h : AccAgree S R s) (h1 : R'.force s = R.force s) (h2 : R'.key s = R.key s) :
    AccAgree S R' s :=
  ⟨fun i hi => by rw [h2]; exact h.key i hi, fun p hp => by rw [h1]; exact h.d p hp, fun p hp => by rw [h1]; exact h.gd p hp⟩

theorem accNotes_ok (first : Bool) (track : Nat) (ns : List AccNote) (conc conc' : Nat → Int) (S S' : AccSt) (R : Reader) (earlier rs : List AccRes)
    (hn : ∀ n ∈ ns, ReadableNote n ∧ n.track = track) (hS : AccAgree S R track) (hc : ConcOK conc track earlier)
    (h : accNotes first ns conc S = .ok (rs, conc', S')) :
    AllOK R earlier rs ∧ AccAgree S' (seeAll R rs) track ∧ ConcOK conc' track (earlier ++ rs) ∧ rs.map (·.1) = ns := by
  induction ns generalizing conc S R earlier rs with
  | nil =>
    simp only [accNotes] at h
    cases h
    exact ⟨trivial, hS, by simpa using hc, rfl⟩
  | cons n ns ih =>
    obtain ⟨hr, rfl⟩ := hn n (by simp)
    simp only [accNotes] at h
    cases h1 : accNote first conc S n with
    | error e => rw [h1] at h; cases h
    | ok x =>
      obtain ⟨o, conc1, S1⟩ := x
      rw [h1] at h
      simp only at h
      cases h2 : accNotes first ns conc1 S1 with
      | error e => rw [h2] at h; cases h
      | ok x =>
        obtain ⟨rs2, conc2, S2⟩ := x
        rw [h2] at h
        cases h
        obtain ⟨a1, a2, a3⟩ := accNote_ok first S S1 R conc conc1 earlier n o hr hS hc h1
        obtain ⟨b1, b2, b3, b4⟩ := ih conc1 S1 (R.seeRes (n, o)) (earlier ++ [(n, o)]) rs2 (fun m hm => hn m (by simp [hm])) a2 a3 h2
        refine ⟨⟨a1, b1⟩, b2, ?_, by simp [b4]⟩
        rw [show earlier ++ (n, o) :: rs2 = earlier ++ [(n, o)] ++ rs2 by simp]
        exact b3

theorem notes_track (t : AccTok) : ∀ n ∈ t.notes, n.track = t.track := by
  intro n hn
  unfold AccTok.notes at hn
  split at hn
  · cases hn
  · obtain ⟨x, _, rfl⟩ := List.mem_map.mp hn
    rfl

theorem seeAll_other (R : Reader) (rs : List AccRes) (s : Nat) (h : ∀ r ∈ rs, s ≠ r.1.track) :
    (seeAll R rs).force s = R.force s ∧ (seeAll R rs).key s = R.key s := by
  induction rs generalizing R with
  | nil => exact ⟨rfl, rfl⟩
  | cons r rs ih =>
    have := ih (R.seeRes r) (fun q hq => h q (by simp [hq]))
    have h1 := seeRes_other R r s (h r (by simp))
    simp only [seeAll, List.foldl_cons] at this ⊢
    exact ⟨this.1.trans h1.1, this.2.trans h1.2⟩

def FileAgree (F : AccFile) (R : Reader) : Prop := ∀ s, AccAgree (F.st s) R s

theorem accToks_ok (ts : List AccTok) (last : Option Nat) (conc : Nat → Int) (F F' : AccFile) (R : Reader) (earlier rs : List AccRes)
    (hn : ∀ t ∈ ts, ∀ n ∈ t.notes, ReadableNote n) (hF : FileAgree F R) (hc : ∀ s, last = some s → ConcOK conc s earlier)
    (h : accToks ts last conc F = .ok (rs, F')) : AllOK R earlier rs ∧ FileAgree F' (seeAll R rs) := by
  induction ts generalizing last conc F R earlier rs with
  | nil =>
    simp only [accToks] at h
    cases h
    exact ⟨trivial, hF⟩
  | cons t ts ih =>
    simp only [accToks] at h
    split at h
    · exact ih last conc F R earlier rs (fun t' ht' => hn t' (by simp [ht'])) hF hc h
    · have hconc : ConcOK (if last ≠ some t.track then fun _ => 0 else conc) t.track earlier := by
        split
        · intro p hp; exact absurd rfl hp
        · rename_i hl
          exact hc t.track (by simpa using hl)
      generalize hcn : (if last ≠ some t.track then fun _ => (0 : Int) else conc) = cn at h hconc
      cases h1 : accNotes F.first t.notes cn (F.st t.track) with
      | error e => rw [h1] at h; cases h
      | ok x =>
        obtain ⟨rs1, conc1, S1⟩ := x
        rw [h1] at h
        simp only at h
        cases h2 : accToks ts (some t.track) conc1 (F.set t.track S1) with
        | error e => rw [h2] at h; cases h
        | ok x =>
          obtain ⟨rs2, F2⟩ := x
          rw [h2] at h
          cases h
          obtain ⟨a1, a2, a3, a4⟩ := accNotes_ok F.first t.track t.notes cn conc1 (F.st t.track) S1 R earlier rs1
            (fun n hn' => ⟨hn t (by simp) n hn', notes_track t n hn'⟩) (hF t.track) hconc h1
          have hF1 : FileAgree (F.set t.track S1) (seeAll R rs1) := by
            intro s
            unfold AccFile.set
            by_cases hs : s = t.track
            · subst hs; simpa using a2
            · simp only [hs, if_false]
              have := seeAll_other R rs1 s (by
                intro r hr
                have : r.1 ∈ t.notes := by rw [← a4]; exact List.mem_map.mpr ⟨r, hr, rfl⟩
                rw [notes_track t _ this]; exact hs)
              exact (hF s).other this.1 this.2
          obtain ⟨b1, b2⟩ := ih (some t.track) conc1 (F.set t.track S1) (seeAll R rs1) (earlier ++ rs1) rs2
            (fun t' ht' => hn t' (by simp [ht'])) hF1 (fun s hs => by cases hs; exact a3) h2
          refine ⟨(allOK_append R earlier rs1 rs2).mpr ⟨a1, b1⟩, ?_⟩
          unfold seeAll at b2 ⊢
          rw [List.foldl_append]; exact b2

/-! ### Events of a line -/

theorem line_events (R : Reader) (earlier rs : List AccRes) (toks : List AccTok) (h : AllOK R earlier rs) :
    readings R (seenLine (.data toks) rs) = meant (.data toks) rs ∧
    (seenLine (.data toks) rs).foldl Reader.see R = seeAll R rs ∧
    (∀ k : Nat, (plainMarks earlier rs)[k]? = some true → ∃ f a, (forces R (seenLine (.data toks) rs))[k]? = some f ∧
      (meant (.data toks) rs)[k]? = some (some a) ∧ f ≠ a) := by
  induction rs generalizing R earlier with
  | nil => exact ⟨rfl, rfl, fun k h => by simp [plainMarks] at h⟩
  | cons r rs ih =>
    obtain ⟨h1, h2⟩ := h
    obtain ⟨i1, i2, i3⟩ := ih (R.seeRes r) (earlier ++ [r]) h2
    simp only [seenLine, meant, List.filter_cons] at i1 i2 i3 ⊢
    by_cases hs : onStaff r.1 = true
    · have es : R.seeRes r = R.see (seenNote r) := by unfold Reader.seeRes; rw [if_pos hs]
      rw [es] at i1 i2 i3
      simp only [hs, if_true, List.map_cons, readings, List.foldl_cons, plainMarks, forces]
      refine ⟨?_, ?_, ?_⟩
      · rw [h1.reads hs, i1]
      · rw [i2]; simp only [seeAll, List.foldl_cons, es]
      · intro k hk
        cases k with
        | zero =>
          simp only [List.getElem?_cons_zero, Option.some.injEq, Bool.and_eq_true, Bool.not_eq_true'] at hk
          refine ⟨_, _, rfl, ?_, h1.needed hs hk.1 hk.2⟩
          have hv : r.2.any (·.visual) = true := by
            have := hk.1
            unfold plainAccidental at this
            cases hr : r.2 with
            | none => rw [hr] at this; simp at this
            | some o => rw [hr] at this; simp at this ⊢; exact this.1.1.1
          simp [hv]
        | succ k =>
          simp only [List.getElem?_cons_succ] at hk ⊢
          exact i3 k hk
    · have es : R.seeRes r = R := by unfold Reader.seeRes; rw [if_neg hs]
      rw [es] at i1 i2 i3
      simp only [hs, plainMarks, Bool.false_eq_true, if_false]
      refine ⟨i1, ?_, i3⟩
      rw [i2]; simp only [seeAll, List.foldl_cons, es]

theorem readings_append (R : Reader) (a b : List SeenEvent) : readings R (a ++ b) = readings R a ++ readings (a.foldl Reader.see R) b := by
  induction a generalizing R with
  | nil => rfl
  | cons x a ih => simp [readings, ih]

theorem forces_append (R : Reader) (a b : List SeenEvent) : forces R (a ++ b) = forces R a ++ forces (a.foldl Reader.see R) b := by
  induction a generalizing R with
  | nil => rfl
  | cons x a ih => simp [forces, ih]

theorem forces_length (R : Reader) (a : List SeenEvent) : (forces R a).length = a.length := by
  induction a generalizing R with
  | nil => rfl
  | cons x a ih => simp [forces, ih]

theorem readings_length (R : Reader) (a : List SeenEvent) : (readings R a).length = a.length := by
  induction a generalizing R with
  | nil => rfl
  | cons x a ih => simp [readings, ih]

theorem keys_agree (toks : List (Nat × Str)) (F : AccFile) (R : Reader) (h : FileAgree F R) (rs : List AccRes) :
    FileAgree (accInterp toks F) ((seenLine (.interp toks) rs).foldl Reader.see R) ∧
    readings R (seenLine (.interp toks) rs) = meant (.interp toks) rs := by
  induction toks generalizing F R with
  | nil => exact ⟨h, rfl⟩
  | cons t toks ih =>
    unfold accInterp at ih ⊢
    simp only [seenLine, meant, List.filter_cons, List.foldl_cons] at ih ⊢
    by_cases hk : startsWith t.2 "*k[".toList = true
    · simp only [hk, if_true, List.map_cons, List.foldl_cons, readings]
      have h' : FileAgree (F.set t.1 ({ F.st t.1 with key := fillKeySignature t.2 }).reset) (R.see (.key t.1 t.2)) := by
        intro s
        unfold AccFile.set
        by_cases hs : s = t.1
        · subst hs
          simp only [if_true]
          refine ⟨?_, ?_, ?_⟩
          · intro i hi
            simp only [AccSt.reset, Reader.see, if_true]
            exact fillKeySignature_spec t.2 i hi
          · intro p _
            simp only [AccSt.reset, Reader.see, if_true]
            rw [fillKeySignature_spec t.2 _ (Nat.mod_lt _ (by decide))]
            congr 1
          · intro p _
            simp only [AccSt.reset, Reader.see, if_true]
            rw [fillKeySignature_spec t.2 _ (Nat.mod_lt _ (by decide))]
            congr 1
        · simp only [hs, if_false]
          exact (h s).other (by funext p; simp [Reader.see, hs]) (by simp [Reader.see, hs])
      have := ih _ _ h'
      exact ⟨this.1, by rw [this.2]; rfl⟩
    · simp only [hk, Bool.false_eq_true, if_false]
      exact ih F R h

theorem bars_agree (toks : List (Nat × Str)) (F : AccFile) (R : Reader) (h : FileAgree F R) (rs : List AccRes) :
    FileAgree (accBar toks F) ((seenLine (.bar toks) rs).foldl Reader.see R) ∧
    readings R (seenLine (.bar toks) rs) = meant (.bar toks) rs := by
  induction toks generalizing F R with
  | nil => exact ⟨h, rfl⟩
  | cons t toks ih =>
    unfold accBar at ih ⊢
    simp only [seenLine, meant, List.filter_cons, List.foldl_cons] at ih ⊢
    by_cases hk : t.2.contains '-' = true
    · simp only [hk, if_true, Bool.not_true, Bool.false_eq_true, if_false]
      exact ih F R h
    · have hk' : t.2.contains '-' = false := by simpa using hk
      simp only [hk', Bool.not_false, if_true, Bool.false_eq_true, if_false, List.map_cons, List.foldl_cons, readings]
      have h' : FileAgree { F.set t.1 (F.st t.1).reset with first := true } (R.see (.bar t.1)) := by
        intro s
        unfold AccFile.set
        by_cases hs : s = t.1
        · subst hs
          have hk7 : ∀ p : Nat, (F.st t.1).key (p % 7) = R.key t.1 ((p : Int) % 7).toNat := by
            intro p
            rw [(h t.1).key _ (Nat.mod_lt _ (by decide))]
            congr 1
          simp only [if_true]
          refine ⟨?_, ?_, ?_⟩
          · intro i hi; exact (h t.1).key i hi
          · intro p _; simp only [AccSt.reset, Reader.see, if_true]; exact hk7 p
          · intro p _; simp only [AccSt.reset, Reader.see, if_true]; exact hk7 p
        · simp only [hs, if_false]
          exact (h s).other (by funext p; simp [Reader.see, hs]) rfl
      have := ih _ _ h'
      exact ⟨this.1, by rw [this.2]; rfl⟩

theorem plain_none {α : Type} (l : List α) (k : Nat) (h : (l.map (fun _ => false))[k]? = some true) : False := by
  rw [List.getElem?_map] at h
  cases hx : l[k]? <;> rw [hx] at h <;> simp at h

theorem meant_length (l : AccLine) (rs : List AccRes) : (meant l rs).length = (seenLine l rs).length := by
  cases l <;> simp [meant, seenLine]

theorem plainMarks_length (e rs : List AccRes) : (plainMarks e rs).length = (rs.filter (fun r => onStaff r.1)).length := by
  induction rs generalizing e with
  | nil => rfl
  | cons r rs ih =>
    simp only [plainMarks, List.filter_cons]
    split <;> simp [ih]

theorem plainLine_length (l : AccLine) (rs : List AccRes) : (plainLine l rs).length = (seenLine l rs).length := by
  cases l <;> simp [plainLine, seenLine, plainMarks_length]

theorem accLine_ok (l : AccLine) (F F' : AccFile) (R : Reader) (rs : List AccRes)
    (hn : ∀ toks, l = .data toks → ∀ t ∈ toks, ∀ n ∈ t.notes, ReadableNote n) (hF : FileAgree F R) (h : accLine l F = .ok (rs, F')) :
    FileAgree F' ((seenLine l rs).foldl Reader.see R) ∧ readings R (seenLine l rs) = meant l rs ∧
    (∀ k : Nat, (plainLine l rs)[k]? = some true → ∃ f a, (forces R (seenLine l rs))[k]? = some f ∧ (meant l rs)[k]? = some (some a) ∧ f ≠ a) := by
  cases l with
  | interp toks =>
    simp only [accLine] at h
    cases h
    exact ⟨(keys_agree toks F R hF []).1, (keys_agree toks F R hF []).2, fun k hk => (plain_none _ k hk).elim⟩
  | bar toks =>
    simp only [accLine] at h
    cases h
    exact ⟨(bars_agree toks F R hF []).1, (bars_agree toks F R hF []).2, fun k hk => (plain_none _ k hk).elim⟩
  | other =>
    simp only [accLine] at h
    cases h
    exact ⟨hF, rfl, fun k hk => by simp [plainLine] at hk⟩
  | data toks =>
    simp only [accLine] at h
    cases h1 : accToks toks none (fun _ => 0) F with
    | error e => rw [h1] at h; cases h
    | ok x =>
      obtain ⟨rs', F1⟩ := x
      rw [h1] at h
      cases h
      obtain ⟨a1, a2⟩ := accToks_ok toks none (fun _ => 0) F F1 R [] _ (hn toks rfl) hF (fun s hs => by cases hs) h1
      obtain ⟨b1, b2, b3⟩ := line_events R [] _ toks a1
      refine ⟨?_, b1, b3⟩
      rw [b2]
      exact a2

/-- C29. Whatever the sequence of notes, barlines and key signatures on however many staves: a reader who sees only key signatures, barlines, staff
positions and printed accidentals recovers the alteration of every note (of a note without printed accidental at which a tie arrives,
from the note tied to it), and no accidental is printed where the alteration is in force already, unless it is cautionary or the same
accidental is printed for another voice at the same place and time. For notes within `ReadableNote`. -/
theorem accidentals_read_back_partial (lines : List AccLine) (rss : List (List AccRes)) (F' : AccFile)
    (hn : ∀ toks, AccLine.data toks ∈ lines → ∀ t ∈ toks, ∀ n ∈ t.notes, ReadableNote n)
    (h : accLines lines AccFile.init = .ok (rss, F')) :
    let events := (List.zipWith seenLine lines rss).flatten
    readings Reader.start events = (List.zipWith meant lines rss).flatten ∧
    ∀ k : Nat, ((List.zipWith plainLine lines rss).flatten)[k]? = some true →
      ∃ f a, (forces Reader.start events)[k]? = some f ∧ ((List.zipWith meant lines rss).flatten)[k]? = some (some a) ∧ f ≠ a := by
  have hinit : FileAgree AccFile.init Reader.start := fun s => ⟨fun i _ => rfl, fun p _ => rfl, fun p _ => rfl⟩
  generalize AccFile.init = F at h hinit
  generalize Reader.start = R at hinit
  induction lines generalizing F R rss with
  | nil =>
    simp only [accLines] at h
    cases h
    exact ⟨rfl, fun k hk => by simp at hk⟩
  | cons l lines ih =>
    simp only [accLines] at h
    cases h1 : accLine l F with
    | error e => rw [h1] at h; cases h
    | ok x =>
      obtain ⟨rs, F1⟩ := x
      rw [h1] at h
      simp only at h
      cases h2 : accLines lines F1 with
      | error e => rw [h2] at h; cases h
      | ok x =>
        obtain ⟨rss2, F2⟩ := x
        rw [h2] at h
        cases h
        obtain ⟨a1, a2, a3⟩ := accLine_ok l F F1 R rs (fun toks ht => hn toks (by simp [ht])) hinit h1
        obtain ⟨b1, b2⟩ := ih rss2 (fun toks ht => hn toks (by simp [ht])) F1 h2 _ a1
        simp only [List.zipWith_cons_cons, List.flatten_cons] at b1 b2 ⊢
        refine ⟨by rw [readings_append, a2, b1], ?_⟩
        intro k hk
        rw [forces_append]
        have e1 : (plainLine l rs).length = (seenLine l rs).length := plainLine_length l rs
        have e2 : (meant l rs).length = (seenLine l rs).length := meant_length l rs
        have e3 : (forces R (seenLine l rs)).length = (seenLine l rs).length := forces_length R _
        by_cases hlt : k < (seenLine l rs).length
        · rw [List.getElem?_append_left (by omega)] at hk ⊢
          rw [List.getElem?_append_left (by omega)]
          exact a3 k hk
        · rw [List.getElem?_append_right (by omega)] at hk ⊢
          rw [List.getElem?_append_right (by omega)]
          rw [e1] at hk
          rw [e2, e3]
          exact b2 _ hk

/-- A token with nothing special. -/
def plainTok (track : Nat) (text : String) : AccTok := ⟨track, text.toList, fun _ => false, fun _ => none⟩

/-- A sample file on two staves. -/
def accSample : List AccLine :=
  [.interp [(1, "*k[f#]".toList), (2, "*k[]".toList)], .data [plainTok 1 "4f#", plainTok 2 "[2c#"], .data [plainTok 1 "4f 4ddT"],
   .bar [(1, "=2".toList), (2, "=2".toList)], .data [plainTok 1 "4f#", plainTok 2 "2c#]"], .data [plainTok 1 "8qg#", plainTok 2 "."],
   .data [plainTok 1 "4g", plainTok 2 "4c#"], .data [plainTok 1 "4gn", plainTok 2 "4c#"]]

def accVisuals (rss : List (List AccRes)) : List (List (Bool × Bool)) :=
  rss.map (fun rs => rs.map (fun r => (r.2.any (·.visual), r.2.any (·.caution))))

theorem acc_sample :
    (accLines accSample AccFile.init).map (fun p => accVisuals p.1) =
      .ok [[], [(false, false), (true, false)], [(true, false), (false, false)], [], [(false, false), (false, false)], [(true, false)],
        [(true, true), (true, true)], [(true, true), (false, false)]] := by
  decide +kernel

/-- The sample meets the hypotheses. -/
theorem acc_sample_readable : ∀ toks, AccLine.data toks ∈ accSample → ∀ t ∈ toks, ∀ n ∈ t.notes, ReadableNote n := by
  have key : ∀ t ∈ [plainTok 1 "4f#", plainTok 2 "[2c#", plainTok 1 "4f 4ddT", plainTok 2 "2c#]", plainTok 1 "8qg#", plainTok 2 ".", plainTok 1 "4g",
      plainTok 2 "4c#", plainTok 1 "4gn"], ∀ n ∈ t.notes,
      ((-99 ≤ kernToAccidentalCount n.text ∧ kernToAccidentalCount n.text ≤ 99) ∧ isInfix "yy".toList n.text = false ∧
        (n.text.contains '$' = false ∧ n.text.contains 'S' = false) ∧ (-1 ≤ kernToAccidentalCount n.text ∧ kernToAccidentalCount n.text ≤ 1) ∧
        0 ≤ kernToBase7 n.text ∧ n.layout ≠ some false) := by
    decide +kernel
  intro toks ht t hmem n hn
  have ht' : t ∈ [plainTok 1 "4f#", plainTok 2 "[2c#", plainTok 1 "4f 4ddT", plainTok 2 "2c#]", plainTok 1 "8qg#", plainTok 2 ".", plainTok 1 "4g",
      plainTok 2 "4c#", plainTok 1 "4gn"] := by
    simp only [accSample, List.mem_cons, AccLine.data.injEq, reduceCtorEq, List.not_mem_nil, false_or, or_false] at ht
    rcases ht with rfl | rfl | rfl | rfl | rfl | rfl <;> simp only [List.mem_cons, List.not_mem_nil, or_false] at hmem ⊢ <;> tauto
  obtain ⟨h1, h2, h3, h4, h5, h6⟩ := key t ht' n hn
  exact ⟨h1, h2, h3, fun _ => h4, fun _ => h5, h6⟩

/-- False with a turn: the f sharp of the turn makes the analysis drop the sharp of the next note. -/
theorem acc_turn_wrong :
    (accLines [.data [plainTok 1 "4eSSs"], .data [plainTok 1 "4f#"]] AccFile.init).map (fun p => accVisuals p.1) =
      .ok [[(false, false)], [(false, false)]] := by
  decide +kernel

/-- False after a hidden note: the sharp goes to the note nobody sees. -/
theorem acc_hidden_wrong :
    (accLines [.data [plainTok 1 "4f#yy"], .data [plainTok 1 "4f#"]] AccFile.init).map (fun p => accVisuals p.1) =
      .ok [[(true, false)], [(false, false)]] := by
  decide +kernel

/-- A chord in which one note is marked as not sounding (`r`) is taken for a rest: none of its accidentals is recorded. -/
theorem acc_chord_with_rest_skipped (track : Nat) (text : Str) (h : 'r' ∈ text) (e : Nat → Bool) (l : Nat → Option Bool) :
    AccTok.notes ⟨track, text, e, l⟩ = [] := by
  unfold AccTok.notes isRestText
  simp [h]

/-- A note below C0 never gets an accidental; one above B9 makes the analysis fail. -/
theorem acc_range_wrong (first : Bool) (conc : Nat → Int) (S : AccSt) :
    accNote first conc S ⟨1, "4CCCCC#".toList, false, false, none⟩ = .ok (none, conc, S) ∧
    accNote first conc S ⟨1, "4ccccccc".toList, false, false, none⟩ = .error .indexError := ⟨rfl, rfl⟩

end C21
