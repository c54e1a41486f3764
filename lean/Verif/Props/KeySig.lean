import Verif.Spec.KeySig
import Verif.Spec.Accidental
import Verif.Lemmas.Tac
/-
C50: key signatures.
-/
namespace C21

theorem sharps_cases (n : Int) (h : -14 ≤ n ∧ n ≤ 14) : n ∈ (List.range 29).map (fun i : Nat => (i : Int) - 14) := by
  rw [List.mem_map]
  exact ⟨(n + 14).toNat, List.mem_range.2 (by omega), by omega⟩

/-- C50. A signature of up to seven sharps or flats is read back. -/
theorem signature_roundtrip_partial (n : Int) (h : -7 ≤ n ∧ n ≤ 7) :
    ∃ t, keySigToken n = .ok t ∧ readKeySig t none = .ok (.sharps n) := by
  have hall : ∀ n ∈ (List.range 29).map (fun i : Nat => (i : Int) - 14), -7 ≤ n ∧ n ≤ 7 →
      ((keySigToken n).toOption.map (fun t => readKeySig t none)) = some (.ok (.sharps n)) := by decide +kernel
  have := hall n (sharps_cases n (by omega)) h
  cases hk : keySigToken n with
  | error e => rw [hk] at this; cases this
  | ok t =>
    rw [hk] at this
    exact ⟨t, rfl, by injection this⟩

/-- C50 fails for more than seven: the signature is written but read as nothing. -/
theorem big_signature_lost (n : Int) (h : (8 ≤ n ∧ n ≤ 14) ∨ (-14 ≤ n ∧ n ≤ -8)) :
    ∃ t, keySigToken n = .ok t ∧ readKeySig t none = .ok .none := by
  have hall : ∀ n ∈ (List.range 29).map (fun i : Nat => (i : Int) - 14), (8 ≤ n ∧ n ≤ 14) ∨ (-14 ≤ n ∧ n ≤ -8) →
      ((keySigToken n).toOption.map (fun t => readKeySig t none)) = some (.ok .none) := by decide +kernel
  have := hall n (sharps_cases n (by omega)) h
  cases hk : keySigToken n with
  | error e => rw [hk] at this; cases this
  | ok t =>
    rw [hk] at this
    exact ⟨t, rfl, by injection this⟩

/-- Beyond fourteen the export fails. -/
theorem huge_signature_fails (n : Int) (h : n < -14 ∨ 14 < n) : keySigToken n = .error .keyError := by
  have hall : ∀ e ∈ sharpsToText, -14 ≤ e.1 ∧ e.1 ≤ 14 := by decide +kernel
  unfold keySigToken
  have : sharpsToText.find? (fun e => decide (e.1 = n)) = none := by
    rw [List.find?_eq_none]
    intro e he
    have := hall e he
    simp only [decide_eq_true_eq]
    omega
  rw [this]

/-- The written text alters the steps as the circle of fifths says. -/
theorem signature_text_right (n : Int) (h : -14 ≤ n ∧ n ≤ 14) :
    ∃ t, keySigToken n = .ok ("*k[".toList ++ t ++ "]".toList) ∧
      ∀ i c, fifths[i]? = some c → textAlter c t = fifthsAlter n i := by
  have hall : ∀ n ∈ (List.range 29).map (fun i : Nat => (i : Int) - 14), ∃ e ∈ sharpsToText,
      sharpsToText.find? (fun e => e.1 = n) = some e ∧ ∀ i ∈ List.range 7, ∀ c ∈ fifths, fifths[i]? = some c →
        textAlter c e.2.toList = fifthsAlter n i := by decide +kernel
  obtain ⟨e, _, he, hr⟩ := hall n (sharps_cases n h)
  refine ⟨e.2.toList, ?_, ?_⟩
  · unfold keySigToken
    rw [he]
  · intro i c hc
    have hi : i < 7 := (List.getElem?_eq_some_iff.1 hc).1
    exact hr i (List.mem_range.2 hi) c (List.mem_of_getElem? hc) hc

/-- The accidentals analysis (C29) sees the same alterations, up to seven sharps or flats. -/
theorem signature_seen_right (n : Int) (h : -7 ≤ n ∧ n ≤ 7) :
    ∃ t, keySigToken n = .ok t ∧ ∀ i, i < 7 → ∃ place, fifths[place]? = "cdefgab".toList[i]? ∧ keyAlter t i = fifthsAlter n place := by
  have hall : ∀ n ∈ (List.range 29).map (fun i : Nat => (i : Int) - 14), -7 ≤ n ∧ n ≤ 7 → ∃ e ∈ sharpsToText,
      keySigToken n = .ok ("*k[".toList ++ e.2.toList ++ "]".toList) ∧ ∀ i ∈ List.range 7, ∃ place ∈ List.range 7,
        fifths[place]? = "cdefgab".toList[i]? ∧ keyAlter ("*k[".toList ++ e.2.toList ++ "]".toList) i = fifthsAlter n place := by
    decide +kernel
  obtain ⟨e, _, he, hr⟩ := hall n (sharps_cases n (by omega)) h
  refine ⟨_, he, fun i hi => ?_⟩
  obtain ⟨pl, _, h1⟩ := hr i (List.mem_range.2 hi)
  exact ⟨pl, h1⟩

/-! ### Other signatures -/

theorem toUpper_not_lower (c : Char) : c.toUpper ∉ "abcdefg".toList := by
  intro h
  have h : c.toUpper = 'a' ∨ c.toUpper = 'b' ∨ c.toUpper = 'c' ∨ c.toUpper = 'd' ∨ c.toUpper = 'e' ∨ c.toUpper = 'f' ∨
      c.toUpper = 'g' := by simpa using h
  have hn : 97 ≤ c.toUpper.toNat ∧ c.toUpper.toNat ≤ 103 := by
    rcases h with h | h | h | h | h | h | h <;> rw [h] <;> decide
  unfold Char.toUpper at hn
  split at hn
  · rename_i hc
    have h1 : c.val ≥ 97 ∧ c.val ≤ 122 := hc
    have h2 : c.val.toNat ≤ 122 := h1.2
    have h3 : 97 ≤ c.val.toNat := h1.1
    have h4 : (c.val + ('A'.val - 'a'.val)).toNat = c.val.toNat - 32 := by
      rw [UInt32.toNat_add]
      have : ('A'.val - 'a'.val).toNat = 4294967264 := by decide
      rw [this]
      omega
    have h5 : 97 ≤ (c.val + ('A'.val - 'a'.val)).toNat := hn.1
    omega
  · rename_i hc
    apply hc
    exact ⟨hn.1, le_trans hn.2 (by decide)⟩

/-- A signature that is not standard is never read: with no key designation nothing is made of it. -/
theorem nonstandard_always_lost (t : Str) (h : ∀ e ∈ textToSharps, e.1.toList ≠ withoutNaturals (keySignature t)) :
    readKeySig t none = .ok .none := by
  unfold readKeySig
  have hf : textToSharps.find? (fun e => decide (e.1.toList = withoutNaturals (keySignature t))) = none := by
    rw [List.find?_eq_none]
    intro e he
    simpa using h e he
  rw [hf]
  dsimp only
  rw [if_pos]
  · rfl
  · rw [List.any_eq_true]
    have hne : withoutNaturals (keySignature t) ≠ [] := by
      intro e
      exact h ("", 0) List.mem_cons_self (by rw [e]; rfl)
    cases hw : withoutNaturals (keySignature t) with
    | nil => exact absurd hw hne
    | cons a l =>
      cases l with
      | nil => exact ⟨[a], by rw [twoByTwo]; exact List.mem_singleton.2 rfl, by
          simpa using toUpper_not_lower a⟩
      | cons b l => exact ⟨[a, b], by rw [twoByTwo]; exact List.mem_cons_self, by
          simpa using toUpper_not_lower a⟩

/-- C50 fails for `*k[f#b-]`, which has two altered pitches. -/
theorem nonstandard_lost : readKeySig "*k[f#b-]".toList none = .ok .none := by decide +kernel

/-! ### Naturals -/

theorem replace_skip (c : Char) (m rest : Str) (hm : ∀ x ∈ m, x ≠ c) :
    replaceGo [c, 'n'] [] 0 (m ++ rest) = m ++ replaceGo [c, 'n'] [] 0 rest := by
  induction m with
  | nil => rfl
  | cons a m ih =>
    have ha : a ≠ c := hm a List.mem_cons_self
    rw [List.cons_append, replaceGo, if_neg, ih (fun x hx => hm x (List.mem_cons_of_mem _ hx))]
    · rfl
    · simp [Ne.symm ha]

theorem step_not_mark {c : Char} (hc : c ∈ "abcdefg".toList) : c ≠ '#' ∧ c ≠ '-' ∧ c ≠ 'n' := by
  have : ∀ c ∈ "abcdefg".toList, c ≠ '#' ∧ c ≠ '-' ∧ c ≠ 'n' := by decide
  exact this c hc

/-- No natural sign follows directly. -/
theorem entries_head (l : List KeyEntry) (hl : ∀ e ∈ l, e.Valid) : (entriesText l).head? ≠ some 'n' := by
  cases l with
  | nil => simp [entriesText]
  | cons e l =>
    have := (step_not_mark (hl e List.mem_cons_self).1).2.2
    unfold entriesText KeyEntry.text
    simpa using this

theorem replace_entries (c : Char) (hc : c ∈ "abcdefg".toList) (l : List KeyEntry) (hl : ∀ e ∈ l, e.Valid) :
    replaceAll [c, 'n'] [] (entriesText l) = entriesText (l.filter (fun e => !(e.natural && e.step = c))) := by
  unfold replaceAll
  have hcm := step_not_mark hc
  induction l with
  | nil => rfl
  | cons e l ih =>
    have hl' : ∀ e ∈ l, e.Valid := fun x hx => hl x (List.mem_cons_of_mem _ hx)
    have hv := hl e List.mem_cons_self
    have hem := step_not_mark hv.1
    have hcons : entriesText (e :: l) = e.step :: ((if e.natural then ['n'] else e.marks) ++ entriesText l) := by
      unfold entriesText KeyEntry.text
      simp
    have hmarks : ∀ x ∈ (if e.natural then ['n'] else e.marks), x ≠ c := by
      intro x hx
      cases hnat : e.natural with
      | true =>
        rw [hnat, if_pos rfl, List.mem_singleton] at hx
        rw [hx]
        exact Ne.symm hcm.2.2
      | false =>
        rw [hnat, if_neg (by simp)] at hx
        rcases hv.2 x hx with rfl | rfl
        · exact Ne.symm hcm.1
        · exact Ne.symm hcm.2.1
    by_cases hhit : e.natural = true ∧ e.step = c
    · obtain ⟨hnat, hst⟩ := hhit
      rw [List.filter_cons_of_neg (by simp [hnat, hst]), ← ih hl', hcons, hnat, if_pos rfl, hst]
      rw [List.singleton_append, replaceGo, if_pos (by simp)]
      rfl
    · rw [List.filter_cons_of_pos (by
        cases hnat : e.natural with
        | false => simp
        | true => simpa [hnat] using hhit)]
      have hskip := replace_skip c _ (entriesText l) hmarks
      have hout : entriesText (e :: l.filter (fun e => !(e.natural && e.step = c))) =
          e.step :: ((if e.natural then ['n'] else e.marks) ++ entriesText (l.filter (fun e => !(e.natural && e.step = c)))) := by
        unfold entriesText KeyEntry.text
        simp
      rw [hcons, hout, ← ih hl', ← hskip, replaceGo, if_neg]
      by_cases hst : e.step = c
      · have hnat : e.natural = false := by
          cases hn : e.natural with
          | false => rfl
          | true => exact absurd ⟨hn, hst⟩ hhit
        rw [hnat, if_neg (by simp)]
        cases hmk : e.marks with
        | nil =>
          rw [List.nil_append]
          have := entries_head l hl'
          cases ht : entriesText l with
          | nil => simp
          | cons a as =>
            rw [ht] at this
            simp only [List.head?_cons, ne_eq, Option.some.injEq] at this
            simp [Ne.symm this]
        | cons a as =>
          have ha : a ≠ 'n' := by
            rcases hv.2 a (by rw [hmk]; exact List.mem_cons_self) with rfl | rfl <;> decide
          simp [Ne.symm ha]
      · simp [Ne.symm hst]

theorem withoutNaturals_entries (l : List KeyEntry) (hl : ∀ e ∈ l, e.Valid) :
    withoutNaturals (entriesText l) = entriesText (l.filter (fun e => !e.natural)) := by
  have hfold : ∀ (cs : Str) (l : List KeyEntry), (∀ c ∈ cs, c ∈ "abcdefg".toList) → (∀ e ∈ l, e.Valid) →
      cs.foldl (fun s c => replaceAll [c, 'n'] [] s) (entriesText l) =
        entriesText (l.filter (fun e => !(e.natural && e.step ∈ cs))) := by
    intro cs
    induction cs with
    | nil =>
      intro l _ _
      simp
    | cons c cs ih =>
      intro l hcs hl
      rw [List.foldl_cons, replace_entries c (hcs c List.mem_cons_self) l hl,
        ih _ (fun x hx => hcs x (List.mem_cons_of_mem _ hx)) (fun e he => hl e (List.mem_filter.1 he).1), List.filter_filter]
      congr 1
      apply List.filter_congr
      intro e _
      cases e.natural with
      | false => simp
      | true =>
        by_cases h1 : e.step = c <;> simp [h1]
  unfold withoutNaturals
  by_cases hn : (entriesText l).contains 'n' = true
  · rw [if_pos hn, hfold _ l (fun _ h => h) hl]
    congr 1
    apply List.filter_congr
    intro e he
    have := (hl e he).1
    rw [decide_eq_true this, Bool.and_true]
  · rw [if_neg hn]
    congr 1
    symm
    rw [List.filter_eq_self]
    intro e he
    cases hnat : e.natural with
    | false => rfl
    | true =>
      exfalso
      apply hn
      rw [List.contains_iff_mem]
      unfold entriesText
      rw [List.mem_flatMap]
      refine ⟨e, he, ?_⟩
      unfold KeyEntry.text
      rw [hnat]
      simp

theorem keySignature_token (t : Str) : keySignature ("*k[".toList ++ t ++ "]".toList) = t := by
  unfold keySignature
  rw [if_pos]
  · show ((t ++ "]".toList)).dropLast = t
    simp
  · unfold isKeySignature startsWith
    rw [Bool.and_eq_true]
    refine ⟨?_, ?_⟩
    · rw [List.isPrefixOf_iff_prefix, List.append_assoc]
      exact List.prefix_append _ _
    · rw [List.isSuffixOf_iff_suffix]
      exact List.suffix_append _ _

/-- Naturals in a signature make no difference, wherever they stand. -/
theorem naturals_ignored (l : List KeyEntry) (hl : ∀ e ∈ l, e.Valid) (keyTok : Option Str) :
    readKeySig ("*k[".toList ++ entriesText l ++ "]".toList) keyTok =
      readKeySig ("*k[".toList ++ entriesText (l.filter (fun e => !e.natural)) ++ "]".toList) keyTok := by
  have h : withoutNaturals (entriesText l) = withoutNaturals (entriesText (l.filter (fun e => !e.natural))) := by
    rw [withoutNaturals_entries l hl, withoutNaturals_entries _ (fun e he => hl e (List.mem_filter.1 he).1), List.filter_filter]
    simp
  unfold readKeySig
  rw [keySignature_token, keySignature_token, h]

/-! ### Keys -/

/-- A key with a real tonic. -/
def M21Key.Valid (k : M21Key) : Prop := k.step ∈ "ABCDEFG".toList

theorem replicate_marks (c : Char) (n : Nat) (rest : Str) (hc : isAccMark c = true) :
    (List.replicate n c ++ ':' :: rest).dropWhile isAccMark = ':' :: rest ∧
    (List.replicate n c ++ ':' :: rest).takeWhile isAccMark = List.replicate n c := by
  induction n with
  | zero =>
    have : isAccMark ':' = false := by decide
    simp [this]
  | succ n ih =>
    rw [List.replicate_succ, List.cons_append, List.dropWhile_cons_of_pos hc, List.takeWhile_cons_of_pos hc, ih.1, ih.2]
    exact ⟨rfl, rfl⟩

/-- The marks of a tonic. -/
def tonicMarks (a : Int) : Str := if 0 ≤ a then List.replicate a.toNat '#' else List.replicate (-a).toNat '-'

theorem readMarks_tonic (a : Int) : readMarks (tonicMarks a) = .ok a := by
  unfold readMarks tonicMarks
  by_cases h : 0 ≤ a
  · rw [if_pos h, if_pos (by simp), List.length_replicate]
    congr 1
    omega
  · rw [if_neg h, if_neg, if_pos (by simp), List.length_replicate]
    · congr 1
      omega
    · obtain ⟨n, hn⟩ : ∃ n, (-a).toNat = n + 1 := ⟨(-a).toNat - 1, by omega⟩
      rw [hn, List.replicate_succ]
      simp

theorem tonicMarks_lower (a : Int) : (tonicMarks a).map Char.toLower = tonicMarks a := by
  have h1 : Char.toLower '#' = '#' := by decide
  have h2 : Char.toLower '-' = '-' := by decide
  unfold tonicMarks
  split <;> rw [List.map_replicate] <;> simp [h1, h2]

theorem keyDesignation_written (c : Char) (hc : c ∈ "abcdefgABCDEFG".toList) (a : Int) (m : Str) :
    keyDesignation ('*' :: (c :: tonicMarks a) ++ ':' :: m) = some (c :: tonicMarks a, modeGroup m) := by
  show (if c ∈ "abcdefgABCDEFG".toList then _ else _) = _
  rw [if_pos hc]
  have h : (tonicMarks a ++ ':' :: m).dropWhile isAccMark = ':' :: m ∧ (tonicMarks a ++ ':' :: m).takeWhile isAccMark = tonicMarks a := by
    unfold tonicMarks
    split
    · exact replicate_marks '#' _ m (by decide)
    · exact replicate_marks '-' _ m (by decide)
  show (match (tonicMarks a ++ ':' :: m).dropWhile isAccMark with | ':' :: m' => _ | _ => _) = _
  rw [h.1]
  show some (c :: (tonicMarks a ++ ':' :: m).takeWhile isAccMark, modeGroup m) = _
  rw [h.2]

/-- The designation of a key is read as that key. -/
theorem designation_roundtrip (k : M21Key) (h : k.Valid) (sig : Option Int) (hs : sig = none ∨ sig = some k.sharps) :
    trustedKey sig (some (keyDesignationToken k)) = .ok (some k) := by
  obtain ⟨c, a, m⟩ := k
  have hc : ∀ c ∈ "ABCDEFG".toList, c ∈ "abcdefgABCDEFG".toList ∧ c.toLower ∈ "abcdefgABCDEFG".toList ∧ c.toUpper = c ∧
      c.toLower.toUpper = c ∧ c.isLower = false ∧ c.toLower.isLower = true := by decide
  obtain ⟨h1, h2, h3, h4, h5, h6⟩ := hc c h
  have hsig : ∀ k : M21Key, k = ⟨c, a, m⟩ → (if sig.isSome ∧ sig ≠ some k.sharps then none else some k) = some (⟨c, a, m⟩ : M21Key) := by
    rintro k rfl
    rw [if_neg]
    rintro ⟨hsome, hne⟩
    rcases hs with hs | hs
    · rw [hs] at hsome; cases hsome
    · exact hne hs
  have hmode : modeGroup (modeText m) = if m = .major ∨ m = .minor then none else some (modeText m) := by cases m <;> decide
  have hread : m ≠ .major → m ≠ .minor → readMode (modeText m) = some m := by cases m <;> decide
  have hkey : ∀ c' : Char, c'.toUpper = c → (modeGroup (modeText m)).bind readMode = some m ∨
      ((modeGroup (modeText m)).bind readMode = none ∧ m = if c'.isLower then .minor else .major) →
      makeKey (c' :: tonicMarks a) ((modeGroup (modeText m)).bind readMode) = .ok ⟨c, a, m⟩ := by
    intro c' hu hm
    show (readMarks (tonicMarks a)).map _ = _
    rw [readMarks_tonic]
    show Except.ok _ = _
    rw [hu]
    rcases hm with hm | ⟨hm, hm2⟩
    · rw [hm]; rfl
    · rw [hm, ← show m = if c'.isLower = true then KeyMode.minor else KeyMode.major from hm2]; rfl
  have hall : ∀ c' : Char, c' ∈ "abcdefgABCDEFG".toList → c'.toUpper = c → ((modeGroup (modeText m)).bind readMode = some m ∨
      ((modeGroup (modeText m)).bind readMode = none ∧ m = if c'.isLower then .minor else .major)) →
      trustedKey sig (some ('*' :: (c' :: tonicMarks a) ++ ':' :: modeText m)) = .ok (some ⟨c, a, m⟩) := by
    intro c' hmem hu hm
    unfold trustedKey
    rw [Option.bind_some, keyDesignation_written c' hmem a (modeText m)]
    dsimp only
    rw [hkey c' hu hm]
    dsimp only
    rw [hsig _ rfl]
  unfold keyDesignationToken tonicWithCase
  by_cases hmin : m = .minor
  · subst hmin
    rw [if_pos rfl]
    have : (tonicName ⟨c, a, .minor⟩).map Char.toLower = c.toLower :: tonicMarks a := by
      show c.toLower :: (tonicMarks a).map Char.toLower = _
      rw [tonicMarks_lower]
    rw [this]
    refine hall c.toLower h2 h4 (Or.inr ⟨by rw [hmode]; rfl, by rw [h6]; rfl⟩)
  · rw [if_neg hmin]
    refine hall c h1 h3 ?_
    by_cases hmaj : m = .major
    · exact Or.inr ⟨by rw [hmode, if_pos (Or.inl hmaj)]; rfl, by rw [h5, hmaj]; rfl⟩
    · refine Or.inl ?_
      rw [hmode, if_neg (by rintro (h | h); exact hmaj h; exact hmin h)]
      exact hread hmaj hmin

/-- C50. A key, which is written with its signature and its designation, is read back: up to fourteen sharps or flats. -/
theorem key_roundtrip (k : M21Key) (h : k.Valid) (hs : -14 ≤ k.sharps ∧ k.sharps ≤ 14) :
    ∃ t, keySigToken k.sharps = .ok t ∧ readKeySig t (some (keyDesignationToken k)) = .ok (.key k) := by
  have hread : ∃ t sig, keySigToken k.sharps = .ok t ∧ (sig = none ∨ sig = some k.sharps) ∧
      ∀ kt, readKeySig t kt = chooseKey sig kt := by
    have hall : ∀ n ∈ (List.range 29).map (fun i : Nat => (i : Int) - 14), ∃ e ∈ sharpsToText,
        sharpsToText.find? (fun e => e.1 = n) = some e ∧
        ((textToSharps.find? (fun q => q.1.toList = withoutNaturals (keySignature ("*k[".toList ++ e.2.toList ++ "]".toList)))).map
            (fun q => q.2) = some n ∨
          (textToSharps.find? (fun q => q.1.toList = withoutNaturals (keySignature ("*k[".toList ++ e.2.toList ++ "]".toList))) = none ∧
            (twoByTwo (withoutNaturals (keySignature ("*k[".toList ++ e.2.toList ++ "]".toList)))).any
              (fun q => ¬ (q.map Char.toUpper).headD ' ' ∈ "abcdefg".toList) = true)) := by decide +kernel
    obtain ⟨e, _, he, hr⟩ := hall k.sharps (sharps_cases _ hs)
    have htok : keySigToken k.sharps = .ok ("*k[".toList ++ e.2.toList ++ "]".toList) := by
      unfold keySigToken
      rw [he]
    rcases hr with hr | ⟨hr, hr2⟩
    · refine ⟨_, some k.sharps, htok, Or.inr rfl, ?_⟩
      intro kt
      unfold readKeySig
      cases hf : textToSharps.find? (fun q => q.1.toList = withoutNaturals (keySignature ("*k[".toList ++ e.2.toList ++ "]".toList))) with
      | none => rw [hf] at hr; cases hr
      | some q =>
        rw [hf, Option.map_some, Option.some.injEq] at hr
        dsimp only
        rw [hr]
    · refine ⟨_, none, htok, Or.inl rfl, ?_⟩
      intro kt
      unfold readKeySig
      rw [hr]
      dsimp only
      rw [if_pos hr2]
  obtain ⟨t, sig, h1, h2, h3⟩ := hread
  refine ⟨t, h1, ?_⟩
  rw [h3]
  unfold chooseKey
  rw [designation_roundtrip k h sig h2]

/-- A key designation that contradicts the signature is not used. -/
theorem key_agrees (t : Str) (keyTok : Option Str) (n : Int) (k : M21Key)
    (ht : keySigToken n = .ok t) (hn : -7 ≤ n ∧ n ≤ 7) (h : readKeySig t keyTok = .ok (.key k)) : k.sharps = n := by
  have hall : ∀ n ∈ (List.range 29).map (fun i : Nat => (i : Int) - 14), -7 ≤ n ∧ n ≤ 7 →
      ((keySigToken n).toOption.bind (fun t => (textToSharps.find? (fun q => q.1.toList = withoutNaturals (keySignature t))).map
        (fun q => q.2))) = some n := by decide +kernel
  have hf := hall n (sharps_cases n (by omega)) hn
  rw [ht] at hf
  unfold readKeySig at h
  cases hfd : textToSharps.find? (fun q => q.1.toList = withoutNaturals (keySignature t)) with
  | none =>
    have hf : (textToSharps.find? (fun q => q.1.toList = withoutNaturals (keySignature t))).map (fun q => q.2) = some n := hf
    rw [hfd] at hf; cases hf
  | some q =>
    have hf : (textToSharps.find? (fun q => q.1.toList = withoutNaturals (keySignature t))).map (fun q => q.2) = some n := hf
    rw [hfd, Option.map_some, Option.some.injEq] at hf
    rw [hfd] at h
    dsimp only at h
    rw [hf] at h
    unfold chooseKey trustedKey at h
    cases hk : keyTok.bind keyDesignation with
    | none => rw [hk] at h; cases h
    | some nm =>
      obtain ⟨name, mode⟩ := nm
      rw [hk] at h
      dsimp only at h
      cases hm : makeKey name (mode.bind readMode) with
      | error e => rw [hm] at h; cases h
      | ok k' =>
        rw [hm] at h
        dsimp only at h
        by_cases hne : n = k'.sharps
        · rw [if_neg (by simp [hne])] at h
          simp only [Except.ok.injEq, ReadKey.key.injEq] at h
          rw [← h]
          exact hne.symm
        · rw [if_pos (by simp [hne])] at h
          cases h

example : readKeySig "*k[bnenf#c#]".toList (some "*b:".toList) = .ok (.key ⟨'B', 0, .minor⟩) := by decide +kernel
example : readKeySig "*k[f#]".toList (some "*D:dor".toList) = .ok (.sharps 1) := by decide +kernel
example : (⟨'B', -1, .minor⟩ : M21Key).sharps = -5 ∧ keyDesignationToken ⟨'B', -1, .minor⟩ = "*b-:".toList := by decide +kernel
example : (⟨'G', 1, .mixolydian⟩ : M21Key).Valid ∧ (⟨'G', 1, .mixolydian⟩ : M21Key).sharps = 7 := by
  unfold M21Key.Valid; decide +kernel

end C21
