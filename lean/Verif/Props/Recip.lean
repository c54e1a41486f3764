import Verif.Lemmas.Recip
import Verif.Spec.Recip
/-
Property theorems for rhythm conversion (C05, C06, C07, C22, C55, part of C52).
-/
namespace C21

theorem base_head (b : RBase) (hv : b.Valid) (rest : Str) (hr : ∀ c ∈ rest, isDig c = false) (pre : Str)
    (hp : ∀ c ∈ pre, isDig c = false) :
    recipBase (pre ++ b.text ++ rest) = .ok (some b.wholes) := by
  have hrest : ∀ c, rest.head? = some c → isDig c = false := by
    intro c hc; exact hr c (List.mem_of_head? hc)
  cases b with
  | div n =>
    have h1 : findPercent (pre ++ natStr n ++ rest) = none := by
      rw [List.append_assoc, findPercent_skip _ _ hp]
      exact findPercent_run _ _ (natStr_isDig n) hr
    have h2 := findDigits_run pre (natStr n) rest hp (natStr_isDig n) (natStr_ne_nil n) hrest
    have h3 : (natStr n).head? ≠ some '0' := natStr_head n (by have : n > 0 := hv; omega)
    simp only [recipBase, RBase.text, RBase.wholes, h1, h2, h3, parse_natStr, if_false]
  | breve z =>
    have hz : z > 0 := hv
    have hd : ∀ c ∈ List.replicate z '0', isDig c = true := by
      intro c hc; rw [List.eq_of_mem_replicate hc]; decide
    have hn : List.replicate z '0' ≠ [] := by simp; omega
    have h1 : findPercent (pre ++ List.replicate z '0' ++ rest) = none := by
      rw [List.append_assoc, findPercent_skip _ _ hp]
      exact findPercent_run _ _ hd hr
    have h2 := findDigits_run pre _ rest hp hd hn hrest
    have h3 : (List.replicate z '0').head? = some '0' := by
      cases z with
      | zero => omega
      | succ k => simp [List.replicate_succ]
    simp only [recipBase, RBase.text, RBase.wholes, h1, h2, h3, countChar_replicate, if_true]
  | ratio d n =>
    have hd : d > 0 := hv
    have h1 : findPercent (pre ++ (natStr d ++ '%' :: natStr n) ++ rest) = some (natStr d, natStr n) := by
      rw [List.append_assoc, findPercent_skip _ _ hp, List.append_assoc, List.cons_append]
      exact findPercent_ratio _ _ _ (natStr_isDig d) (natStr_isDig n) (natStr_ne_nil d) (natStr_ne_nil n) hrest
    have h0 : ¬ d = 0 := by omega
    simp only [recipBase, RBase.text, RBase.wholes, h1, parse_natStr, h0, if_false]

theorem base_text_chars (b : RBase) : '.' ∉ b.text ∧ ' ' ∉ b.text ∧ 'q' ∉ b.text := by
  have key : ∀ c, isDig c = false → c ≠ '%' → c ∉ b.text := by
    intro c hc hp
    cases b with
    | div n => exact natStr_not_mem n c hc
    | breve z =>
      intro h; have := List.eq_of_mem_replicate h; subst this; revert hc; decide
    | ratio d n =>
      simp only [RBase.text, List.mem_append, List.mem_cons, not_or]
      exact ⟨natStr_not_mem d c hc, hp, natStr_not_mem n c hc⟩
  exact ⟨key _ (by decide) (by decide), key _ (by decide) (by decide), key _ (by decide) (by decide)⟩

/-- The duration of a token (first note of a chord) consisting of inert text, a rhythm with `dots`
augmentation dots, and more inert text, at an arbitrary scale. -/
theorem recip_value (pre : Str) (b : RBase) (dots : Nat) (suf chord : Str) (scale : Rat) (hv : b.Valid)
    (hp : Inert pre) (hs : Inert suf) (hc : ChordRest chord) :
    recipUncached (pre ++ b.text ++ List.replicate dots '.' ++ suf ++ chord) scale =
      .ok (b.wholes * (2 - 1 / 2 ^ dots) * scale, true) := by
  obtain ⟨bt1, bt2, bt3⟩ := base_text_chars b
  have hrep : ∀ c ∈ List.replicate dots '.', c = '.' := fun c hc => List.eq_of_mem_replicate hc
  have hq : 'q' ∉ pre ++ b.text ++ List.replicate dots '.' ++ suf ++ chord := by
    simp only [List.mem_append, not_or]
    refine ⟨⟨⟨⟨fun h => (hp _ h).2.2.2 rfl, bt3⟩, fun h => absurd (hrep _ h) (by decide)⟩,
      fun h => (hs _ h).2.2.2 rfl⟩, ?_⟩
    rcases hc with rfl | ⟨t, rfl, ht⟩
    · simp
    · simp [ht]
  have hsub : firstSub (pre ++ b.text ++ List.replicate dots '.' ++ suf ++ chord) =
      pre ++ b.text ++ List.replicate dots '.' ++ suf := by
    apply firstSub_append
    · simp only [List.mem_append, not_or]
      exact ⟨⟨⟨fun h => (hp _ h).2.2.1 rfl, bt2⟩, fun h => absurd (hrep _ h) (by decide)⟩,
        fun h => (hs _ h).2.2.1 rfl⟩
    · rcases hc with rfl | ⟨t, rfl, _⟩
      · exact Or.inl rfl
      · exact Or.inr ⟨t, rfl⟩
  have hdots : countChar '.' (pre ++ b.text ++ List.replicate dots '.' ++ suf) = dots := by
    simp only [countChar_append, countChar_replicate, countChar_zero _ _ bt1,
      countChar_zero _ _ (fun h => (hp _ h).2.1 rfl), countChar_zero _ _ (fun h => (hs _ h).2.1 rfl)]
    omega
  have hbase : recipBase (pre ++ b.text ++ List.replicate dots '.' ++ suf) = .ok (some b.wholes) := by
    rw [List.append_assoc (pre ++ b.text)]
    apply base_head b hv
    · intro c hc'
      rcases List.mem_append.1 hc' with h | h
      · rw [hrep c h]; decide
      · exact (hs c h).1
    · exact fun c h => (hp c h).1
  unfold recipUncached
  rw [if_neg hq]
  simp only [hsub, hbase, hdots, dotFactor_eq]

theorem recipToDuration_eq (s : Str) (v : Rat) (c : Bool) (h : recipUncached s 4 = .ok (v, c)) :
    recipToDuration s = .ok v := by
  unfold recipToDuration recipCall
  simp only [Dict.get?, h]
  cases c <;> rfl

/-! ## C07: augmentation dots -/

/-- C07. A rhythm with n dots lasts 2 - 1/2^n times the undotted rhythm, for every kind of rhythm, any number
of dots, whatever inert text (pitch, slurs, beams) surrounds it, in a note or the first note of a chord. -/
theorem dotted_duration (pre : Str) (b : RBase) (dots : Nat) (suf chord : Str) (hv : b.Valid)
    (hp : Inert pre) (hs : Inert suf) (hc : ChordRest chord) :
    recipToDuration (pre ++ b.text ++ List.replicate dots '.' ++ suf ++ chord) =
      .ok (4 * b.wholes * (2 - 1 / 2 ^ dots)) := by
  rw [recipToDuration_eq _ _ _ (recip_value pre b dots suf chord 4 hv hp hs hc)]
  congr 1; ring

theorem zDots_append (a b : Str) : zDots (a ++ b) = zDots a ++ zDots b := by simp [zDots]

theorem zDots_id (s : Str) (h : '.' ∉ s) : zDots s = s := by
  unfold zDots
  conv => rhs; rw [← List.map_id s]
  apply List.map_congr_left
  intro c hc
  have : c ≠ '.' := fun e => h (e ▸ hc)
  simp [this]

/-- C07. The no-dots conversion gives exactly the undotted duration. -/
theorem noDots_duration (pre : Str) (b : RBase) (dots : Nat) (suf chord : Str) (hv : b.Valid)
    (hp : Inert pre) (hs : Inert suf) (hc : ChordRest chord) :
    recipToDurationNoDots (pre ++ b.text ++ List.replicate dots '.' ++ suf ++ chord) =
      .ok (4 * b.wholes) := by
  have hz : zDots (pre ++ b.text ++ List.replicate dots '.' ++ suf ++ chord) =
      pre ++ b.text ++ List.replicate 0 '.' ++ (List.replicate dots 'Z' ++ suf) ++ zDots chord := by
    have : zDots (List.replicate dots '.') = List.replicate dots 'Z' := by simp [zDots]
    simp only [zDots_append, zDots_id pre (fun h => (hp _ h).2.1 rfl),
      zDots_id suf (fun h => (hs _ h).2.1 rfl), zDots_id b.text (base_text_chars b).1, this]
    simp
  have hi : Inert (List.replicate dots 'Z' ++ suf) := by
    intro c h
    rcases List.mem_append.1 h with h | h
    · rw [List.eq_of_mem_replicate h]; decide
    · exact hs c h
  have hcr : ChordRest (zDots chord) := by
    rcases hc with rfl | ⟨t, rfl, ht⟩
    · exact Or.inl rfl
    · refine Or.inr ⟨zDots t, by simp [zDots], ?_⟩
      intro h
      obtain ⟨c, hc, e⟩ := List.mem_map.1 h
      split at e
      · exact absurd e (by decide)
      · exact ht (e ▸ hc)
  unfold recipToDurationNoDots recipNoDotsCall
  rw [hz]
  have := recipToDuration_eq _ _ _ (recip_value pre b 0 _ _ 4 hv hp hi hcr)
  unfold recipToDuration at this
  rw [this]
  congr 1; ring

/-- C07. A token's `durationNoDots` undoes the dots of its duration. -/
theorem tokenNoDots_spec (text : Str) (base : Rat) :
    tokenDurationNoDots text (base * (2 - 1 / 2 ^ tokenDotCount text)) = base := by
  unfold tokenDurationNoDots
  simp only
  split
  · next h => rw [h]; ring
  · have h1 : (2 : Rat) ^ tokenDotCount text ≠ 0 := by positivity
    have h2 : (1 : Rat) ≤ 2 ^ tokenDotCount text := one_le_pow₀ (by norm_num)
    have h3 : (2 : Rat) ^ (tokenDotCount text + 1) - 1 ≠ 0 := by
      rw [pow_succ]; intro h; linarith
    rw [pow_succ] at h3 ⊢
    have h4 : (2 : Rat) * 2 ^ tokenDotCount text - 1 ≠ 0 := by rw [mul_comm]; exact h3
    field_simp

/-- C07. The dots that `durationNoDots` counts are the dots of the first sub-token. -/
theorem tokenDotCount_eq (s : Str) : tokenDotCount s = countChar '.' (firstSub s) := by
  induction s with
  | nil => rfl
  | cons c cs ih =>
    simp only [tokenDotCount, firstSub, List.takeWhile_cons]
    by_cases h : c = ' '
    · simp [h, countChar]
    · have : (c != ' ') = true := by simpa using h
      simp only [h, if_false, this, if_true]
      rw [show List.takeWhile (fun x => x != ' ') cs = firstSub cs from rfl, ih]
      by_cases h2 : c = '.' <;> simp [h2, countChar] <;> omega

-- "(8..ff#L 8..aa" : a doubly dotted eighth in a chord
example : recipToDuration "(8..ff#L 8..aa".toList = .ok (7 / 8) := by
  have := dotted_duration "(".toList (.div 8) 2 "ff#L".toList " 8..aa".toList
    (by show 8 > 0; omega) (by unfold Inert; decide) (by unfold Inert; decide) (Or.inr ⟨"8..aa".toList, rfl, by decide⟩)
  have e : "(".toList ++ (RBase.div 8).text ++ List.replicate 2 '.' ++ "ff#L".toList ++ " 8..aa".toList
    = "(8..ff#L 8..aa".toList := by decide
  rw [e] at this
  rw [this]; norm_num [RBase.wholes]

/-! ## C05: durations survive the trip to **recip -/

/-- C05. For every non-negative rational duration, converting to **recip and back is the identity. -/
theorem recip_roundtrip (d : Rat) (hd : 0 ≤ d) : recipToDuration (durationToRecip d) = .ok d := by
  have gen : ∀ (b : RBase) (dots : Nat), b.Valid → 4 * b.wholes * (2 - 1 / 2 ^ dots) = d →
      recipToDuration (b.text ++ List.replicate dots '.') = .ok d := by
    intro b dots hv he
    have := dotted_duration [] b dots [] [] hv (by simp [Inert]) (by simp [Inert]) (Or.inl rfl)
    rw [he] at this
    simpa only [List.nil_append, List.append_nil] using this
  have hdd : d = 4 * (d / 4) := by ring
  have hden : ∀ x : Rat, x.den > 0 := fun x => x.den_pos
  unfold durationToRecip
  dsimp only
  by_cases h : (d / 4).num = 1
  · rw [if_pos h]
    have h1 := rat_num_one h
    have := gen (.div (d / 4).den) 0 (hden _) (by simp only [RBase.wholes]; rw [← h1]; ring)
    simpa [RBase.text] using this
  rw [if_neg h]; clear h
  by_cases h : d / 4 = 2
  · rw [if_pos h]
    exact gen (.breve 1) 0 (by show _ > 0; decide) (by rw [hdd, h]; norm_num [RBase.wholes])
  rw [if_neg h]; clear h
  by_cases h : d / 4 = 3
  · rw [if_pos h]
    exact gen (.breve 1) 1 (by show _ > 0; decide) (by rw [hdd, h]; norm_num [RBase.wholes])
  rw [if_neg h]; clear h
  by_cases h : d / 4 = 4
  · rw [if_pos h]
    exact gen (.breve 2) 0 (by show _ > 0; decide) (by rw [hdd, h]; norm_num [RBase.wholes])
  rw [if_neg h]; clear h
  by_cases h : d / 4 = 6
  · rw [if_pos h]
    exact gen (.breve 2) 1 (by show _ > 0; decide) (by rw [hdd, h]; norm_num [RBase.wholes])
  rw [if_neg h]; clear h
  by_cases h : d / 4 = 8
  · rw [if_pos h]
    exact gen (.breve 3) 0 (by show _ > 0; decide) (by rw [hdd, h]; norm_num [RBase.wholes])
  rw [if_neg h]; clear h
  by_cases h : d / 4 = 12
  · rw [if_pos h]
    exact gen (.breve 3) 1 (by show _ > 0; decide) (by rw [hdd, h]; norm_num [RBase.wholes])
  rw [if_neg h]; clear h
  by_cases h : (d / 4).num = 0
  · rw [if_pos h]
    have h0 : d / 4 = 0 := Rat.num_eq_zero.1 h
    have : d = 0 := by linarith
    subst this
    rw [recipToDuration_eq "q".toList 0 true (by rfl)]
  rw [if_neg h]; clear h
  by_cases h : (d / 4 * (2 / 3)).num = 1
  · rw [if_pos h]
    have h1 := rat_num_one h
    refine gen (.div (d / 4 * (2 / 3)).den) 1 (hden _) ?_
    simp only [RBase.wholes]; rw [← h1]; ring
  rw [if_neg h]; clear h
  by_cases h : (d / 4 * (4 / 7)).num = 1
  · rw [if_pos h]
    have h1 := rat_num_one h
    refine gen (.div (d / 4 * (4 / 7)).den) 2 (hden _) ?_
    simp only [RBase.wholes]; rw [← h1]; ring
  rw [if_neg h]; clear h
  by_cases h : (d / 4 * (8 / 15)).num = 1
  · rw [if_pos h]
    have h1 := rat_num_one h
    refine gen (.div (d / 4 * (8 / 15)).den) 3 (hden _) ?_
    simp only [RBase.wholes]; rw [← h1]; ring
  · rw [if_neg h]; clear h
    have hnn : 0 ≤ (d / 4).num := Rat.num_nonneg.2 (by linarith)
    have hs : numStr (d / 4).num = natStr (d / 4).num.natAbs := by
      unfold numStr intStr; rw [if_neg (by omega)]
    rw [hs]
    have hcast : (((d / 4).num.natAbs : Nat) : Rat) = ((d / 4).num : Rat) := by
      have : ((d / 4).num.natAbs : Int) = (d / 4).num := Int.natAbs_of_nonneg hnn
      rw [← Int.cast_natCast, this]
    have := gen (.ratio (d / 4).den (d / 4).num.natAbs) 0 (hden _) (by
      simp only [RBase.wholes, hcast, Rat.num_div_den]; ring)
    simpa [RBase.text] using this

example : durationToRecip (7 / 8) = "8..".toList ∧ durationToRecip (2 / 3) = "6".toList ∧
    durationToRecip (5 / 3) = "12%5".toList ∧ durationToRecip 12 = "0.".toList := by decide +kernel

/-- C05. Different durations get different **recip strings. -/
theorem durationToRecip_injective (a b : Rat) (ha : 0 ≤ a) (hb : 0 ≤ b)
    (h : durationToRecip a = durationToRecip b) : a = b := by
  have h1 := recip_roundtrip a ha
  rw [h, recip_roundtrip b hb] at h1
  exact (Except.ok.inj h1).symm

/-- C05. The restriction to non-negative durations is needed: a negative duration is not preserved. -/
theorem recip_roundtrip_negative : recipToDuration (durationToRecip (-3)) = .ok 1 := by decide +kernel

/-- C52 (grid). The rhythm printed in the **recip spine of the exported grid denotes the slice duration
('g' stands for a zero duration). -/
theorem gridRecip_value (d : Rat) (hd : 0 < d) : recipToDuration (gridRecip d) = .ok d := by
  have gen : ∀ (b : RBase) (dots : Nat), b.Valid → 4 * b.wholes * (2 - 1 / 2 ^ dots) = d →
      recipToDuration (b.text ++ List.replicate dots '.') = .ok d := by
    intro b dots hv he
    have := dotted_duration [] b dots [] [] hv (by simp [Inert]) (by simp [Inert]) (Or.inl rfl)
    rw [he] at this
    simpa only [List.nil_append, List.append_nil] using this
  have hden : ∀ x : Rat, x.den > 0 := fun x => x.den_pos
  have hpos : 0 < (d / 4).num := Rat.num_pos.2 (by linarith)
  unfold gridRecip
  simp only
  split
  · omega
  split
  · next h =>
    have h1 := rat_num_one h
    have := gen (.div (d / 4).den) 0 (hden _) (by simp only [RBase.wholes]; rw [← h1]; ring)
    simpa [RBase.text] using this
  split
  · next h =>
    have h1 := rat_num_one h.2
    refine gen (.div (d / 4 * (2 / 3)).den) 1 (hden _) ?_
    simp only [RBase.wholes]; rw [← h1]; ring
  · have hs : numStr (d / 4).num = natStr (d / 4).num.natAbs := by
      unfold numStr intStr; rw [if_neg (by omega)]
    rw [hs]
    have hcast : (((d / 4).num.natAbs : Nat) : Rat) = ((d / 4).num : Rat) := by
      have : ((d / 4).num.natAbs : Int) = (d / 4).num := Int.natAbs_of_nonneg (by omega)
      rw [← Int.cast_natCast, this]
    have := gen (.ratio (d / 4).den (d / 4).num.natAbs) 0 (hden _) (by
      simp only [RBase.wholes, hcast, Rat.num_div_den]; ring)
    simpa [RBase.text] using this

theorem gridRecip_zero : gridRecip 0 = "g".toList := by decide +kernel

example : gridRecip (3 / 2) = "4.".toList ∧ gridRecip (7 / 8) = "32%7".toList := by decide +kernel

/-! ## C06: the cache -/

/-- A history of calls, each `(recip, scale)`; the cache it leaves. -/
def cacheAfter (calls : List (Str × Rat)) : RecipCache :=
  calls.foldl (fun c p => (recipCall c p.1 p.2).2) []

/-- C06 (proved part). If every earlier call of the process used the same scale, a call returns what it would
return in a fresh process: the cache is invisible.
Missing from the full property: histories mixing scales, for which it is false (`cache_ignores_scale`). -/
theorem cache_invisible_partial (calls : List (Str × Rat)) (scale : Rat) (h : ∀ p ∈ calls, p.2 = scale)
    (recip : Str) : (recipCall (cacheAfter calls) recip scale).1 = (recipCall [] recip scale).1 := by
  have inv : ∀ (cs : List (Str × Rat)) (c : RecipCache), (∀ p ∈ cs, p.2 = scale) →
      (∀ r v, c.get? r = some v → ∃ b, recipUncached r scale = .ok (v, b)) →
      ∀ r v, (cs.foldl (fun c p => (recipCall c p.1 p.2).2) c).get? r = some v →
        ∃ b, recipUncached r scale = .ok (v, b) := by
    intro cs
    induction cs with
    | nil => intro c _ hc; exact hc
    | cons p ps ih =>
      intro c hp hc
      refine ih _ (fun q hq => hp q (by simp [hq])) ?_
      intro r v hr
      have hps : p.2 = scale := hp p (by simp)
      simp only [recipCall] at hr
      split at hr
      · exact hc r v hr
      · split at hr
        · exact hc r v hr
        · next w hw =>
          rw [Dict.get?_set] at hr
          split at hr
          · next e =>
            cases hr; subst e; rw [hps] at hw; exact ⟨_, hw⟩
          · exact hc r v hr
        · exact hc r v hr
  have hinv := inv calls [] h (by intro r v hr; simp [Dict.get?] at hr)
  have fresh : (recipCall [] recip scale).1 = (recipUncached recip scale).map (·.1) := by
    unfold recipCall
    simp only [Dict.get?]
    cases recipUncached recip scale with
    | error e => rfl
    | ok p => obtain ⟨v, b⟩ := p; cases b <;> rfl
  rw [fresh]
  unfold recipCall
  cases hg : (cacheAfter calls).get? recip with
  | some v =>
    obtain ⟨b, hb⟩ := hinv recip v hg
    simp [hb, Except.map]
  | none =>
    simp only
    cases recipUncached recip scale with
    | error e => rfl
    | ok p => obtain ⟨v, b⟩ := p; cases b <;> rfl

example : (recipCall (cacheAfter [("4".toList, 4), ("8.".toList, 4)]) "4".toList 4).1 = .ok 1 := by
  decide +kernel

/-- C06. In a fresh process the scale multiplies the result. -/
theorem scale_multiplies (recip : Str) (scale : Rat) (v : Rat)
    (h : (recipCall [] recip 1).1 = .ok v) : (recipCall [] recip scale).1 = .ok (v * scale) := by
  have fresh : ∀ sc, (recipCall [] recip sc).1 = (recipUncached recip sc).map (·.1) := by
    intro sc
    unfold recipCall
    simp only [Dict.get?]
    cases recipUncached recip sc with
    | error e => rfl
    | ok p => obtain ⟨v, b⟩ := p; cases b <;> rfl
  rw [fresh] at h ⊢
  unfold recipUncached at h ⊢
  by_cases hq : 'q' ∈ recip
  · rw [if_pos hq] at h ⊢
    simp [Except.map] at h ⊢; simp [← h]
  · rw [if_neg hq] at h ⊢
    simp only at h ⊢
    cases hb : recipBase (firstSub recip) with
    | error e => rw [hb] at h; simp [Except.map] at h
    | ok o =>
      cases o with
      | none => rw [hb] at h; simp [Except.map] at h ⊢; simp [← h]
      | some b => rw [hb] at h; simp [Except.map] at h ⊢; simp [← h]

/-- C06, the part that is false: the cache is keyed on the text only, so the scale of a later call is
ignored. -/
theorem cache_ignores_scale :
    (recipCall [] "4".toList 1).1 = .ok (1 / 4) ∧
    (recipCall (recipCall [] "4".toList 4).2 "4".toList 1).1 = .ok 1 := by decide +kernel

/-! ## C55: mensural durations -/

theorem mensValue_none (c : Char) (h : c ∉ mensShapes) : mensValue c = none := by
  have h' : c ∉ ['X', 'L', 'S', 's', 'M', 'm', 'U', 'u'] := h
  simp only [List.mem_cons, List.not_mem_nil, or_false, not_or] at h'
  obtain ⟨h1, h2, h3, h4, h5, h6, h7, h8⟩ := h'
  unfold mensValue
  rw [if_neg h1, if_neg h2, if_neg h3, if_neg h4, if_neg h5, if_neg h6, if_neg h7, if_neg h8]

theorem mensValue_spec (c : Char) (k : Nat) (hk : mensShapes[k]? = some c) : mensValue c = some (mensWhole k) := by
  have hall : ∀ k : Fin 8, mensValue mensShapes[k] = some (mensWhole k) := by decide +kernel
  obtain ⟨hlen, hc⟩ := List.getElem?_eq_some_iff.1 hk
  have := hall ⟨k, hlen⟩
  rw [← hc]
  exact this

theorem mensLoop_inert (p : Bool) (pre rest : Str) (h : MensInert pre) :
    mensLoop p (pre ++ rest) = mensLoop p rest := by
  induction pre with
  | nil => rfl
  | cons c cs ih =>
    obtain ⟨h1, h2, h3, h4⟩ := h c (by simp)
    simp only [List.cons_append, mensLoop, mensValue_none c h1, h2, h3, h4, if_false]
    exact ih (fun x hx => h x (by simp [hx]))

/-- C55 (proved part). A note shape gives its value; a perfection mark written before the shape adds a half;
the imperfection mark cancels it; the no-dots variant ignores both.
Missing from the full property: marks written after the shape, which the code ignores
(`mens_mark_after_shape_ignored`). -/
theorem mens_duration_partial (pre mid rest : Str) (shape : Char) (k : Nat) (v : Rat) (hp : MensInert pre)
    (hm : MensInert mid) (hk : mensShapes[k]? = some shape) (hvk : v = mensWhole k) :
    mensToDuration (pre ++ shape :: rest) = 4 * v ∧
    mensToDuration (pre ++ 'p' :: mid ++ shape :: rest) = 4 * v * (3 / 2) ∧
    mensToDuration (pre ++ 'i' :: mid ++ shape :: rest) = 4 * v ∧
    mensToDurationNoDots (pre ++ shape :: rest) = 4 * v ∧
    mensToDurationNoDots (pre ++ 'p' :: mid ++ shape :: rest) = 4 * v := by
  have hv : mensValue shape = some v := by rw [hvk]; exact mensValue_spec shape k hk
  have hsh : shape ≠ 'p' ∧ shape ≠ 'i' := by
    constructor
    · intro e; subst e; have : mensValue 'p' = none := by decide +kernel
      rw [this] at hv; simp at hv
    · intro e; subst e; have : mensValue 'i' = none := by decide +kernel
      rw [this] at hv; simp at hv
  have hs : ∀ p, mensLoop p (shape :: rest) = (v, p) := by
    intro p; simp [mensLoop, hv, hsh.1, hsh.2]
  have hpm : ∀ b r, mensLoop b ('p' :: r) = mensLoop true r := by intro b r; cases b <;> rfl
  have him : ∀ b r, mensLoop b ('i' :: r) = mensLoop false r := by intro b r; cases b <;> rfl
  have e1 := mensLoop_inert false pre (shape :: rest) hp
  have e2 : mensLoop false (pre ++ 'p' :: mid ++ shape :: rest) = (v, true) := by
    rw [List.append_assoc, mensLoop_inert false pre _ hp, List.cons_append, hpm,
      mensLoop_inert true mid _ hm, hs]
  have e3 : mensLoop false (pre ++ 'i' :: mid ++ shape :: rest) = (v, false) := by
    rw [List.append_assoc, mensLoop_inert false pre _ hp, List.cons_append, him,
      mensLoop_inert false mid _ hm, hs]
  simp only [mensToDuration, mensToDurationNoDots, e1, e2, e3, hs]
  refine ⟨?_, ?_, ?_, ?_, ?_⟩ <;> norm_num <;> ring

example : mensToDuration "pSg".toList = 12 ∧ mensToDuration "sf#".toList = 4 := by decide +kernel

/-- C55, the part that is false: a perfection mark after the note shape has no effect. -/
theorem mens_mark_after_shape_ignored :
    mensToDuration "Sp".toList = 8 ∧ mensToDuration "pS".toList = 12 := by decide +kernel

/-! ## C22: ticks per quarter note -/

theorem getLcm_eq (ns : List Nat) (h : ∀ n ∈ ns, 0 < n) : getLcm ns = some (ns.foldl Nat.lcm 1) := by
  cases ns with
  | nil => rfl
  | cons n rest =>
    simp only [getLcm, List.foldl_cons, show Nat.lcm 1 n = n by simp [Nat.lcm]]
    have hn : 0 < n := h n (by simp)
    have hr : ∀ m ∈ rest, 0 < m := fun m hm => h m (by simp [hm])
    clear h
    induction rest generalizing n with
    | nil => rfl
    | cons m ms ih =>
      have hm : 0 < m := hr m (by simp)
      have hg : Nat.gcd n m ≠ 0 := by
        have := Nat.gcd_pos_of_pos_left m hn; omega
      simp only [List.foldlM_cons, List.foldl_cons, hg, if_false]
      have : n * m / Nat.gcd n m = Nat.lcm n m := rfl
      rw [this]
      simp only [Option.bind_eq_bind, Option.bind_some]
      exact ih (Nat.lcm n m) (Nat.lcm_pos hn hm) (fun k hk => hr k (by simp [hk]))

theorem foldl_lcm_dvd (ns : List Nat) (a t : Nat) : ns.foldl Nat.lcm a ∣ t ↔ a ∣ t ∧ ∀ n ∈ ns, n ∣ t := by
  induction ns generalizing a with
  | nil => simp
  | cons m ms ih =>
    simp only [List.foldl_cons, ih, Nat.lcm_dvd_iff, List.mem_cons, forall_eq_or_imp]
    constructor
    · rintro ⟨⟨h1, h2⟩, h3⟩; exact ⟨h1, h2, h3⟩
    · rintro ⟨h1, h2, h3⟩; exact ⟨⟨h1, h2⟩, h3⟩

/-- `t` ticks per quarter note make the duration `d` a whole number of ticks. -/
def WholeTicks (t : Nat) (d : Rat) : Prop := ∃ k : Int, (t : Rat) * d = k

theorem wholeTicks_iff (t : Nat) (d : Rat) : WholeTicks t d ↔ d.den ∣ t := by
  constructor
  · rintro ⟨k, hk⟩
    have hd : (d.den : Rat) ≠ 0 := by exact_mod_cast d.den_nz
    have h1 : (t : Rat) * d.num = k * d.den := by
      rw [← hk]
      conv_rhs => rw [← Rat.num_div_den d]
      simp only [Rat.num_div_den]
      have := Rat.mul_den_eq_num d
      rw [mul_assoc, this]
    have h2 : (t : Int) * d.num = k * (d.den : Int) := by exact_mod_cast h1
    have h3 : d.den ∣ t * d.num.natAbs := by
      have h4 : (d.den : Int) ∣ (t : Int) * d.num := ⟨k, by rw [h2]; ring⟩
      have h5 := Int.natAbs_dvd_natAbs.2 h4
      simpa [Int.natAbs_mul] using h5
    exact (Nat.Coprime.dvd_of_dvd_mul_right (Nat.Coprime.symm d.reduced) h3)
  · rintro ⟨m, hm⟩
    refine ⟨m * d.num, ?_⟩
    have := Rat.mul_den_eq_num d
    rw [hm]; push_cast
    rw [← this]; ring

/-- C22. `tpq` is the least positive number of ticks making every positive line duration whole: it does so,
and it divides every other number that does. -/
theorem tpq_least (durs : List Rat) :
    ∃ t, tpq durs = some t ∧ 0 < t ∧
      ∀ t' : Nat, (∀ d ∈ durs, 0 < d → WholeTicks t' d) ↔ t ∣ t' := by
  let denoms := ((durs.filter (fun d => decide (d > 0))).map (·.den)).filter (fun d => decide (d > 1))
  have hpos : ∀ n ∈ denoms, 0 < n := by
    intro n hn
    simp only [denoms, List.mem_filter, decide_eq_true_eq] at hn
    omega
  have hval : tpq durs = some (denoms.foldl Nat.lcm 1) := by
    unfold tpq
    simp only
    split
    · exact getLcm_eq denoms hpos
    · next h =>
      have : denoms = [] := by
        apply List.eq_nil_of_length_eq_zero
        have : ¬ denoms.length > 0 := h
        omega
      rw [this]; rfl
  refine ⟨_, hval, ?_, ?_⟩
  · have gen : ∀ (l : List Nat) (a : Nat), 0 < a → (∀ n ∈ l, 0 < n) → 0 < l.foldl Nat.lcm a := by
      intro l
      induction l with
      | nil => intro a ha _; exact ha
      | cons m ms ih =>
        intro a ha hl
        exact ih _ (Nat.lcm_pos ha (hl m (by simp))) (fun n hn => hl n (by simp [hn]))
    exact gen denoms 1 (by omega) hpos
  · intro t'
    rw [foldl_lcm_dvd]
    constructor
    · intro h
      refine ⟨Nat.one_dvd _, ?_⟩
      intro n hn
      simp only [denoms, List.mem_filter, List.mem_map, decide_eq_true_eq] at hn
      obtain ⟨⟨d, ⟨hd1, hd2⟩, rfl⟩, _⟩ := hn
      exact (wholeTicks_iff t' d).1 (h d hd1 hd2)
    · rintro ⟨_, h⟩ d hd hd0
      rw [wholeTicks_iff]
      by_cases h1 : d.den > 1
      · apply h
        simp only [denoms, List.mem_filter, List.mem_map, decide_eq_true_eq]
        exact ⟨⟨d, ⟨hd, hd0⟩, rfl⟩, h1⟩
      · have := d.den_pos
        have : d.den = 1 := by omega
        rw [this]; exact Nat.one_dvd _

/-- The code gathers the durations in a set; the order in which they come does not matter. -/
theorem tpq_perm (a b : List Rat) (h : ∀ d, d ∈ a ↔ d ∈ b) : tpq a = tpq b := by
  obtain ⟨t, ht, _, h1⟩ := tpq_least a
  obtain ⟨u, hu, _, h2⟩ := tpq_least b
  have key : ∀ t', (∀ d ∈ a, 0 < d → WholeTicks t' d) ↔ (∀ d ∈ b, 0 < d → WholeTicks t' d) := by
    intro t'
    exact ⟨fun k d hd => k d ((h d).2 hd), fun k d hd => k d ((h d).1 hd)⟩
  have e1 : t ∣ u := (h1 u).1 ((key u).2 ((h2 u).2 (Nat.dvd_refl u)))
  have e2 : u ∣ t := (h2 t).1 ((key t).1 ((h1 t).2 (Nat.dvd_refl t)))
  rw [ht, hu, Nat.dvd_antisymm e1 e2]

example : tpq [1, 1 / 2, 2 / 3, 0, 3 / 4] = some 12 := by decide +kernel

end C21
