import Verif.Model.Token
import Verif.Lemmas.PyStr
import Verif.Lemmas.Tac
/-
C24: token caches never go stale. C25: subtokens.
-/
namespace C21

/-- The answer to `q` is one the code promises to keep right: everything but `isRest` of a null token whose
resolution has been changed (`strict` says that it has not). -/
def Kept (strict : Bool) (q : Query) (text : Str) : Prop := strict = true ∨ q ≠ .rest ∨ isNullText text = false

/-- The invariant: cached values are right, and the flags tell when there are any. -/
structure Coh (strict : Bool) (s : Tok) : Prop where
  right : ∀ q v, s.cache q = some v → Kept strict q s.text → v = meaning q s.text s.type s.res
  textFlag : s.textFlag = false → ∀ q ∈ textProperties, s.cache q = none
  typeFlag : s.typeFlag = false → ∀ q ∈ typeProperties, ∀ v, s.cache q = some v → Kept strict q s.text →
    ∀ ty, v = meaning q s.text ty s.res

/-- `m` answers `sp` and keeps the invariant; afterwards the flags named are set. -/
structure Good (strict : Bool) (m : Tok → Bool × Tok) (sp : Tok → Bool) (tf yf : Bool) : Prop where
  ans : ∀ s, Coh strict s → (m s).1 = sp s
  coh : ∀ s, Coh strict s → Coh strict (m s).2
  text : ∀ s, (m s).2.text = s.text
  type : ∀ s, (m s).2.type = s.type
  res : ∀ s, (m s).2.res = s.res
  subs : ∀ s, (m s).2.subs = s.subs ∧ (m s).2.subsGenerated = s.subsGenerated
  textFlag : ∀ s, Coh strict s → (s.textFlag = true ∨ tf = true) → (m s).2.textFlag = true
  typeFlag : ∀ s, Coh strict s → (s.typeFlag = true ∨ yf = true) → (m s).2.typeFlag = true

/-- A specification that depends on text, type and resolution only. -/
def Pure (sp : Tok → Bool) : Prop :=
  ∀ s s' : Tok, s.text = s'.text → s.type = s'.type → s.res = s'.res → sp s = sp s'

theorem good_text (strict : Bool) (f : Str → Bool) : Good strict (textBody f) (fun s => f s.text) false false :=
  ⟨fun _ _ => rfl, fun _ h => h, fun _ => rfl, fun _ => rfl, fun _ => rfl, fun _ => ⟨rfl, rfl⟩, fun s _ h => by simpa [textBody] using h, fun s _ h => by simpa [textBody] using h⟩

theorem good_type (strict : Bool) (f : Str → Bool) : Good strict (typeBody f) (fun s => f s.type) false false :=
  ⟨fun _ _ => rfl, fun _ h => h, fun _ => rfl, fun _ => rfl, fun _ => rfl, fun _ => ⟨rfl, rfl⟩, fun s _ h => by simpa [typeBody] using h, fun s _ h => by simpa [typeBody] using h⟩

theorem good_not {strict : Bool} {a : Tok → Bool × Tok} {sp : Tok → Bool} {tf yf : Bool} (h : Good strict a sp tf yf) :
    Good strict (notM a) (fun s => !sp s) tf yf :=
  ⟨fun s hs => by simp [notM, h.ans s hs], h.coh, h.text, h.type, h.res, h.subs, h.textFlag, h.typeFlag⟩

theorem good_and {strict : Bool} {a b : Tok → Bool × Tok} {sa sb : Tok → Bool} {tf yf tf' yf' : Bool}
    (ha : Good strict a sa tf yf) (hb : Good strict b sb tf' yf') (hp : Pure sb) :
    Good strict (andM a b) (fun s => sa s && sb s) tf yf := by
  have e : ∀ s, sb (a s).2 = sb s := fun s => hp _ _ (ha.text s) (ha.type s) (ha.res s)
  constructor
  · intro s hs
    unfold andM
    rw [ha.ans s hs]
    cases h : sa s with
    | true => simp [hb.ans _ (ha.coh s hs), e]
    | false => simp
  · intro s hs
    unfold andM
    split
    · exact hb.coh _ (ha.coh s hs)
    · exact ha.coh s hs
  · intro s; unfold andM; split
    · rw [hb.text, ha.text]
    · exact ha.text s
  · intro s; unfold andM; split
    · rw [hb.type, ha.type]
    · exact ha.type s
  · intro s; unfold andM; split
    · rw [hb.res, ha.res]
    · exact ha.res s
  · intro s; unfold andM; split
    · exact ⟨(hb.subs _).1.trans (ha.subs s).1, (hb.subs _).2.trans (ha.subs s).2⟩
    · exact ha.subs s
  · intro s hs ht; unfold andM; split
    · exact hb.textFlag _ (ha.coh s hs) (.inl (ha.textFlag s hs ht))
    · exact ha.textFlag s hs ht
  · intro s hs ht; unfold andM; split
    · exact hb.typeFlag _ (ha.coh s hs) (.inl (ha.typeFlag s hs ht))
    · exact ha.typeFlag s hs ht

theorem good_or {strict : Bool} {a b : Tok → Bool × Tok} {sa sb : Tok → Bool} {tf yf tf' yf' : Bool}
    (ha : Good strict a sa tf yf) (hb : Good strict b sb tf' yf') (hp : Pure sb) :
    Good strict (orM a b) (fun s => sa s || sb s) tf yf := by
  have e : ∀ s, sb (a s).2 = sb s := fun s => hp _ _ (ha.text s) (ha.type s) (ha.res s)
  constructor
  · intro s hs
    unfold orM
    rw [ha.ans s hs]
    cases h : sa s with
    | true => simp
    | false => simp [hb.ans _ (ha.coh s hs), e]
  · intro s hs
    unfold orM
    split
    · exact ha.coh s hs
    · exact hb.coh _ (ha.coh s hs)
  · intro s; unfold orM; split
    · exact ha.text s
    · rw [hb.text, ha.text]
  · intro s; unfold orM; split
    · exact ha.type s
    · rw [hb.type, ha.type]
  · intro s; unfold orM; split
    · exact ha.res s
    · rw [hb.res, ha.res]
  · intro s; unfold orM; split
    · exact ha.subs s
    · exact ⟨(hb.subs _).1.trans (ha.subs s).1, (hb.subs _).2.trans (ha.subs s).2⟩
  · intro s hs ht; unfold orM; split
    · exact ha.textFlag s hs ht
    · exact hb.textFlag _ (ha.coh s hs) (.inl (ha.textFlag s hs ht))
  · intro s hs ht; unfold orM; split
    · exact ha.typeFlag s hs ht
    · exact hb.typeFlag _ (ha.coh s hs) (.inl (ha.typeFlag s hs ht))

/-- A cached property whose body is right is right, if its flags are set when they must be. `hk`: only the answer to `isRest` may be excused. -/
theorem good_memo {strict : Bool} {q : Query} {st sy : Bool} {body : Tok → Bool × Tok} {sp : Tok → Bool} {tf yf : Bool}
    (hb : Good strict body sp tf yf) (hq : q ≠ .rest)
    (hsp : ∀ s : Tok, sp s = meaning q s.text s.type s.res)
    (hst : q ∈ textProperties → st = true) (hsy : q ∈ typeProperties → sy = true) :
    Good strict (memo q st sy body) sp (st && decide (q ∈ textProperties)) false := by
  have hk : ∀ t, Kept strict q t := fun t => .inr (.inl hq)
  constructor
  · intro s hs
    unfold memo
    split
    · rename_i v hv
      rw [hsp]; exact hs.right q v hv (hk _)
    · exact hb.ans s hs
  · intro s hs
    unfold memo
    split
    · exact hs
    · have hc := hb.coh s hs
      constructor
      · intro q' v hv hk'
        simp only at hv ⊢
        by_cases e : q' = q
        · rw [if_pos e] at hv
          cases hv
          rw [e, hb.ans s hs, hb.text, hb.type, hb.res]
          exact hsp s
        · rw [if_neg e] at hv
          exact hc.right q' v hv hk'
      · intro hf q' hq'
        simp only [Bool.or_eq_false_iff] at hf ⊢
        by_cases e : q' = q
        · rw [e] at hq'
          rw [hst hq'] at hf
          exact absurd hf.2 (by simp)
        · rw [if_neg e]
          exact hc.textFlag hf.1 q' hq'
      · intro hf q' hq' v hv hk'
        simp only [Bool.or_eq_false_iff] at hf hv ⊢
        by_cases e : q' = q
        · rw [e] at hq'
          rw [hsy hq'] at hf
          exact absurd hf.2 (by simp)
        · rw [if_neg e] at hv
          exact hc.typeFlag hf.1 q' hq' v hv hk'
  · intro s; unfold memo; split
    · rfl
    · exact hb.text s
  · intro s; unfold memo; split
    · rfl
    · exact hb.type s
  · intro s; unfold memo; split
    · rfl
    · exact hb.res s
  · intro s; unfold memo; split
    · exact ⟨rfl, rfl⟩
    · exact hb.subs s
  · intro s hs ht
    unfold memo
    split
    · rename_i v hv
      rcases ht with ht | ht
      · exact ht
      · simp only [Bool.and_eq_true, decide_eq_true_eq] at ht
        by_contra hc
        have := hs.textFlag (by simpa using hc) q ht.2
        rw [hv] at this; cases this
    · rcases ht with ht | ht
      · simp [hb.textFlag s hs (.inl ht)]
      · simp only [Bool.and_eq_true] at ht
        simp [ht.1]
  · intro s hs ht
    simp only [Bool.false_eq_true, or_false] at ht
    unfold memo
    split
    · exact ht
    · simp [hb.typeFlag s hs (.inl ht)]

theorem good_weaken {strict : Bool} {m : Tok → Bool × Tok} {sp sp' : Tok → Bool} {tf yf : Bool} (h : Good strict m sp tf yf)
    (e : ∀ s, sp s = sp' s) : Good strict m sp' tf yf := by
  have : sp = sp' := funext e
  rw [← this]; exact h

/-- The meaning of a query, as a function of the token. -/
def means (q : Query) (s : Tok) : Bool := meaning q s.text s.type s.res

theorem pure_means (q : Query) : Pure (means q) := by
  intro s s' h1 h2 h3; unfold means; rw [h1, h2, h3]

theorem pure_not {sp : Tok → Bool} (h : Pure sp) : Pure (fun s => !sp s) := fun s s' a b c => by simp only [h s s' a b c]
theorem pure_and {sa sb : Tok → Bool} (h : Pure sa) (h' : Pure sb) : Pure (fun s => sa s && sb s) :=
  fun s s' a b c => by simp only [h s s' a b c, h' s s' a b c]
theorem pure_or {sa sb : Tok → Bool} (h : Pure sa) (h' : Pure sb) : Pure (fun s => sa s || sb s) :=
  fun s s' a b c => by simp only [h s s' a b c, h' s s' a b c]

section
variable (strict : Bool)

theorem good_ask_text (q : Query) (f : Str → Bool) (hq : q ≠ .rest) (hm : ∀ t ty r, f t = meaning q t ty r)
    (hx : q ∈ textProperties) (hy : q ∉ typeProperties) :
    Good strict (memo q true false (textBody f)) (means q) true false := by
  have := good_memo (st := true) (sy := false) (good_weaken (sp' := means q) (good_text strict f) (fun s => hm _ _ _)) hq (fun s => rfl) (fun _ => rfl) (fun h => absurd h hy)
  simpa [hx] using this

theorem good_ask_type (q : Query) (f : Str → Bool) (hq : q ≠ .rest) (hm : ∀ t ty r, f ty = meaning q t ty r)
    (hx : q ∉ textProperties) :
    Good strict (memo q false true (typeBody f)) (means q) false false := by
  have := good_memo (st := false) (sy := true) (good_weaken (sp' := means q) (good_type strict f) (fun s => hm _ _ _)) hq (fun s => rfl) (fun h => absurd h hx) (fun _ => rfl)
  simpa [hx] using this

theorem good_ask_body (q : Query) (body : Tok → Bool × Tok) (sp : Tok → Bool) (tf yf : Bool) (hb : Good strict body sp tf yf)
    (hq : q ≠ .rest) (hm : ∀ s, sp s = means q s) (hx : q ∈ textProperties) (hy : q ∉ typeProperties) :
    Good strict (memo q true false body) (means q) true false := by
  have := good_memo (st := true) (sy := false) (good_weaken (sp' := means q) hb hm) hq (fun s => rfl) (fun _ => rfl) (fun h => absurd h hy)
  simpa [hx] using this

theorem good_interpretation : Good strict askInterpretation (means .interpretation) true false :=
  good_ask_text strict _ _ (by decide) (fun _ _ _ => rfl) (by decide) (by decide)
theorem good_comment : Good strict askComment (means .comment) true false :=
  good_ask_text strict _ _ (by decide) (fun _ _ _ => rfl) (by decide) (by decide)
theorem good_globalComment : Good strict askGlobalComment (means .globalComment) true false :=
  good_ask_text strict _ _ (by decide) (fun _ _ _ => rfl) (by decide) (by decide)
theorem good_barline : Good strict askBarline (means .barline) true false :=
  good_ask_text strict _ _ (by decide) (fun _ _ _ => rfl) (by decide) (by decide)
theorem good_null : Good strict askNull (means .null) true false :=
  good_ask_text strict _ _ (by decide) (fun t _ _ => by
    rw [Bool.eq_iff_iff]; simp [meaning, isNullText, or_assoc]) (by decide) (by decide)
theorem good_label : Good strict askLabel (means .label) true false :=
  good_ask_text strict _ _ (by decide) (fun _ _ _ => rfl) (by decide) (by decide)
theorem good_chord : Good strict askChord (means .chord) true false :=
  good_ask_text strict _ _ (by decide) (fun _ _ _ => rfl) (by decide) (by decide)
theorem good_exclusive : Good strict askExclusive (means .exclusive) true false :=
  good_ask_text strict _ _ (by decide) (fun _ _ _ => rfl) (by decide) (by decide)
theorem good_split : Good strict askSplit (means .split) true false :=
  good_ask_text strict _ _ (by decide) (fun _ _ _ => rfl) (by decide) (by decide)
theorem good_merge : Good strict askMerge (means .merge) true false :=
  good_ask_text strict _ _ (by decide) (fun _ _ _ => rfl) (by decide) (by decide)
theorem good_exchange : Good strict askExchange (means .exchange) true false :=
  good_ask_text strict _ _ (by decide) (fun _ _ _ => rfl) (by decide) (by decide)
theorem good_terminate : Good strict askTerminate (means .terminate) true false :=
  good_ask_text strict _ _ (by decide) (fun _ _ _ => rfl) (by decide) (by decide)
theorem good_add : Good strict askAdd (means .add) true false :=
  good_ask_text strict _ _ (by decide) (fun _ _ _ => rfl) (by decide) (by decide)

theorem recipOnly_text (t : Str) : isRecipOnly t = isRecipText t := by
  have hd : isDig = Char.isDigit := by
    funext c
    have h1 : (48 ≤ c.toNat) = (48 ≤ c.val) := by
      rw [UInt32.le_iff_toNat_le] <;> rfl
    have h2 : (c.toNat ≤ 57) = (c.val ≤ 57) := by
      rw [UInt32.le_iff_toNat_le] <;> rfl
    simp [isDig, Char.isDigit, h1, h2]
  unfold isRecipOnly isRecipText
  rw [hd]
  simp only
  cases h : t.dropWhile Char.isDigit with
  | nil => cases h2 : t.takeWhile Char.isDigit <;> simp
  | cons c r =>
    by_cases hc : c = '%'
    · subst hc
      cases h2 : t.takeWhile Char.isDigit <;> simp
      cases h3 : r.takeWhile Char.isDigit <;> simp
    · cases h2 : t.takeWhile Char.isDigit with
      | nil => simp
      | cons x xs =>
        split
        · rename_i h4; simp at h4; exact absurd h4.1 hc
        · split
          · rename_i h5; simp at h5; exact absurd h5.1 hc
          · simp

theorem good_recipOnly : Good strict askRecipOnly (means .recipOnly) true false :=
  good_ask_text strict _ _ (by decide) (fun t _ _ => recipOnly_text t) (by decide) (by decide)
theorem good_beam : Good strict askBeam (means .beam) true false :=
  good_ask_text strict _ _ (by decide) (fun t _ _ => by
    rw [Bool.eq_iff_iff]
    simp only [meaning, Bool.or_eq_true, List.contains_iff_mem, List.any_eq_true]
    constructor
    · rintro (((h | h) | h) | h)
      · exact ⟨_, h, by decide⟩
      · exact ⟨_, h, by decide⟩
      · exact ⟨_, h, by decide⟩
      · exact ⟨_, h, by decide⟩
    · rintro ⟨c, h, hc⟩
      simp at hc
      rcases hc with rfl | rfl | rfl | rfl <;> tauto) (by decide) (by decide)
theorem good_fermata : Good strict askFermata (means .fermata) true false :=
  good_ask_text strict _ _ (by decide) (fun _ _ _ => rfl) (by decide) (by decide)
theorem good_staff : Good strict askStaff (means .staff) true false :=
  good_ask_text strict _ _ (by decide) (fun _ _ _ => rfl) (by decide) (by decide)
theorem good_part : Good strict askPart (means .part) true false :=
  good_ask_text strict _ _ (by decide) (fun _ _ _ => rfl) (by decide) (by decide)
theorem good_group : Good strict askGroup (means .group) true false :=
  good_ask_text strict _ _ (by decide) (fun _ _ _ => rfl) (by decide) (by decide)
theorem good_kern : Good strict askKern (means .kern) false false :=
  good_ask_type strict _ _ (by decide) (fun _ _ _ => rfl) (by decide)
theorem good_recip : Good strict askRecip (means .recip) false false :=
  good_ask_type strict _ _ (by decide) (fun _ _ _ => rfl) (by decide)
theorem good_mens : Good strict askMens (means .mens) false false :=
  good_ask_type strict _ _ (by decide) (fun _ _ _ => rfl) (by decide)
theorem good_rhythm : Good strict askRhythm (means .rhythm) false false :=
  good_ask_type strict _ _ (by decide) (fun _ _ _ => rfl) (by decide)

theorem good_localComment : Good strict askLocalComment (means .localComment) true false :=
  good_ask_body strict _ _ _ _ _ (good_and (good_comment strict) (good_not (good_globalComment strict)) (pure_not (pure_means _)))
    (by decide) (fun _ => rfl) (by decide) (by decide)
theorem good_data : Good strict askData (means .data) true false :=
  good_ask_body strict _ _ _ _ _ (good_and (good_not (good_interpretation strict))
    (good_and (good_not (good_comment strict)) (good_not (good_barline strict)) (pure_not (pure_means _)))
    (pure_and (pure_not (pure_means _)) (pure_not (pure_means _))))
    (by decide) (fun s => by simp [means, meaning, isDataText, Bool.and_assoc]) (by decide) (by decide)
theorem good_nonNullData : Good strict askNonNullData (means .nonNullData) true false :=
  good_ask_body strict _ _ _ _ _ (good_and (good_data strict) (good_not (good_null strict)) (pure_not (pure_means _)))
    (by decide) (fun _ => rfl) (by decide) (by decide)
theorem good_nullData : Good strict askNullData (means .nullData) true false :=
  good_ask_body strict _ _ _ _ _ (good_and (good_data strict) (good_null strict) (pure_means _))
    (by decide) (fun _ => rfl) (by decide) (by decide)
theorem good_manipulator : Good strict askManipulator (means .manipulator) true false :=
  good_ask_body strict _ _ _ _ _
    (good_or (good_split strict) (good_or (good_merge strict) (good_or (good_exchange strict) (good_or (good_add strict)
      (good_or (good_terminate strict) (good_exclusive strict) (pure_means _)) (pure_or (pure_means _) (pure_means _)))
      (pure_or (pure_means _) (pure_or (pure_means _) (pure_means _))))
      (pure_or (pure_means _) (pure_or (pure_means _) (pure_or (pure_means _) (pure_means _)))))
      (pure_or (pure_means _) (pure_or (pure_means _) (pure_or (pure_means _) (pure_or (pure_means _) (pure_means _))))))
    (by decide) (fun s => by
      rw [Bool.eq_iff_iff]; simp [means, meaning, or_assoc])
    (by decide) (by decide)
theorem good_staffType : Good strict askStaffType (means .staffType) false false := by
  have := good_memo (q := .staffType) (st := false) (sy := true)
    (good_weaken (sp' := means .staffType) (good_or (good_kern strict) (good_mens strict) (pure_means _)) (fun s => by
      rw [Bool.eq_iff_iff]; simp [means, meaning]))
    (by decide) (fun s => rfl) (by decide) (fun _ => rfl)
  unfold askStaffType
  simpa using this

/-- After a type query has been answered the type flag is set. -/
theorem kern_flag (s : Tok) (hs : Coh strict s) : (askKern s).2.typeFlag = true := by
  unfold askKern memo
  split
  · rename_i v hv
    by_contra hc
    have h1 := hs.typeFlag (by simpa using hc) .kern (by decide) v hv (.inr (.inl (by decide)))
    have a := h1 "**kern".toList
    have b := h1 []
    rw [a] at b
    simp [meaning] at b
  · simp

/-- `isRest`, when its answer is kept. -/
theorem rest_ok (s : Tok) (hs : Coh strict s) :
    Coh strict (askRest s).2 ∧ (Kept strict .rest s.text → (askRest s).1 = means .rest s) ∧
    (askRest s).2.text = s.text ∧ (askRest s).2.type = s.type ∧ (askRest s).2.res = s.res ∧
    (askRest s).2.subs = s.subs ∧ (askRest s).2.subsGenerated = s.subsGenerated := by
  have hn := good_null strict
  have hd := good_data strict
  have hk := good_kern strict
  have hm := good_mens strict
  unfold askRest memo
  split
  · rename_i v hv
    exact ⟨hs, fun hkp => hs.right _ _ hv hkp, rfl, rfl, rfl, rfl, rfl⟩
  · have c1 := hn.coh s hs
    have c2 := hd.coh _ c1
    have c3 := hk.coh _ c2
    have c4 := hm.coh _ c3
    -- the body: its answer and the state it leaves
    have key : ∀ r : Bool × Tok, r.1 = means .rest s → Coh strict r.2 → r.2.text = s.text → r.2.type = s.type →
        r.2.res = s.res → r.2.subs = s.subs → r.2.subsGenerated = s.subsGenerated →
        Coh strict { r.2 with
          cache := fun q' => if q' = Query.rest then some r.1 else r.2.cache q'
          textFlag := r.2.textFlag || true
          typeFlag := r.2.typeFlag || true } ∧ (Kept strict .rest s.text → r.1 = means .rest s) ∧
        r.2.text = s.text ∧ r.2.type = s.type ∧ r.2.res = s.res ∧ r.2.subs = s.subs ∧ r.2.subsGenerated = s.subsGenerated := by
      intro r h1 h2 h3 h4 h5 h6 h7
      refine ⟨⟨?_, by simp, by simp⟩, fun _ => h1, h3, h4, h5, h6, h7⟩
      intro q v hv hkp
      simp only at hv ⊢
      by_cases e : q = .rest
      · rw [if_pos e] at hv
        cases hv
        rw [e, h3, h4, h5]; exact h1
      · rw [if_neg e] at hv
        exact h2.right q v hv hkp
    have an : (askNull s).1 = isNullText s.text := hn.ans s hs
    have tn : (if (askNull s).1 then (askNull s).2.res.getD (askNull s).2.text else (askNull s).2.text) =
        (if isNullText s.text then s.res.getD s.text else s.text) := by
      rw [an, hn.res, hn.text]
    have ad : (askData (askNull s).2).1 = isDataText s.text := by
      rw [hd.ans _ c1]; simp [means, meaning, hn.text]
    have ak : (askKern (askData (askNull s).2).2).1 = (s.type == "**kern".toList) := by
      rw [hk.ans _ c2]; simp [means, meaning, hd.type, hn.type]
    have am : (askMens (askKern (askData (askNull s).2).2).2).1 = (s.type == "**mens".toList) := by
      rw [hm.ans _ c3]; simp [means, meaning, hk.type, hd.type, hn.type]
    refine key _ ?_ ?_ ?_ ?_ ?_ ?_ ?_
    · simp only
      rw [ad, ak, am, tn]
      simp only [means, meaning, isRestText]
      cases h1 : isDataText s.text <;> cases h2 : (s.type == "**kern".toList) <;> cases h3 : (s.type == "**mens".toList) <;> simp
    · simp only; split
      · split
        · exact c3
        · split <;> exact c4
      · exact c2
    · simp only; split
      · split
        · simp only [hk.text, hd.text, hn.text]
        · split <;> simp only [hm.text, hk.text, hd.text, hn.text]
      · simp only [hd.text, hn.text]
    · simp only; split
      · split
        · simp only [hk.type, hd.type, hn.type]
        · split <;> simp only [hm.type, hk.type, hd.type, hn.type]
      · simp only [hd.type, hn.type]
    · simp only; split
      · split
        · simp only [hk.res, hd.res, hn.res]
        · split <;> simp only [hm.res, hk.res, hd.res, hn.res]
      · simp only [hd.res, hn.res]
    · simp only; split
      · split
        · simp only [(hk.subs _).1, (hd.subs _).1, (hn.subs _).1]
        · split <;> simp only [(hm.subs _).1, (hk.subs _).1, (hd.subs _).1, (hn.subs _).1]
      · simp only [(hd.subs _).1, (hn.subs _).1]
    · simp only; split
      · split
        · simp only [(hk.subs _).2, (hd.subs _).2, (hn.subs _).2]
        · split <;> simp only [(hm.subs _).2, (hk.subs _).2, (hd.subs _).2, (hn.subs _).2]
      · simp only [(hd.subs _).2, (hn.subs _).2]

theorem mensNote_text (t : Str) : isMensNoteText t = t.any (fun c => c ∈ "abcdefgABCDEFG".toList) := by
  unfold isMensNoteText
  congr 1
  funext c
  rw [Bool.eq_iff_iff]
  simp [List.contains_iff_mem, or_assoc]

theorem kernNote_text (t : Str) : isKernNoteText t = (!t.contains 'r' && t.any (fun c => c ∈ "abcdefgABCDEFG".toList)) := by
  unfold isKernNoteText isRestText
  cases t.contains 'r' <;> simp [List.contains_iff_mem]

theorem note_ok (s : Tok) (hs : Coh strict s) :
    Coh strict (askNote s).2 ∧ (askNote s).1 = means .note s ∧
    (askNote s).2.text = s.text ∧ (askNote s).2.type = s.type ∧ (askNote s).2.res = s.res ∧
    (askNote s).2.subs = s.subs ∧ (askNote s).2.subsGenerated = s.subsGenerated := by
  have ho := good_or (good_not (good_data strict)) (good_null strict) (pure_means _)
  have hk := good_kern strict
  have hm := good_mens strict
  unfold askNote memo
  split
  · rename_i v hv
    exact ⟨hs, hs.right _ _ hv (.inr (.inl (by decide))), rfl, rfl, rfl, rfl, rfl⟩
  · have c1 := ho.coh s hs
    have c2 := hk.coh _ c1
    have c3 := hm.coh _ c2
    have t1 := ho.textFlag s hs (.inr rfl)
    have key : ∀ r : Bool × Tok, r.1 = means .note s → Coh strict r.2 → r.2.text = s.text → r.2.type = s.type →
        r.2.res = s.res → r.2.subs = s.subs → r.2.subsGenerated = s.subsGenerated → r.2.textFlag = true →
        (r.2.typeFlag = true ∨ ∀ ty, r.1 = meaning .note s.text ty s.res) →
        Coh strict { r.2 with
          cache := fun q' => if q' = Query.note then some r.1 else r.2.cache q'
          textFlag := r.2.textFlag || false
          typeFlag := r.2.typeFlag || false } ∧ r.1 = means .note s ∧
        r.2.text = s.text ∧ r.2.type = s.type ∧ r.2.res = s.res ∧ r.2.subs = s.subs ∧ r.2.subsGenerated = s.subsGenerated := by
      intro r h1 h2 h3 h4 h5 h6 h7 h8 h9
      refine ⟨⟨?_, ?_, ?_⟩, h1, h3, h4, h5, h6, h7⟩
      · intro q v hv hkp
        simp only at hv ⊢
        by_cases e : q = .note
        · rw [if_pos e] at hv
          cases hv
          rw [e, h3, h4, h5]; exact h1
        · rw [if_neg e] at hv
          exact h2.right q v hv hkp
      · intro hf; simp [h8] at hf
      · intro hf q hq v hv hkp ty
        simp only [Bool.or_false] at hf hv ⊢
        by_cases e : q = .note
        · rw [if_pos e] at hv
          cases hv
          rcases h9 with h9 | h9
          · rw [hf] at h9; cases h9
          · rw [e, h3, h5]; exact h9 ty
        · rw [if_neg e] at hv
          exact h2.typeFlag hf q hq v hv hkp ty
    have ao : (orM (notM askData) askNull s).1 = (!isDataText s.text || isNullText s.text) := ho.ans s hs
    have ak : (askKern (orM (notM askData) askNull s).2).1 = (s.type == "**kern".toList) := by
      rw [hk.ans _ c1]; simp [means, meaning, ho.type]
    have am : (askMens (askKern (orM (notM askData) askNull s).2).2).1 = (s.type == "**mens".toList) := by
      rw [hm.ans _ c2]; simp [means, meaning, hk.type, ho.type]
    have xk : (askKern (orM (notM askData) askNull s).2).2.text = s.text := by rw [hk.text, ho.text]
    have xm : (askMens (askKern (orM (notM askData) askNull s).2).2).2.text = s.text := by rw [hm.text, xk]
    have yk : (askKern (orM (notM askData) askNull s).2).2.typeFlag = true := kern_flag strict _ c1
    refine key _ ?_ ?_ ?_ ?_ ?_ ?_ ?_ ?_ ?_
    · simp only
      rw [ao, ak, am, xk, xm]
      simp only [means, meaning, kernNote_text, mensNote_text]
      cases h1 : isDataText s.text <;> cases h2 : isNullText s.text <;> cases h3 : (s.type == "**kern".toList) <;>
        cases h4 : (s.type == "**mens".toList) <;> simp
      simp at h3 h4
      rw [h3] at h4
      simp at h4
    · simp only; split
      · exact c1
      · split
        · exact c2
        · split <;> exact c3
    · simp only; split
      · exact ho.text s
      · split
        · exact xk
        · split <;> exact xm
    · simp only; split
      · exact ho.type s
      · split
        · simp only [hk.type, ho.type]
        · split <;> simp only [hm.type, hk.type, ho.type]
    · simp only; split
      · exact ho.res s
      · split
        · simp only [hk.res, ho.res]
        · split <;> simp only [hm.res, hk.res, ho.res]
    · simp only; split
      · exact (ho.subs s).1
      · split
        · simp only [(hk.subs _).1, (ho.subs s).1]
        · split <;> simp only [(hm.subs _).1, (hk.subs _).1, (ho.subs s).1]
    · simp only; split
      · exact (ho.subs s).2
      · split
        · simp only [(hk.subs _).2, (ho.subs s).2]
        · split <;> simp only [(hm.subs _).2, (hk.subs _).2, (ho.subs s).2]
    · simp only; split
      · exact t1
      · split
        · exact hk.textFlag _ c1 (.inl t1)
        · split <;> exact hm.textFlag _ c2 (.inl (hk.textFlag _ c1 (.inl t1)))
    · simp only; split
      · rename_i h
        right
        intro ty
        rw [ao] at h
        simp only [meaning]
        cases h1 : isDataText s.text <;> cases h2 : isNullText s.text <;> simp [h1, h2] at h ⊢
      · left
        split
        · exact yk
        · split <;> exact hm.typeFlag _ c2 (.inl yk)

/-- Every question: the invariant is kept, the answer is right, nothing else changes. -/
theorem ask_ok (q : Query) (s : Tok) (hs : Coh strict s) :
    Coh strict (s.ask q).2 ∧ (Kept strict q s.text → (s.ask q).1 = meaning q s.text s.type s.res) ∧
    (s.ask q).2.text = s.text ∧ (s.ask q).2.type = s.type ∧ (s.ask q).2.res = s.res ∧
    (s.ask q).2.subs = s.subs ∧ (s.ask q).2.subsGenerated = s.subsGenerated := by
  have fin : ∀ {m : Tok → Bool × Tok} {tf yf : Bool}, Good strict m (means q) tf yf →
      Coh strict (m s).2 ∧ (Kept strict q s.text → (m s).1 = meaning q s.text s.type s.res) ∧
      (m s).2.text = s.text ∧ (m s).2.type = s.type ∧ (m s).2.res = s.res ∧
      (m s).2.subs = s.subs ∧ (m s).2.subsGenerated = s.subsGenerated :=
    fun h => ⟨h.coh s hs, fun _ => h.ans s hs, h.text s, h.type s, h.res s, (h.subs s).1, (h.subs s).2⟩
  cases q with
  | data => exact fin (good_data strict)
  | interpretation => exact fin (good_interpretation strict)
  | nonNullData => exact fin (good_nonNullData strict)
  | nullData => exact fin (good_nullData strict)
  | null => exact fin (good_null strict)
  | barline => exact fin (good_barline strict)
  | comment => exact fin (good_comment strict)
  | localComment => exact fin (good_localComment strict)
  | globalComment => exact fin (good_globalComment strict)
  | label => exact fin (good_label strict)
  | chord => exact fin (good_chord strict)
  | exclusive => exact fin (good_exclusive strict)
  | split => exact fin (good_split strict)
  | merge => exact fin (good_merge strict)
  | exchange => exact fin (good_exchange strict)
  | terminate => exact fin (good_terminate strict)
  | add => exact fin (good_add strict)
  | manipulator => exact fin (good_manipulator strict)
  | recipOnly => exact fin (good_recipOnly strict)
  | beam => exact fin (good_beam strict)
  | fermata => exact fin (good_fermata strict)
  | staff => exact fin (good_staff strict)
  | part => exact fin (good_part strict)
  | group => exact fin (good_group strict)
  | rest => exact rest_ok strict s hs
  | note =>
    obtain ⟨a, b, c⟩ := note_ok strict s hs
    exact ⟨a, fun _ => b, c⟩
  | kern => exact fin (good_kern strict)
  | recip => exact fin (good_recip strict)
  | mens => exact fin (good_mens strict)
  | rhythm => exact fin (good_rhythm strict)
  | staffType => exact fin (good_staffType strict)

end

/-- Which answers can depend on the text, and on the type. -/
theorem meaning_type_only (q : Query) (h : q ∉ textProperties) (t t' ty : Str) (r : Option Str) :
    meaning q t ty r = meaning q t' ty r := by
  cases q <;> first | rfl | (exfalso; revert h; decide)

theorem meaning_text_only (q : Query) (h : q ∉ typeProperties) (t ty ty' : Str) (r : Option Str) :
    meaning q t ty r = meaning q t ty' r := by
  cases q <;> first | rfl | (exfalso; revert h; decide)

theorem meaning_res (q : Query) (h : q ≠ .rest) (t ty : Str) (r r' : Option Str) :
    meaning q t ty r = meaning q t ty r' := by
  cases q <;> first | rfl | (exfalso; exact h rfl)

theorem setText_coh (strict : Bool) (t : Str) (s : Tok) (hs : Coh strict s) : Coh strict (s.setText t) := by
  have mem_type : ∀ q, q ∉ textProperties → q ∈ typeProperties → q ≠ .rest := by
    intro q h _ e; subst e; exact h (by decide)
  have notrest : ∀ q, q ∉ textProperties → q ≠ .rest := by
    intro q h e; subst e; exact h (by decide)
  unfold Tok.setText Tok.clearText
  simp only
  cases hf : s.textFlag with
  | true =>
    simp only [if_true]
    refine ⟨?_, ?_, ?_⟩
    · intro q v hv hk
      simp only at hv ⊢
      by_cases hq : q ∈ textProperties
      · rw [if_pos hq] at hv; cases hv
      · rw [if_neg hq] at hv
        rw [hs.right q v hv (.inr (.inl (notrest q hq)))]
        exact meaning_type_only q hq _ _ _ _
    · intro _ q hq
      simp [hq]
    · intro hy q hq v hv hk ty
      simp only at hv hy ⊢
      by_cases hq' : q ∈ textProperties
      · rw [if_pos hq'] at hv; cases hv
      · rw [if_neg hq'] at hv
        rw [hs.typeFlag hy q hq v hv (.inr (.inl (notrest q hq'))) ty]
        exact meaning_type_only q hq' _ _ _ _
  | false =>
    simp only [Bool.false_eq_true, if_false]
    have hnone := hs.textFlag hf
    have hnt : ∀ q v, s.cache q = some v → q ∉ textProperties := by
      intro q v hv hq; rw [hnone q hq] at hv; cases hv
    refine ⟨?_, ?_, ?_⟩
    · intro q v hv hk
      have hq := hnt q v hv
      simp only at hv ⊢
      rw [hs.right q v hv (.inr (.inl (notrest q hq)))]
      exact meaning_type_only q hq _ _ _ _
    · intro _ q hq; exact hnone q hq
    · intro hy q hq v hv hk ty
      have hq' := hnt q v hv
      simp only at hv hy ⊢
      rw [hs.typeFlag hy q hq v hv (.inr (.inl (notrest q hq'))) ty]
      exact meaning_type_only q hq' _ _ _ _

theorem setType_coh (strict : Bool) (t : Str) (s : Tok) (hs : Coh strict s) : Coh strict (s.setType t) := by
  unfold Tok.setType Tok.clearType
  simp only
  cases hf : s.typeFlag with
  | true =>
    simp only [if_true]
    refine ⟨?_, ?_, ?_⟩
    · intro q v hv hk
      simp only at hv hk ⊢
      by_cases hq : q ∈ typeProperties
      · rw [if_pos hq] at hv; cases hv
      · rw [if_neg hq] at hv
        rw [hs.right q v hv hk]
        exact meaning_text_only q hq _ _ _ _
    · intro ht q hq
      simp only at ht ⊢
      by_cases hq' : q ∈ typeProperties
      · rw [if_pos hq']
      · rw [if_neg hq']; exact hs.textFlag ht q hq
    · intro _ q hq v hv
      simp [hq] at hv
  | false =>
    simp only [Bool.false_eq_true, if_false]
    refine ⟨?_, hs.textFlag, ?_⟩
    · intro q v hv hk
      simp only at hv hk ⊢
      by_cases hq : q ∈ typeProperties
      · exact hs.typeFlag hf q hq v hv hk t
      · rw [hs.right q v hv hk]
        exact meaning_text_only q hq _ _ _ _
    · intro hy q hq v hv hk ty
      exact hs.typeFlag hf q hq v hv hk ty

theorem setRes_coh (r : Option Str) (s : Tok) (hs : Coh false s) : Coh false (s.setRes r) := by
  refine ⟨?_, hs.textFlag, ?_⟩
  · intro q v hv hk
    have := hs.right q v hv hk
    rw [this]
    show meaning q s.text s.type s.res = meaning q s.text s.type r
    rcases hk with h | h | h
    · cases h
    · exact meaning_res q h _ _ _ _
    · by_cases e : q = .rest
      · subst e
        have h' : isNullText s.text = false := h
        simp [meaning, h']
      · exact meaning_res q e _ _ _ _
  · intro hy q hq v hv hk ty
    have := hs.typeFlag hy q hq v hv hk ty
    rw [this]
    show meaning q s.text ty s.res = meaning q s.text ty r
    rcases hk with h | h | h
    · cases h
    · exact meaning_res q h _ _ _ _
    · by_cases e : q = .rest
      · subst e
        have h' : isNullText s.text = false := h
        simp [meaning, h']
      · exact meaning_res q e _ _ _ _

theorem coh_subs (strict : Bool) (s : Tok) (hs : Coh strict s) (l : List Str) (b : Bool) :
    Coh strict { s with subs := l, subsGenerated := b } := ⟨hs.right, hs.textFlag, hs.typeFlag⟩

theorem subtokens_coh (strict : Bool) (s : Tok) (hs : Coh strict s) : Coh strict s.subtokens.2 := by
  unfold Tok.subtokens
  split
  · exact hs
  · exact coh_subs strict s hs _ _

theorem replaceSubtoken_coh (strict : Bool) (i : Int) (n : Str) (s : Tok) (hs : Coh strict s) :
    Coh strict (s.replaceSubtoken i n) := by
  unfold Tok.replaceSubtoken
  simp only
  have h1 := subtokens_coh strict s hs
  split
  · exact h1
  · have h2 := setText_coh strict (joinWith ' ' (s.subtokens.1.set i.toNat n)) _ (coh_subs strict _ h1 (s.subtokens.1.set i.toNat n) s.subtokens.2.subsGenerated)
    exact ⟨h2.right, h2.textFlag, h2.typeFlag⟩

/-- A history changes the resolution of the token. -/
def TokOp.resolves : TokOp → Bool
  | .setRes _ => true
  | _ => false

theorem run_coh (strict : Bool) (ops : List TokOp) (hops : strict = true → ∀ o ∈ ops, o.resolves = false) (s : Tok)
    (hs : Coh strict s) : Coh strict (s.run ops) := by
  induction ops generalizing s with
  | nil => exact hs
  | cons o ops ih =>
    refine ih (fun h x hx => hops h x (by simp [hx])) _ ?_
    cases o with
    | ask q => exact (ask_ok strict q s hs).1
    | setText t => exact setText_coh strict t s hs
    | setType t => exact setType_coh strict t s hs
    | setRes r =>
      cases strict with
      | true => have := hops rfl (.setRes r) (by simp); simp [TokOp.resolves] at this
      | false => exact setRes_coh r s hs
    | subtokens => exact subtokens_coh strict s hs
    | replaceSubtoken i n => exact replaceSubtoken_coh strict i n s hs

/-- A new token. -/
theorem coh_new (strict : Bool) (text type : Str) (res : Option Str) :
    Coh strict { text := text, type := type, res := res } :=
  ⟨by intro q v hv; simp at hv, by intro _ q _; rfl, by intro _ q _ v hv; simp at hv⟩

/-- C24. After any history of questions, text changes, data type changes and subtoken replacements, every
question is answered as its meaning for the current text and type requires. Changes of the token a null token
stands for are allowed too, but then only for questions other than `isRest` of a null token (`rest_goes_stale`). -/
theorem cache_coherent_partial (text type : Str) (res : Option Str) (ops : List TokOp) (q : Query)
    (h : (∀ o ∈ ops, o.resolves = false) ∨ q ≠ .rest ∨
      isNullText (Tok.run { text := text, type := type, res := res } ops).text = false) :
    ((Tok.run { text := text, type := type, res := res } ops).ask q).1 =
      meaning q (Tok.run { text := text, type := type, res := res } ops).text
        (Tok.run { text := text, type := type, res := res } ops).type
        (Tok.run { text := text, type := type, res := res } ops).res := by
  rcases h with h | h
  · exact (ask_ok true q _ (run_coh true ops (fun _ => h) _ (coh_new true text type res))).2.1 (.inl rfl)
  · exact (ask_ok false q _ (run_coh false ops (by simp) _ (coh_new false text type res))).2.1 (.inr h)

/-- Questions change nothing but the caches. -/
theorem ask_inert (strict : Bool) (q : Query) (s : Tok) (hs : Coh strict s) :
    (s.ask q).2.text = s.text ∧ (s.ask q).2.type = s.type ∧ (s.ask q).2.res = s.res := by
  obtain ⟨_, _, a, b, c, _⟩ := ask_ok strict q s hs
  exact ⟨a, b, c⟩

/-- A history in which both caches are filled, emptied and filled again. -/
example : ((Tok.run { text := "4r".toList, type := "**kern".toList }
    [.ask .rest, .setText "4c".toList, .ask .note, .setType "**text".toList]).ask .note).1 = false := by decide +kernel

/-- C24 is false of the code for `isRest` of a null token: the cached answer survives a change of the token
it stands for. -/
theorem rest_goes_stale :
    let s := Tok.run { text := ".".toList, type := "**kern".toList, res := some "4c".toList } [.ask .rest, .setRes (some "4r".toList)]
    (s.ask .rest).1 = false ∧ meaning .rest s.text s.type s.res = true := by decide +kernel

/-! ## C25: subtokens -/

/-- The cached list of subtokens is the current one. -/
def SubsOk (s : Tok) : Prop := s.subsGenerated = true → s.subs = splitOn ' ' s.text

theorem subtokens_ok (s : Tok) (hs : SubsOk s) :
    s.subtokens.1 = splitOn ' ' s.text ∧ s.subtokens.2.text = s.text ∧ SubsOk s.subtokens.2 := by
  unfold Tok.subtokens
  split
  · rename_i h; exact ⟨hs h, rfl, hs⟩
  · exact ⟨rfl, rfl, fun _ => rfl⟩

theorem setText_fields (t : Str) (s : Tok) : (s.setText t).text = t ∧ (s.setText t).subs = s.subs ∧
    (s.setText t).subsGenerated = false := by
  unfold Tok.setText Tok.clearText
  simp only
  split <;> exact ⟨rfl, rfl, rfl⟩

/-- A replacement without spaces. -/
def TokOp.clean : TokOp → Bool
  | .replaceSubtoken _ n => !n.contains ' '
  | _ => true

theorem replace_ok (s : Tok) (hs : SubsOk s) (i : Int) (n : Str) (hn : ' ' ∉ n) :
    splitOn ' ' (s.replaceSubtoken i n).text =
      (if 0 ≤ i ∧ i < (splitOn ' ' s.text).length then (splitOn ' ' s.text).set i.toNat n else splitOn ' ' s.text) ∧
    SubsOk (s.replaceSubtoken i n) := by
  obtain ⟨h1, h2, h3⟩ := subtokens_ok s hs
  unfold Tok.replaceSubtoken
  simp only
  rw [h1]
  by_cases hi : i < 0 ∨ i ≥ ((splitOn ' ' s.text).length : Int)
  · rw [if_pos hi, if_neg (by omega), h2]
    exact ⟨rfl, h3⟩
  · rw [if_neg hi, if_pos (by omega)]
    obtain ⟨a, b, _⟩ := setText_fields (joinWith ' ' ((splitOn ' ' s.text).set i.toNat n))
      { s.subtokens.2 with subs := (splitOn ' ' s.text).set i.toNat n }
    have e : splitOn ' ' (joinWith ' ' ((splitOn ' ' s.text).set i.toNat n)) = (splitOn ' ' s.text).set i.toNat n := by
      refine splitOn_joinWith ' ' _ ?_ ?_
      · intro hc
        have := congrArg List.length hc
        rw [List.length_set] at this
        exact splitOn_ne_nil ' ' s.text (List.length_eq_zero_iff.1 this)
      · intro p hp
        rcases List.mem_or_eq_of_mem_set hp with hp | rfl
        · exact splitOn_no_sep ' ' s.text p hp
        · exact hn
    refine ⟨by simp only [a]; exact e, ?_⟩
    intro _
    simp only [a, b]
    exact e.symm

theorem run_subs (ops : List TokOp) (hc : ∀ o ∈ ops, o.clean = true) (s : Tok) (hs : SubsOk s) (hcoh : Coh false s) :
    SubsOk (s.run ops) ∧ Coh false (s.run ops) := by
  refine ⟨?_, run_coh false ops (by simp) s hcoh⟩
  induction ops generalizing s with
  | nil => exact hs
  | cons o ops ih =>
    have hstep : Coh false (s.step o) := run_coh false [o] (by simp) s hcoh
    refine ih (fun x hx => hc x (by simp [hx])) _ ?_ hstep
    cases o with
    | ask q =>
      obtain ⟨_, _, a, _, _, b, c⟩ := ask_ok false q s hcoh
      intro h
      simp only [Tok.step] at h ⊢
      rw [a, b]; exact hs (by rw [← c]; exact h)
    | setText t =>
      intro h
      simp only [Tok.step] at h
      rw [(setText_fields t s).2.2] at h; cases h
    | setType t =>
      unfold SubsOk Tok.step Tok.setType Tok.clearType
      simp only
      split <;> exact hs
    | setRes r => exact hs
    | subtokens => exact (subtokens_ok s hs).2.2
    | replaceSubtoken i n =>
      have := hc (.replaceSubtoken i n) (by simp)
      simp [TokOp.clean] at this
      exact (replace_ok s hs i n this).2

/-- C25. After any history in which the replacements contain no space: the subtokens are the space-separated parts
of the text, and replacing one (any index, any new text without space) changes exactly that part, or nothing if
there is none of that index. -/
theorem subtokens_replace_partial (text type : Str) (ops : List TokOp) (hc : ∀ o ∈ ops, o.clean = true) (i : Int) (n : Str)
    (hn : ' ' ∉ n) :
    let s := Tok.run { text := text, type := type } ops
    s.subtokens.1 = splitOn ' ' s.text ∧
    (s.replaceSubtoken i n).subtokens.1 =
      (if 0 ≤ i ∧ i < s.subtokens.1.length then s.subtokens.1.set i.toNat n else s.subtokens.1) ∧
    (s.replaceSubtoken i n).text = joinWith ' ' (s.replaceSubtoken i n).subtokens.1 := by
  intro s
  have hs : SubsOk s := (run_subs ops hc _ (by intro h; cases h) (coh_new false text type none)).1
  have h1 := subtokens_ok s hs
  have h2 := replace_ok s hs i n hn
  have h3 := subtokens_ok _ h2.2
  refine ⟨h1.1, ?_, ?_⟩
  · rw [h3.1, h2.1, h1.1]
  · rw [h3.1, joinWith_splitOn]

/-- Replacing by a text with a space leaves a wrong list of subtokens behind. -/
theorem subtoken_space_stale :
    let s := Tok.run { text := "4c 4e".toList, type := "**kern".toList } [.replaceSubtoken 0 "4c 4d".toList]
    s.text = "4c 4d 4e".toList ∧ s.subtokens.1 = ["4c 4d".toList, "4e".toList] ∧ s.subtokens.1 ≠ splitOn ' ' s.text := by
  decide +kernel

example : ((Tok.run { text := "4c 4e 4g".toList } [.subtokens]).replaceSubtoken 1 "4f".toList).text = "4c 4f 4g".toList := by
  decide +kernel

end C21
