import Verif.Model.KernArtic
import Verif.Lemmas.Tac
import Verif.Props.Signifier
/-
C97: the articulations of an exported note are the ones found when its token is read back.
-/
namespace C21

/-! ### Specification -/

/-- The classes that have a sign of their own in **kern. -/
def hasKernSign : ArtClass → Bool
  | .caesura => false
  | .other _ => false
  | _ => true

/-- The characters of those signs. -/
def articSigns : List Char := ['\'', '`', '~', '^', ',', 'o', 'v', 'u', '"']

/-- Nearest to furthest from the note. -/
def stackingOrder : List ArtClass :=
  [.staccato, .staccatissimo, .tenuto, .strongAccent, .accent, .breathMark, .harmonic, .upBow, .downBow,
   .pizzicato]

/-- No class with a sign is attached twice. -/
def NoneTwice (as : List (ArtClass × ArtPlace)) : Prop :=
  as.Pairwise fun a b => a.1 = b.1 → hasKernSign a.1 = false

/-- An accent without a placement directly before a strong accent (articulations without any text in
between do not count). -/
def AccentThenStrong (as : List (ArtClass × ArtPlace)) : Prop :=
  ∃ l m p r, as = l ++ (ArtClass.accent, ArtPlace.unset) :: (m ++ (ArtClass.strongAccent, p) :: r) ∧
    ∀ a ∈ m, ∃ n, a.1 = ArtClass.other n

/-- What follows the articulations in the token: no sign, no bare placement, no single `y`. -/
structure PlainAfter (post : Str) : Prop where
  noSign : ∀ c ∈ post, c ∉ articSigns
  noPlace : post.head? ≠ some '<' ∧ post.head? ≠ some '>'
  noHide : ∀ r, post = 'y' :: r → r.head? = some 'y'

/-! ### Proofs -/

/-- `lastEntry` for classes. -/
def lastOf (c : ArtClass) : List (ArtClass × ArtPlace) → Option ArtPlace
  | [] => none
  | a :: as =>
    match lastOf c as with
    | some p => some p
    | none => if a.1 = c then some a.2 else none

theorem lastOf_iff (as : List (ArtClass × ArtPlace)) (h : NoneTwice as) (c : ArtClass)
    (hc : hasKernSign c = true) (p : ArtPlace) : lastOf c as = some p ↔ (c, p) ∈ as := by
  induction as with
  | nil => simp [lastOf]
  | cons a as ih =>
    have h' := List.pairwise_cons.mp h
    have ih := ih h'.2
    obtain ⟨d, q⟩ := a
    cases hl : lastOf c as with
    | some w =>
      have hmem : (c, w) ∈ as := by
        have : ∀ (l : List (ArtClass × ArtPlace)) w, lastOf c l = some w → (c, w) ∈ l := by
          intro l
          induction l with
          | nil => intro w hw; simp [lastOf] at hw
          | cons b l ihl =>
            intro w hw
            simp only [lastOf] at hw
            cases hb : lastOf c l with
            | some v =>
              rw [hb] at hw
              simp only [Option.some.injEq] at hw
              subst hw
              exact List.mem_cons_of_mem _ (ihl v hb)
            | none =>
              rw [hb] at hw
              by_cases hbc : b.1 = c
              · simp only [hbc, if_true, Option.some.injEq] at hw
                subst hw
                have : b = (c, b.2) := by rw [← hbc]
                rw [← this]
                exact List.mem_cons_self
              · simp [hbc] at hw
        exact this as w hl
      have hdc : d ≠ c := by
        intro hdc
        have := h'.1 (c, w) hmem hdc
        subst hdc
        rw [hc] at this
        exact Bool.noConfusion this
      rw [hl] at ih
      simp only [lastOf, hl, List.mem_cons, Prod.mk.injEq]
      constructor
      · intro he
        exact Or.inr (ih.mp he)
      · rintro (⟨h1, _⟩ | h1)
        · exact absurd h1.symm hdc
        · exact ih.mpr h1
    | none =>
      rw [hl] at ih
      have hnm : (c, p) ∉ as := by
        intro hm
        have := ih.mpr hm
        simp at this
      simp only [lastOf, hl, List.mem_cons, Prod.mk.injEq]
      by_cases hdc : d = c
      · subst hdc
        simp only [if_true, Option.some.injEq, true_and]
        constructor
        · intro he; exact Or.inl he.symm
        · rintro (he | he)
          · exact he.symm
          · exact absurd he hnm
      · simp only [hdc, if_false]
        constructor
        · intro he; simp at he
        · rintro (⟨h1, _⟩ | h1)
          · exact absurd h1.symm hdc
          · exact absurd h1 hnm

/-- The keys of the table are made of sign characters. -/
def tableKey (k : Str) : Prop := k ∈ articReadTable.map Prod.fst

theorem tableKey_single {k : Str} (h : tableKey k) {x : Char} (hx : x ∉ articSigns) : [x] ≠ k := by
  intro he
  subst he
  apply hx
  simp only [tableKey, articReadTable, List.map_cons, List.map_nil, List.mem_cons, List.not_mem_nil,
    or_false] at h
  simp only [articSigns, List.mem_cons, List.not_mem_nil, or_false]
  rcases h with h | h | h | h | h | h | h | h | h | h <;> simp at h <;> simp [h]

theorem articScan_other (ab be : Option Char) (c : Char) (r : Str)
    (h1 : ¬ (c = '^' ∧ r.head? = some '^')) (h2 : ¬ (c = '\'' ∧ r.head? = some '\'')) :
    articScan ab be (c :: r) =
      if c.isDigit then articScan ab be r
      else ([c], articInfo ab be r) :: articScan ab be r := by
  rw [articScan]
  · intro r' e1 e2
    exact h1 ⟨e1, by rw [e2]; rfl⟩
  · intro r' e1 e2
    exact h2 ⟨e1, by rw [e2]; rfl⟩

theorem lastEntry_cons (k k' : Str) (v : Bool × ArtPlace) (es : List (Str × Bool × ArtPlace)) :
    lastEntry k ((k', v) :: es) =
      match lastEntry k es with
      | some w => some w
      | none => if k' = k then some v else none := rfl

theorem lastEntry_cons_ne (k k' : Str) (v : Bool × ArtPlace) (es : List (Str × Bool × ArtPlace))
    (h : k' ≠ k) : lastEntry k ((k', v) :: es) = lastEntry k es := by
  rw [lastEntry_cons]
  cases lastEntry k es with
  | some w => rfl
  | none => simp [h]

theorem lastEntry_skip (ab be : Option Char) (k : Str) (hk : tableKey k) (x : Char)
    (hx : x ∉ articSigns) (r : Str) :
    lastEntry k (articScan ab be (x :: r)) = lastEntry k (articScan ab be r) := by
  have h1 : x ≠ '^' := by rintro rfl; exact hx (by decide)
  have h2 : x ≠ '\'' := by rintro rfl; exact hx (by decide)
  rw [articScan_other _ _ _ _ (fun h => h1 h.1) (fun h => h2 h.1)]
  by_cases hd : x.isDigit = true
  · rw [if_pos hd]
  · rw [if_neg hd, lastEntry_cons_ne _ _ _ _ (tableKey_single hk hx)]

theorem lastEntry_skips (ab be : Option Char) (k : Str) (hk : tableKey k) (pre : Str)
    (hx : ∀ x ∈ pre, x ∉ articSigns) (r : Str) :
    lastEntry k (articScan ab be (pre ++ r)) = lastEntry k (articScan ab be r) := by
  induction pre with
  | nil => rfl
  | cons x pre ih =>
    rw [List.cons_append, lastEntry_skip ab be k hk x (hx x (by simp))]
    exact ih fun y hy => hx y (by simp [hy])

/-- The text after an articulation neither places nor hides it. -/
def Follow (rest : Str) : Prop :=
  rest.head? ≠ some '<' ∧ rest.head? ≠ some '>' ∧ loneY rest = false

theorem articInfo_place (q : ArtPlace) (rest : Str) (h : Follow rest) :
    articInfo (some '>') (some '<') (placeChars q ++ rest) = (false, q) := by
  obtain ⟨h1, h2, h3⟩ := h
  cases q with
  | above =>
    show articInfo _ _ ('>' :: rest) = _
    have : loneY ('>' :: rest) = false := rfl
    simp [articInfo, this, h3]
  | below =>
    show articInfo _ _ ('<' :: rest) = _
    have : loneY ('<' :: rest) = false := rfl
    simp [articInfo, this, h3]
  | unset =>
    show articInfo _ _ rest = _
    cases rest with
    | nil => rfl
    | cons c r =>
      simp only [List.head?_cons, ne_eq, Option.some.injEq] at h1 h2
      have e1 : ('>' = c) = False := by simp [eq_comm, h2]
      have e2 : ('<' = c) = False := by simp [eq_comm, h1]
      simp [articInfo, h3, e1, e2]

theorem placeChars_plain (q : ArtPlace) : ∀ x ∈ placeChars q, x ∉ articSigns := by
  cases q <;> decide

theorem placeChars_head (q : ArtPlace) (rest : Str) (x : Char) (hx : x ∈ articSigns)
    (h : (placeChars q ++ rest).head? = some x) : q = .unset ∧ rest.head? = some x := by
  cases q with
  | unset => exact ⟨rfl, h⟩
  | above =>
    simp only [placeChars, List.cons_append, List.head?_cons, Option.some.injEq] at h
    subst h
    exact absurd hx (by decide)
  | below =>
    simp only [placeChars, List.cons_append, List.head?_cons, Option.some.injEq] at h
    subst h
    exact absurd hx (by decide)

/-- A sign (of one character, not beginning a pair) makes its entry. -/
theorem lastEntry_sign (k : Str) (hk : tableKey k) (x : Char) (hd : x.isDigit = false) (q : ArtPlace)
    (rest : Str) (hf : Follow rest)
    (h1 : ¬ (x = '^' ∧ q = .unset ∧ rest.head? = some '^'))
    (h2 : ¬ (x = '\'' ∧ q = .unset ∧ rest.head? = some '\'')) :
    lastEntry k (articScan (some '>') (some '<') (x :: (placeChars q ++ rest))) =
      match lastEntry k (articScan (some '>') (some '<') rest) with
      | some w => some w
      | none => if [x] = k then some (false, q) else none := by
  rw [articScan_other]
  · rw [if_neg (by simp [hd]), articInfo_place q rest hf, lastEntry_cons,
      lastEntry_skips _ _ _ hk _ (placeChars_plain q)]
  · rintro ⟨e, h⟩
    obtain ⟨e1, e2⟩ := placeChars_head q rest '^' (by decide) h
    exact h1 ⟨e, e1, e2⟩
  · rintro ⟨e, h⟩
    obtain ⟨e1, e2⟩ := placeChars_head q rest '\'' (by decide) h
    exact h2 ⟨e, e1, e2⟩

theorem lastEntry_double (k : Str) (hk : tableKey k) (q : ArtPlace) (rest : Str) (hf : Follow rest) :
    lastEntry k (articScan (some '>') (some '<') ('^' :: '^' :: (placeChars q ++ rest))) =
      match lastEntry k (articScan (some '>') (some '<') rest) with
      | some w => some w
      | none => if ['^', '^'] = k then some (false, q) else none := by
  have : articScan (some '>') (some '<') ('^' :: '^' :: (placeChars q ++ rest)) =
      (['^', '^'], articInfo (some '>') (some '<') (placeChars q ++ rest)) ::
        articScan (some '>') (some '<') (placeChars q ++ rest) := by
    rw [articScan]
  rw [this, articInfo_place q rest hf, lastEntry_cons, lastEntry_skips _ _ _ hk _ (placeChars_plain q)]

theorem writeArtics_cons (caes : Char) (a : ArtClass × ArtPlace) (as : List (ArtClass × ArtPlace)) :
    writeArtics caes (a :: as) = writeArtic caes a ++ writeArtics caes as := by
  simp [writeArtics]

theorem writeArtic_other (caes : Char) (n : Str) : writeArtic caes (.other n, .unset) = [] := by
  simp [writeArtic, articChars, placeChars]

theorem writeArtic_caes (caes : Char) (q : ArtPlace) :
    writeArtic caes (.caesura, q) = caes :: placeChars q := by
  simp [writeArtic, articChars]

theorem writeArtic_sign (caes : Char) (c : ArtClass) (q : ArtPlace) (hc : hasKernSign c = true) :
    writeArtic caes (c, q) = articChars c ++ placeChars q := by
  cases c <;> first | rfl | exact Bool.noConfusion hc

/-- The first character written for a class with a sign. -/
theorem articChars_head (c : ArtClass) (hc : hasKernSign c = true) :
    ∃ x r, articChars c = x :: r ∧ x ∈ articSigns ∧
      (x = '^' → c = .accent ∨ c = .strongAccent) ∧ (x = '\'' → c = .staccato) := by
  cases c <;> first
    | exact Bool.noConfusion hc
    | exact ⟨_, _, rfl, by decide, by decide, by decide⟩

/-- Everything before the first written articulation is a class without text. -/
theorem written_head (caes : Char) (as : List (ArtClass × ArtPlace)) (post : Str)
    (hu : ∀ a ∈ as, (∃ n, a.1 = ArtClass.other n) → a.2 = .unset) :
    ((∀ a ∈ as, ∃ n, a.1 = ArtClass.other n) ∧ writeArtics caes as = []) ∨
    ∃ m b r, as = m ++ b :: r ∧ (∀ a ∈ m, ∃ n, a.1 = ArtClass.other n) ∧
      ((b.1 = .caesura ∧ (writeArtics caes as ++ post).head? = some caes) ∨
       (hasKernSign b.1 = true ∧ (writeArtics caes as ++ post).head? = (articChars b.1).head?)) := by
  induction as with
  | nil => exact Or.inl ⟨by simp, rfl⟩
  | cons a as ih =>
    obtain ⟨c, q⟩ := a
    have ih := ih fun a ha => hu a (by simp [ha])
    by_cases hs : hasKernSign c = true
    · refine Or.inr ⟨[], (c, q), as, rfl, by simp, Or.inr ⟨hs, ?_⟩⟩
      obtain ⟨x, r, hx, _⟩ := articChars_head c hs
      rw [writeArtics_cons, writeArtic_sign caes c q hs, hx]
      rfl
    · cases c with
      | caesura =>
        refine Or.inr ⟨[], _, as, rfl, by simp, Or.inl ⟨rfl, ?_⟩⟩
        rw [writeArtics_cons, writeArtic_caes]
        rfl
      | other n =>
        have hq : q = .unset := hu _ List.mem_cons_self ⟨n, rfl⟩
        subst hq
        rw [writeArtics_cons, writeArtic_other, List.nil_append]
        rcases ih with ⟨i1, i2⟩ | ⟨m, b, r, i1, i2, i3⟩
        · refine Or.inl ⟨?_, i2⟩
          intro a ha
          rcases List.mem_cons.mp ha with rfl | ha
          · exact ⟨n, rfl⟩
          · exact i1 a ha
        · refine Or.inr ⟨(ArtClass.other n, ArtPlace.unset) :: m, b, r, by rw [i1]; rfl, ?_, i3⟩
          intro a ha
          rcases List.mem_cons.mp ha with rfl | ha
          · exact ⟨n, rfl⟩
          · exact i2 a ha
      | _ => exact absurd rfl hs

theorem loneY_plain {post : Str} (h : PlainAfter post) : loneY post = false := by
  cases post with
  | nil => rfl
  | cons c r =>
    by_cases hc : c = 'y'
    · subst hc
      have := h.noHide r rfl
      simp [loneY, this]
    · simp [loneY, hc]

theorem follow_written (caes : Char) (hcs : caes ∉ ['<', '>', 'y']) (as : List (ArtClass × ArtPlace))
    (post : Str) (hp : PlainAfter post)
    (hu : ∀ a ∈ as, (∃ n, a.1 = ArtClass.other n) → a.2 = .unset) :
    Follow (writeArtics caes as ++ post) := by
  have hne : ∀ x, (writeArtics caes as ++ post).head? = some x → x ∉ ['<', '>', 'y'] →
      Follow (writeArtics caes as ++ post) := by
    intro x hx hn
    simp only [List.mem_cons, List.not_mem_nil, or_false, not_or] at hn
    cases hw : writeArtics caes as ++ post with
    | nil => rw [hw] at hx; simp at hx
    | cons c r =>
      rw [hw] at hx
      simp only [List.head?_cons, Option.some.injEq] at hx
      subst hx
      exact ⟨by simp [hn.1], by simp [hn.2.1], by simp [loneY, hn.2.2]⟩
  rcases written_head caes as post hu with ⟨_, h⟩ | ⟨m, b, r, _, _, ⟨_, h⟩ | ⟨hb, h⟩⟩
  · rw [h, List.nil_append]
    exact ⟨hp.noPlace.1, hp.noPlace.2, loneY_plain hp⟩
  · exact hne caes h hcs
  · obtain ⟨x, r', hx, hxs, _⟩ := articChars_head b.1 hb
    rw [hx] at h
    refine hne x h ?_
    intro hx'
    simp only [List.mem_cons, List.not_mem_nil, or_false] at hx'
    rcases hx' with rfl | rfl | rfl <;> exact absurd hxs (by decide)

theorem head_plain {post : Str} (hp : PlainAfter post) {x : Char} (hx : x ∈ articSigns) :
    post.head? ≠ some x := by
  cases post with
  | nil => simp
  | cons c r =>
    intro h
    simp only [List.head?_cons, Option.some.injEq] at h
    subst h
    exact hp.noSign _ List.mem_cons_self hx

/-- The entries of a token's articulations. -/
theorem lastEntry_written (caes : Char) (hcs : caes ∉ ['<', '>', 'y']) (hca : caes ∉ articSigns)
    (as : List (ArtClass × ArtPlace)) (post : Str) (hp : PlainAfter post)
    (hu : ∀ a ∈ as, (∃ n, a.1 = ArtClass.other n) → a.2 = .unset) (h2 : NoneTwice as)
    (ha : ¬ AccentThenStrong as) (k : Str) (c : ArtClass) (hkc : (k, c) ∈ articReadTable) :
    lastEntry k (articScan (some '>') (some '<') (writeArtics caes as ++ post)) =
      (lastOf c as).map fun q => (false, q) := by
  have hk : tableKey k := List.mem_map.mpr ⟨(k, c), hkc, rfl⟩
  have hcsign : hasKernSign c = true := by
    simp only [articReadTable, List.mem_cons, List.not_mem_nil, or_false, Prod.mk.injEq] at hkc
    rcases hkc with h | h | h | h | h | h | h | h | h | h <;> rw [h.2] <;> rfl
  have hkey : articChars c = k := by
    simp only [articReadTable, List.mem_cons, List.not_mem_nil, or_false, Prod.mk.injEq] at hkc
    rcases hkc with h | h | h | h | h | h | h | h | h | h <;> rw [h.1, h.2] <;> rfl
  induction as with
  | nil =>
    show lastEntry k (articScan _ _ post) = none
    have := lastEntry_skips (some '>') (some '<') k hk post hp.noSign []
    rw [List.append_nil] at this
    rw [this]
    rfl
  | cons a as ih =>
    obtain ⟨d, q⟩ := a
    have hu' : ∀ a ∈ as, (∃ n, a.1 = ArtClass.other n) → a.2 = .unset :=
      fun a h => hu a (by simp [h])
    have h2' := List.pairwise_cons.mp h2
    have ha' : ¬ AccentThenStrong as := by
      rintro ⟨l, m, p, r, he, hm⟩
      exact ha ⟨(d, q) :: l, m, p, r, by rw [he]; rfl, hm⟩
    have ih := ih hu' h2'.2 ha'
    have hf := follow_written caes hcs as post hp hu'
    rw [writeArtics_cons, List.append_assoc]
    set rest := writeArtics caes as ++ post with hrest
    by_cases hs : hasKernSign d = true
    · rw [writeArtic_sign caes d q hs, List.append_assoc]
      -- the two ways of starting a pair by accident
      have n1 : ¬ (d = .accent ∧ q = .unset ∧ rest.head? = some '^') := by
        rintro ⟨rfl, rfl, hh⟩
        rcases written_head caes as post hu' with ⟨_, h⟩ | ⟨m, b, r, he, hm, ⟨_, h⟩ | ⟨hb, h⟩⟩
        · rw [hrest, h, List.nil_append] at hh
          exact head_plain hp (by decide) hh
        · rw [← hrest, hh] at h
          simp only [Option.some.injEq] at h
          exact hca (h ▸ by decide)
        · obtain ⟨x, r', hx, _, hx1, _⟩ := articChars_head b.1 hb
          rw [← hrest, hh, hx] at h
          simp only [List.head?_cons, Option.some.injEq] at h
          rcases hx1 h.symm with e | e
          · have := h2'.1 b (by rw [he]; simp) e.symm
            simp [hasKernSign] at this
          · exact ha ⟨[], m, b.2, r, by rw [he, ← e]; rfl, hm⟩
      have n2 : ¬ (d = .staccato ∧ q = .unset ∧ rest.head? = some '\'') := by
        rintro ⟨rfl, rfl, hh⟩
        rcases written_head caes as post hu' with ⟨_, h⟩ | ⟨m, b, r, he, hm, ⟨_, h⟩ | ⟨hb, h⟩⟩
        · rw [hrest, h, List.nil_append] at hh
          exact head_plain hp (by decide) hh
        · rw [← hrest, hh] at h
          simp only [Option.some.injEq] at h
          exact hca (h ▸ by decide)
        · obtain ⟨x, r', hx, _, _, hx2⟩ := articChars_head b.1 hb
          rw [← hrest, hh, hx] at h
          simp only [List.head?_cons, Option.some.injEq] at h
          have := h2'.1 b (by rw [he]; simp) (hx2 h.symm).symm
          simp [hasKernSign] at this
      have key : lastEntry k (articScan (some '>') (some '<') (articChars d ++ (placeChars q ++ rest))) =
          match lastEntry k (articScan (some '>') (some '<') rest) with
          | some w => some w
          | none => if articChars d = k then some (false, q) else none := by
        cases d with
        | caesura => exact Bool.noConfusion hs
        | other n => exact Bool.noConfusion hs
        | strongAccent => exact lastEntry_double k hk q rest hf
        | accent =>
          exact lastEntry_sign k hk '^' (by decide) q rest hf (fun h => n1 ⟨rfl, h.2⟩)
            (fun h => absurd h.1 (by decide))
        | staccato =>
          exact lastEntry_sign k hk '\'' (by decide) q rest hf (fun h => absurd h.1 (by decide))
            (fun h => n2 ⟨rfl, h.2⟩)
        | _ =>
          exact lastEntry_sign k hk _ (by decide) q rest hf (fun h => absurd h.1 (by decide))
            (fun h => absurd h.1 (by decide))
      have hinj : articChars d = k ↔ d = c := by
        rw [← hkey]
        constructor
        · intro h
          cases d <;> first
            | exact Bool.noConfusion hs
            | (cases c <;> first
                | exact Bool.noConfusion hcsign
                | rfl
                | exact absurd h (by decide))
        · rintro rfl; rfl
      rw [key, ih]
      cases hl : lastOf c as with
      | some w => simp [lastOf, hl]
      | none =>
        by_cases hdc : d = c
        · simp [lastOf, hl, hdc, hkey]
        · have : articChars d ≠ k := fun h => hdc (hinj.mp h)
          simp [lastOf, hl, hdc, this]
    · have hdc : d ≠ c := by rintro rfl; exact hs hcsign
      have hlast : lastOf c ((d, q) :: as) = lastOf c as := by
        cases hl : lastOf c as <;> simp [lastOf, hl, hdc]
      rw [hlast, ← ih]
      cases d with
      | caesura =>
        rw [writeArtic_caes, List.cons_append, lastEntry_skip _ _ _ hk _ hca,
          lastEntry_skips _ _ _ hk _ (placeChars_plain q)]
      | other n =>
        have hq : q = .unset := hu _ List.mem_cons_self ⟨n, rfl⟩
        subst hq
        rw [writeArtic_other, List.nil_append]
      | _ => exact absurd rfl hs

/-- However the token was made: at most one articulation of each class, in stacking order. -/
theorem articulations_in_stacking_order (ab be : Option Char) (tok : Str) :
    ((readArtics ab be tok).map Prod.fst).Sublist stackingOrder := by
  have gen : ∀ (tab : List (Str × ArtClass)) es,
      ((tab.filterMap (articRow es)).map Prod.fst).Sublist (tab.map Prod.snd) := by
    intro tab es
    induction tab with
    | nil => simp
    | cons row tab ih =>
      cases hr : articRow es row with
      | none =>
        rw [List.filterMap_cons_none hr]
        exact ih.cons _
      | some v =>
        rw [List.filterMap_cons_some hr]
        have : v.1 = row.2 := by
          unfold articRow at hr
          split at hr
          · simp only [Option.some.injEq] at hr; rw [← hr]
          · simp at hr
          · simp at hr
        show (v.1 :: _).Sublist (row.2 :: _)
        rw [this]
        exact ih.cons_cons _
  exact gen articReadTable _

/-- **C97 (restricted)** The articulations written for a note, with their placements, are the ones read
back from its token, each once and in stacking order. Classes without a sign are not read (a caesura is
read as a user signifier). Left out: a class attached twice, an unplaced accent right before a strong
accent, and a class without a sign that has a placement; see the counterexamples below. -/
theorem articulations_round_trip_partial (pre post : Str) (caes : Char)
    (as : List (ArtClass × ArtPlace))
    (hpre : ∀ c ∈ pre, c ∉ articSigns) (hp : PlainAfter post)
    (hcs : caes ∉ ['<', '>', 'y']) (hca : caes ∉ articSigns)
    (hu : ∀ a ∈ as, (∃ n, a.1 = ArtClass.other n) → a.2 = .unset) (h2 : NoneTwice as)
    (ha : ¬ AccentThenStrong as) :
    let found := readArtics (some '>') (some '<') (pre ++ writeArtics caes as ++ post)
    (∀ c q, (c, q) ∈ found ↔ hasKernSign c = true ∧ (c, q) ∈ as) ∧
      (found.map Prod.fst).Sublist stackingOrder := by
  refine ⟨?_, articulations_in_stacking_order _ _ _⟩
  intro c q
  have hrow : ∀ row ∈ articReadTable,
      articRow (articScan (some '>') (some '<') (pre ++ writeArtics caes as ++ post)) row =
        (lastOf row.2 as).map fun p => (row.2, p) := by
    intro row hrow
    have hk : tableKey row.1 := List.mem_map.mpr ⟨row, hrow, rfl⟩
    unfold articRow
    rw [List.append_assoc, lastEntry_skips _ _ _ hk pre hpre,
      lastEntry_written caes hcs hca as post hp hu h2 ha row.1 row.2 hrow]
    cases lastOf row.2 as <;> rfl
  have hsign : ∀ row ∈ articReadTable, hasKernSign row.2 = true := by decide
  have hall : ∀ d, hasKernSign d = true → ∃ k, (k, d) ∈ articReadTable := by
    intro d hd
    refine ⟨articChars d, ?_⟩
    cases d <;> first
      | exact Bool.noConfusion hd
      | decide
  unfold readArtics
  rw [List.mem_filterMap]
  constructor
  · rintro ⟨row, hr, he⟩
    rw [hrow row hr] at he
    cases hl : lastOf row.2 as with
    | none => rw [hl] at he; simp at he
    | some p =>
      rw [hl] at he
      simp only [Option.map_some, Option.some.injEq, Prod.mk.injEq] at he
      obtain ⟨rfl, rfl⟩ := he
      exact ⟨hsign row hr, (lastOf_iff as h2 _ (hsign row hr) _).mp hl⟩
  · rintro ⟨hc, hm⟩
    obtain ⟨k, hkc⟩ := hall c hc
    refine ⟨(k, c), hkc, ?_⟩
    rw [hrow _ hkc, (lastOf_iff as h2 c hc q).mpr hm]
    rfl

/-- What the exporter puts around the articulations of a note: no articulation signs anywhere, nothing
that looks like a placement or a hiding mark after them, except the mark of a hidden note. -/
structure PlainNote (p : NoteParts) : Prop where
  before : ∀ c ∈ p.slurStarts ++ p.tieStart ++ p.recip ++ p.grace ++ p.pitch ++ p.sf ++ p.expressions,
    c ∉ articSigns
  after : ∀ c ∈ p.cueSize ++ p.color ++ p.stem ++ p.beam ++ p.tieStop ++ p.slurStops,
    c ∉ articSigns ∧ c ∉ ['<', '>', 'y']
  hidden : p.invisible = [] ∨ p.invisible = ['y', 'y']

theorem plainAfter_of_plain (A inv B : Str) (hA : ∀ c ∈ A, c ∉ articSigns ∧ c ∉ ['<', '>', 'y'])
    (hB : ∀ c ∈ B, c ∉ articSigns ∧ c ∉ ['<', '>', 'y']) (hi : inv = [] ∨ inv = ['y', 'y']) :
    PlainAfter (A ++ (inv ++ B)) := by
  refine ⟨?_, ?_, ?_⟩
  · intro c hc
    rcases List.mem_append.mp hc with h | h
    · exact (hA c h).1
    rcases List.mem_append.mp h with h | h
    · rcases hi with rfl | rfl
      · simp at h
      · simp only [List.mem_cons, List.not_mem_nil, or_false, or_self] at h
        subst h; decide
    · exact (hB c h).1
  · cases A with
    | cons c A =>
      have := (hA c List.mem_cons_self).2
      simp only [List.mem_cons, List.not_mem_nil, or_false, not_or] at this
      simp [this.1, this.2.1]
    | nil =>
      rcases hi with rfl | rfl
      · cases B with
        | nil => simp
        | cons c B =>
          have := (hB c List.mem_cons_self).2
          simp only [List.mem_cons, List.not_mem_nil, or_false, not_or] at this
          simp [this.1, this.2.1]
      · simp
  · intro r hr
    cases A with
    | cons c A =>
      have := (hA c List.mem_cons_self).2
      simp only [List.mem_cons, List.not_mem_nil, or_false, not_or] at this
      simp only [List.cons_append, List.cons.injEq] at hr
      exact absurd hr.1 this.2.2
    | nil =>
      rcases hi with rfl | rfl
      · cases B with
        | nil => simp at hr
        | cons c B =>
          have := (hB c List.mem_cons_self).2
          simp only [List.mem_cons, List.not_mem_nil, or_false, not_or] at this
          simp only [List.nil_append, List.cons.injEq] at hr
          exact absurd hr.1 this.2.2
      · simp only [List.nil_append, List.cons_append, List.cons.injEq, true_and] at hr
        rw [← hr]; rfl

/-- **C97 (restricted)** on the whole token of a note, hidden or not. -/
theorem note_articulations_round_trip_partial (p : NoteParts) (caes : Char)
    (as : List (ArtClass × ArtPlace)) (hp : PlainNote p) (hw : p.artics = writeArtics caes as)
    (hcs : caes ∉ ['<', '>', 'y']) (hca : caes ∉ articSigns)
    (hu : ∀ a ∈ as, (∃ n, a.1 = ArtClass.other n) → a.2 = .unset) (h2 : NoneTwice as)
    (ha : ¬ AccentThenStrong as) :
    (∀ c q, (c, q) ∈ readArtics (some '>') (some '<') (noteToken p) ↔
      hasKernSign c = true ∧ (c, q) ∈ as) ∧
    ((readArtics (some '>') (some '<') (noteToken p)).map Prod.fst).Sublist stackingOrder := by
  have e : noteToken p =
      (p.slurStarts ++ p.tieStart ++ p.recip ++ p.grace ++ p.pitch ++ p.sf ++ p.expressions) ++
        writeArtics caes as ++
        ((p.cueSize ++ p.color ++ p.stem ++ p.beam) ++ (p.invisible ++ (p.tieStop ++ p.slurStops))) := by
    rw [← hw]
    simp [noteToken, List.append_assoc]
  rw [e]
  refine articulations_round_trip_partial _ _ caes as hp.before ?_ hcs hca hu h2 ha
  refine plainAfter_of_plain _ _ _ ?_ ?_ hp.hidden
  · intro c hc
    exact hp.after c (by rw [List.append_assoc]; exact List.mem_append_left _ hc)
  · intro c hc
    exact hp.after c (by rw [List.append_assoc]; exact List.mem_append_right _ hc)

/-- The token `(4.cc#nz;<'>^^~<Z\LKyy]` : a hidden note with staccato above, strong accent, tenuto below
and a caesura. -/
def samplePartsC97 : NoteParts :=
  { slurStarts := ['('], tieStart := [], recip := "4.".toList, grace := [], pitch := "cc#n".toList,
    sf := ['z'], expressions := ";<".toList, artics := "'>^^~<Z".toList, cueSize := [], color := ['i'],
    stem := ['\\'], beam := "LK".toList, invisible := "yy".toList, tieStop := [']'], slurStops := [] }

example : PlainNote samplePartsC97 ∧
    samplePartsC97.artics = writeArtics 'Z'
      [(.staccato, .above), (.other "Fingering".toList, .unset), (.strongAccent, .unset), (.tenuto, .below),
       (.caesura, .unset)] ∧
    readArtics (some '>') (some '<') (noteToken samplePartsC97) =
      [(.staccato, .above), (.tenuto, .below), (.strongAccent, .unset)] := by
  refine ⟨⟨by decide, by decide, Or.inr rfl⟩, by decide, by decide⟩

/-- An articulation followed by a single `y`, after its placement if it has one, is not a printed one:
it is left out. -/
theorem hidden_articulation_left_out (c : ArtClass) (hc : hasKernSign c = true) (q : ArtPlace)
    (caes : Char) (pre post : Str) (hpre : ∀ x ∈ pre, x ∉ articSigns)
    (hpost : ∀ x ∈ post, x ∉ articSigns) (hy : post.head? ≠ some 'y') :
    readArtics (some '>') (some '<') (pre ++ writeArtic caes (c, q) ++ 'y' :: post) = [] := by
  have hl : loneY ('y' :: post) = true := by
    cases post with
    | nil => rfl
    | cons x post => simpa [loneY] using hy
  have hi : (articInfo (some '>') (some '<') (placeChars q ++ 'y' :: post)).1 = true := by
    cases q with
    | unset => show (loneY ('y' :: post) || _ || _) = true; simp [hl]
    | above =>
      show (_ || (some '>' == some '>' && loneY ('y' :: post)) || _) = true
      simp [hl]
    | below =>
      show ((loneY ('<' :: 'y' :: post) || (some '>' == some '<' && loneY ('y' :: post))) ||
        (some '<' == some '<' && loneY ('y' :: post))) = true
      simp [hl]
  have hplain : ∀ x ∈ placeChars q ++ 'y' :: post, x ∉ articSigns := by
    intro x hx
    rcases List.mem_append.mp hx with h | h
    · exact placeChars_plain q x h
    rcases List.mem_cons.mp h with rfl | h
    · decide
    · exact hpost x h
  obtain ⟨⟨i, p⟩, hip⟩ : ∃ v, articInfo (some '>') (some '<') (placeChars q ++ 'y' :: post) = v :=
    ⟨_, rfl⟩
  rw [hip] at hi
  simp only at hi
  subst hi
  have hnone : ∀ k, tableKey k →
      lastEntry k (articScan (some '>') (some '<') (placeChars q ++ 'y' :: post)) = none := by
    intro k hk
    have := lastEntry_skips (some '>') (some '<') k hk _ hplain []
    rw [List.append_nil] at this
    rw [this]
    rfl
  have hscan : articScan (some '>') (some '<') (articChars c ++ (placeChars q ++ 'y' :: post)) =
      (articChars c, true, p) :: articScan (some '>') (some '<') (placeChars q ++ 'y' :: post) := by
    have hh : ∀ x ∈ articSigns, (placeChars q ++ 'y' :: post).head? ≠ some x := by
      intro x hx he
      cases hw : placeChars q ++ 'y' :: post with
      | nil => rw [hw] at he; simp at he
      | cons z zs =>
        rw [hw] at he
        simp only [List.head?_cons, Option.some.injEq] at he
        subst he
        exact hplain z (by rw [hw]; exact List.mem_cons_self) hx
    cases c with
    | caesura => exact Bool.noConfusion hc
    | other n => exact Bool.noConfusion hc
    | strongAccent =>
      show articScan _ _ ('^' :: '^' :: (placeChars q ++ 'y' :: post)) = _
      rw [articScan, hip]
      rfl
    | _ =>
      show articScan _ _ (_ :: (placeChars q ++ 'y' :: post)) = _
      rw [articScan_other _ _ _ _ (fun h => hh '^' (by decide) h.2)
        (fun h => hh '\'' (by decide) h.2), if_neg (by decide), hip]
      rfl
  unfold readArtics
  rw [List.filterMap_eq_nil_iff]
  intro row hrow
  have hk : tableKey row.1 := List.mem_map.mpr ⟨row, hrow, rfl⟩
  unfold articRow
  rw [writeArtic_sign caes c q hc, List.append_assoc, List.append_assoc,
    lastEntry_skips _ _ _ hk pre hpre, hscan, lastEntry_cons, hnone _ hk]
  by_cases he : articChars c = row.1
  · simp [he]
  · simp [he]

example : readArtics (some '>') (some '<') "4cc'>y\\L".toList = [] ∧
    readArtics (some '>') (some '<') "4cc'>\\L".toList = [(.staccato, .above)] := by decide

/-! ### Where the round trip fails -/

/-- An accent followed by a strong accent below the note: the text `^^^<` gives the placement to the
accent instead. -/
theorem accent_takes_placement :
    readArtics (some '>') (some '<') ("4c".toList ++
        writeArtics 'Z' [(.accent, .unset), (.strongAccent, .below)] ++ "\\".toList) =
      [(.strongAccent, .unset), (.accent, .below)] := by decide

/-- Two accents become one strong accent, two staccatos one staccatissimo. -/
theorem doubled_articulation_changes :
    readArtics (some '>') (some '<') ("4c".toList ++
        writeArtics 'Z' [(.accent, .unset), (.accent, .unset)]) = [(.strongAccent, .unset)] ∧
    readArtics (some '>') (some '<') ("4c".toList ++
        writeArtics 'Z' [(.staccato, .unset), (.staccato, .unset)]) = [(.staccatissimo, .unset)] := by
  decide

/-- An articulation without a **kern sign (a fingering, say) with a placement moves the articulation
written before it. -/
theorem unknown_articulation_moves_previous :
    readArtics (some '>') (some '<') ("4c".toList ++
        writeArtics 'Z' [(.staccato, .unset), (.other "Fingering".toList, .above)]) =
      [(.staccato, .above)] := by decide

/-- The order of the articulations on the note is not kept. -/
theorem articulation_order_lost :
    readArtics (some '>') (some '<') ("4c".toList ++
        writeArtics 'Z' [(.accent, .unset), (.staccato, .unset)]) =
      [(.staccato, .unset), (.accent, .unset)] := by decide

/-! ### Fermatas -/

theorem semicolon_infix (x : Char) (hx : x ≠ ';') (b a : Str) (hb : ';' ∉ b) (ha : ';' ∉ a) :
    isInfix [';', x] (b ++ ';' :: a) = decide (a.head? = some x) := by
  induction b with
  | nil =>
    have h2 : isInfix [';', x] a = false := by
      rw [Bool.eq_false_iff]
      intro h
      rw [isInfix_iff] at h
      exact ha (h.subset (by simp))
    show isInfix [';', x] (';' :: a) = _
    rw [isInfix, h2, Bool.or_false]
    cases a with
    | nil => rfl
    | cons y a =>
      by_cases h : x = y
      · subst h; simp [List.isPrefixOf]
      · simp [List.isPrefixOf, h, Ne.symm h]
  | cons y b ih =>
    have hy : y ≠ ';' := fun h => hb (h ▸ List.mem_cons_self)
    rw [List.cons_append, isInfix, ih fun h => hb (List.mem_cons_of_mem _ h)]
    simp [List.isPrefixOf, Ne.symm hy]

theorem double_semicolon (b a : Str) (hb : ';' ∉ b) (ha : ';' ∉ a) :
    isInfix [';', ';'] (b ++ ';' :: a) = false := by
  induction b with
  | nil =>
    have h2 : isInfix [';', ';'] a = false := by
      rw [Bool.eq_false_iff]
      intro h
      rw [isInfix_iff] at h
      exact ha (h.subset (by simp))
    show isInfix [';', ';'] (';' :: a) = _
    rw [isInfix, h2, Bool.or_false]
    cases a with
    | nil => rfl
    | cons y a =>
      have hy : y ≠ ';' := fun h => ha (h ▸ List.mem_cons_self)
      simp [List.isPrefixOf, Ne.symm hy]
  | cons y b ih =>
    have hy : y ≠ ';' := fun h => hb (h ▸ List.mem_cons_self)
    rw [List.cons_append, isInfix, ih fun h => hb (List.mem_cons_of_mem _ h)]
    simp [List.isPrefixOf, Ne.symm hy]

/-- The other way up. -/
def turnedOver : FermataType → FermataType
  | .upright => .inverted
  | .inverted => .upright

/-- Every fermata of a visible note comes back the other way up: the exporter writes the `<` of a
fermata below the note for the upright ones. -/
theorem fermata_turned_over (t : FermataType) (b a : Str) (hb : ';' ∉ b) (ha : ';' ∉ a)
    (h1 : a.head? ≠ some '<') (h2 : a.head? ≠ some '>')
    (hv : ¬ ['y', 'y'] <:+: b ++ writeFermata t ++ a) :
    readFermatas (some '>') (some '<') (b ++ writeFermata t ++ a) = [turnedOver t] := by
  have hy : isInfix ['y', 'y'] (b ++ writeFermata t ++ a) = false := by
    rw [Bool.eq_false_iff]
    intro h
    exact hv ((isInfix_iff _ _).mp h)
  have hs : (b ++ writeFermata t ++ a).contains ';' = true := by
    cases t <;> simp [writeFermata]
  unfold readFermatas
  rw [if_neg (by rw [hs]; decide), if_neg (by rw [hy]; decide)]
  cases t with
  | upright =>
    have e : b ++ writeFermata .upright ++ a = b ++ ';' :: ('<' :: a) := by simp [writeFermata]
    have ha' : ';' ∉ '<' :: a := by simp [ha]
    rw [e, if_neg (by rw [double_semicolon b _ hb ha']; decide)]
    have hd : fermataDirection (some '>') (some '<') (b ++ ';' :: ('<' :: a)) = .below := by
      simp only [fermataDirection, Option.any_some, semicolon_infix '>' (by decide) b _ hb ha',
        semicolon_infix '<' (by decide) b _ hb ha']
      rfl
    rw [hd]
    rfl
  | inverted =>
    have e : b ++ writeFermata .inverted ++ a = b ++ ';' :: a := by simp [writeFermata]
    rw [e, if_neg (by rw [double_semicolon b _ hb ha]; decide)]
    have hd : fermataDirection (some '>') (some '<') (b ++ ';' :: a) = .unset := by
      simp [fermataDirection, semicolon_infix '>' (by decide) b _ hb ha,
        semicolon_infix '<' (by decide) b _ hb ha, h1, h2]
    rw [hd]
    rfl

example : readFermatas (some '>') (some '<') ("4cc".toList ++ writeFermata .upright ++ "'\\".toList) =
    [.inverted] := by decide

/-- A hidden note loses its fermatas. -/
theorem hidden_note_loses_fermata (ab be : Option Char) (b a : Str) :
    readFermatas ab be (b ++ ['y', 'y'] ++ a) = [] := by
  have h : isInfix ['y', 'y'] (b ++ ['y', 'y'] ++ a) = true :=
    (isInfix_iff _ _).mpr ⟨b, a, rfl⟩
  unfold readFermatas
  rw [h]
  cases (b ++ ['y', 'y'] ++ a).contains ';' <;> rfl

/-- Of an upright and an inverted fermata on one note, one is lost. -/
theorem two_fermatas_become_one :
    readFermatas (some '>') (some '<')
      ("4c".toList ++ writeFermata .upright ++ writeFermata .inverted) = [.inverted] := by decide

end C21
