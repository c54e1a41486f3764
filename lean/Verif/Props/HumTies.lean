import Verif.Model.HumTies
import Verif.Props.Signifier
import Verif.Lemmas.Tac
/-
C110: ties written to Humdrum and read back.
-/
namespace C21

/-- What the exporter puts around the tie signs of a note: no tie signs, and nothing after them that looks like a style. -/
structure TieFree (p : NoteParts) : Prop where
  signs : ∀ c ∈ p.slurStarts ++ p.recip ++ p.grace ++ p.pitch ++ p.sf ++ p.expressions ++ p.artics ++ p.cueSize ++ p.color ++
    p.stem ++ p.beam ++ p.invisible ++ p.slurStops, c ∉ ['[', '_', ']']
  next : ∀ c ∈ p.recip ++ p.grace ++ p.pitch ++ p.slurStops, c ∉ ['y', '>', '<']
  rhythm : p.recip ++ p.grace ++ p.pitch ≠ []

/-- A sign that occurs once: what follows it. -/
theorem infix_once (a b : Str) (c x : Char) (ha : c ∉ a) (hb : c ∉ b) :
    isInfix [c, x] (a ++ c :: b) = decide (b.head? = some x) := by
  rw [Bool.eq_iff_iff, isInfix_iff, decide_eq_true_iff]
  constructor
  · rintro ⟨s, t, h⟩
    have h' : s ++ c :: (x :: t) = a ++ c :: b := by simpa using h
    rcases List.append_eq_append_iff.mp h' with ⟨u, hu, hv⟩ | ⟨u, hu, hv⟩
    · cases u with
      | nil => simp at hv; rw [← hv]; rfl
      | cons d u =>
        simp at hv
        exact absurd (by rw [hu, ← hv.1]; simp) ha
    · cases u with
      | nil => simp at hv; rw [hv]; rfl
      | cons d u =>
        simp at hv
        exact absurd (by rw [hv.2]; simp) hb
  · intro h
    cases b with
    | nil => simp at h
    | cons d b => simp at h; subst h; exact ⟨a, b, by simp⟩

theorem infix_none (s : Str) (c x : Char) (h : c ∉ s) : isInfix [c, x] s = false := by
  rw [Bool.eq_false_iff]
  intro hc
  rw [isInfix_iff] at hc
  exact h (hc.subset (by simp))

theorem head_app_not {a b : Str} {L : List Char} (ha : ∀ c ∈ a, c ∉ L) (hne : a ≠ []) (x : Char) (hx : x ∈ L) :
    (a ++ b).head? ≠ some x := by
  cases a with
  | nil => exact absurd rfl hne
  | cons d a => simp; intro h; exact ha d (by simp) (h ▸ hx)

theorem head_not {a : Str} {L : List Char} (ha : ∀ c ∈ a, c ∉ L) (x : Char) (hx : x ∈ L) : a.head? ≠ some x := by
  cases a with
  | nil => simp
  | cons d a => simp; intro h; exact ha d (by simp) (h ▸ hx)

/-- The type of tie the signs of a text stand for. -/
def signType (s : Str) : Option KTieType :=
  if '[' ∈ s then some .start else if '_' ∈ s then some .cont else if ']' ∈ s then some .stop else none

/-- At most one tie sign. -/
def OneSign (s : Str) : Prop :=
  ('[' ∈ s → '_' ∉ s ∧ ']' ∉ s) ∧ ('_' ∈ s → ']' ∉ s)

/-- The parts around the signs. -/
theorem tieNoteText_parts (n : TieNoteOut) :
    tieNoteText n = n.parts.slurStarts ++ (writeTie n.tie).1 ++ (n.parts.recip ++ n.parts.grace ++ n.parts.pitch) ++
      (n.parts.sf ++ n.parts.expressions ++ n.parts.artics ++ n.parts.cueSize ++ n.parts.color ++ n.parts.stem ++ n.parts.beam ++
        n.parts.invisible) ++ (writeTie n.tie).2.1 ++ n.parts.slurStops := by
  simp [tieNoteText, noteToken, List.append_assoc]

/-- What a note's text looks like to the reader: a start, a stop or continuation, or neither. -/
theorem tieNoteText_cases (n : TieNoteOut) (h : TieFree n.parts) :
    ∃ A B C : Str, (∀ c ∈ A ++ B ++ C, c ∉ ['[', '_', ']']) ∧ (∀ x ∈ ['y', '>', '<'], (B ++ C).head? ≠ some x) ∧
      (∀ x ∈ ['y', '>', '<'], C.head? ≠ some x) ∧
      tieNoteText n = A ++ (writeTie n.tie).1 ++ B ++ (writeTie n.tie).2.1 ++ C := by
  refine ⟨n.parts.slurStarts, (n.parts.recip ++ n.parts.grace ++ n.parts.pitch) ++
      (n.parts.sf ++ n.parts.expressions ++ n.parts.artics ++ n.parts.cueSize ++ n.parts.color ++ n.parts.stem ++ n.parts.beam ++
        n.parts.invisible), n.parts.slurStops, ?_, ?_, ?_, ?_⟩
  · intro c hc
    apply h.signs c
    simpa [List.append_assoc] using hc
  · intro x hx
    rw [List.append_assoc]
    apply head_app_not (L := ['y', '>', '<']) _ h.rhythm x hx
    intro c hc
    apply h.next c
    simp at hc ⊢; tauto
  · intro x hx
    apply head_not (L := ['y', '>', '<']) _ x hx
    intro c hc
    apply h.next c
    simp [hc]
  · rw [tieNoteText_parts]; simp [List.append_assoc]

/-- The style and placement that are written for a tie: a stop has none, a hidden tie no placement. -/
def writtenTieStyle (t : Option KTie) : KTieStyle × KTiePlace :=
  match t with
  | some ⟨.start, s, p⟩ => (s, if s = .hidden then .unset else p)
  | some ⟨.cont, s, p⟩ => (s, if s = .hidden then .unset else p)
  | _ => (.normal, .unset)

/-- The type that is written for a tie: `let-ring` has no sign. -/
def writtenType (t : Option KTie) : Option KTieType :=
  match t with
  | some ⟨.start, _, _⟩ => some .start
  | some ⟨.cont, _, _⟩ => some .cont
  | some ⟨.stop, _, _⟩ => some .stop
  | _ => none

theorem writeTie_texts (t : Option KTie) (A B C : Str) (hA : ∀ c ∈ A ++ B ++ C, c ∉ ['[', '_', ']'])
    (hB : ∀ x ∈ ['y', '>', '<'], (B ++ C).head? ≠ some x) (hC : ∀ x ∈ ['y', '>', '<'], C.head? ≠ some x) :
    let s := A ++ (writeTie t).1 ++ B ++ (writeTie t).2.1 ++ C
    ('[' ∈ s ↔ writtenType t = some .start) ∧ ('_' ∈ s ↔ writtenType t = some .cont) ∧
    (']' ∈ s ↔ writtenType t = some .stop) ∧
    (∀ x ∈ ['y', '>', '<'], (isInfix ['[', x] s || isInfix ['_', x] s) = decide (
      (x = 'y' ∧ (writtenTieStyle t).1 = .hidden) ∨ (x = '>' ∧ (writtenTieStyle t).2 = .above) ∨ (x = '<' ∧ (writtenTieStyle t).2 = .below))) ∧
    disjunctEnd ⟨0, 0, 0, s, false, false, false, false⟩ = false := by
  -- the two shapes of text
  have key : ∀ (sg : Char) (suf P Q : Str), sg ∈ ['[', '_', ']'] → (∀ c ∈ suf, c ∉ ['[', '_', ']']) →
      (∀ c ∈ P ++ Q, c ∉ ['[', '_', ']']) →
      let s := P ++ sg :: (suf ++ Q)
      (∀ c ∈ ['[', '_', ']'], (c ∈ s ↔ c = sg)) ∧
      (∀ c ∈ ['[', '_', ']'], ∀ x, isInfix [c, x] s = decide (c = sg ∧ (suf ++ Q).head? = some x)) := by
    intro sg suf P Q hsg hsuf hPQ
    have hn : ∀ c ∈ ['[', '_', ']'], c ∉ P ∧ c ∉ suf ++ Q := by
      intro c hc
      refine ⟨fun h => hPQ c (by simp [h]) hc, fun h => ?_⟩
      rcases List.mem_append.mp h with h | h
      · exact hsuf c h hc
      · exact hPQ c (by simp [h]) hc
    refine ⟨?_, ?_⟩
    · intro c hc
      have := hn c hc
      simp only [List.mem_append, List.mem_cons] at this ⊢
      tauto
    · intro c hc x
      by_cases hcs : c = sg
      · subst hcs
        rw [infix_once _ _ _ _ (hn c hc).1 (hn c hc).2]
        simp
      · rw [infix_none]
        · simp [hcs]
        · have := hn c hc
          simp only [List.mem_append, List.mem_cons] at this ⊢
          tauto
  have fin : ∀ (sg : Char) (suf P Q : Str) (s : Str), sg ∈ ['[', '_', ']'] → (∀ c ∈ suf, c ∉ ['[', '_', ']']) →
      (∀ c ∈ P ++ Q, c ∉ ['[', '_', ']']) → s = P ++ sg :: (suf ++ Q) →
      (∀ c ∈ ['[', '_', ']'], (c ∈ s ↔ c = sg)) ∧
      (∀ c ∈ ['[', '_', ']'], ∀ x, isInfix [c, x] s = decide (c = sg ∧ (suf ++ Q).head? = some x)) := by
    intro sg suf P Q s a b c d
    subst d
    exact key sg suf P Q a b c
  have hsuf : ∀ t, ∀ c ∈ tieSuffix t, c ∉ ['[', '_', ']'] := by
    rintro ⟨ty, st, pl⟩
    cases ty <;> cases st <;> cases pl <;> decide
  have hBn : ∀ c ∈ A ++ (B ++ C), c ∉ ['[', '_', ']'] := by simpa [List.append_assoc] using hA
  have hABC : ∀ c ∈ (A ++ B) ++ C, c ∉ ['[', '_', ']'] := hA
  have dis : ∀ s : Str, disjunctEnd ⟨0, 0, 0, s, false, false, false, false⟩ = (isInfix [']', ']'] s || isInfix ['_', '_'] s) := fun _ => rfl
  intro s
  rw [dis]
  have plain : (writeTie t).1 = [] → (writeTie t).2.1 = [] → (∀ c ∈ ['[', '_', ']'], c ∉ s) ∧ (∀ c ∈ ['[', '_', ']'], ∀ x, isInfix [c, x] s = false) := by
    intro e1 e2
    have hs : s = A ++ B ++ C := by simp [s, e1, e2]
    have : ∀ c ∈ ['[', '_', ']'], c ∉ s := fun c hc hm => hA c (hs ▸ hm) hc
    exact ⟨this, fun c hc x => infix_none _ _ _ (this c hc)⟩
  have b1 := hB 'y' (by simp); have b2 := hB '>' (by simp); have b3 := hB '<' (by simp)
  have c1 := hC 'y' (by simp); have c2 := hC '>' (by simp); have c3 := hC '<' (by simp)
  have nobr : ∀ (Q : Str), (∀ c ∈ Q, c ∉ ['[', '_', ']']) → Q.head? ≠ some '_' ∧ Q.head? ≠ some ']' := fun Q hQ =>
    ⟨head_not hQ _ (by simp), head_not hQ _ (by simp)⟩
  have hCn := nobr C (fun c hc => hA c (by simp [hc]))
  have hBCn := nobr (B ++ C) (fun c hc => hBn c (by simp at hc ⊢; tauto))
  rcases t with _ | ⟨ty, st, pl⟩
  · obtain ⟨p1, p2⟩ := plain rfl rfl
    refine ⟨?_, ?_, ?_, ?_, ?_⟩
    · simp [writtenType, p1]
    · simp [writtenType, p1]
    · simp [writtenType, p1]
    · intro x hx
      rw [p2 _ (by simp), p2 _ (by simp)]
      simp [writtenTieStyle]
    · rw [p2 _ (by simp), p2 _ (by simp)]; rfl
  · cases ty
    · -- start
      obtain ⟨p1, p2⟩ := fin '[' (tieSuffix ⟨.start, st, pl⟩) A (B ++ C) s (by simp) (hsuf _) hBn (by simp [s, writeTie, tieSign])
      refine ⟨?_, ?_, ?_, ?_, ?_⟩
      · simp [writtenType, p1]
      · simp [writtenType, p1]
      · simp [writtenType, p1]
      · intro x hx
        rw [p2 _ (by simp), p2 _ (by simp)]
        simp only [List.mem_cons, List.not_mem_nil, or_false] at hx
        generalize B ++ C = Q at b1 b2 b3
        rcases hx with rfl | rfl | rfl <;> cases st <;> cases pl <;> simp [writtenTieStyle, tieSuffix, b1, b2, b3]
      · rw [p2 _ (by simp), p2 _ (by simp)]; simp
    · -- stop
      obtain ⟨p1, p2⟩ := fin ']' (tieSuffix ⟨.stop, st, pl⟩) (A ++ B) C s (by simp) (hsuf _) hABC
        (by simp [s, writeTie, tieSign])
      refine ⟨?_, ?_, ?_, ?_, ?_⟩
      · simp [writtenType, p1]
      · simp [writtenType, p1]
      · simp [writtenType, p1]
      · intro x hx
        rw [p2 _ (by simp), p2 _ (by simp)]
        simp [writtenTieStyle]
      · rw [p2 _ (by simp), p2 _ (by simp)]; simp [tieSuffix, hCn]
    · -- continue
      obtain ⟨p1, p2⟩ := fin '_' (tieSuffix ⟨.cont, st, pl⟩) (A ++ B) C s (by simp) (hsuf _) hABC
        (by simp [s, writeTie, tieSign])
      refine ⟨?_, ?_, ?_, ?_, ?_⟩
      · simp [writtenType, p1]
      · simp [writtenType, p1]
      · simp [writtenType, p1]
      · intro x hx
        rw [p2 _ (by simp), p2 _ (by simp)]
        simp only [List.mem_cons, List.not_mem_nil, or_false] at hx
        rcases hx with rfl | rfl | rfl <;> cases st <;> cases pl <;> simp [writtenTieStyle, tieSuffix, c1, c2, c3]
      · rw [p2 _ (by simp), p2 _ (by simp)]
        cases st <;> cases pl <;> simp [tieSuffix, hCn]
    all_goals
      obtain ⟨p1, p2⟩ := plain rfl rfl
      refine ⟨?_, ?_, ?_, ?_, ?_⟩
      · simp [writtenType, p1]
      · simp [writtenType, p1]
      · simp [writtenType, p1]
      · intro x hx
        rw [p2 _ (by simp), p2 _ (by simp)]
        simp [writtenTieStyle]
      · rw [p2 _ (by simp), p2 _ (by simp)]; rfl

/-- What the reader makes of a written note. -/
theorem tieNoteBack_reads (n : TieNoteOut) (h : TieFree n.parts) :
    ('[' ∈ (tieNoteBack n).text ↔ writtenType n.tie = some .start) ∧
    ('_' ∈ (tieNoteBack n).text ↔ writtenType n.tie = some .cont) ∧
    (']' ∈ (tieNoteBack n).text ↔ writtenType n.tie = some .stop) ∧
    readTieStyle (tieNoteBack n) = (writtenTieStyle n.tie).1 ∧
    readTiePlace ['>'] ['<'] (tieNoteBack n) = (writtenTieStyle n.tie).2 ∧
    disjunctEnd (tieNoteBack n) = false := by
  obtain ⟨A, B, C, hA, hB, hC, ht⟩ := tieNoteText_cases n h
  obtain ⟨h1, h2, h3, h4, h5⟩ := writeTie_texts n.tie A B C hA hB hC
  rw [← ht] at h1 h2 h3 h4 h5
  have y1 := h4 'y' (by simp)
  have y2 := h4 '>' (by simp)
  have y3 := h4 '<' (by simp)
  refine ⟨h1, h2, h3, ?_, ?_, h5⟩
  · unfold readTieStyle
    rw [show (tieNoteBack n).text = tieNoteText n from rfl, y1]
    rcases hn : n.tie with _ | ⟨ty, st, pl⟩
    · simp [tieNoteBack, hn, writeTie, writtenTieStyle]
    · cases ty <;> cases st <;> simp [tieNoteBack, hn, writeTie, writtenTieStyle, tieLayouts]
  · unfold readTiePlace hasTieSignifier
    rw [show (tieNoteBack n).text = tieNoteText n from rfl, y2, y3]
    rcases hn : n.tie with _ | ⟨ty, st, pl⟩
    · simp [tieNoteBack, writtenTieStyle, layoutTiePlace]
    · cases ty <;> cases st <;> cases pl <;> simp [tieNoteBack, writtenTieStyle, layoutTiePlace]

/-! ### The walk -/

/-- `m` can end the tie of `n`. -/
def endsTieOf (n m : TieNoteIn) : Prop :=
  (']' ∈ m.text ∨ '_' ∈ m.text) ∧ tieFits m ⟨0, n⟩ = true

/-- The tie `r` is one that the note `n` can have after reading `ns`. -/
def TieGood (ab be : Str) (ns : List TieNoteIn) (n : TieNoteIn) (r : Option KTie) : Prop :=
  (('[' ∈ n.text ∨ '_' ∈ n.text) → ∃ m, (m = n ∨ (m ∈ ns ∧ endsTieOf n m)) ∧
    r = some ⟨if '_' ∈ n.text then .cont else .start, readTieStyle m, readTiePlace ab be m⟩) ∧
  (('[' ∉ n.text ∧ '_' ∉ n.text) → r = if ']' ∈ n.text then some ⟨.stop, .normal, .unset⟩ else none)

structure KTieInv (ab be : Str) (ns : List TieNoteIn) (k : Nat) (S : KTieSt) : Prop where
  opens : ∀ o ∈ S.opens, o.idx < k ∧ ns[o.idx]? = some o.src ∧ ('[' ∈ o.src.text ∨ '_' ∈ o.src.text)
  done : ∀ i < k, ∀ n, ns[i]? = some n → (∃ o ∈ S.opens, o.idx = i) ∨ TieGood ab be ns n (S.tie i)
  later : ∀ i, k ≤ i → S.tie i = none

theorem findTie_mem {n : TieNoteIn} {L : List OpenKTie} {o : OpenKTie} (h : findTie n L = some o) : o ∈ L ∧ tieFits n o = true := by
  unfold findTie at h
  split at h
  · rename_i o' hf
    cases h
    have := List.find?_some hf
    simp at this
    exact ⟨List.mem_of_find?_eq_some hf, this.2⟩
  · exact ⟨List.mem_of_find?_eq_some h, by simpa using List.find?_some h⟩

theorem kTieInv_step (ab be : Str) (ns : List TieNoteIn) (one : ∀ n ∈ ns, OneSign n.text) (k : Nat) (n : TieNoteIn) (hk : ns[k]? = some n) (S : KTieSt)
    (I : KTieInv ab be ns k S) : KTieInv ab be ns (k + 1) (kTieEnd ab be k n (kTieStart k n S)) := by
  have hone : OneSign n.text := one n (List.mem_of_getElem? hk)
  have hnm : n ∈ ns := List.mem_of_getElem? hk
  by_cases hst : '[' ∈ n.text ∨ '_' ∈ n.text
  · -- the tie is opened
    have e1 : kTieStart k n S = { S with opens := S.opens ++ [⟨k, n⟩] } := by unfold kTieStart; rw [if_pos hst]
    have I1 : KTieInv ab be ns (k + 1) { S with opens := S.opens ++ [⟨k, n⟩] } := by
      refine ⟨?_, ?_, ?_⟩
      · intro o ho
        rcases List.mem_append.mp ho with ho | ho
        · obtain ⟨a, b, c⟩ := I.opens o ho
          exact ⟨by omega, b, c⟩
        · simp at ho; subst ho; exact ⟨by simp, hk, hst⟩
      · intro i hi n' hn'
        by_cases hik : i = k
        · left; exact ⟨⟨k, n⟩, by simp, hik.symm⟩
        · rcases I.done i (by omega) n' hn' with ⟨o, ho, hoi⟩ | hg
          · left; exact ⟨o, by simp [ho], hoi⟩
          · right; exact hg
      · intro i hi; exact I.later i (by omega)
    rw [e1]
    have hstop : ']' ∉ n.text := by
      rcases hst with h | h
      · exact (hone.1 h).2
      · exact hone.2 h
    unfold kTieEnd
    split
    · rename_i hend
      have hcont : '_' ∈ n.text := by
        rcases hend with h | h
        · exact absurd h hstop
        · exact h
      cases hf : findTie n (S.opens ++ [⟨k, n⟩]) with
      | none => simp only [hcont, if_true]; exact I1
      | some o =>
        obtain ⟨ho, hfit⟩ := findTie_mem hf
        obtain ⟨o1, o2, o3⟩ := I1.opens o ho
        simp only [closeTie, if_neg hstop]
        refine ⟨?_, ?_, ?_⟩
        · intro x hx
          exact I1.opens x (List.mem_of_mem_eraseP hx)
        · intro i hi n' hn'
          by_cases hio : i = o.idx
          · right
            have : n' = o.src := by rw [hio] at hn'; rw [o2] at hn'; exact (Option.some.inj hn').symm
            subst this
            refine ⟨fun _ => ⟨n, Or.inr ⟨hnm, Or.inr hcont, hfit⟩, ?_⟩, fun h => ?_⟩
            · simp [KTieSt.set, hio, openTieType]
            · rcases o3 with h' | h'
              · exact absurd h' h.1
              · exact absurd h' h.2
          · rcases I1.done i hi n' hn' with ⟨x, hx, hxi⟩ | hg
            · left
              exact ⟨x, (List.mem_eraseP_of_neg (by simp; rw [hxi]; exact hio)).mpr hx, hxi⟩
            · right; simpa [KTieSt.set, hio] using hg
        · intro i hi
          have : i ≠ o.idx := by omega
          simp [KTieSt.set, this]
          exact I.later i (by omega)
    · exact I1
  · have e1 : kTieStart k n S = S := by unfold kTieStart; rw [if_neg hst]
    rw [e1]
    have hu : '_' ∉ n.text := fun h => hst (Or.inr h)
    have hl : '[' ∉ n.text := fun h => hst (Or.inl h)
    -- the general form of the result
    have fin : ∀ S' : KTieSt, (∀ o ∈ S'.opens, o ∈ S.opens) →
        (∀ i < k, ∀ n', ns[i]? = some n' → (∃ o ∈ S.opens, o.idx = i) ∨ TieGood ab be ns n' (S.tie i) → (∃ o ∈ S'.opens, o.idx = i) ∨ TieGood ab be ns n' (S'.tie i)) →
        S'.tie k = (if ']' ∈ n.text then some ⟨.stop, .normal, .unset⟩ else none) → (∀ i, k < i → S'.tie i = none) →
        KTieInv ab be ns (k + 1) S' := by
      intro S' a b c d
      refine ⟨?_, ?_, ?_⟩
      · intro o ho
        obtain ⟨x, y, z⟩ := I.opens o (a o ho)
        exact ⟨by omega, y, z⟩
      · intro i hi n' hn'
        by_cases hik : i = k
        · subst hik
          rw [hk] at hn'
          cases hn'
          right
          exact ⟨fun h => absurd h hst, fun _ => c⟩
        · exact b i (by omega) n' hn' (I.done i (by omega) n' hn')
      · intro i hi; exact d i (by omega)
    unfold kTieEnd
    split
    · rename_i hend
      have hstop : ']' ∈ n.text := by
        rcases hend with h | h
        · exact h
        · exact absurd h hu
      cases hf : findTie n S.opens with
      | none =>
        simp only [if_neg hu]
        apply fin
        · intro o ho; exact ho
        · intro i hi n' hn' h
          have : i ≠ k := by omega
          simpa [setStop, KTieSt.set, this] using h
        · simp [setStop, KTieSt.set, hstop]
        · intro i hi
          have : i ≠ k := by omega
          simp [setStop, KTieSt.set, this, I.later i (by omega)]
      | some o =>
        obtain ⟨ho, hfit⟩ := findTie_mem hf
        obtain ⟨o1, o2, o3⟩ := I.opens o ho
        simp only [closeTie, if_pos hstop]
        apply fin
        · intro x hx; exact List.mem_of_mem_eraseP hx
        · intro i hi n' hn' h
          have hik : i ≠ k := by omega
          by_cases hio : i = o.idx
          · right
            have : n' = o.src := by rw [hio] at hn'; rw [o2] at hn'; exact (Option.some.inj hn').symm
            subst this
            refine ⟨fun _ => ⟨n, Or.inr ⟨hnm, Or.inl hstop, hfit⟩, ?_⟩, fun h => ?_⟩
            · have : o.idx ≠ k := by omega
              simp [setStop, KTieSt.set, hio, openTieType, this]
            · rcases o3 with h' | h'
              · exact absurd h' h.1
              · exact absurd h' h.2
          · rcases h with ⟨x, hx, hxi⟩ | hg
            · left
              exact ⟨x, (List.mem_eraseP_of_neg (by simp; rw [hxi]; exact hio)).mpr hx, hxi⟩
            · right; simpa [setStop, KTieSt.set, hio, hik] using hg
        · simp [setStop, KTieSt.set, hstop]
        · intro i hi
          have h1 : i ≠ k := by omega
          have h2 : i ≠ o.idx := by omega
          simp [setStop, KTieSt.set, h1, h2, I.later i (by omega)]
    · rename_i hend
      have hstop : ']' ∉ n.text := fun h => hend (Or.inl h)
      apply fin
      · intro o ho; exact ho
      · intro i hi n' hn' h; exact h
      · rw [if_neg hstop]; exact I.later k (by omega)
      · intro i hi; exact I.later i (by omega)

theorem kTieInv_walk (ab be : Str) (ns : List TieNoteIn) (one : ∀ n ∈ ns, OneSign n.text) : ∀ (rest done : List TieNoteIn) (S : KTieSt), ns = done ++ rest →
    KTieInv ab be ns done.length S → KTieInv ab be ns ns.length (kTieWalk ab be done.length rest S)
  | [], done, S, h, I => by
    have : ns.length = done.length := by simp [h]
    rw [this]; exact I
  | n :: rest, done, S, h, I => by
    have hk : ns[done.length]? = some n := by simp [h]
    have := kTieInv_walk ab be ns one rest (done ++ [n]) _ (by simp [h]) (by simpa using kTieInv_step ab be ns one done.length n hk S I)
    simpa [kTieWalk] using this

theorem hanging_fold (ab be : Str) (ns : List TieNoteIn) : ∀ (L : List OpenKTie) (S : KTieSt), (∀ o ∈ L, ns[o.idx]? = some o.src) →
    ∀ i, ((∀ o ∈ L, o.idx ≠ i) → (L.foldl (hangingTie ab be) S).tie i = S.tie i) ∧
      (∀ o ∈ L, o.idx = i → (L.foldl (hangingTie ab be) S).tie i = some ⟨openTieType o, readTieStyle o.src, readTiePlace ab be o.src⟩)
  | [], S, _, i => by simp
  | x :: L, S, h, i => by
    obtain ⟨h1, h2⟩ := hanging_fold ab be ns L (hangingTie ab be S x) (fun o ho => h o (by simp [ho])) i
    refine ⟨?_, ?_⟩
    · intro hne
      rw [List.foldl_cons, h1 (fun o ho => hne o (by simp [ho]))]
      have : i ≠ x.idx := fun e => hne x (by simp) e.symm
      simp [hangingTie, KTieSt.set, this]
    · intro o ho hoi
      rw [List.foldl_cons]
      by_cases hL : ∃ y ∈ L, y.idx = i
      · obtain ⟨y, hy, hyi⟩ := hL
        rw [h2 y hy hyi]
        have e1 := h y (by simp [hy])
        have e2 := h o ho
        rw [hyi] at e1
        rw [hoi, e1] at e2
        have e3 : y.src = o.src := Option.some.inj e2
        simp [openTieType, e3]
      · have hne : ∀ y ∈ L, y.idx ≠ i := fun y hy e => hL ⟨y, hy, e⟩
        rw [h1 hne]
        rcases List.mem_cons.mp ho with rfl | ho
        · simp [hangingTie, KTieSt.set, hoi]
        · exact absurd hoi (hne o ho)

/-- Every note ends up with a tie of its own type, and with a style that is its own or that of a note that can end its tie. -/
theorem readKTies_good (ab be : Str) (ns : List TieNoteIn) (one : ∀ n ∈ ns, OneSign n.text) (i : Nat) (n : TieNoteIn) (hi : ns[i]? = some n) :
    TieGood ab be ns n (readKTies ab be ns i) := by
  have I := kTieInv_walk ab be ns one ns [] ⟨[], fun _ => none⟩ rfl ⟨by simp, by simp, by simp⟩
  simp only [List.length_nil] at I
  obtain ⟨h1, h2⟩ := hanging_fold ab be ns _ (kTieWalk ab be 0 ns ⟨[], fun _ => none⟩) (fun o ho => (I.opens o ho).2.1) i
  simp only [readKTies]
  have hlt : i < ns.length := by
    rw [List.getElem?_eq_some_iff] at hi
    exact hi.1
  by_cases hL : ∃ o ∈ (kTieWalk ab be 0 ns ⟨[], fun _ => none⟩).opens, o.idx = i
  · obtain ⟨o, ho, hoi⟩ := hL
    rw [h2 o ho hoi]
    obtain ⟨_, o2, o3⟩ := I.opens o ho
    rw [hoi, hi] at o2
    cases o2
    refine ⟨fun _ => ⟨_, Or.inl rfl, rfl⟩, fun h => ?_⟩
    rcases o3 with h' | h'
    · exact absurd h' h.1
    · exact absurd h' h.2
  · rw [h1 (fun o ho e => hL ⟨o, ho, e⟩)]
    rcases I.done i hlt n hi with h | h
    · exact absurd h hL
    · exact h

/-! ### Written notes -/

theorem tieNoteBack_one (n : TieNoteOut) (h : TieFree n.parts) : OneSign (tieNoteBack n).text := by
  obtain ⟨h1, h2, h3, _⟩ := tieNoteBack_reads n h
  refine ⟨fun h => ⟨fun h' => ?_, fun h' => ?_⟩, fun h h' => ?_⟩
  · rw [h1] at h; rw [h2] at h'; rw [h] at h'; exact absurd h' (by decide)
  · rw [h1] at h; rw [h3] at h'; rw [h] at h'; exact absurd h' (by decide)
  · rw [h2] at h; rw [h3] at h'; rw [h] at h'; exact absurd h' (by decide)

/-- The ties of a staff, written and read back. -/
def tiesBack (ns : List TieNoteOut) (i : Nat) : Option KTie := readKTies ['>'] ['<'] (ns.map tieNoteBack) i

/-- `m` is where the tie of `n` ends: it stops or continues a tie, sounds the same pitch, and starts when `n` ends. -/
structure TiesTo (n m : TieNoteOut) : Prop where
  ends : ∃ t, m.tie = some t ∧ (t.type = .stop ∨ t.type = .cont)
  pitch : kernToMidiNoteNumber (tieNoteText n) = kernToMidiNoteNumber (tieNoteText m)
  time : m.start = n.start + n.dur

theorem writtenType_stop {t : Option KTie} {k : KTieType} (h : writtenType t = some k) : ∃ x, t = some x ∧ x.type = k := by
  rcases t with _ | ⟨ty, st, pl⟩
  · simp [writtenType] at h
  · refine ⟨_, rfl, ?_⟩
    cases ty <;> simp [writtenType] at h <;> exact h

theorem endsTieOf_to {n m : TieNoteOut} (hm : TieFree m.parts) (h : endsTieOf (tieNoteBack n) (tieNoteBack m)) : TiesTo n m := by
  obtain ⟨h1, h2, h3, _, _, h6⟩ := tieNoteBack_reads m hm
  obtain ⟨he, hfit⟩ := h
  unfold tieFits at hfit
  rw [h6] at hfit
  have hp : ¬ (OpenKTie.pitch ⟨0, tieNoteBack n⟩ ≠ kernToMidiNoteNumber (tieNoteBack m).text) := by
    intro hne; rw [if_pos hne] at hfit; exact absurd hfit (by simp)
  rw [if_neg hp] at hfit
  simp at hfit
  refine ⟨?_, ?_, ?_⟩
  · rcases he with he | he
    · obtain ⟨x, a, b⟩ := writtenType_stop (h3.mp he)
      exact ⟨x, a, Or.inl b⟩
    · obtain ⟨x, a, b⟩ := writtenType_stop (h2.mp he)
      exact ⟨x, a, Or.inr b⟩
  · exact not_not.mp hp
  · exact hfit.symm

theorem tiesBack_cases (ns : List TieNoteOut) (hf : ∀ n ∈ ns, TieFree n.parts) (i : Nat) (n : TieNoteOut) (hi : ns[i]? = some n) :
    ((writtenType n.tie = some .start ∨ writtenType n.tie = some .cont) → ∃ m, (m = n ∨ (m ∈ ns ∧ TiesTo n m)) ∧
      ∃ k, writtenType n.tie = some k ∧ tiesBack ns i = some ⟨k, (writtenTieStyle m.tie).1, (writtenTieStyle m.tie).2⟩) ∧
    (writtenType n.tie = some .stop → tiesBack ns i = some ⟨.stop, .normal, .unset⟩) ∧
    (writtenType n.tie = none → tiesBack ns i = none) := by
  have hn : n ∈ ns := List.mem_of_getElem? hi
  have G := readKTies_good ['>'] ['<'] (ns.map tieNoteBack) (by
    intro x hx
    obtain ⟨m, hm, rfl⟩ := List.mem_map.mp hx
    exact tieNoteBack_one m (hf m hm)) i (tieNoteBack n) (by simp [hi])
  obtain ⟨h1, h2, h3, h4, h5, _⟩ := tieNoteBack_reads n (hf n hn)
  obtain ⟨G1, G2⟩ := G
  simp only [h1, h2, h3] at G1 G2
  refine ⟨?_, ?_, ?_⟩
  · intro hw
    obtain ⟨m, hm, hr⟩ := G1 hw
    have key : ∀ m' : TieNoteOut, TieFree m'.parts → m = tieNoteBack m' →
        ∃ k, writtenType n.tie = some k ∧ tiesBack ns i = some ⟨k, (writtenTieStyle m'.tie).1, (writtenTieStyle m'.tie).2⟩ := by
      intro m' hm' e
      obtain ⟨_, _, _, a, b, _⟩ := tieNoteBack_reads m' hm'
      rw [e, a, b] at hr
      rcases hw with hw | hw
      · exact ⟨_, hw, by rw [tiesBack, hr]; simp [hw]⟩
      · exact ⟨_, hw, by rw [tiesBack, hr]; simp [hw]⟩
    rcases hm with rfl | ⟨hm, he⟩
    · exact ⟨n, Or.inl rfl, key n (hf n hn) rfl⟩
    · obtain ⟨m', hm', rfl⟩ := List.mem_map.mp hm
      exact ⟨m', Or.inr ⟨hm', endsTieOf_to (hf m' hm') he⟩, key m' (hf m' hm') rfl⟩
  · intro hw
    rw [tiesBack, G2 (by rw [hw]; simp), hw]; simp
  · intro hw
    rw [tiesBack, G2 (by rw [hw]; simp), hw]; simp

/-- C110: each note of a staff keeps the type of its tie, or having none, whatever ties there are in the staff, matched or not. -/
theorem tie_types_round_trip (ns : List TieNoteOut) (hf : ∀ n ∈ ns, TieFree n.parts) (i : Nat) (n : TieNoteOut)
    (hi : ns[i]? = some n) (ht : ∀ t, n.tie = some t → t.type = .start ∨ t.type = .stop ∨ t.type = .cont) :
    (tiesBack ns i).map KTie.type = n.tie.map KTie.type := by
  obtain ⟨c1, c2, c3⟩ := tiesBack_cases ns hf i n hi
  rcases hn : n.tie with _ | ⟨ty, st, pl⟩
  · rw [hn] at c3; rw [c3 rfl]
  · have := ht _ hn
    simp only at this
    rw [hn] at c1 c2
    rcases this with rfl | rfl | rfl
    · obtain ⟨m, _, k, hk, hr⟩ := c1 (Or.inl rfl)
      cases hk; rw [hr]; rfl
    · rw [c2 rfl]; rfl
    · obtain ⟨m, _, k, hk, hr⟩ := c1 (Or.inr rfl)
      cases hk; rw [hr]; rfl

/-- C110: a tie that ends at no note of the staff comes back as it was, a hidden one without placement. -/
theorem hanging_tie_round_trip (ns : List TieNoteOut) (hf : ∀ n ∈ ns, TieFree n.parts) (i : Nat) (n : TieNoteOut)
    (hi : ns[i]? = some n) (t : KTie) (ht : n.tie = some t) (hty : t.type = .start ∨ t.type = .cont)
    (hang : ∀ m ∈ ns, ¬ TiesTo n m) :
    tiesBack ns i = some ⟨t.type, t.style, if t.style = .hidden then .unset else t.place⟩ := by
  obtain ⟨c1, _, _⟩ := tiesBack_cases ns hf i n hi
  obtain ⟨ty, st, pl⟩ := t
  simp only at hty
  rcases hty with rfl | rfl
  · obtain ⟨m, hm, k, hk, hr⟩ := c1 (Or.inl (by rw [ht]; rfl))
    have : m = n := by
      rcases hm with h | ⟨h, h'⟩
      · exact h
      · exact absurd h' (hang m h)
    subst this
    rw [ht] at hk hr
    cases hk
    rw [hr]; rfl
  · obtain ⟨m, hm, k, hk, hr⟩ := c1 (Or.inr (by rw [ht]; rfl))
    have : m = n := by
      rcases hm with h | ⟨h, h'⟩
      · exact h
      · exact absurd h' (hang m h)
    subst this
    rw [ht] at hk hr
    cases hk
    rw [hr]; rfl

/-- C110: if no tie of the staff has a style or a placement, all its ties come back as they were. -/
theorem plain_ties_round_trip_partial (ns : List TieNoteOut) (hf : ∀ n ∈ ns, TieFree n.parts)
    (plain : ∀ n ∈ ns, ∀ t, n.tie = some t → (t.type = .start ∨ t.type = .stop ∨ t.type = .cont) ∧ t.style = .normal ∧ t.place = .unset)
    (i : Nat) (n : TieNoteOut) (hi : ns[i]? = some n) : tiesBack ns i = n.tie := by
  obtain ⟨c1, c2, c3⟩ := tiesBack_cases ns hf i n hi
  have hn : n ∈ ns := List.mem_of_getElem? hi
  have ws : ∀ m ∈ ns, writtenTieStyle m.tie = (.normal, .unset) := by
    intro m hm
    rcases h : m.tie with _ | ⟨ty, st, pl⟩
    · rfl
    · obtain ⟨_, a, b⟩ := plain m hm _ h
      simp only at a b
      subst a b
      cases ty <;> rfl
  have go : (writtenType n.tie = some .start ∨ writtenType n.tie = some .cont) →
      ∃ k, writtenType n.tie = some k ∧ tiesBack ns i = some ⟨k, .normal, .unset⟩ := by
    intro h
    obtain ⟨m, hm, k, hk, hr⟩ := c1 h
    refine ⟨k, hk, ?_⟩
    have hm' : m ∈ ns := by
      rcases hm with h | h
      · rw [h]; exact hn
      · exact h.1
    rw [hr, ws m hm']
  rcases h : n.tie with _ | ⟨ty, st, pl⟩
  · exact c3 (by rw [h]; rfl)
  · obtain ⟨a, b, c⟩ := plain n hn _ h
    simp only at a b c
    subst b c
    rw [h] at go c2
    rcases a with rfl | rfl | rfl
    · obtain ⟨k, hk, hr⟩ := go (Or.inl rfl)
      cases hk; exact hr
    · exact c2 rfl
    · obtain ⟨k, hk, hr⟩ := go (Or.inr rfl)
      cases hk; exact hr

/-- C110: a `let-ring` tie is lost. -/
theorem let_ring_lost (ns : List TieNoteOut) (hf : ∀ n ∈ ns, TieFree n.parts) (i : Nat) (n : TieNoteOut)
    (hi : ns[i]? = some n) (t : KTie) (ht : n.tie = some t) (hty : t.type = .letRing ∨ t.type = .contLetRing) :
    tiesBack ns i = none := by
  refine (tiesBack_cases ns hf i n hi).2.2 ?_
  rw [ht]
  obtain ⟨ty, st, pl⟩ := t
  simp only at hty
  rcases hty with rfl | rfl <;> rfl

/-! ### Chains of ties -/

/-- A chain of tied notes: the first starts a tie, the next ones go on, the last stops, each starts when the one before it ends, all
sound the same pitch. -/
inductive TieChain : List TieNoteOut → Prop
  | last (n m : TieNoteOut) (t : KTie) (h : m.tie = some t) (ht : t.type = .stop) (toM : TiesTo n m) : TieChain [n, m]
  | more (n m : TieNoteOut) (rest : List TieNoteOut) (t : KTie) (h : m.tie = some t) (ht : t.type = .cont) (toM : TiesTo n m)
    (hc : TieChain (m :: rest)) : TieChain (n :: m :: rest)

theorem tieFits_to {n m : TieNoteOut} (h : TiesTo n m) (hm : TieFree m.parts) (j : Nat) : tieFits (tieNoteBack m) ⟨j, tieNoteBack n⟩ = true := by
  obtain ⟨_, _, _, _, _, h6⟩ := tieNoteBack_reads m hm
  unfold tieFits
  rw [if_neg (by simpa [OpenKTie.pitch, tieNoteBack] using h.pitch), h6]
  simp [OpenKTie.endTime, tieNoteBack, h.time]

theorem findTie_first (n : TieNoteIn) (o o' : OpenKTie) (h : tieFits n o = true) (h' : tieFits n o' = false) :
    findTie n [o] = some o ∧ findTie n [o, o'] = some o := by
  unfold findTie
  by_cases hl : o.src.layer = n.layer
  · simp [hl, h]
  · simp [hl, h, h']

theorem closeTie_one (i : Nat) (n : TieNoteIn) (o : OpenKTie) (S : KTieSt) :
    (closeTie ['>'] ['<'] i n o S).opens = S.opens.eraseP (fun x => x.idx == o.idx) := by
  unfold closeTie setStop KTieSt.set
  split <;> rfl

theorem chain_walk : ∀ (c : List TieNoteOut), TieChain c → ∀ (n : TieNoteOut) (rest : List TieNoteOut), c = n :: rest →
    (∀ m ∈ c, TieFree m.parts ∧ 0 < m.dur) → ∀ (k : Nat) (S : KTieSt), S.opens = [⟨k, tieNoteBack n⟩] → ∀ ty,
    (writtenType n.tie = some ty ∧ (ty = .start ∨ ty = .cont)) →
    let R := kTieWalk ['>'] ['<'] (k + 1) (rest.map tieNoteBack) S
    R.opens = [] ∧ (∀ j < k, R.tie j = S.tie j) ∧
    (∀ j m m', c[j]? = some m → rest[j]? = some m' → ∃ ty', writtenType m.tie = some ty' ∧
      R.tie (k + j) = some ⟨ty', (writtenTieStyle m'.tie).1, (writtenTieStyle m'.tie).2⟩) := by
  intro c hc
  induction hc with
  | last n m t h ht toM =>
    intro n' rest e hf k S hS ty hty
    cases e
    obtain ⟨h1, h2, h3, h4, h5, h6⟩ := tieNoteBack_reads m (hf m (by simp)).1
    obtain ⟨g1, g2, g3, g4, g5, g6⟩ := tieNoteBack_reads n (hf n (by simp)).1
    have hw : writtenType m.tie = some .stop := by
      rw [h]; obtain ⟨a, b, d⟩ := t; simp only at ht; subst ht; rfl
    have n1 : '[' ∉ (tieNoteBack m).text := by rw [h1, hw]; simp
    have n2 : '_' ∉ (tieNoteBack m).text := by rw [h2, hw]; simp
    have n3 : ']' ∈ (tieNoteBack m).text := by rw [h3, hw]
    simp only [List.map_cons, List.map_nil, kTieWalk]
    have es : kTieStart (k + 1) (tieNoteBack m) S = S := by
      unfold kTieStart; rw [if_neg]; rintro (h | h)
      · exact n1 h
      · exact n2 h
    rw [es]
    have ee : kTieEnd ['>'] ['<'] (k + 1) (tieNoteBack m) S = closeTie ['>'] ['<'] (k + 1) (tieNoteBack m) ⟨k, tieNoteBack n⟩ S := by
      unfold kTieEnd
      rw [if_pos (Or.inl n3), hS]
      have : findTie (tieNoteBack m) [⟨k, tieNoteBack n⟩] = some ⟨k, tieNoteBack n⟩ := by
        have hfit := tieFits_to toM (hf m (by simp)).1 k
        unfold findTie
        by_cases hl : (tieNoteBack n).layer = (tieNoteBack m).layer <;> simp [hl, hfit]
      rw [this]
    rw [ee]
    refine ⟨?_, ?_, ?_⟩
    · rw [closeTie_one, hS]; simp
    · intro j hj
      have a1 : j ≠ k := by omega
      have a2 : j ≠ k + 1 := by omega
      simp [closeTie, n3, setStop, KTieSt.set, a1, a2]
    · intro j m1 m2 hj hj2
      cases j with
      | zero =>
        simp at hj hj2
        subst hj hj2
        refine ⟨ty, hty.1, ?_⟩
        have : openTieType ⟨k, tieNoteBack n⟩ = ty := by
          unfold openTieType
          simp only [g2, hty.1]
          rcases hty.2 with rfl | rfl <;> simp
        simp [closeTie, n3, setStop, KTieSt.set, this, h4, h5]
      | succ j => simp at hj2
  | more n m rest0 t h ht toM hc ih =>
    intro n' rest e hf k S hS ty hty
    cases e
    obtain ⟨h1, h2, h3, h4, h5, h6⟩ := tieNoteBack_reads m (hf m (by simp)).1
    obtain ⟨g1, g2, g3, g4, g5, g6⟩ := tieNoteBack_reads n (hf n (by simp)).1
    have hw : writtenType m.tie = some .cont := by
      rw [h]; obtain ⟨a, b, d⟩ := t; simp only at ht; subst ht; rfl
    have n1 : '[' ∉ (tieNoteBack m).text := by rw [h1, hw]; simp
    have n2 : '_' ∈ (tieNoteBack m).text := by rw [h2, hw]
    have n3 : ']' ∉ (tieNoteBack m).text := by rw [h3, hw]; simp
    simp only [List.map_cons, kTieWalk]
    have es : kTieStart (k + 1) (tieNoteBack m) S = { S with opens := [⟨k, tieNoteBack n⟩, ⟨k + 1, tieNoteBack m⟩] } := by
      unfold kTieStart; rw [if_pos (Or.inr n2), hS]; rfl
    rw [es]
    have nofit : tieFits (tieNoteBack m) ⟨k + 1, tieNoteBack m⟩ = false := by
      unfold tieFits
      have hd := (hf m (by simp)).2
      rw [if_neg (by simp [OpenKTie.pitch]), h6]
      simp [OpenKTie.endTime, tieNoteBack]
      intro hz; rw [hz] at hd; exact absurd hd (by simp)
    have ee : kTieEnd ['>'] ['<'] (k + 1) (tieNoteBack m) { S with opens := [⟨k, tieNoteBack n⟩, ⟨k + 1, tieNoteBack m⟩] } =
        closeTie ['>'] ['<'] (k + 1) (tieNoteBack m) ⟨k, tieNoteBack n⟩ { S with opens := [⟨k, tieNoteBack n⟩, ⟨k + 1, tieNoteBack m⟩] } := by
      unfold kTieEnd
      rw [if_pos (Or.inr n2)]
      rw [(findTie_first (tieNoteBack m) ⟨k, tieNoteBack n⟩ ⟨k + 1, tieNoteBack m⟩ (tieFits_to toM (hf m (by simp)).1 k) nofit).2]
    rw [ee]
    obtain ⟨r1, r2, r3⟩ := ih m rest0 rfl (fun x hx => hf x (List.mem_cons_of_mem _ hx)) (k + 1)
      (closeTie ['>'] ['<'] (k + 1) (tieNoteBack m) ⟨k, tieNoteBack n⟩ { S with opens := [⟨k, tieNoteBack n⟩, ⟨k + 1, tieNoteBack m⟩] })
      (by rw [closeTie_one]; simp) .cont ⟨hw, Or.inr rfl⟩
    refine ⟨r1, ?_, ?_⟩
    · intro j hj
      rw [r2 j (by omega)]
      have a1 : j ≠ k := by omega
      simp [closeTie, n3, KTieSt.set, a1]
    · intro j m1 m2 hj hj2
      cases j with
      | zero =>
        simp at hj hj2
        subst hj hj2
        refine ⟨ty, hty.1, ?_⟩
        rw [r2 (k + 0) (by omega)]
        have : openTieType ⟨k, tieNoteBack n⟩ = ty := by
          unfold openTieType
          simp only [g2, hty.1]
          rcases hty.2 with rfl | rfl <;> simp
        simp [closeTie, n3, KTieSt.set, this, h4, h5]
      | succ j =>
        have := r3 j m1 m2 (by simpa using hj) (by simpa using hj2)
        rw [show k + (j + 1) = k + 1 + j by omega]
        exact this

/-- C110: in a chain of tied notes each tie comes back with the style and placement of the next note's tie, the last one with none. -/
theorem tie_styles_move_back (n : TieNoteOut) (rest : List TieNoteOut) (t : KTie) (ht : n.tie = some t) (hty : t.type = .start)
    (hc : TieChain (n :: rest)) (hf : ∀ m ∈ n :: rest, TieFree m.parts ∧ 0 < m.dur) (j : Nat) (m m' : TieNoteOut)
    (hj : (n :: rest)[j]? = some m) (hj' : rest[j]? = some m') :
    (tiesBack (n :: rest) j).map (fun r => (r.style, r.place)) = some (match m'.tie with
      | some ⟨.cont, .hidden, _⟩ => (.hidden, .unset)
      | some ⟨.cont, s, p⟩ => (s, p)
      | _ => (.normal, .unset)) := by
  have hw : writtenType n.tie = some .start := by
    rw [ht]; obtain ⟨a, b, d⟩ := t; simp only at hty; subst hty; rfl
  obtain ⟨g1, g2, g3, g4, g5, g6⟩ := tieNoteBack_reads n (hf n (by simp)).1
  have n1 : '[' ∈ (tieNoteBack n).text := by rw [g1, hw]
  have n2 : '_' ∉ (tieNoteBack n).text := by rw [g2, hw]; simp
  have n3 : ']' ∉ (tieNoteBack n).text := by rw [g3, hw]; simp
  obtain ⟨r1, r2, r3⟩ := chain_walk _ hc n rest rfl hf 0 ⟨[⟨0, tieNoteBack n⟩], fun _ => none⟩ rfl .start ⟨hw, Or.inl rfl⟩
  obtain ⟨ty', hty', hr⟩ := r3 j m m' hj hj'
  have e1 : kTieWalk ['>'] ['<'] 0 ((n :: rest).map tieNoteBack) ⟨[], fun _ => none⟩ =
      kTieWalk ['>'] ['<'] (0 + 1) (rest.map tieNoteBack) ⟨[⟨0, tieNoteBack n⟩], fun _ => none⟩ := by
    simp only [List.map_cons, kTieWalk]
    congr 1
    unfold kTieStart kTieEnd
    rw [if_pos (Or.inl n1), if_neg (by rintro (h | h); exact n3 h; exact n2 h)]
    rfl
  unfold tiesBack
  simp only [readKTies]
  rw [e1, r1]
  simp only [List.foldl_nil]
  simp only [Nat.zero_add] at hr ⊢
  rw [hr]
  -- m' is a stop or a continuation
  have hm' : ∀ c : List TieNoteOut, TieChain c → ∀ (j : Nat) (x : TieNoteOut), c.tail[j]? = some x → ∃ t : KTie, x.tie = some t ∧ (t.type = .stop ∨ t.type = .cont) := by
    intro c hc
    induction hc with
    | last a b t h ht toM =>
      intro j x hx
      cases j with
      | zero => simp at hx; subst hx; exact ⟨t, h, Or.inl ht⟩
      | succ j => simp at hx
    | more a b r t h ht toM hc ih =>
      intro j x hx
      cases j with
      | zero => simp at hx; subst hx; exact ⟨t, h, Or.inr ht⟩
      | succ j => exact ih j x (by simpa using hx)
  obtain ⟨⟨ty, st, pl⟩, a, b⟩ := hm' _ hc j m' (by simpa using hj')
  simp only at b
  rw [a]
  rcases b with rfl | rfl
  · simp [writtenTieStyle]
  · cases st <;> simp [writtenTieStyle]

/-- C110: any tie between two notes loses its style and its placement. -/
theorem matched_tie_style_lost (n m : TieNoteOut) (t u : KTie) (ht : n.tie = some t) (hty : t.type = .start)
    (hu : m.tie = some u) (huy : u.type = .stop) (toM : TiesTo n m) (hf : ∀ x ∈ [n, m], TieFree x.parts ∧ 0 < x.dur) :
    tiesBack [n, m] 0 = some ⟨.start, .normal, .unset⟩ := by
  have h1 := tie_styles_move_back n [m] t ht hty (.last n m u hu huy toM) hf 0 n m rfl rfl
  have h2 := tie_types_round_trip [n, m] (fun x hx => (hf x hx).1) 0 n rfl (by
    intro t' ht'; rw [ht] at ht'; cases ht'; exact Or.inl hty)
  rw [hu] at h1
  obtain ⟨a, b, d⟩ := u
  simp only at huy
  subst huy
  simp only at h1
  rw [ht] at h2
  simp only [Option.map_some, hty] at h2
  cases hr : tiesBack [n, m] 0 with
  | none => rw [hr] at h1; exact absurd h1 (by simp)
  | some r =>
    rw [hr] at h1 h2
    obtain ⟨x, y, z⟩ := r
    simp at h1 h2
    simp [h1, h2]

/-! ### A concrete case -/

/-- The other parts of a quarter note c. -/
def sampleTiedParts : NoteParts := ⟨['('], [], ['4'], [], ['c'], [], [';'], ['\''], [], [], ['/'], ['L'], [], [], [')']⟩

/-- A quarter note c with a tie. -/
def sampleTied (start : Rat) (t : Option KTie) : TieNoteOut := ⟨0, start, 1, t, sampleTiedParts⟩

theorem sampleTied_free (start : Rat) (t : Option KTie) : TieFree (sampleTied start t).parts := by
  show TieFree sampleTiedParts
  exact ⟨by decide, by decide, by decide⟩

/-- A dotted tie above, followed by a hidden one: the styles move back. -/
example : tieNoteText (sampleTied 0 (some ⟨.start, .dotted, .above⟩)) = "([>4c;'/L)".toList ∧
    tieNoteText (sampleTied 1 (some ⟨.cont, .hidden, .below⟩)) = "(4c;'/L_y)".toList := by decide

example : tiesBack [sampleTied 0 (some ⟨.start, .dotted, .above⟩), sampleTied 1 (some ⟨.cont, .hidden, .below⟩),
      sampleTied 2 (some ⟨.stop, .normal, .unset⟩)] 0 = some ⟨.start, .hidden, .unset⟩ ∧
    tiesBack [sampleTied 0 (some ⟨.start, .dotted, .above⟩), sampleTied 1 (some ⟨.cont, .hidden, .below⟩),
      sampleTied 2 (some ⟨.stop, .normal, .unset⟩)] 1 = some ⟨.cont, .normal, .unset⟩ := by decide +kernel

/-- The conditions are met. -/
example : TiesTo (sampleTied 0 (some ⟨.start, .dotted, .above⟩)) (sampleTied 1 (some ⟨.stop, .normal, .unset⟩)) :=
  ⟨⟨_, rfl, Or.inl rfl⟩, by decide +kernel, by decide +kernel⟩

example : TieFree (sampleTied 1 none).parts ∧ 0 < (sampleTied 1 none).dur := ⟨sampleTied_free _ _, by decide +kernel⟩

/-- A tie without an end keeps its style and placement. -/
example : tiesBack [sampleTied 0 (some ⟨.start, .dotted, .above⟩), sampleTied 2 (some ⟨.stop, .normal, .unset⟩)] 0 =
    some ⟨.start, .dotted, .above⟩ := by decide +kernel

end C21
