import Mathlib.Data.List.Chain
import Mathlib.Data.List.Forall2
import Verif.Model.FixBeams
import Verif.Spec.FixBeams
/-
C124: `fixupBadBeams` repairs beams that go on into nothing, and changes nothing else.
-/
namespace C21

/-! ## One beam -/

theorem contToStop_kept (b : FBeam) : FBeamKept b (contToStop b) := by
  unfold contToStop
  split
  · next h => exact ⟨rfl, Or.inr ⟨Or.inl h, Or.inr rfl⟩⟩
  · exact ⟨rfl, Or.inl rfl⟩

theorem contToStop_typ (b : FBeam) : (contToStop b).typ ≠ .cont := by
  unfold contToStop
  split
  · simp
  · next h => exact h

theorem contToStop_num (b : FBeam) : (contToStop b).num = b.num := (contToStop_kept b).1

theorem contToStop_id (b : FBeam) (h : b.typ ≠ .cont) : contToStop b = b := if_neg h

theorem stopToCont_kept (b : FBeam) : FBeamKept b (stopToCont b) := by
  unfold stopToCont
  split
  · next h => exact ⟨rfl, Or.inr ⟨Or.inr h, Or.inl rfl⟩⟩
  · exact ⟨rfl, Or.inl rfl⟩

theorem stopToCont_id (b : FBeam) (h : b.typ ≠ .stop) : stopToCont b = b := if_neg h

theorem stopToCont_typ (b : FBeam) : (stopToCont b).typ ≠ .stop := by
  unfold stopToCont
  split
  · simp
  · next h => exact h

/-- The three cases in one. -/
theorem fixBeamFor_eq (one : Bool) (t : FBNote) (b : FBeam) :
    fixBeamFor one t b =
      match beamNo b.num t with
      | none => contToStop b
      | some c => if c.typ = .start then contToStop b else if c.typ = .stop ∧ one = true then stopToCont b else b := by
  unfold fixBeamFor beamNo
  cases t.beams with
  | nil => rfl
  | cons c cs => rfl

theorem fixBeamFor_kept (one : Bool) (t : FBNote) (b : FBeam) : FBeamKept b (fixBeamFor one t b) := by
  rw [fixBeamFor_eq]
  cases beamNo b.num t with
  | none => exact contToStop_kept b
  | some c =>
    dsimp only
    split
    · exact contToStop_kept b
    · split
      · exact stopToCont_kept b
      · exact ⟨rfl, Or.inl rfl⟩

theorem fixBeamFor_num (one : Bool) (t : FBNote) (b : FBeam) : (fixBeamFor one t b).num = b.num := (fixBeamFor_kept one t b).1

/-- The beam of a number in a note whose beams were changed. -/
theorem beamNo_map (f : FBeam → FBeam) (hf : ∀ b, (f b).num = b.num) (n : FBNote) (i : Nat) :
    beamNo i { n with beams := n.beams.map f } = (beamNo i n).map f := by
  unfold beamNo
  dsimp only
  induction n.beams with
  | nil => rfl
  | cons b bs ih =>
    rw [List.map_cons, List.find?_cons, List.find?_cons, hf b]
    by_cases h : b.num = i
    · simp [h]
    · simp only [h, decide_false]
      exact ih

/-- After the change a beam that continues goes on, also if the next note is changed afterwards. -/
theorem fixNoteFor_goes (one : Bool) (t t' n : FBNote) (ht : ∀ i c, beamNo i t = some c → c.typ ≠ .start →
    ∃ c', beamNo i t' = some c' ∧ c'.typ ≠ .start) : GoesOn (fixNoteFor one t n) t' := by
  intro b hb hc
  obtain ⟨a, _, rfl⟩ := List.mem_map.1 hb
  rw [fixBeamFor_num]
  rw [fixBeamFor_eq] at hc
  cases hno : beamNo a.num t with
  | none => rw [hno] at hc; exact absurd hc (contToStop_typ a)
  | some c =>
    rw [hno] at hc
    dsimp only at hc
    by_cases h1 : c.typ = .start
    · rw [if_pos h1] at hc; exact absurd hc (contToStop_typ a)
    · exact ht _ c hno h1

/-! ## A line -/

/-- The changes along a line. -/
def fixLineBeams (one : Bool) : List FBNote → List FBNote
  | [] => []
  | [n] => [closeBeams n]
  | n :: t :: rest => fixNoteFor one t n :: fixLineBeams one (t :: rest)

/-- The changes along a piece of a line. -/
def fixPiece (one : Bool) (after : Option FBNote) (last : Bool) : List FBNote → List FBNote
  | [] => []
  | n :: ns => fixOneNote one ns.head? after last n :: fixPiece one after last ns

theorem fixNoteFor_aside (one : Bool) (t n : FBNote) : (fixNoteFor one t n).aside = n.aside := rfl

theorem fixOneNote_aside (one : Bool) (h a : Option FBNote) (l : Bool) (n : FBNote) : (fixOneNote one h a l n).aside = n.aside := by
  unfold fixOneNote
  split
  · rfl
  · split
    · rfl
    · split <;> rfl

theorem counted_fixed (one : Bool) (after : Option FBNote) (last : Bool) (ns : List FBNote) :
    countedNotes (fixVoiceNotes one after last ns) = fixPiece one after last (countedNotes ns) := by
  induction ns with
  | nil => rfl
  | cons n ns ih =>
    rw [fixVoiceNotes]
    cases ha : n.aside with
    | true =>
      rw [if_pos rfl]
      show List.filter _ _ = _
      rw [List.filter_cons, ha]
      show countedNotes (fixVoiceNotes one after last ns) = _
      rw [ih, countedNotes, countedNotes, List.filter_cons, ha]
      rfl
    | false =>
      rw [if_neg (by simp)]
      show List.filter _ _ = _
      rw [List.filter_cons, fixOneNote_aside, ha]
      show _ :: countedNotes (fixVoiceNotes one after last ns) = fixPiece one after last (List.filter _ (n :: ns))
      rw [ih, List.filter_cons, ha]
      rfl

theorem beamLine_nil (k : Nat) : beamLine k [] = [] := rfl

theorem beamLine_cons (k : Nat) (m : List FBVoice) (ms : List (List FBVoice)) :
    beamLine k (m :: ms) = countedNotes ((voiceNotes k m).getD []) ++ beamLine k ms := by
  unfold beamLine voiceNotes countedNotes
  rw [List.flatMap_cons]
  cases m.find? (fun v => decide (v.1 = k)) <;> rfl

theorem voiceNotes_map (k : Nat) (f : FBVoice → List FBNote) (m : List FBVoice) :
    voiceNotes k (m.map (fun v => (v.1, f v))) = (m.find? (fun v => decide (v.1 = k))).map f := by
  unfold voiceNotes
  induction m with
  | nil => rfl
  | cons v m ih =>
    rw [List.map_cons, List.find?_cons, List.find?_cons]
    by_cases h : v.1 = k
    · simp [h]
    · simp only [h, decide_false]
      exact ih

theorem voiceNotes_fixed (one : Bool) (k : Nat) (m : List FBVoice) (ms : List (List FBVoice)) (last : Bool) :
    voiceNotes k (m.map (fun v => (v.1, fixVoiceNotes one (nextInVoice v.1 ms) last v.2))) =
      (voiceNotes k m).map (fixVoiceNotes one (nextInVoice k ms) last) := by
  rw [voiceNotes_map k (fun v => fixVoiceNotes one (nextInVoice v.1 ms) last v.2), voiceNotes]
  cases h : m.find? (fun v => decide (v.1 = k)) with
  | none => rfl
  | some v =>
    have : v.1 = k := by simpa using List.find?_some h
    simp [this]

theorem beamLine_fixed (one : Bool) (k : Nat) (m : List FBVoice) (ms : List (List FBVoice)) :
    beamLine k (fixPartBeams one (m :: ms)) =
      fixPiece one (nextInVoice k ms) ms.isEmpty (countedNotes ((voiceNotes k m).getD [])) ++ beamLine k (fixPartBeams one ms) := by
  rw [fixPartBeams, beamLine_cons, voiceNotes_fixed]
  congr 1
  cases voiceNotes k m with
  | none => rfl
  | some ns => exact counted_fixed _ _ _ _

theorem fixPiece_last (one : Bool) (l : List FBNote) : fixPiece one none true l = fixLineBeams one l := by
  induction l with
  | nil => rfl
  | cons n l ih =>
    cases l with
    | nil => rfl
    | cons t rest =>
      rw [fixPiece, ih, fixLineBeams]
      rfl

theorem fixPiece_append (one last : Bool) (A : List FBNote) (b : FBNote) (B : List FBNote) :
    fixPiece one (some b) last A ++ fixLineBeams one (b :: B) = fixLineBeams one (A ++ b :: B) := by
  induction A with
  | nil => rfl
  | cons n A ih =>
    rw [fixPiece, List.cons_append, ih]
    cases A with
    | nil => rfl
    | cons t rest => rfl

theorem sounds_tail (k : Nat) (m x : List FBVoice) (ms : List (List FBVoice)) (h : SoundsToEnd k (m :: x :: ms)) :
    SoundsToEnd k (x :: ms) :=
  ⟨fun y hy => h.notes y (List.mem_cons_of_mem _ hy), fun y hy => h.last y (by rw [List.getLast?_cons_cons]; exact hy)⟩

theorem voiceNotes_some (k : Nat) (m : List FBVoice) (ns : List FBNote) (h : voiceNotes k m = some ns) :
    ∃ v, m.find? (fun v => decide (v.1 = k)) = some v ∧ v.2 = ns := Option.map_eq_some_iff.1 h

theorem counted_ne (ns : List FBNote) (h : ∃ n ∈ ns, n.aside = false) : ∃ a as, countedNotes ns = a :: as := by
  obtain ⟨n, hn, ha⟩ := h
  have : n ∈ countedNotes ns := List.mem_filter.2 ⟨hn, by simp [ha]⟩
  cases hc : countedNotes ns with
  | nil => rw [hc] at this; cases this
  | cons a as => exact ⟨a, as, rfl⟩

theorem next_is_head (k : Nat) (ms : List (List FBVoice)) (hne : ms ≠ []) (h : SoundsToEnd k ms) :
    ∃ a as, beamLine k ms = a :: as ∧ nextInVoice k ms = some a := by
  induction ms with
  | nil => exact absurd rfl hne
  | cons m ms ih =>
    rw [beamLine_cons, nextInVoice]
    cases hv : voiceNotes k m with
    | some ns =>
      obtain ⟨v, hv1, rfl⟩ := voiceNotes_some k m ns hv
      obtain ⟨a, as, e⟩ := counted_ne v.2 (h.notes m (by simp) v hv1)
      exact ⟨a, as ++ beamLine k ms, by simp [e], by simp [e]⟩
    | none =>
      cases ms with
      | nil =>
        obtain ⟨v, hv1⟩ := h.last m rfl
        rw [voiceNotes, hv1] at hv
        cases hv
      | cons x ms => exact ih (by simp) (sounds_tail k m x ms h)

/-- The part changes its voices along their lines. -/
theorem line_refines (one : Bool) (k : Nat) (part : List (List FBVoice)) (h : SoundsToEnd k part) :
    beamLine k (fixPartBeams one part) = fixLineBeams one (beamLine k part) := by
  induction part with
  | nil => rfl
  | cons m ms ih =>
    rw [beamLine_fixed, beamLine_cons]
    cases ms with
    | nil =>
      show fixPiece one none true _ ++ [] = _
      rw [List.append_nil, fixPiece_last, beamLine_nil, List.append_nil]
    | cons x ms =>
      have hs := sounds_tail k m x ms h
      obtain ⟨a, as, e1, e2⟩ := next_is_head k (x :: ms) (by simp) hs
      rw [ih hs, e1, e2]
      exact fixPiece_append _ _ _ _ _

theorem fixedPart_sounds (one : Bool) (k : Nat) (part : List (List FBVoice)) (h : SoundsToEnd k part) :
    SoundsToEnd k (fixPartBeams one part) := by
  have hv : ∀ (m : List FBVoice) (ms : List (List FBVoice)) (l : Bool) (v : FBVoice),
      (m.map (fun v => (v.1, fixVoiceNotes one (nextInVoice v.1 ms) l v.2))).find? (fun v => decide (v.1 = k)) = some v →
      ∃ w, m.find? (fun v => decide (v.1 = k)) = some w ∧ v.2 = fixVoiceNotes one (nextInVoice k ms) l w.2 := by
    intro m ms l v hf
    have h1 := voiceNotes_fixed one k m ms l
    rw [voiceNotes, hf] at h1
    obtain ⟨ns, h2, h3⟩ := Option.map_eq_some_iff.1 h1.symm
    obtain ⟨w, h4, rfl⟩ := voiceNotes_some k m ns h2
    exact ⟨w, h4, h3.symm⟩
  induction part with
  | nil => exact ⟨(by intro m hm; cases hm), (by intro m hm; cases hm)⟩
  | cons m ms ih =>
    have hhead : ∀ v, (m.map (fun v => (v.1, fixVoiceNotes one (nextInVoice v.1 ms) ms.isEmpty v.2))).find? (fun v => decide (v.1 = k)) = some v →
        ∃ n ∈ v.2, n.aside = false := by
      intro v hf
      obtain ⟨w, h1, h2⟩ := hv _ _ _ _ hf
      obtain ⟨a, as, e⟩ := counted_ne w.2 (h.notes m (by simp) w h1)
      have h3 := counted_fixed one (nextInVoice k ms) ms.isEmpty w.2
      rw [← h2, e, fixPiece] at h3
      have h4 : fixOneNote one as.head? (nextInVoice k ms) ms.isEmpty a ∈ countedNotes v.2 := by rw [h3]; simp
      obtain ⟨h5, h6⟩ := List.mem_filter.1 h4
      exact ⟨_, h5, by simpa using h6⟩
    cases ms with
    | nil =>
      refine ⟨?_, ?_⟩
      · intro x hx v hf
        rw [fixPartBeams, fixPartBeams, List.mem_singleton] at hx
        subst hx
        exact hhead v hf
      · intro x hx
        rw [fixPartBeams, fixPartBeams, List.getLast?_singleton, Option.some.injEq] at hx
        subst hx
        obtain ⟨v, hv1⟩ := h.last m rfl
        have h1 := voiceNotes_fixed one k m [] true
        rw [voiceNotes, voiceNotes, hv1] at h1
        obtain ⟨w, hw, _⟩ := Option.map_eq_some_iff.1 h1
        exact ⟨w, hw⟩
    | cons x ms =>
      have h1 := ih (sounds_tail k m x ms h)
      refine ⟨?_, ?_⟩
      · intro y hy v hf
        rw [fixPartBeams] at hy
        rcases List.mem_cons.1 hy with rfl | hy
        · exact hhead v hf
        · exact h1.notes y hy v hf
      · intro y hy
        rw [fixPartBeams] at hy
        refine h1.last y ?_
        rw [fixPartBeams] at hy ⊢
        rw [List.getLast?_cons_cons] at hy
        exact hy

/-! ## C124: no beam goes on into nothing -/

/-- How the first note of a line may be changed. -/
theorem fixLine_head (one : Bool) (t : FBNote) (rest : List FBNote) : ∃ t' rest', fixLineBeams one (t :: rest) = t' :: rest' ∧
    ∀ i c, beamNo i t = some c → c.typ ≠ .start → ∃ c', beamNo i t' = some c' ∧ c'.typ ≠ .start := by
  have key : ∀ (f : FBeam → FBeam), (∀ b, FBeamKept b (f b)) → ∀ i c, beamNo i t = some c → c.typ ≠ .start →
      ∃ c', beamNo i { t with beams := t.beams.map f } = some c' ∧ c'.typ ≠ .start := by
    intro f hf i c hc hs
    refine ⟨f c, by rw [beamNo_map f (fun b => (hf b).1), hc]; rfl, ?_⟩
    rcases (hf c).2 with e | ⟨_, e | e⟩ <;> rw [e]
    · exact hs
    · simp
    · simp
  cases rest with
  | nil => exact ⟨closeBeams t, [], rfl, key contToStop contToStop_kept⟩
  | cons u rest => exact ⟨fixNoteFor one u t, fixLineBeams one (u :: rest), rfl, key _ (fixBeamFor_kept one u)⟩

theorem fixLine_good (one : Bool) (l : List FBNote) : GoodLine (fixLineBeams one l) := by
  induction l with
  | nil => exact ⟨.nil, by intro n hn; cases hn⟩
  | cons n l ih =>
    cases l with
    | nil =>
      refine ⟨List.isChain_singleton _, ?_⟩
      intro m hm b hb
      cases hm
      obtain ⟨a, _, rfl⟩ := List.mem_map.1 hb
      exact contToStop_typ a
    | cons t rest =>
      obtain ⟨t', rest', e, ht⟩ := fixLine_head one t rest
      rw [fixLineBeams]
      rw [e] at ih ⊢
      refine ⟨List.IsChain.cons_cons (fixNoteFor_goes one t t' n ht) ih.goes_on, ?_⟩
      intro m hm
      rw [List.getLast?_cons_cons] at hm
      exact ih.ends m hm

/-- C124: after the repair every beam that continues goes on in the next note of its voice, and none continues in the last
note. -/
theorem beams_go_on (parts : List (List (List FBVoice))) (i : Nat) (p q : List (List FBVoice)) (k : Nat)
    (hp : parts[i]? = some p) (hq : (fixupBeams parts)[i]? = some q) (h : SoundsToEnd k p) : GoodLine (beamLine k q) := by
  rw [fixupBeams, List.getElem?_map, hp, Option.map_some, Option.some.injEq] at hq
  rw [← hq, line_refines _ _ _ h]
  exact fixLine_good _ _

/-! ## C124: nothing else changes -/

theorem beams_map_kept (f : FBeam → FBeam) (hf : ∀ b, FBeamKept b (f b)) (bs : List FBeam) : List.Forall₂ FBeamKept bs (bs.map f) := by
  induction bs with
  | nil => exact .nil
  | cons b bs ih => exact .cons (hf b) ih

theorem beams_self_kept (bs : List FBeam) : List.Forall₂ FBeamKept bs bs := by
  induction bs with
  | nil => exact .nil
  | cons b bs ih => exact .cons ⟨rfl, Or.inl rfl⟩ ih

theorem fixOneNote_kept (one : Bool) (h a : Option FBNote) (l : Bool) (n : FBNote) (hn : n.aside = false) :
    FBeamsKept n (fixOneNote one h a l n) := by
  have h0 : ∀ (f : FBeam → FBeam), (∀ b, FBeamKept b (f b)) → FBeamsKept n { n with beams := n.beams.map f } :=
    fun f hf => ⟨rfl, rfl, (fun h => by rw [hn] at h; cases h), beams_map_kept f hf _⟩
  unfold fixOneNote
  split
  · exact h0 _ (fixBeamFor_kept one _)
  · split
    · exact h0 _ (fixBeamFor_kept one _)
    · split
      · exact h0 _ contToStop_kept
      · exact ⟨rfl, rfl, fun _ => rfl, beams_self_kept _⟩

theorem fixVoiceNotes_kept (one : Bool) (a : Option FBNote) (l : Bool) (ns : List FBNote) :
    List.Forall₂ FBeamsKept ns (fixVoiceNotes one a l ns) := by
  induction ns with
  | nil => exact .nil
  | cons n ns ih =>
    rw [fixVoiceNotes]
    refine .cons ?_ ih
    split
    · exact ⟨rfl, rfl, fun _ => rfl, beams_self_kept _⟩
    · next h => exact fixOneNote_kept _ _ _ _ _ (by simpa using h)

/-- C124: parts, measures, voices and notes stay as they are, and so do grace notes and chord symbols with their beams; of
a beam only the difference between going on and stopping may change. -/
theorem only_ends_change (parts : List (List (List FBVoice))) :
    List.Forall₂ (List.Forall₂ (List.Forall₂ (fun v w => w.1 = v.1 ∧ List.Forall₂ FBeamsKept v.2 w.2))) parts (fixupBeams parts) := by
  have hm : ∀ (one : Bool) (ms : List (List FBVoice)) (l : Bool) (m : List FBVoice),
      List.Forall₂ (fun v w : FBVoice => w.1 = v.1 ∧ List.Forall₂ FBeamsKept v.2 w.2) m
        (m.map (fun v => (v.1, fixVoiceNotes one (nextInVoice v.1 ms) l v.2))) := by
    intro one ms l m
    induction m with
    | nil => exact .nil
    | cons v m ih => exact .cons ⟨rfl, fixVoiceNotes_kept _ _ _ _⟩ ih
  have hp : ∀ (one : Bool) (p : List (List FBVoice)),
      List.Forall₂ (List.Forall₂ (fun v w : FBVoice => w.1 = v.1 ∧ List.Forall₂ FBeamsKept v.2 w.2)) p (fixPartBeams one p) := by
    intro one p
    induction p with
    | nil => exact .nil
    | cons m ms ih => exact .cons (hm _ _ _ _) ih
  unfold fixupBeams
  generalize decide (parts.length = 1) = one
  induction parts with
  | nil => exact .nil
  | cons p ps ih => exact .cons (hp _ _) ih

/-- C124: with several parts no beam that stops is changed, since beams may cross between staves. -/
theorem stops_kept_across (t : FBNote) (b : FBeam) (hb : b.typ ≠ .cont) :
    fixBeamFor false t b = b := by
  rw [fixBeamFor_eq]
  cases beamNo b.num t with
  | none => exact contToStop_id b hb
  | some c =>
    dsimp only
    split
    · exact contToStop_id b hb
    · simp

/-! ## C124: sound beams are left alone -/

theorem fixNoteFor_id (one : Bool) (t n : FBNote) (h1 : GoesOn n t) (h2 : one = true → StopsOnce n t) : fixNoteFor one t n = n := by
  unfold fixNoteFor
  have : n.beams.map (fixBeamFor one t) = n.beams := by
    conv_rhs => rw [← List.map_id n.beams]
    apply List.map_congr_left
    intro b hb
    rw [fixBeamFor_eq]
    cases hno : beamNo b.num t with
    | none =>
      refine contToStop_id b ?_
      intro hc
      obtain ⟨c, h, _⟩ := h1 b hb hc
      rw [hno] at h
      cases h
    | some c =>
      dsimp only
      split
      · next hs =>
        refine contToStop_id b ?_
        intro hc
        obtain ⟨c', h, h'⟩ := h1 b hb hc
        rw [hno] at h
        cases h
        exact h' hs
      · split
        · next hs =>
          refine stopToCont_id b ?_
          intro hc
          exact h2 hs.2 b hb hc c hno hs.1
        · rfl
  rw [this]

theorem closeBeams_id (n : FBNote) (h : ∀ b ∈ n.beams, b.typ ≠ .cont) : closeBeams n = n := by
  unfold closeBeams
  have : n.beams.map contToStop = n.beams := by
    conv_rhs => rw [← List.map_id n.beams]
    exact List.map_congr_left (fun b hb => contToStop_id b (h b hb))
  rw [this]

theorem fixLine_id (one : Bool) (l : List FBNote) (h : GoodLine l) (h2 : one = true → l.IsChain StopsOnce) : fixLineBeams one l = l := by
  induction l with
  | nil => rfl
  | cons n l ih =>
    cases l with
    | nil => rw [fixLineBeams, closeBeams_id n (h.ends n rfl)]
    | cons t rest =>
      have h1 := List.isChain_cons_cons.1 h.goes_on
      rw [fixLineBeams, fixNoteFor_id one t n h1.1 (fun ho => (List.isChain_cons_cons.1 (h2 ho)).1),
        ih ⟨h1.2, fun m hm => h.ends m (by rw [List.getLast?_cons_cons]; exact hm)⟩ (fun ho => (List.isChain_cons_cons.1 (h2 ho)).2)]

/-- A piece of a sound line is not changed. -/
theorem fixVoice_id (one : Bool) (after : Option FBNote) (last : Bool) (rest : List FBNote) (ns : List FBNote)
    (ha : ∀ a, after = some a → ∃ as, rest = a :: as) (hl : after = none → last = true → rest = [])
    (h : GoodLine (countedNotes ns ++ rest)) (h2 : one = true → (countedNotes ns ++ rest).IsChain StopsOnce) :
    fixVoiceNotes one after last ns = ns := by
  induction ns with
  | nil => rfl
  | cons n ns ih =>
    rw [fixVoiceNotes]
    cases hn : n.aside with
    | true =>
      have e : countedNotes (n :: ns) = countedNotes ns := by rw [countedNotes, List.filter_cons, hn]; rfl
      rw [e] at h h2
      rw [if_pos rfl, ih h h2]
    | false =>
      have e : countedNotes (n :: ns) = n :: countedNotes ns := by rw [countedNotes, List.filter_cons, hn]; rfl
      rw [e, List.cons_append] at h h2
      have htail : GoodLine (countedNotes ns ++ rest) ∧ (one = true → (countedNotes ns ++ rest).IsChain StopsOnce) := by
        cases hc : countedNotes ns ++ rest with
        | nil => exact ⟨⟨.nil, by intro m hm; cases hm⟩, fun _ => .nil⟩
        | cons t us =>
          rw [hc] at h h2
          refine ⟨⟨(List.isChain_cons_cons.1 h.goes_on).2, fun m hm => h.ends m (by rw [List.getLast?_cons_cons]; exact hm)⟩, ?_⟩
          exact fun ho => (List.isChain_cons_cons.1 (h2 ho)).2
      rw [if_neg (by simp), ih htail.1 htail.2]
      have hnext : ∀ t us, countedNotes ns ++ rest = t :: us → fixNoteFor one t n = n := by
        intro t us hc
        rw [hc] at h h2
        exact fixNoteFor_id one t n (List.isChain_cons_cons.1 h.goes_on).1 (fun ho => (List.isChain_cons_cons.1 (h2 ho)).1)
      have : fixOneNote one (countedNotes ns).head? after last n = n := by
        unfold fixOneNote
        cases hc : countedNotes ns with
        | cons t us => exact hnext t (us ++ rest) (by rw [hc]; rfl)
        | nil =>
          cases haf : after with
          | some a =>
            obtain ⟨as, e⟩ := ha a haf
            exact hnext a as (by rw [hc, e]; rfl)
          | none =>
            cases hla : last with
            | false => rfl
            | true =>
              have e0 := hl haf hla
              rw [hc, e0] at h
              exact closeBeams_id n (h.ends n rfl)
      rw [this]

theorem nextInVoice_head (k : Nat) (ms : List (List FBVoice)) (a : FBNote) (h : nextInVoice k ms = some a) :
    ∃ as, beamLine k ms = a :: as := by
  induction ms with
  | nil => cases h
  | cons m ms ih =>
    rw [nextInVoice] at h
    rw [beamLine_cons]
    cases hv : voiceNotes k m with
    | none => rw [hv] at h; exact ih h
    | some ns =>
      rw [hv] at h
      dsimp only at h
      obtain ⟨as, e⟩ : ∃ as, countedNotes ns = a :: as := by
        cases hc : countedNotes ns with
        | nil => rw [hc] at h; cases h
        | cons b bs => rw [hc] at h; cases h; exact ⟨bs, rfl⟩
      exact ⟨as ++ beamLine k ms, by simp [e]⟩

theorem goodLine_suffix (A B : List FBNote) (h : GoodLine (A ++ B)) : GoodLine B := by
  refine ⟨(List.isChain_append.1 h.goes_on).2.1, ?_⟩
  intro n hn
  refine h.ends n ?_
  cases B with
  | nil => cases hn
  | cons b B => rw [List.getLast?_append_of_ne_nil _ (by simp)]; exact hn

theorem find_self (m : List FBVoice) (hd : (m.map (·.1)).Nodup) (v : FBVoice) (hv : v ∈ m) :
    m.find? (fun w => decide (w.1 = v.1)) = some v := by
  induction m with
  | nil => cases hv
  | cons w m ih =>
    rw [List.map_cons, List.nodup_cons] at hd
    rw [List.find?_cons]
    rcases List.mem_cons.1 hv with rfl | hv
    · simp
    · have : w.1 ≠ v.1 := by
        intro he
        exact hd.1 (by rw [he]; exact List.mem_map.2 ⟨v, hv, rfl⟩)
      simp only [this, decide_false]
      exact ih hd.2 hv

theorem fixPart_id (one : Bool) (p : List (List FBVoice)) (hd : ∀ m ∈ p, (m.map (·.1)).Nodup)
    (h : ∀ k, GoodLine (beamLine k p)) (h2 : one = true → ∀ k, (beamLine k p).IsChain StopsOnce) : fixPartBeams one p = p := by
  induction p with
  | nil => rfl
  | cons m ms ih =>
    have hrest : fixPartBeams one ms = ms := by
      refine ih (fun x hx => hd x (List.mem_cons_of_mem _ hx)) (fun k => ?_) (fun ho k => ?_)
      · have := h k; rw [beamLine_cons] at this; exact goodLine_suffix _ _ this
      · have := h2 ho k; rw [beamLine_cons] at this; exact (List.isChain_append.1 this).2.1
    rw [fixPartBeams, hrest]
    congr 1
    conv_rhs => rw [← List.map_id m]
    apply List.map_congr_left
    intro v hv
    have hvn : voiceNotes v.1 m = some v.2 := by
      rw [voiceNotes, find_self m (hd m (by simp)) v hv]; rfl
    have hl := h v.1
    rw [beamLine_cons, hvn, Option.getD_some] at hl
    have := fixVoice_id one (nextInVoice v.1 ms) ms.isEmpty (beamLine v.1 ms) v.2 (fun a ha => nextInVoice_head _ _ _ ha)
      (fun _ he => by rw [List.isEmpty_iff] at he; rw [he]; rfl) hl
      (fun ho => by have := h2 ho v.1; rw [beamLine_cons, hvn, Option.getD_some] at this; exact this)
    rw [this]
    rfl

/-- C124: a score in which every beam goes on, and in a score of one part no beam stops twice, is not changed. -/
theorem sound_beams_unchanged (parts : List (List (List FBVoice))) (hd : ∀ p ∈ parts, ∀ m ∈ p, (m.map (·.1)).Nodup)
    (h : ∀ p ∈ parts, ∀ k, GoodLine (beamLine k p)) (h2 : parts.length = 1 → ∀ p ∈ parts, ∀ k, (beamLine k p).IsChain StopsOnce) :
    fixupBeams parts = parts := by
  unfold fixupBeams
  conv_rhs => rw [← List.map_id parts]
  apply List.map_congr_left
  intro p hp
  exact fixPart_id _ p (hd p hp) (h p hp) (fun ho => h2 (by simpa using ho) p hp)

/-! ## C124: twice is enough -/

/-- On a line in which all beams go on, the repair makes every beam stop once. -/
theorem fixLine_stops (l : List FBNote) (h : GoodLine l) : (fixLineBeams true l).IsChain StopsOnce := by
  induction l with
  | nil => exact .nil
  | cons n l ih =>
    cases l with
    | nil => exact List.isChain_singleton _
    | cons t rest =>
      have hg := List.isChain_cons_cons.1 h.goes_on
      have ht : GoodLine (t :: rest) := ⟨hg.2, fun m hm => h.ends m (by rw [List.getLast?_cons_cons]; exact hm)⟩
      have hrec := ih ht
      have hhead : ∃ t' rest', fixLineBeams true (t :: rest) = t' :: rest' ∧ ∀ i c, beamNo i t' = some c → c.typ = .stop →
          ∃ d, beamNo i t = some d ∧ d.typ = .stop := by
        cases rest with
        | nil =>
          refine ⟨closeBeams t, [], rfl, ?_⟩
          rw [closeBeams_id t (ht.ends t rfl)]
          exact fun i c h1 h2 => ⟨c, h1, h2⟩
        | cons u us =>
          refine ⟨fixNoteFor true u t, _, rfl, ?_⟩
          intro i c h1 h2
          rw [fixNoteFor, beamNo_map _ (fixBeamFor_num true u)] at h1
          obtain ⟨d, hd1, hd2⟩ := Option.map_eq_some_iff.1 h1
          have hmem : d ∈ t.beams := List.mem_of_find?_eq_some hd1
          refine ⟨d, hd1, ?_⟩
          cases hdt : d.typ with
          | stop => rfl
          | start =>
            rcases (fixBeamFor_kept true u d).2 with e | ⟨e | e, _⟩
            · rw [hd2, h2, hdt] at e; cases e
            · rw [hdt] at e; cases e
            · rw [hdt] at e; cases e
          | partialBeam =>
            rcases (fixBeamFor_kept true u d).2 with e | ⟨e | e, _⟩
            · rw [hd2, h2, hdt] at e; cases e
            · rw [hdt] at e; cases e
            · rw [hdt] at e; cases e
          | cont =>
            obtain ⟨x, hx1, hx2⟩ := (List.isChain_cons_cons.1 hg.2).1 d hmem hdt
            have hk : fixBeamFor true u d = d := by
              rw [fixBeamFor_eq, hx1]
              dsimp only
              rw [if_neg hx2]
              split
              · exact stopToCont_id d (by rw [hdt]; simp)
              · rfl
            rw [hk] at hd2
            rw [← hd2, hdt] at h2
            cases h2
      obtain ⟨t', rest', e, hst⟩ := hhead
      rw [fixLineBeams, e]
      rw [e] at hrec
      refine List.IsChain.cons_cons ?_ hrec
      intro b hb hbs c hc hcs
      obtain ⟨a, ha, rfl⟩ := List.mem_map.1 hb
      rw [fixBeamFor_num] at hc
      obtain ⟨d, hd1, hd2⟩ := hst _ _ hc hcs
      rw [fixBeamFor_eq, hd1] at hbs
      dsimp only at hbs
      rw [hd2, if_neg (by simp), if_pos ⟨rfl, rfl⟩] at hbs
      exact stopToCont_typ a hbs

/-- C124: in a score of one part, after two repairs every beam goes on and stops once, and a third repair changes nothing. -/
theorem twice_repairs (p : List (List FBVoice)) (k : Nat) (h : SoundsToEnd k p) :
    ∃ q, fixupBeams (fixupBeams [p]) = [q] ∧ GoodLine (beamLine k q) ∧ (beamLine k q).IsChain StopsOnce ∧
      ∃ r, fixupBeams [q] = [r] ∧ beamLine k r = beamLine k q := by
  have h1 := fixedPart_sounds true k p h
  have h2 := fixedPart_sounds true k _ h1
  have e1 := line_refines true k _ h1
  have hg : GoodLine (beamLine k (fixPartBeams true p)) := by rw [line_refines true k p h]; exact fixLine_good _ _
  refine ⟨fixPartBeams true (fixPartBeams true p), rfl, by rw [e1]; exact fixLine_good _ _, by rw [e1]; exact fixLine_stops _ hg,
    fixPartBeams true (fixPartBeams true (fixPartBeams true p)), rfl, ?_⟩
  rw [line_refines true k _ h2]
  refine fixLine_id _ _ (by rw [e1]; exact fixLine_good _ _) (fun _ => by rw [e1]; exact fixLine_stops _ hg)

/-! ## Where the claim is false -/

/-- A note with one beam. -/
def oneBeam (id : Nat) (t : FBType) : FBNote := ⟨id, false, [⟨1, t⟩]⟩

/-- One repair is not enough: a beam that stops, goes on and has no note after it then stops twice. -/
theorem two_stops_left :
    fixupBeams [[[(1, [oneBeam 1 .start, oneBeam 2 .stop, oneBeam 3 .cont, ⟨4, false, []⟩])]]] =
      [[[(1, [oneBeam 1 .start, oneBeam 2 .stop, oneBeam 3 .stop, ⟨4, false, []⟩])]]] ∧
    fixupBeams [[[(1, [oneBeam 1 .start, oneBeam 2 .stop, oneBeam 3 .stop, ⟨4, false, []⟩])]]] =
      [[[(1, [oneBeam 1 .start, oneBeam 2 .cont, oneBeam 3 .stop, ⟨4, false, []⟩])]]] := by
  constructor <;> decide

/-- A beam that goes on at the end of a measure is left as it is if the voice has only rests in the next one. -/
theorem rest_measure_leaves_beam :
    fixupBeams [[[(1, [oneBeam 1 .start, oneBeam 2 .cont])], [(1, [])], [(1, [⟨3, false, []⟩])]]] =
      [[[(1, [oneBeam 1 .start, oneBeam 2 .cont])], [(1, [])], [(1, [⟨3, false, []⟩])]]] := by decide

/-- A beam that goes on in the last note of a voice is left as it is if the part has further measures without this voice. -/
theorem ended_voice_leaves_beam :
    fixupBeams [[[(1, [oneBeam 1 .start, oneBeam 2 .cont])], [(0, [⟨3, false, []⟩])]]] =
      [[[(1, [oneBeam 1 .start, oneBeam 2 .cont])], [(0, [⟨3, false, []⟩])]]] := by decide

/-! ## The hypotheses are met -/

/-- Two measures of two voices; a grace note stands between. -/
def beamPart : List (List FBVoice) :=
  [[(1, [oneBeam 1 .start, ⟨9, true, [⟨1, .cont⟩]⟩, oneBeam 2 .cont]), (2, [oneBeam 5 .start, oneBeam 6 .stop])],
   [(1, [oneBeam 3 .start, oneBeam 4 .cont]), (2, [oneBeam 7 .stop])]]

example : SoundsToEnd 1 beamPart ∧ SoundsToEnd 2 beamPart ∧
    fixupBeams [beamPart] =
      [[[(1, [oneBeam 1 .start, ⟨9, true, [⟨1, .cont⟩]⟩, oneBeam 2 .stop]), (2, [oneBeam 5 .start, oneBeam 6 .cont])],
        [(1, [oneBeam 3 .start, oneBeam 4 .stop]), (2, [oneBeam 7 .stop])]]] := by
  refine ⟨⟨?_, ?_⟩, ⟨?_, ?_⟩, by decide⟩
  · intro m hm v hv
    rcases List.mem_cons.1 hm with rfl | hm
    · cases hv; exact ⟨oneBeam 1 .start, by decide, rfl⟩
    · rw [List.mem_singleton.1 hm] at hv; cases hv; exact ⟨oneBeam 3 .start, by decide, rfl⟩
  · intro m hm; cases hm; exact ⟨_, rfl⟩
  · intro m hm v hv
    rcases List.mem_cons.1 hm with rfl | hm
    · cases hv; exact ⟨oneBeam 5 .start, by decide, rfl⟩
    · rw [List.mem_singleton.1 hm] at hv; cases hv; exact ⟨oneBeam 7 .stop, by decide, rfl⟩
  · intro m hm; cases hm; exact ⟨_, rfl⟩

/-- The repaired part is sound. -/
example : (∀ p ∈ fixupBeams [beamPart], ∀ m ∈ p, (m.map (·.1)).Nodup) ∧
    fixupBeams (fixupBeams [beamPart]) = fixupBeams [beamPart] := by constructor <;> decide

end C21
