import Verif.Model.SigExport
import Verif.Props.SigChanges
import Verif.Props.ClefMeter
import Verif.Props.KeySig
import Verif.Lemmas.PyNum
import Verif.Lemmas.Tac
/-
C117: the lines of clefs, key signatures and time signatures.
-/
namespace C21

/-! ### Specification -/

/-- The key signatures of a staff among the events of a moment. -/
def keysAt (events : List ZEvent) (p s : Nat) : List (Int × Option M21Key) :=
  events.filterMap (fun e => match e.obj with | .key n k => if e.part = p ∧ e.staff = s then some (n, k) else none | _ => none)

/-- The time signatures of a staff. -/
def metersAt (events : List ZEvent) (p s : Nat) : List (List (Nat × Nat) × MeterSym) :=
  events.filterMap (fun e => match e.obj with | .meter r m => if e.part = p ∧ e.staff = s then some (r, m) else none | _ => none)

/-- The clefs of a staff. -/
def clefsAt (events : List ZEvent) (p s : Nat) : List HClef :=
  events.filterMap (fun e => match e.obj with | .clef c => if e.part = p ∧ e.staff = s then some c else none | _ => none)

/-- The last key signature of all staves is a key with a name. -/
def lastKeyNamed (events : List ZEvent) : Bool :=
  ((events.filterMap (fun e => match e.obj with | .key _ k => some k.isSome | _ => none)).getLast?).getD false

/-- The last time signature of all staves has a symbol. -/
def lastMeterSymbol (events : List ZEvent) : Bool :=
  ((events.filterMap (fun e => match e.obj with | .meter _ m => some (decide (m ≠ .plain)) | _ => none)).getLast?).getD false

/-- Staves of the file have numbers of their own. -/
def StaffNumbers (num : Nat → Nat → Nat) (counts : List Nat) : Prop :=
  ∀ p s p' s', p < counts.length → s < counts.getD p 0 → p' < counts.length → s' < counts.getD p' 0 → num p s = num p' s' → p = p' ∧ s = s'

/-- The lines written for the events, as the importer sees them. -/
def writtenLines (num : Nat → Nat → Nat) (counts : List Nat) (off : Rat) (lines : List ZLine) : List SigLine :=
  lines.map (sigLineOf num counts off)

/-! ### One line -/

/-- The text, if there is one. -/
def tokWritten : Except PyErr (Option Str) → Option Str
  | .ok x => x
  | .error _ => none

/-- The last text for a place. -/
def lastTok (es : ZEntries) (p s : Nat) : Option Str :=
  (es.filterMap (fun e => if e.1 = p ∧ e.2.1 = s then tokWritten e.2.2 else none)).getLast?

/-- Every staff of the part has one voice. -/
def OneVoice (q : GPart) : Prop := ∀ st ∈ q.staves, ∃ c, st.voices = [c]

/-- The voices of a staff of a part. -/
def voicesAt (q : GPart) (s : Nat) : Option (List GCell) := (q.staves[s]?).map (·.voices)

theorem putSig_spec {q q' : GPart} {s : Nat} {tok : Except PyErr (Option Str)} (h1 : OneVoice q) (h : putSig q s tok = .ok q') :
    OneVoice q' ∧ q'.staves.length = q.staves.length ∧ ∀ s' < q.staves.length,
      voicesAt q' s' = if s' = s then (((tokWritten tok).map (fun t => [GCell.tok t])).or (voicesAt q s')) else voicesAt q s' := by
  unfold putSig at h
  cases tok with
  | error e => exact absurd h (by simp)
  | ok o =>
    cases o with
    | none =>
      simp only [Except.ok.injEq] at h
      subst h
      exact ⟨h1, rfl, fun s' _ => by simp [tokWritten]⟩
    | some t =>
      cases hs : q.staves[s]? with
      | none => rw [hs] at h; exact absurd h (by simp)
      | some st =>
        rw [hs] at h
        obtain ⟨c, hc⟩ := h1 st (List.mem_of_getElem? hs)
        have hset : st.setTokenLayer 0 t = .ok { st with voices := [.tok t] } := by
          unfold GStaff.setTokenLayer growTo
          rw [if_neg (by decide), hc]
          rfl
        simp only [hset, Except.ok.injEq] at h
        subst h
        refine ⟨?_, by simp, ?_⟩
        · intro x hx
          rcases List.mem_or_eq_of_mem_set hx with hx | rfl
          · exact h1 x hx
          · exact ⟨_, rfl⟩
        · intro s' hs'
          unfold voicesAt
          simp only
          by_cases e : s' = s
          · subst e
            rw [if_pos rfl, List.getElem?_set_self hs']
            rfl
          · rw [if_neg e, List.getElem?_set_ne (fun x => e x.symm)]

theorem putSigs_spec (p : Nat) (es : ZEntries) (hes : ∀ e ∈ es, e.1 = p) : ∀ {q q' : GPart}, OneVoice q → putSigs q es = .ok q' →
    OneVoice q' ∧ q'.staves.length = q.staves.length ∧ ∀ s < q.staves.length,
      voicesAt q' s = ((lastTok es p s).map (fun t => [GCell.tok t])).or (voicesAt q s) := by
  induction es with
  | nil =>
    intro q q' h1 h
    simp only [putSigs, Except.ok.injEq] at h
    subst h
    exact ⟨h1, rfl, fun s _ => rfl⟩
  | cons e es ih =>
    intro q q' h1 h
    rw [putSigs] at h
    cases hp : putSig q e.2.1 e.2.2 with
    | error x => rw [hp] at h; exact absurd h (by simp)
    | ok q1 =>
      rw [hp] at h
      obtain ⟨a1, a2, a3⟩ := putSig_spec h1 hp
      obtain ⟨b1, b2, b3⟩ := ih (fun x hx => hes x (List.mem_cons_of_mem _ hx)) a1 h
      refine ⟨b1, b2.trans a2, ?_⟩
      intro s hs
      rw [b3 s (by rw [a2]; exact hs), a3 s hs]
      have hep := hes e (by simp)
      unfold lastTok
      rw [List.filterMap_cons]
      by_cases hse : s = e.2.1
      · rw [if_pos hse, if_pos ⟨hep, hse.symm⟩]
        cases htok : tokWritten e.2.2 with
        | none => simp
        | some t =>
            simp only
            cases hl : (es.filterMap (fun e => if e.1 = p ∧ e.2.1 = s then tokWritten e.2.2 else none)) with
            | nil => rfl
            | cons x xs =>
              rw [List.getLast?_cons_cons, List.getLast?_eq_getLast_of_ne_nil (by simp)]
              rfl
      · rw [if_neg hse, if_neg (fun h => hse h.2.symm)]

theorem voices_fill (q : GPart) (h : OneVoice q) (s : Nat) (hs : s < q.staves.length) :
    voicesAt (fillEmpties q) s = (voicesAt q s).map (fun v => v.map fillCell) := by
  unfold voicesAt fillEmpties
  simp only [List.getElem?_map]
  obtain ⟨st, hst⟩ : ∃ st, q.staves[s]? = some st := ⟨_, List.getElem?_eq_getElem hs⟩
  rw [hst]
  obtain ⟨c, hc⟩ := h st (List.mem_of_getElem? hst)
  simp [fillStaff, hc]

/-- The text of a place of a part. -/
def placeText (q : GPart) (s : Nat) : Str := cellOrStar ((voicesAt q s).bind (·.head?))

theorem sigCell_place (sl : GSlice) (p s : Nat) (q : GPart) (h : sl.parts[p]? = some q) : sigCell sl p s = placeText q s := by
  unfold sigCell placeText voicesAt
  rw [h]
  cases hs : q.staves[s]? <;> simp [hs]

theorem lastTok_filter (es : ZEntries) (p s : Nat) : lastTok (es.filter (fun e => e.1 = p)) p s = lastTok es p s := by
  unfold lastTok
  congr 1
  induction es with
  | nil => rfl
  | cons e es ih =>
    by_cases h : e.1 = p
    · rw [List.filter_cons_of_pos (by simpa using h), List.filterMap_cons, List.filterMap_cons, ih]
    · rw [List.filter_cons_of_neg (by simpa using h), List.filterMap_cons, if_neg (fun x => h x.1), ih]

theorem sigPart_text (always : Bool) (es : ZEntries) (p n : Nat) (q : GPart)
    (h : sigPart always es p { staves := List.replicate n { voices := [.empty] } } = .ok q) (s : Nat) (hs : s < n) :
    placeText q s = (lastTok es p s).getD ['*'] := by
  have h1 : OneVoice { staves := List.replicate n { voices := [.empty] } } := by
    intro st hst
    rw [(List.mem_replicate.1 hst).2]
    exact ⟨_, rfl⟩
  have hv : voicesAt { staves := List.replicate n { voices := [.empty] } } s = some [.empty] := by
    unfold voicesAt
    simp [List.getElem?_replicate, hs]
  unfold sigPart at h
  simp only at h
  by_cases hc : ((es.filter (fun e => e.1 = p)).isEmpty && !always) = true
  · rw [if_pos hc] at h
    simp only [Except.ok.injEq] at h
    subst h
    have hnil : es.filter (fun e => e.1 = p) = [] := by
      simp only [Bool.and_eq_true, List.isEmpty_iff] at hc
      exact hc.1
    have hl := lastTok_filter es p s
    rw [hnil] at hl
    rw [← hl]
    unfold placeText
    rw [hv]
    rfl
  · rw [if_neg hc] at h
    cases hp : putSigs { staves := List.replicate n { voices := [.empty] } } (es.filter (fun e => e.1 = p)) with
    | error x => rw [hp] at h; simp [Except.map] at h
    | ok q1 =>
      rw [hp] at h
      simp only [Except.map, Except.ok.injEq] at h
      subst h
      obtain ⟨a1, a2, a3⟩ := putSigs_spec p _ (fun e he => by simpa using (List.mem_filter.1 he).2) h1 hp
      have hlen : s < q1.staves.length := by rw [a2]; simpa using hs
      unfold placeText
      rw [voices_fill q1 a1 s hlen, a3 s (by simpa using hs), lastTok_filter, hv]
      cases lastTok es p s <;> rfl

theorem sigParts_get (always : Bool) (es : ZEntries) : ∀ (counts : List Nat) (k : Nat) (ps : List GPart),
    sigParts always es k (counts.map (fun n => ({ staves := List.replicate n { voices := [.empty] } } : GPart))) = .ok ps →
    ps.length = counts.length ∧ ∀ p s, p < counts.length → s < counts.getD p 0 → ∃ q, ps[p]? = some q ∧ placeText q s = (lastTok es (k + p) s).getD ['*'] := by
  intro counts
  induction counts with
  | nil =>
    intro k ps h
    simp only [List.map_nil, sigParts, Except.ok.injEq] at h
    subst h
    exact ⟨rfl, fun p s hp => absurd hp (by simp)⟩
  | cons n counts ih =>
    intro k ps h
    rw [List.map_cons, sigParts] at h
    cases h1 : sigPart always es k { staves := List.replicate n { voices := [.empty] } } with
    | error x => rw [h1] at h; exact absurd h (by simp)
    | ok q =>
      rw [h1] at h
      cases h2 : sigParts always es (k + 1) (counts.map (fun n => ({ staves := List.replicate n { voices := [.empty] } } : GPart))) with
      | error x => rw [h2] at h; simp [Except.map] at h
      | ok rest =>
        rw [h2] at h
        simp only [Except.map, Except.ok.injEq] at h
        subst h
        obtain ⟨i1, i2⟩ := ih (k + 1) rest h2
        refine ⟨by simp [i1], ?_⟩
        intro p s hp hs
        cases p with
        | zero => exact ⟨q, rfl, by simpa using sigPart_text always es k n q h1 s (by simpa using hs)⟩
        | succ p =>
          obtain ⟨q', e1, e2⟩ := i2 p s (by simpa using hp) (by simpa using hs)
          refine ⟨q', by simpa using e1, ?_⟩
          rw [e2]
          congr 2
          omega

/-- What stands in a line on a staff: the last text for it, or `*`. -/
theorem sigSlice_cell {counts : List Nat} {time : Rat} {kind : SliceKind} {always : Bool} {es : ZEntries} {sl : GSlice}
    (h : sigSlice counts time kind always es = .ok sl) (p s : Nat) (hp : p < counts.length) (hs : s < counts.getD p 0) :
    sigCell sl p s = (lastTok es p s).getD ['*'] := by
  unfold sigSlice newSlice at h
  simp only at h
  cases h1 : sigParts always es 0 (counts.map (fun n => ({ staves := List.replicate n { voices := [.empty] } } : GPart))) with
  | error x => rw [h1] at h; simp [Except.map] at h
  | ok ps =>
    rw [h1] at h
    simp only [Except.map, Except.ok.injEq] at h
    subst h
    obtain ⟨q, e1, e2⟩ := (sigParts_get always es counts 0 ps h1).2 p s hp hs
    rw [sigCell_place _ p s q e1, e2, Nat.zero_add]

/-! ### What is collected -/

theorem fold_append {α : Type} (f : ZAcc → List α) (g : ZEvent → List α) (hstep : ∀ a e, f (zStep a e) = f a ++ g e) (events : List ZEvent) (a : ZAcc) :
    f (events.foldl zStep a) = f a ++ events.flatMap g := by
  induction events generalizing a with
  | nil => simp
  | cons e es ih => rw [List.foldl_cons, ih, hstep]; simp

theorem fold_last {β : Type} (f : ZAcc → β) (g : ZEvent → Option β) (hstep : ∀ a e, f (zStep a e) = (g e).getD (f a)) (events : List ZEvent) (a : ZAcc) :
    f (events.foldl zStep a) = ((events.filterMap g).getLast?).getD (f a) := by
  induction events generalizing a with
  | nil => rfl
  | cons e es ih =>
    rw [List.foldl_cons, ih, hstep, List.filterMap_cons]
    cases g e with
    | none => rfl
    | some b =>
      cases h : es.filterMap g with
      | nil => rfl
      | cons x xs =>
        simp only
        rw [List.getLast?_cons_cons, List.getLast?_eq_getLast_of_ne_nil (by simp)]
        rfl

theorem zStep_cases (a : ZAcc) (e : ZEvent) :
    (zStep a e).keys = a.keys ++ (match e.obj with | .key n _ => [(e.part, e.staff, (keySigToken n).map some)] | _ => []) ∧
    (zStep a e).names = a.names ++ (match e.obj with | .key _ k => [(e.part, e.staff, .ok (k.map keyDesignationToken))] | _ => []) ∧
    (zStep a e).meters = a.meters ++ (match e.obj with | .meter r _ => [(e.part, e.staff, .ok (some (timeSigToken r)))] | _ => []) ∧
    (zStep a e).symbols = a.symbols ++ (match e.obj with | .meter _ m => [(e.part, e.staff, .ok (meterSigToken m))] | _ => []) ∧
    (zStep a e).clefs = a.clefs ++ (match e.obj with | .clef c => [(e.part, e.staff, .ok (clefToken c))] | _ => []) ∧
    (zStep a e).transps = a.transps ++ (match e.obj with | .transp dc => [(e.part, e.staff, .ok (dc.map ("*ITr".toList ++ ·)))] | _ => []) ∧
    (zStep a e).strias = a.strias ++ (match e.obj with | .stria n => [(e.part, e.staff, .ok (some ("*stria".toList ++ natStr n)))] | _ => []) ∧
    (zStep a e).named = (match e.obj with | .key _ k => some (Option.isSome k) | _ => none).getD a.named ∧
    (zStep a e).symbol = (match e.obj with | .meter _ m => some (decide (m ≠ MeterSym.plain)) | _ => none).getD a.symbol := by
  unfold zStep
  cases e.obj with
  | meter r m => cases m <;> simp [meterSigToken]
  | grace i => by_cases h : a.found = true <;> simp [h]
  | _ => simp

theorem lastTok_flatMap {β : Type} (events : List ZEvent) (g : ZEvent → ZEntries) (at_ : ZEvent → Option β) (tok : β → Option Str) (p s : Nat)
    (h : ∀ e, ((g e).filterMap (fun e => if e.1 = p ∧ e.2.1 = s then tokWritten e.2.2 else none)) = ((at_ e).bind tok).toList) :
    lastTok (events.flatMap g) p s = ((events.filterMap at_).filterMap tok).getLast? := by
  unfold lastTok
  congr 1
  induction events with
  | nil => rfl
  | cons e es ih =>
    rw [List.flatMap_cons, List.filterMap_append, ih, h, List.filterMap_cons]
    cases at_ e with
    | none => rfl
    | some b =>
      rw [List.filterMap_cons, Option.bind_some]
      cases tok b <;> rfl

/-- The collected lists of the events. -/
theorem collected (events : List ZEvent) :
    let a := events.foldl zStep {}
    (∀ p s, lastTok a.keys p s = ((keysAt events p s).filterMap (fun x => (keySigToken x.1).toOption)).getLast?) ∧
    (∀ p s, lastTok a.names p s = ((keysAt events p s).filterMap (fun x => x.2.map keyDesignationToken)).getLast?) ∧
    (∀ p s, lastTok a.meters p s = ((metersAt events p s).filterMap (fun x => some (timeSigToken x.1))).getLast?) ∧
    (∀ p s, lastTok a.symbols p s = ((metersAt events p s).filterMap (fun x => meterSigToken x.2)).getLast?) ∧
    (∀ p s, lastTok a.clefs p s = ((clefsAt events p s).filterMap clefToken).getLast?) ∧
    a.named = lastKeyNamed events ∧ a.symbol = lastMeterSymbol events := by
  intro a
  refine ⟨?_, ?_, ?_, ?_, ?_, ?_, ?_⟩
  · intro p s
    show lastTok (ZAcc.keys (events.foldl zStep {})) p s = _
    rw [fold_append ZAcc.keys _ (fun a e => (zStep_cases a e).1) events {}]
    show lastTok (events.flatMap _) p s = _
    apply lastTok_flatMap
    intro e
    cases e.obj with
    | key n k =>
      by_cases h : e.part = p ∧ e.staff = s
      · cases ht : keySigToken n <;> simp [h, ht, Except.map, Except.toOption, tokWritten]
      · simp [h]
    | _ => rfl
  · intro p s
    show lastTok (ZAcc.names (events.foldl zStep {})) p s = _
    rw [fold_append ZAcc.names _ (fun a e => (zStep_cases a e).2.1) events {}]
    show lastTok (events.flatMap _) p s = _
    apply lastTok_flatMap
    intro e
    cases e.obj with
    | key n k =>
      by_cases h : e.part = p ∧ e.staff = s
      · cases k <;> simp [h, tokWritten]
      · simp [h]
    | _ => rfl
  · intro p s
    show lastTok (ZAcc.meters (events.foldl zStep {})) p s = _
    rw [fold_append ZAcc.meters _ (fun a e => (zStep_cases a e).2.2.1) events {}]
    show lastTok (events.flatMap _) p s = _
    apply lastTok_flatMap
    intro e
    cases e.obj with
    | meter n k =>
      by_cases h : e.part = p ∧ e.staff = s
      · simp [h, tokWritten]
      · simp [h]
    | _ => rfl
  · intro p s
    show lastTok (ZAcc.symbols (events.foldl zStep {})) p s = _
    rw [fold_append ZAcc.symbols _ (fun a e => (zStep_cases a e).2.2.2.1) events {}]
    show lastTok (events.flatMap _) p s = _
    apply lastTok_flatMap
    intro e
    cases e.obj with
    | meter n k =>
      by_cases h : e.part = p ∧ e.staff = s
      · cases k <;> simp [h, meterSigToken, tokWritten]
      · simp [h]
    | _ => rfl
  · intro p s
    show lastTok (ZAcc.clefs (events.foldl zStep {})) p s = _
    rw [fold_append ZAcc.clefs _ (fun a e => (zStep_cases a e).2.2.2.2.1) events {}]
    show lastTok (events.flatMap _) p s = _
    apply lastTok_flatMap
    intro e
    cases e.obj with
    | clef c =>
      by_cases h : e.part = p ∧ e.staff = s
      · cases hc : clefToken c <;> simp [h, hc, tokWritten]
      · simp [h]
    | _ => rfl
  · exact fold_last ZAcc.named _ (fun a e => (zStep_cases a e).2.2.2.2.2.2.2.1) events {}
  · exact fold_last ZAcc.symbol _ (fun a e => (zStep_cases a e).2.2.2.2.2.2.2.2) events {}

theorem collected_other (events : List ZEvent) (p s : Nat) :
    (∀ t, lastTok (events.foldl zStep {}).strias p s = some t → ∃ n, t = "*stria".toList ++ natStr n) ∧
    (∀ t, lastTok (events.foldl zStep {}).transps p s = some t → ∃ dc, t = "*ITr".toList ++ dc) := by
  have h1 : lastTok (ZAcc.strias (events.foldl zStep {})) p s =
      ((events.filterMap (fun e => match e.obj with | .stria n => if e.part = p ∧ e.staff = s then some n else none | _ => none)).filterMap
        (fun n => some ("*stria".toList ++ natStr n))).getLast? := by
    rw [fold_append ZAcc.strias _ (fun a e => (zStep_cases a e).2.2.2.2.2.2.1) events {}]
    show lastTok (events.flatMap _) p s = _
    apply lastTok_flatMap
    intro e
    cases e.obj with
    | stria n =>
      by_cases h : e.part = p ∧ e.staff = s
      · simp [h, tokWritten]
      · simp [h]
    | _ => rfl
  have h2 : lastTok (ZAcc.transps (events.foldl zStep {})) p s =
      ((events.filterMap (fun e => match e.obj with | .transp n => if e.part = p ∧ e.staff = s then some n else none | _ => none)).filterMap
        (fun dc => dc.map ("*ITr".toList ++ ·))).getLast? := by
    rw [fold_append ZAcc.transps _ (fun a e => (zStep_cases a e).2.2.2.2.2.1) events {}]
    show lastTok (events.flatMap _) p s = _
    apply lastTok_flatMap
    intro e
    cases e.obj with
    | transp n =>
      simp only [List.filterMap_cons, List.filterMap_nil]
      by_cases h : e.part = p ∧ e.staff = s
      · rw [if_pos h, if_pos h]
        cases n <;> rfl
      · rw [if_neg h, if_neg h]
        rfl
    | _ => rfl
  constructor
  · intro t ht
    rw [h1] at ht
    obtain ⟨x, _, hx⟩ := List.mem_filterMap.1 (List.mem_of_getLast? ht)
    exact ⟨x, (Option.some.inj hx).symm⟩
  · intro t ht
    rw [h2] at ht
    obtain ⟨x, _, hx⟩ := List.mem_filterMap.1 (List.mem_of_getLast? ht)
    cases x with
    | none => simp at hx
    | some dc => exact ⟨dc, (Option.some.inj hx).symm⟩

/-! ### What the tokens are taken for -/

theorem second_differs (c d : Char) (rest more : Str) (h : c ≠ d) : startsWith ('*' :: c :: rest) ('*' :: d :: more) = false := by
  have : (d == c) = false := beq_false_of_ne h.symm
  simp [startsWith, List.isPrefixOf, this]

theorem kind_plain (c : Char) (rest : Str) (hc : c ∉ "Mkm".toList) (hn : keyDesignation ('*' :: c :: rest) = none) : sigKindOf ('*' :: c :: rest) = .other := by
  have h1 : c ≠ 'M' := fun e => hc (by rw [e]; decide)
  have h2 : c ≠ 'k' := fun e => hc (by rw [e]; decide)
  have h3 : c ≠ 'm' := fun e => hc (by rw [e]; decide)
  have e1 : isTimeSigText ('*' :: c :: rest) = false := by
    have := second_differs c 'M' rest [] h1
    unfold isTimeSigText
    rw [show "*M".toList = ['*', 'M'] from rfl, this]
    simp
  have e2 : isKeySignature ('*' :: c :: rest) = false := by
    have := second_differs c 'k' rest ['['] h2
    unfold isKeySignature
    rw [show "*k[".toList = ['*', 'k', '['] from rfl, this]
    simp
  have e3 : isMetText ('*' :: c :: rest) = false := by
    have := second_differs c 'm' rest ['e', 't', '('] h3
    unfold isMetText
    rw [show "*met(".toList = ['*', 'm', 'e', 't', '('] from rfl, this]
    simp
  simp [sigKindOf, e1, e2, e3, hn]

theorem kind_star : sigKindOf ['*'] = .other := by decide

theorem kind_stria (n : Nat) : sigKindOf ("*stria".toList ++ natStr n) = .other := kind_plain 's' _ (by decide) rfl
theorem kind_transp (dc : Str) : sigKindOf ("*ITr".toList ++ dc) = .other := kind_plain 'I' _ (by decide) rfl
theorem kind_clef (c : HClef) (t : Str) (h : clefToken c = some t) : sigKindOf t = .other := by
  obtain ⟨sign, oc, line⟩ := c
  cases sign <;> simp only [clefToken, Option.some.injEq, reduceCtorEq] at h <;> subst h <;> exact kind_plain 'c' _ (by decide) rfl

theorem kind_MM (x : Str) : sigKindOf ("*MM".toList ++ x) = .other := by
  have e1 : isTimeSigText ("*MM".toList ++ x) = false := by
    have : (("*MM".toList ++ x).drop 2).head?.any isDig = false := rfl
    unfold isTimeSigText
    rw [this]
    simp
  have e2 : isKeySignature ("*MM".toList ++ x) = false := rfl
  have e3 : isMetText ("*MM".toList ++ x) = false := rfl
  have e4 : keyDesignation ("*MM".toList ++ x) = none := rfl
  unfold sigKindOf
  rw [e1, e2, e3, e4]
  rfl

theorem kind_time (n d : Nat) (r : List (Nat × Nat)) : sigKindOf (timeSigToken ((n, d) :: r)) = .time (timeSigToken ((n, d) :: r)) := by
  have e1 : isTimeSigText (timeSigToken ((n, d) :: r)) = true := by
    obtain ⟨x, xs, hx⟩ : ∃ x xs, natStr n = x :: xs := by
      cases h : natStr n with
      | nil => exact absurd h (natStr_ne_nil n)
      | cons x xs => exact ⟨x, xs, rfl⟩
    have hxd : isDig x = true := natStr_isDig n x (by rw [hx]; exact List.mem_cons_self)
    unfold isTimeSigText timeSigToken
    cases r with
    | nil => simp [ratioString, hx, startsWith, List.isPrefixOf, hxd]
    | cons q r => simp [ratioString, hx, startsWith, List.isPrefixOf, hxd]
  unfold sigKindOf
  rw [e1]
  rfl

theorem kind_time_any (r : List (Nat × Nat)) : sigKindOf (timeSigToken r) = .time (timeSigToken r) ∨ sigKindOf (timeSigToken r) = .other := by
  cases r with
  | nil => exact Or.inr (by decide)
  | cons x r => exact Or.inl (kind_time x.1 x.2 r)

theorem kind_key (n : Int) (t : Str) (h : keySigToken n = .ok t) : sigKindOf t = .key t := by
  unfold keySigToken at h
  cases hf : sharpsToText.find? (fun e => e.1 = n) with
  | none => rw [hf] at h; exact absurd h (by simp)
  | some e =>
    rw [hf] at h
    simp only [Except.ok.injEq] at h
    subst h
    have e1 : isTimeSigText ("*k[".toList ++ e.2.toList ++ "]".toList) = false := by
      simp [isTimeSigText, startsWith, List.isPrefixOf]
    have e2 : isKeySignature ("*k[".toList ++ e.2.toList ++ "]".toList) = true := by
      unfold isKeySignature
      rw [Bool.and_eq_true]
      exact ⟨rfl, List.isSuffixOf_iff_suffix.2 ⟨_, rfl⟩⟩
    unfold sigKindOf
    rw [e1, e2]
    rfl

theorem kind_name (k : M21Key) (h : k.Valid) : sigKindOf (keyDesignationToken k) = .desig (keyDesignationToken k) := by
  obtain ⟨c, a, ht, hc⟩ : ∃ c a, keyDesignationToken k = '*' :: c :: (tonicMarks a ++ ':' :: modeText k.mode) ∧ c ∈ "abcdefgABCDEFG".toList := by
    obtain ⟨st, al, m⟩ := k
    have hs : st ∈ "ABCDEFG".toList := h
    by_cases hm : m = .minor
    · refine ⟨st.toLower, al, ?_, ?_⟩
      · have := tonicMarks_lower al
        unfold tonicMarks at this
        simp [keyDesignationToken, tonicWithCase, tonicName, hm, tonicMarks, this]
      · clear h
        revert st
        decide
    · refine ⟨st, al, ?_, ?_⟩
      · simp [keyDesignationToken, tonicWithCase, tonicName, hm, tonicMarks]
      · clear h
        revert st
        decide
  rw [ht]
  have hk : keyDesignation ('*' :: c :: (tonicMarks a ++ ':' :: modeText k.mode)) = some (c :: tonicMarks a, modeGroup (modeText k.mode)) :=
    keyDesignation_written c hc a (modeText k.mode)
  have h1 : c ≠ 'M' := by rintro rfl; exact absurd hc (by decide)
  have h2 : c ≠ 'k' := by rintro rfl; exact absurd hc (by decide)
  have e1 : isTimeSigText ('*' :: c :: (tonicMarks a ++ ':' :: modeText k.mode)) = false := by
    have := second_differs c 'M' (tonicMarks a ++ ':' :: modeText k.mode) [] h1
    unfold isTimeSigText
    rw [show "*M".toList = ['*', 'M'] from rfl, this]
    simp
  have e2 : isKeySignature ('*' :: c :: (tonicMarks a ++ ':' :: modeText k.mode)) = false := by
    have := second_differs c 'k' (tonicMarks a ++ ':' :: modeText k.mode) ['['] h2
    unfold isKeySignature
    rw [show "*k[".toList = ['*', 'k', '['] from rfl, this]
    simp
  unfold sigKindOf
  rw [e1, e2, hk]
  rfl

theorem kind_met (m : MeterSym) (t : Str) (h : meterSigToken m = some t) : sigKindOf t = .met t := by
  cases m <;> simp only [meterSigToken, Option.some.injEq, reduceCtorEq] at h <;> subst h <;> decide

/-! ### The lines of a moment -/

theorem seqLines_ok (xs : List (Except PyErr (List ZLine))) (lines : List ZLine) (h : seqLines xs = .ok lines) :
    ∃ ls : List (List ZLine), xs = ls.map .ok ∧ lines = ls.flatten := by
  induction xs generalizing lines with
  | nil =>
    simp only [seqLines, Except.ok.injEq] at h
    exact ⟨[], rfl, h.symm⟩
  | cons x xs ih =>
    cases x with
    | error e => exact absurd h (by simp [seqLines])
    | ok l =>
      simp only [seqLines] at h
      cases h2 : seqLines xs with
      | error e => rw [h2] at h; simp [Except.map] at h
      | ok rest =>
        rw [h2] at h
        simp only [Except.map, Except.ok.injEq] at h
        obtain ⟨ls, e1, e2⟩ := ih rest h2
        exact ⟨l :: ls, by rw [e1]; rfl, by rw [← h, e2]; rfl⟩

/-- The token of a staff in a line. -/
def toksAt (num : Nat → Nat → Nat) (off : Rat) (p s : Nat) : ZLine → List SigTok
  | .tokens sl => [⟨num p s, off, sigKindOf (sigCell sl p s)⟩]
  | _ => []

theorem flatMap_only {α : Type} (n p : Nat) (hp : p < n) (g : Nat → List α) (h : ∀ i < n, i ≠ p → g i = []) : (List.range n).flatMap g = g p := by
  induction n with
  | zero => omega
  | succ n ih =>
    rw [List.range_succ, List.flatMap_append]
    simp only [List.flatMap_cons, List.flatMap_nil, List.append_nil]
    by_cases e : p = n
    · subst e
      have : (List.range p).flatMap g = [] := by
        rw [List.flatMap_eq_nil_iff]
        intro i hi
        have := List.mem_range.1 hi
        exact h i (by omega) (by omega)
      rw [this, List.nil_append]
    · rw [ih (by omega) (fun i hi hne => h i (by omega) hne), h n (by omega) (fun x => e x.symm), List.append_nil]

theorem line_staff {num : Nat → Nat → Nat} {counts : List Nat} (hnum : StaffNumbers num counts) (off : Rat) (p s : Nat) (hp : p < counts.length)
    (hs : s < counts.getD p 0) (l : ZLine) :
    (if (sigLineOf num counts off l).isInterp = true then (sigLineOf num counts off l).toks else []).filter (fun t => t.staff == (num p s : Int)) =
      toksAt num off p s l := by
  cases l with
  | graces es => rfl
  | comment t => rfl
  | tokens sl =>
    show ((List.range counts.length).flatMap _).filter _ = _
    rw [List.filter_flatMap]
    rw [flatMap_only counts.length p hp]
    · rw [List.filter_map]
      have : (List.range (counts.getD p 0)).filter ((fun t : SigTok => t.staff == (num p s : Int)) ∘ (fun s => ⟨num p s, off, sigKindOf (sigCell sl p s)⟩)) = [s] := by
        have e : ∀ i ∈ List.range (counts.getD p 0), ((fun t : SigTok => t.staff == (num p s : Int)) ∘ (fun s => ⟨num p s, off, sigKindOf (sigCell sl p s)⟩)) i = (i == s) := by
          intro i hi
          simp only [Function.comp]
          rw [Bool.eq_iff_iff, beq_iff_eq, beq_iff_eq]
          constructor
          · intro h
            exact (hnum p i p s hp (List.mem_range.1 hi) hp hs (by exact_mod_cast h)).2
          · rintro rfl; rfl
        rw [List.filter_congr e]
        have hone : ∀ n, s < n → (List.range n).filter (fun i => i == s) = [s] := by
          intro n
          induction n with
          | zero => intro h; omega
          | succ n ih =>
            intro h
            rw [List.range_succ, List.filter_append]
            by_cases hc : s = n
            · subst hc
              have : (List.range s).filter (fun i => i == s) = [] := by
                rw [List.filter_eq_nil_iff]
                intro i hi
                have := List.mem_range.1 hi
                simp; omega
              rw [this]; simp
            · rw [ih (by omega)]
              have : (n == s) = false := beq_false_of_ne (fun x => hc x.symm)
              simp [this]
        exact hone _ hs
      rw [this]
      rfl
    · intro i hi hne
      rw [List.filter_eq_nil_iff]
      intro t ht
      obtain ⟨j, hj, rfl⟩ := List.mem_map.1 ht
      simp only [beq_iff_eq]
      intro h
      exact hne (hnum i j p s hi (List.mem_range.1 hj) hp hs (by exact_mod_cast h)).1

theorem staffToks_lines {num : Nat → Nat → Nat} {counts : List Nat} (hnum : StaffNumbers num counts) (off : Rat) (p s : Nat) (hp : p < counts.length)
    (hs : s < counts.getD p 0) (lines : List ZLine) : staffToks (writtenLines num counts off lines) (num p s) = lines.flatMap (toksAt num off p s) := by
  unfold staffToks writtenLines
  induction lines with
  | nil => rfl
  | cons l ls ih =>
    rw [List.flatMap_cons, ← ih, ← line_staff hnum off p s hp hs l, List.map_cons]
    by_cases h : (sigLineOf num counts off l).isInterp = true
    · rw [List.filter_cons_of_pos h, List.flatMap_cons, List.filter_append, if_pos h]
    · rw [List.filter_cons_of_neg h, if_neg h]
      rfl

/-- One token of the staff, or none. -/
def segTok (num : Nat → Nat → Nat) (off : Rat) (p s : Nat) (b : Bool) (k : SigKind) : List SigTok := if b then [⟨num p s, off, k⟩] else []

theorem lineIf_toks {num : Nat → Nat → Nat} {counts : List Nat} {off time : Rat} {p s : Nat} (hp : p < counts.length)
    (hs : s < counts.getD p 0) {b always : Bool} {kind : SliceKind} {es : ZEntries} {l : List ZLine} (h : lineIf b (sigSlice counts time kind always es) = .ok l) :
    l.flatMap (toksAt num off p s) = segTok num off p s b (sigKindOf ((lastTok es p s).getD ['*'])) := by
  unfold lineIf at h
  cases b with
  | false =>
    simp only [Bool.false_eq_true, if_false, Except.ok.injEq] at h
    subst h
    rfl
  | true =>
    simp only [if_true] at h
    cases hsl : sigSlice counts time kind always es with
    | error e => rw [hsl] at h; simp [Except.map] at h
    | ok sl =>
      rw [hsl] at h
      simp only [Except.map, Except.ok.injEq] at h
      subst h
      simp only [List.flatMap_cons, List.flatMap_nil, List.append_nil, toksAt, segTok, if_true]
      rw [sigSlice_cell hsl p s hp hs]

/-- The tokens of a staff in the lines of a moment. -/
theorem staffToks_moment {num : Nat → Nat → Nat} {counts : List Nat} (hnum : StaffNumbers num counts) (off time : Rat) (p s : Nat) (hp : p < counts.length)
    (hs : s < counts.getD p 0) (tempoLayout mm : Str) (events : List ZEvent) (lines : List ZLine) (h : zeroLines counts time tempoLayout mm events = .ok lines) :
    ∃ b, let a := events.foldl zStep {}
    staffToks (writtenLines num counts off lines) (num p s) =
      segTok num off p s (!a.strias.isEmpty) (sigKindOf ((lastTok a.strias p s).getD ['*'])) ++
      (segTok num off p s (!a.clefs.isEmpty) (sigKindOf ((lastTok a.clefs p s).getD ['*'])) ++
      (segTok num off p s (!a.transps.isEmpty) (sigKindOf ((lastTok a.transps p s).getD ['*'])) ++
      (segTok num off p s (!a.keys.isEmpty) (sigKindOf ((lastTok a.keys p s).getD ['*'])) ++
      (segTok num off p s (!a.keys.isEmpty && a.named) (sigKindOf ((lastTok a.names p s).getD ['*'])) ++
      (segTok num off p s (!a.meters.isEmpty) (sigKindOf ((lastTok a.meters p s).getD ['*'])) ++
      (segTok num off p s (!a.meters.isEmpty && a.symbol) (sigKindOf ((lastTok a.symbols p s).getD ['*'])) ++
      segTok num off p s b (sigKindOf mm))))))) := by
  rw [staffToks_lines hnum off p s hp hs]
  unfold zeroLines at h
  generalize events.foldl zStep {} = a at h ⊢
  refine ⟨!a.meters.isEmpty && (mm ≠ [] && time = 0), ?_⟩
  simp only
  obtain ⟨ls, e1, e2⟩ := seqLines_ok _ _ h
  subst e2
  unfold zeroSteps at e1
  have e1 := e1.symm
  obtain ⟨l0, ls, rfl, h0, e1⟩ := List.map_eq_cons_iff.1 e1
  obtain ⟨l1, ls, rfl, h1, e1⟩ := List.map_eq_cons_iff.1 e1
  obtain ⟨l2, ls, rfl, h2, e1⟩ := List.map_eq_cons_iff.1 e1
  obtain ⟨l3, ls, rfl, h3, e1⟩ := List.map_eq_cons_iff.1 e1
  obtain ⟨l4, ls, rfl, h4, e1⟩ := List.map_eq_cons_iff.1 e1
  obtain ⟨l5, ls, rfl, h5, e1⟩ := List.map_eq_cons_iff.1 e1
  obtain ⟨l6, ls, rfl, h6, e1⟩ := List.map_eq_cons_iff.1 e1
  obtain ⟨l7, ls, rfl, h7, e1⟩ := List.map_eq_cons_iff.1 e1
  obtain ⟨l8, ls, rfl, h8, e1⟩ := List.map_eq_cons_iff.1 e1
  obtain ⟨l9, ls, rfl, h9, e1⟩ := List.map_eq_cons_iff.1 e1
  obtain ⟨l10, ls, rfl, h10, e1⟩ := List.map_eq_cons_iff.1 e1
  rw [List.map_eq_nil_iff] at e1
  subst e1
  simp only [List.flatten_cons, List.flatten_nil, List.append_nil, List.flatMap_append]
  rw [lineIf_toks hp hs h1.symm, lineIf_toks hp hs h2.symm, lineIf_toks hp hs h3.symm, lineIf_toks hp hs h4.symm, lineIf_toks hp hs h5.symm,
    lineIf_toks hp hs h7.symm, lineIf_toks hp hs h8.symm]
  have n0 : l0.flatMap (toksAt num off p s) = [] := by
    simp only [Except.ok.injEq] at h0
    rw [h0]
    split <;> rfl
  have n6 : l6.flatMap (toksAt num off p s) = [] := by
    simp only [Except.ok.injEq] at h6
    rw [h6]
    split <;> rfl
  have n10 : l10.flatMap (toksAt num off p s) = [] := by
    simp only [Except.ok.injEq] at h10
    rw [h10]
    split <;> rfl
  have n9 : l9.flatMap (toksAt num off p s) = segTok num off p s (!a.meters.isEmpty && (mm ≠ [] && time = 0)) (sigKindOf mm) := by
    have h9' := h9.symm
    unfold lineIf at h9'
    generalize (!a.meters.isEmpty && (decide (mm ≠ []) && decide (time = 0))) = b at h9' ⊢
    cases b with
    | false =>
      simp only [Bool.false_eq_true, if_false, Except.ok.injEq] at h9'
      subst h9'
      rfl
    | true =>
      simp only [if_true, Except.map, Except.ok.injEq] at h9'
      subst h9'
      have : sigCell (tempoSlice counts time mm) p s = mm := by
        unfold sigCell tempoSlice
        have hp' : counts[p]? = some (counts.getD p 0) := by
          rw [List.getD_eq_getElem?_getD, List.getElem?_eq_getElem hp]
          rfl
        simp only [List.getElem?_map, hp', Option.map_some, Option.bind_some, List.getElem?_replicate, if_pos hs]
        rfl
      simp only [List.flatMap_cons, List.flatMap_nil, List.append_nil, toksAt, segTok, if_true, this]
  rw [n0, n6, n9, n10]
  simp

/-! ### Round trips -/

theorem kindOf_last {l : Option Str} {P : SigKind → Prop} (h0 : P .other) (h : ∀ t, l = some t → P (sigKindOf t)) : P (sigKindOf (l.getD ['*'])) := by
  cases l with
  | none => exact h0
  | some t => exact h t rfl

theorem seg_mem {num : Nat → Nat → Nat} {off : Rat} {p s : Nat} {b : Bool} {k : SigKind} {t : SigTok} (h : t ∈ segTok num off p s b k) : t = ⟨num p s, off, k⟩ := by
  unfold segTok at h
  cases b
  · simp at h
  · simpa using h

/-- The kinds of the tokens in all lines, for one staff. -/
theorem moment_kinds (events : List ZEvent) (p s : Nat) (hk : ∀ x ∈ keysAt events p s, ∀ k, x.2 = some k → k.Valid) :
    let a := events.foldl zStep {}
    sigKindOf ((lastTok a.strias p s).getD ['*']) = .other ∧ sigKindOf ((lastTok a.clefs p s).getD ['*']) = .other ∧
    sigKindOf ((lastTok a.transps p s).getD ['*']) = .other ∧
    (sigKindOf ((lastTok a.keys p s).getD ['*']) = .other ∨ ∃ t, sigKindOf ((lastTok a.keys p s).getD ['*']) = .key t) ∧
    (sigKindOf ((lastTok a.names p s).getD ['*']) = .other ∨ ∃ t, sigKindOf ((lastTok a.names p s).getD ['*']) = .desig t) ∧
    (sigKindOf ((lastTok a.meters p s).getD ['*']) = .other ∨ ∃ t, sigKindOf ((lastTok a.meters p s).getD ['*']) = .time t) ∧
    (sigKindOf ((lastTok a.symbols p s).getD ['*']) = .other ∨ ∃ t, sigKindOf ((lastTok a.symbols p s).getD ['*']) = .met t) := by
  intro a
  obtain ⟨c1, c2, c3, c4, c5, _, _⟩ := collected events
  obtain ⟨o1, o2⟩ := collected_other events p s
  refine ⟨?_, ?_, ?_, ?_, ?_, ?_, ?_⟩
  · apply kindOf_last (P := fun k => k = .other) rfl
    intro t ht
    obtain ⟨n, rfl⟩ := o1 t ht
    exact kind_stria n
  · apply kindOf_last (P := fun k => k = .other) rfl
    intro t ht
    rw [c5 p s] at ht
    obtain ⟨c, _, hc⟩ := List.mem_filterMap.1 (List.mem_of_getLast? ht)
    exact kind_clef c t hc
  · apply kindOf_last (P := fun k => k = .other) rfl
    intro t ht
    obtain ⟨n, rfl⟩ := o2 t ht
    exact kind_transp n
  · apply kindOf_last (P := fun k => k = .other ∨ ∃ t, k = .key t) (Or.inl rfl)
    intro t ht
    rw [c1 p s] at ht
    obtain ⟨x, _, hx⟩ := List.mem_filterMap.1 (List.mem_of_getLast? ht)
    refine Or.inr ⟨t, kind_key x.1 t ?_⟩
    cases hks : keySigToken x.1 with
    | error e => rw [hks] at hx; simp [Except.toOption] at hx
    | ok t' => rw [hks] at hx; simp only [Except.toOption, Option.some.injEq] at hx; rw [hx]
  · apply kindOf_last (P := fun k => k = .other ∨ ∃ t, k = .desig t) (Or.inl rfl)
    intro t ht
    rw [c2 p s] at ht
    obtain ⟨x, hx0, hx⟩ := List.mem_filterMap.1 (List.mem_of_getLast? ht)
    obtain ⟨k, hk1, rfl⟩ := Option.map_eq_some_iff.1 hx
    exact Or.inr ⟨_, kind_name k (hk x hx0 k hk1)⟩
  · apply kindOf_last (P := fun k => k = .other ∨ ∃ t, k = .time t) (Or.inl rfl)
    intro t ht
    rw [c3 p s] at ht
    obtain ⟨x, _, hx⟩ := List.mem_filterMap.1 (List.mem_of_getLast? ht)
    simp only [Option.some.injEq] at hx
    subst hx
    rcases kind_time_any x.1 with h | h
    · exact Or.inr ⟨_, h⟩
    · exact Or.inl h
  · apply kindOf_last (P := fun k => k = .other ∨ ∃ t, k = .met t) (Or.inl rfl)
    intro t ht
    rw [c4 p s] at ht
    obtain ⟨x, _, hx⟩ := List.mem_filterMap.1 (List.mem_of_getLast? ht)
    exact Or.inr ⟨t, kind_met x.2 t hx⟩

theorem not_empty_of_last {es : ZEntries} {p s : Nat} {t : Str} (h : lastTok es p s = some t) : es.isEmpty = false := by
  cases es with
  | nil => exact absurd h (by simp [lastTok])
  | cons => rfl

/-- C117. A time signature of a staff, the only one there at that moment, is in that staff's measure after export and import, with its symbol if
the last time signature written at that moment has one too. -/
theorem time_signatures_round_trip_partial {num : Nat → Nat → Nat} {counts : List Nat} (hnum : StaffNumbers num counts) (off time : Rat) (p s : Nat) (hp : p < counts.length)
    (hs : s < counts.getD p 0) (tempoLayout mm : Str) (hmm : mm = [] ∨ ∃ x, mm = "*MM".toList ++ x) (events : List ZEvent) (lines : List ZLine)
    (h : zeroLines counts time tempoLayout mm events = .ok lines) (hk : ∀ x ∈ keysAt events p s, ∀ k, x.2 = some k → k.Valid)
    (n d : Nat) (hd : d ≠ 0) (m : MeterSym) (hm : metersAt events p s = [([(n, d)], m)]) :
    timeObjs (sigInserted readTimeObj readKeyObj (writtenLines num counts off lines) (num p s)) =
      [(off, (some (n, d), if lastMeterSymbol events then m else .plain))] := by
  obtain ⟨b, e⟩ := staffToks_moment hnum off time p s hp hs tempoLayout mm events lines h
  obtain ⟨k1, k2, k3, k4, k5, _, _⟩ := moment_kinds events p s hk
  obtain ⟨_, _, c3, c4, _, _, c7⟩ := collected events
  simp only at e
  have hmeter := c3 p s
  have hsym := c4 p s
  rw [hm] at hmeter hsym
  have hmeter' : lastTok (events.foldl zStep {}).meters p s = some (timeSigToken [(n, d)]) := hmeter
  have hkm : sigKindOf mm = .other := by
    rcases hmm with rfl | ⟨x, rfl⟩
    · decide
    · exact kind_MM x
  rw [k1, k2, k3, hmeter', hkm, not_empty_of_last hmeter', c7, Option.getD_some, kind_time] at e
  have hseg : segTok num off p s (!false) (SigKind.time (timeSigToken [(n, d)])) = [⟨num p s, off, .time (timeSigToken [(n, d)])⟩] := rfl
  rw [hseg] at e
  simp only [← List.append_assoc] at e
  rw [List.append_assoc, List.append_assoc, List.singleton_append] at e
  rw [time_signature_inserted_partial _ _ _ _ _ _ _ _ e]
  · have hl : lastMet (segTok num off p s (!false && lastMeterSymbol events) (sigKindOf ((lastTok (events.foldl zStep {}).symbols p s).getD ['*'])) ++ segTok num off p s b .other) =
        if lastMeterSymbol events then meterSigToken m else none := by
      have hso : (segTok num off p s b .other).filterMap metSymbol = [] := by cases b <;> rfl
      unfold lastMet
      rw [List.filterMap_append, hso, List.append_nil, hsym]
      cases lastMeterSymbol events with
      | false => rfl
      | true => cases m <;> rfl
    rw [hl]
    unfold readTimeObj
    rw [time_signature_round_trip_partial n d hd]
    cases lastMeterSymbol events with
    | false => rfl
    | true =>
      simp only [if_true]
      rw [meter_symbol_round_trip]
  · intro t ht
    simp only [List.mem_append] at ht
    rcases ht with (((ht | ht) | ht) | ht) | ht
    · rw [seg_mem ht]; rfl
    · rw [seg_mem ht]; rfl
    · rw [seg_mem ht]; rfl
    · rw [seg_mem ht]
      rcases k4 with h | ⟨x, h⟩
      · simp only [isTimeTok, h]
      · simp only [isTimeTok, h]
    · rw [seg_mem ht]
      rcases k5 with h | ⟨x, h⟩
      · simp only [isTimeTok, h]
      · simp only [isTimeTok, h]
  · intro t ht
    simp only [List.mem_append] at ht
    obtain ⟨_, _, _, _, _, _, k7⟩ := moment_kinds events p s hk
    rcases ht with ht | ht
    · rw [seg_mem ht]
      rcases k7 with h | ⟨x, h⟩
      · simp only [isTimeTok, h]
      · simp only [isTimeTok, h]
    · rw [seg_mem ht]; rfl

/-- What the importer makes of the only key signature of a staff. -/
theorem key_object {num : Nat → Nat → Nat} {counts : List Nat} (hnum : StaffNumbers num counts) (off time : Rat) (p s : Nat) (hp : p < counts.length)
    (hs : s < counts.getD p 0) (tempoLayout mm : Str) (hmm : mm = [] ∨ ∃ x, mm = "*MM".toList ++ x) (events : List ZEvent) (lines : List ZLine)
    (h : zeroLines counts time tempoLayout mm events = .ok lines)
    (n : Int) (k : Option M21Key) (hv : ∀ k', k = some k' → k'.Valid) (hm : keysAt events p s = [(n, k)]) (t : Str) (ht : keySigToken n = .ok t) :
    keyObjs (sigInserted readTimeObj readKeyObj (writtenLines num counts off lines) (num p s)) =
      ((readKeyObj t (if lastKeyNamed events then k.map keyDesignationToken else none)).map (fun v => (off, v))).toList := by
  have hk : ∀ x ∈ keysAt events p s, ∀ k, x.2 = some k → k.Valid := by
    intro x hx k' hk'
    rw [hm] at hx
    simp only [List.mem_cons, List.not_mem_nil, or_false] at hx
    subst hx
    exact hv k' hk'
  obtain ⟨b, e⟩ := staffToks_moment hnum off time p s hp hs tempoLayout mm events lines h
  obtain ⟨k1, k2, k3, _, k5, k6, k7⟩ := moment_kinds events p s hk
  obtain ⟨c1, c2, _, _, _, c6, _⟩ := collected events
  simp only at e
  have hkey := c1 p s
  have hname := c2 p s
  rw [hm] at hkey hname
  have hkey' : lastTok (events.foldl zStep {}).keys p s = some t := by rw [hkey]; simp [ht, Except.toOption]
  have hkm : sigKindOf mm = .other := by
    rcases hmm with rfl | ⟨x, rfl⟩
    · decide
    · exact kind_MM x
  rw [k1, k2, k3, hkey', hkm, not_empty_of_last hkey', c6, Option.getD_some, kind_key n t ht] at e
  have hseg : segTok num off p s (!false) (SigKind.key t) = [⟨num p s, off, .key t⟩] := rfl
  rw [hseg] at e
  have e' := e
  simp only [← List.append_assoc] at e
  rw [List.append_assoc, List.append_assoc, List.append_assoc, List.append_assoc, List.singleton_append] at e
  have hlast : lastName (staffToks (writtenLines num counts off lines) (num p s)) = if lastKeyNamed events then k.map keyDesignationToken else none := by
    rw [e']
    have other : ∀ bb, (segTok num off p s bb .other).filterMap keyName = [] := by intro bb; cases bb <;> rfl
    have h6 : ∀ bb, (segTok num off p s bb (sigKindOf ((lastTok (events.foldl zStep {}).meters p s).getD ['*']))).filterMap keyName = [] := by
      intro bb
      rcases k6 with h | ⟨x, h⟩ <;> rw [h] <;> cases bb <;> rfl
    have h7 : ∀ bb, (segTok num off p s bb (sigKindOf ((lastTok (events.foldl zStep {}).symbols p s).getD ['*']))).filterMap keyName = [] := by
      intro bb
      rcases k7 with h | ⟨x, h⟩ <;> rw [h] <;> cases bb <;> rfl
    unfold lastName
    simp only [List.filterMap_append, other, h6, h7, List.append_nil, List.nil_append]
    show (_ ++ List.filterMap keyName _).getLast? = _
    rw [show List.filterMap keyName [(⟨num p s, off, .key t⟩ : SigTok)] = [] from rfl, List.nil_append, hname]
    cases lastKeyNamed events with
    | false => rfl
    | true =>
      cases k with
      | none => rfl
      | some k' =>
        have := kind_name k' (hv k' rfl)
        simp [segTok, keyName, this]
  rw [key_signature_inserted_partial _ _ _ _ _ _ _ _ e, hlast]
  · intro x hx
    simp only [List.mem_append] at hx
    rcases hx with hx | hx | hx | hx
    · rw [seg_mem hx]
      rcases k5 with h | ⟨y, h⟩ <;> simp only [isKeyTok, h]
    · rw [seg_mem hx]
      rcases k6 with h | ⟨y, h⟩ <;> simp only [isKeyTok, h]
    · rw [seg_mem hx]
      rcases k7 with h | ⟨y, h⟩ <;> simp only [isKeyTok, h]
    · rw [seg_mem hx]; rfl

/-- C117. A key of a staff, the only one there at that moment, is in that staff's measure after export and import, if the last key signature written
at that moment, on whatever staff, is a key too. -/
theorem keys_round_trip_partial {num : Nat → Nat → Nat} {counts : List Nat} (hnum : StaffNumbers num counts) (off time : Rat) (p s : Nat) (hp : p < counts.length)
    (hs : s < counts.getD p 0) (tempoLayout mm : Str) (hmm : mm = [] ∨ ∃ x, mm = "*MM".toList ++ x) (events : List ZEvent) (lines : List ZLine)
    (h : zeroLines counts time tempoLayout mm events = .ok lines) (k : M21Key) (hv : k.Valid) (hr : -14 ≤ k.sharps ∧ k.sharps ≤ 14)
    (hm : keysAt events p s = [(k.sharps, some k)]) (hn : lastKeyNamed events = true) :
    keyObjs (sigInserted readTimeObj readKeyObj (writtenLines num counts off lines) (num p s)) = [(off, .key k)] := by
  obtain ⟨t, ht, hread⟩ := key_roundtrip k hv hr
  rw [key_object hnum off time p s hp hs tempoLayout mm hmm events lines h k.sharps (some k) (by intro k' e; cases e; exact hv) hm t ht, hn]
  simp [readKeyObj, hread]

/-- C117. A key signature without a key is read as itself, up to seven sharps or flats. -/
theorem key_signatures_round_trip_partial {num : Nat → Nat → Nat} {counts : List Nat} (hnum : StaffNumbers num counts) (off time : Rat) (p s : Nat) (hp : p < counts.length)
    (hs : s < counts.getD p 0) (tempoLayout mm : Str) (hmm : mm = [] ∨ ∃ x, mm = "*MM".toList ++ x) (events : List ZEvent) (lines : List ZLine)
    (h : zeroLines counts time tempoLayout mm events = .ok lines) (n : Int) (hr : -7 ≤ n ∧ n ≤ 7) (hm : keysAt events p s = [(n, none)]) :
    keyObjs (sigInserted readTimeObj readKeyObj (writtenLines num counts off lines) (num p s)) = [(off, .sharps n)] := by
  obtain ⟨t, ht, hread⟩ := signature_roundtrip_partial n hr
  rw [key_object hnum off time p s hp hs tempoLayout mm hmm events lines h n none (by simp) hm t ht]
  cases lastKeyNamed events <;> simp [readKeyObj, hread]

/-- C117 fails: if the last key signature of the moment is no key, the keys of all other staves are read as mere key signatures. -/
theorem key_name_lost {num : Nat → Nat → Nat} {counts : List Nat} (hnum : StaffNumbers num counts) (off time : Rat) (p s : Nat) (hp : p < counts.length)
    (hs : s < counts.getD p 0) (tempoLayout mm : Str) (hmm : mm = [] ∨ ∃ x, mm = "*MM".toList ++ x) (events : List ZEvent) (lines : List ZLine)
    (h : zeroLines counts time tempoLayout mm events = .ok lines) (k : M21Key) (hv : k.Valid) (hr : -7 ≤ k.sharps ∧ k.sharps ≤ 7)
    (hm : keysAt events p s = [(k.sharps, some k)]) (hn : lastKeyNamed events = false) :
    keyObjs (sigInserted readTimeObj readKeyObj (writtenLines num counts off lines) (num p s)) = [(off, .sharps k.sharps)] := by
  obtain ⟨t, ht, hread⟩ := signature_roundtrip_partial k.sharps hr
  rw [key_object hnum off time p s hp hs tempoLayout mm hmm events lines h k.sharps (some k) (by intro k' e; cases e; exact hv) hm t ht, hn]
  simp [readKeyObj, hread]

/-- C117. A staff without a time signature at that moment gets none. -/
theorem no_time_signature_appears {num : Nat → Nat → Nat} {counts : List Nat} (hnum : StaffNumbers num counts) (off time : Rat) (p s : Nat) (hp : p < counts.length)
    (hs : s < counts.getD p 0) (tempoLayout mm : Str) (hmm : mm = [] ∨ ∃ x, mm = "*MM".toList ++ x) (events : List ZEvent) (lines : List ZLine)
    (h : zeroLines counts time tempoLayout mm events = .ok lines) (hk : ∀ x ∈ keysAt events p s, ∀ k, x.2 = some k → k.Valid) (hm : metersAt events p s = []) :
    timeObjs (sigInserted readTimeObj readKeyObj (writtenLines num counts off lines) (num p s)) = [] := by
  obtain ⟨b, e⟩ := staffToks_moment hnum off time p s hp hs tempoLayout mm events lines h
  obtain ⟨k1, k2, k3, k4, k5, _, k7⟩ := moment_kinds events p s hk
  obtain ⟨_, _, c3, _, _, _, _⟩ := collected events
  have hmeter := c3 p s
  rw [hm] at hmeter
  have hkm : sigKindOf mm = .other := by
    rcases hmm with rfl | ⟨x, rfl⟩
    · decide
    · exact kind_MM x
  have hstar : sigKindOf ((none : Option Str).getD ['*']) = .other := kind_star
  simp only at e
  have hmeter' : lastTok (events.foldl zStep {}).meters p s = none := hmeter
  rw [k1, k2, k3, hkm, hmeter', hstar] at e
  apply no_time_signature_inserted
  intro t ht
  rw [e] at ht
  simp only [List.mem_append] at ht
  rcases ht with ht | ht | ht | ht | ht | ht | ht | ht <;> rw [seg_mem ht]
  · rfl
  · rfl
  · rfl
  · rcases k4 with h | ⟨x, h⟩ <;> simp only [isTimeTok, h]
  · rcases k5 with h | ⟨x, h⟩ <;> simp only [isTimeTok, h]
  · rfl
  · rcases k7 with h | ⟨x, h⟩ <;> simp only [isTimeTok, h]
  · rfl

/-- C117. A staff without a key signature at that moment gets none. -/
theorem no_key_signature_appears {num : Nat → Nat → Nat} {counts : List Nat} (hnum : StaffNumbers num counts) (off time : Rat) (p s : Nat) (hp : p < counts.length)
    (hs : s < counts.getD p 0) (tempoLayout mm : Str) (hmm : mm = [] ∨ ∃ x, mm = "*MM".toList ++ x) (events : List ZEvent) (lines : List ZLine)
    (h : zeroLines counts time tempoLayout mm events = .ok lines) (hm : keysAt events p s = []) :
    keyObjs (sigInserted readTimeObj readKeyObj (writtenLines num counts off lines) (num p s)) = [] := by
  obtain ⟨b, e⟩ := staffToks_moment hnum off time p s hp hs tempoLayout mm events lines h
  obtain ⟨k1, k2, k3, _, k5, k6, k7⟩ := moment_kinds events p s (by rw [hm]; simp)
  obtain ⟨c1, _, _, _, _, _, _⟩ := collected events
  have hkey := c1 p s
  rw [hm] at hkey
  have hkm : sigKindOf mm = .other := by
    rcases hmm with rfl | ⟨x, rfl⟩
    · decide
    · exact kind_MM x
  have hstar : sigKindOf ((none : Option Str).getD ['*']) = .other := kind_star
  simp only at e
  have hkey' : lastTok (events.foldl zStep {}).keys p s = none := hkey
  rw [k1, k2, k3, hkm, hkey', hstar] at e
  apply no_key_signature_inserted
  intro t ht
  rw [e] at ht
  simp only [List.mem_append] at ht
  rcases ht with ht | ht | ht | ht | ht | ht | ht | ht <;> rw [seg_mem ht]
  · rfl
  · rfl
  · rfl
  · rfl
  · rcases k5 with h | ⟨x, h⟩ <;> simp only [isKeyTok, h]
  · rcases k6 with h | ⟨x, h⟩ <;> simp only [isKeyTok, h]
  · rcases k7 with h | ⟨x, h⟩ <;> simp only [isKeyTok, h]
  · rfl

/-! ### Clefs -/

theorem mem_lineIf {b : Bool} {x : Except PyErr GSlice} {l : List ZLine} {sl : GSlice} (h : lineIf b x = .ok l) (hm : ZLine.tokens sl ∈ l) :
    b = true ∧ x = .ok sl := by
  unfold lineIf at h
  cases b with
  | false => simp at h; subst h; simp at hm
  | true =>
    simp only [if_true] at h
    cases x with
    | error e => simp [Except.map] at h
    | ok s =>
      simp only [Except.map, Except.ok.injEq] at h
      subst h
      simp only [List.mem_cons, ZLine.tokens.injEq, List.not_mem_nil, or_false] at hm
      rw [hm]
      exact ⟨rfl, rfl⟩

theorem sigSlice_kind {counts : List Nat} {time : Rat} {kind : SliceKind} {always : Bool} {es : ZEntries} {sl : GSlice}
    (h : sigSlice counts time kind always es = .ok sl) : sl.kind = kind ∧ sl.time = time := by
  unfold sigSlice at h
  cases h1 : sigParts always es 0 (newSlice time kind counts).parts with
  | error x => rw [h1] at h; simp [Except.map] at h
  | ok ps =>
    rw [h1] at h
    simp only [Except.map, Except.ok.injEq] at h
    subst h
    exact ⟨rfl, rfl⟩

/-- The steps of a successful call. -/
theorem zeroLines_steps {counts : List Nat} {time : Rat} {tempoLayout mm : Str} {events : List ZEvent} {lines : List ZLine}
    (h : zeroLines counts time tempoLayout mm events = .ok lines) :
    let a := events.foldl zStep {}
    ∃ l1 l2 l3 l4 l5 l7 l8 l9,
      lineIf (!a.strias.isEmpty) (sigSlice counts time .stria true a.strias) = .ok l1 ∧
      lineIf (!a.clefs.isEmpty) (sigSlice counts time .clefs false a.clefs) = .ok l2 ∧
      lineIf (!a.transps.isEmpty) (sigSlice counts time .keySigs false a.transps) = .ok l3 ∧
      lineIf (!a.keys.isEmpty) (sigSlice counts time .keySigs false a.keys) = .ok l4 ∧
      lineIf (!a.keys.isEmpty && a.named) (sigSlice counts time .keyDesignations false a.names) = .ok l5 ∧
      lineIf (!a.meters.isEmpty) (sigSlice counts time .timeSigs false a.meters) = .ok l7 ∧
      lineIf (!a.meters.isEmpty && a.symbol) (sigSlice counts time .meterSigs false a.symbols) = .ok l8 ∧
      lineIf (!a.meters.isEmpty && (mm ≠ [] && time = 0)) (.ok (tempoSlice counts time mm)) = .ok l9 ∧
      lines = (if a.before = [] then [] else [.graces a.before]) ++ (l1 ++ l2 ++ l3 ++ l4 ++ l5 ++
        (if !a.meters.isEmpty && (tempoLayout ≠ [] && time = 0) then [.comment tempoLayout] else []) ++ l7 ++ l8 ++ l9) ++
        (if a.after = [] then [] else [.graces a.after]) := by
  intro a
  obtain ⟨ls, e1, e2⟩ := seqLines_ok _ _ h
  unfold zeroSteps at e1
  obtain ⟨l0, r0, rfl, h0, e1⟩ := List.map_eq_cons_iff.1 e1.symm
  obtain ⟨l1, r1, rfl, h1, e1⟩ := List.map_eq_cons_iff.1 e1
  obtain ⟨l2, r2, rfl, h2, e1⟩ := List.map_eq_cons_iff.1 e1
  obtain ⟨l3, r3, rfl, h3, e1⟩ := List.map_eq_cons_iff.1 e1
  obtain ⟨l4, r4, rfl, h4, e1⟩ := List.map_eq_cons_iff.1 e1
  obtain ⟨l5, r5, rfl, h5, e1⟩ := List.map_eq_cons_iff.1 e1
  obtain ⟨l6, r6, rfl, h6, e1⟩ := List.map_eq_cons_iff.1 e1
  obtain ⟨l7, r7, rfl, h7, e1⟩ := List.map_eq_cons_iff.1 e1
  obtain ⟨l8, r8, rfl, h8, e1⟩ := List.map_eq_cons_iff.1 e1
  obtain ⟨l9, r9, rfl, h9, e1⟩ := List.map_eq_cons_iff.1 e1
  obtain ⟨l10, r10, rfl, h10, e1⟩ := List.map_eq_cons_iff.1 e1
  rw [List.map_eq_nil_iff] at e1
  subst e1
  refine ⟨l1, l2, l3, l4, l5, l7, l8, l9, h1.symm, h2.symm, h3.symm, h4.symm, h5.symm, h7.symm, h8.symm, h9.symm, ?_⟩
  rw [Except.ok.injEq] at h0 h6 h10
  rw [e2, ← h0, ← h6, ← h10]
  simp [List.flatten]

/-- C117. The clef line has on every staff the last clef of the staff that has a token, or `*`. -/
theorem clef_line (counts : List Nat) (time : Rat) (tempoLayout mm : Str) (events : List ZEvent) (lines : List ZLine)
    (h : zeroLines counts time tempoLayout mm events = .ok lines) (sl : GSlice) (hsl : ZLine.tokens sl ∈ lines) (hk : sl.kind = .clefs)
    (p s : Nat) (hp : p < counts.length) (hs : s < counts.getD p 0) :
    sigCell sl p s = (((clefsAt events p s).filterMap clefToken).getLast?).getD ['*'] := by
  obtain ⟨l1, l2, l3, l4, l5, l7, l8, l9, h1, h2, h3, h4, h5, h7, h8, h9, e⟩ := zeroLines_steps h
  obtain ⟨_, _, _, _, c5, _, _⟩ := collected events
  rw [e] at hsl
  simp only [List.mem_append] at hsl
  have no : ∀ {b kind always es l}, lineIf b (sigSlice counts time kind always es) = .ok l → ZLine.tokens sl ∈ l → kind = .clefs := by
    intro b kind always es l hl hm
    rw [← (sigSlice_kind (mem_lineIf hl hm).2).1, hk]
  have noG : ∀ (x : List ZEvent), ZLine.tokens sl ∈ (if x = [] then ([] : List ZLine) else [.graces x]) → False := by
    intro x hx
    split at hx <;> simp at hx
  rcases hsl with (hx | ((((((((hx | hx) | hx) | hx) | hx) | hx) | hx) | hx) | hx)) | hx
  · exact (noG _ hx).elim
  · exact absurd (no h1 hx) (by decide)
  · rw [sigSlice_cell (mem_lineIf h2 hx).2 p s hp hs, c5 p s]
  · exact absurd (no h3 hx) (by decide)
  · exact absurd (no h4 hx) (by decide)
  · exact absurd (no h5 hx) (by decide)
  · split at hx <;> simp at hx
  · exact absurd (no h7 hx) (by decide)
  · exact absurd (no h8 hx) (by decide)
  · have := (mem_lineIf h9 hx).2
    rw [Except.ok.injEq] at this
    rw [← this] at hk
    exact absurd hk (by simp [tempoSlice])
  · exact (noG _ hx).elim

theorem clefs_nonempty {events : List ZEvent} {p s : Nat} {c : HClef} {t : Str} (h : (clefsAt events p s).getLast? = some c) (ht : clefToken c = some t) :
    lastTok (events.foldl zStep {}).clefs p s = some t := by
  obtain ⟨_, _, _, _, c5, _, _⟩ := collected events
  rw [c5 p s]
  obtain ⟨l, hl⟩ := List.getLast?_eq_some_iff.1 h
  rw [hl, List.filterMap_append]
  simp [ht]

/-- C117. The last clef of a staff at a moment, if it can be written, is in one line. -/
theorem clef_written (counts : List Nat) (time : Rat) (tempoLayout mm : Str) (events : List ZEvent) (lines : List ZLine)
    (h : zeroLines counts time tempoLayout mm events = .ok lines) (p s : Nat) (hp : p < counts.length) (hs : s < counts.getD p 0)
    (c : HClef) (hc : (clefsAt events p s).getLast? = some c) (t : Str) (ht : clefToken c = some t) :
    ∃ sl, ZLine.tokens sl ∈ lines ∧ sl.kind = .clefs ∧ sl.time = time ∧ sigCell sl p s = t := by
  have hl := clefs_nonempty hc ht
  obtain ⟨l1, l2, l3, l4, l5, l7, l8, l9, h1, h2, h3, h4, h5, h7, h8, h9, e⟩ := zeroLines_steps h
  rw [not_empty_of_last hl] at h2
  unfold lineIf at h2
  simp only [Bool.not_false, if_true] at h2
  cases hs2 : sigSlice counts time .clefs false (events.foldl zStep {}).clefs with
  | error x => rw [hs2] at h2; simp [Except.map] at h2
  | ok sl =>
    rw [hs2] at h2
    simp only [Except.map, Except.ok.injEq] at h2
    refine ⟨sl, ?_, (sigSlice_kind hs2).1, (sigSlice_kind hs2).2, ?_⟩
    · rw [e, ← h2]
      simp
    · rw [sigSlice_cell hs2 p s hp hs, hl]
      rfl

/-! ### Grace notes -/

/-- An event that makes a line of signatures. -/
def isSigObj : ZObj → Bool
  | .grace _ => false
  | .other => false
  | _ => true

/-- A grace note. -/
def isGraceObj : ZObj → Bool
  | .grace _ => true
  | _ => false

theorem graces_fold (events : List ZEvent) : ∀ (a : ZAcc),
    ((events.foldl zStep a).before = a.before ++ if a.found then [] else (events.takeWhile (fun e => !isSigObj e.obj)).filter (fun e => isGraceObj e.obj)) ∧
    ((events.foldl zStep a).after = a.after ++ (if a.found then events else events.dropWhile (fun e => !isSigObj e.obj)).filter (fun e => isGraceObj e.obj)) := by
  induction events with
  | nil => intro a; cases a.found <;> simp
  | cons e es ih =>
    intro a
    rw [List.foldl_cons, (ih _).1, (ih _).2]
    unfold zStep
    cases ho : e.obj <;> cases hf : a.found <;> simp [ho, hf, isSigObj, isGraceObj, List.takeWhile_cons, List.dropWhile_cons]

/-- C117. No grace note is lost or doubled: those before the first signature come before all lines, the others after them, each in order. -/
theorem graces_around (counts : List Nat) (time : Rat) (tempoLayout mm : Str) (events : List ZEvent) (lines : List ZLine)
    (h : zeroLines counts time tempoLayout mm events = .ok lines) :
    ∃ front mid back, lines = front ++ mid ++ back ∧ (∀ l ∈ mid, ∀ es, l ≠ ZLine.graces es) ∧
      front = (if (events.takeWhile (fun e => !isSigObj e.obj)).filter (fun e => isGraceObj e.obj) = [] then []
        else [.graces ((events.takeWhile (fun e => !isSigObj e.obj)).filter (fun e => isGraceObj e.obj))]) ∧
      back = (if (events.dropWhile (fun e => !isSigObj e.obj)).filter (fun e => isGraceObj e.obj) = [] then []
        else [.graces ((events.dropWhile (fun e => !isSigObj e.obj)).filter (fun e => isGraceObj e.obj))]) := by
  obtain ⟨l1, l2, l3, l4, l5, l7, l8, l9, h1, h2, h3, h4, h5, h7, h8, h9, e⟩ := zeroLines_steps h
  have hb : (events.foldl zStep {}).before = (events.takeWhile (fun e => !isSigObj e.obj)).filter (fun e => isGraceObj e.obj) := (graces_fold events {}).1
  have ha : (events.foldl zStep {}).after = (events.dropWhile (fun e => !isSigObj e.obj)).filter (fun e => isGraceObj e.obj) := (graces_fold events {}).2
  rw [hb, ha] at e
  have no : ∀ {b x l}, lineIf b x = .ok l → ∀ y ∈ l, ∀ es, y ≠ ZLine.graces es := by
    intro b x l hl y hy es
    unfold lineIf at hl
    cases b with
    | false => simp at hl; subst hl; simp at hy
    | true =>
      cases x with
      | error e => simp [Except.map] at hl
      | ok s => simp only [if_true, Except.map, Except.ok.injEq] at hl; subst hl; simp at hy; rw [hy]; simp
  refine ⟨_, _, _, e, ?_, rfl, rfl⟩
  intro l hl es
  simp only [List.mem_append] at hl
  rcases hl with (((((((hx | hx) | hx) | hx) | hx) | hx) | hx) | hx) | hx
  · exact no h1 l hx es
  · exact no h2 l hx es
  · exact no h3 l hx es
  · exact no h4 l hx es
  · exact no h5 l hx es
  · split at hx <;> simp at hx
    rw [hx]; simp
  · exact no h7 l hx es
  · exact no h8 l hx es
  · exact no h9 l hx es

/-! ### Success -/

theorem putSigs_ok (es : ZEntries) : ∀ (q : GPart), OneVoice q → (∀ e ∈ es, e.2.1 < q.staves.length ∧ ∃ o, e.2.2 = .ok o) → ∃ q', putSigs q es = .ok q' := by
  induction es with
  | nil => intro q _ _; exact ⟨q, rfl⟩
  | cons e es ih =>
    intro q h1 h
    obtain ⟨hlt, o, ho⟩ := h e (List.mem_cons_self ..)
    have hput : ∃ q1, putSig q e.2.1 e.2.2 = .ok q1 := by
      rw [ho]
      cases o with
      | none => exact ⟨q, rfl⟩
      | some t =>
        unfold putSig
        rw [List.getElem?_eq_getElem hlt]
        obtain ⟨c, hc⟩ := h1 _ (List.getElem_mem hlt)
        have hset : (q.staves[e.2.1]).setTokenLayer 0 t = .ok { q.staves[e.2.1] with voices := [.tok t] } := by
          unfold GStaff.setTokenLayer growTo
          rw [if_neg (by decide), hc]
          rfl
        simp only [hset]
        exact ⟨_, rfl⟩
    obtain ⟨q1, hq1⟩ := hput
    obtain ⟨b1, b2, _⟩ := putSig_spec h1 hq1
    obtain ⟨q2, hq2⟩ := ih q1 b1 (fun x hx => by rw [b2]; exact h x (List.mem_cons_of_mem _ hx))
    exact ⟨q2, by rw [putSigs, hq1]; exact hq2⟩

theorem sigParts_ok (always : Bool) (es : ZEntries) (counts : List Nat) (k : Nat)
    (h : ∀ e ∈ es, ∀ i, e.1 = k + i → i < counts.length → e.2.1 < counts.getD i 0) (hok : ∀ e ∈ es, ∃ o, e.2.2 = .ok o) :
    ∃ ps, sigParts always es k (counts.map (fun n => ({ staves := List.replicate n { voices := [.empty] } } : GPart))) = .ok ps := by
  induction counts generalizing k with
  | nil => exact ⟨[], rfl⟩
  | cons n counts ih =>
    obtain ⟨rest, hrest⟩ := ih (k + 1) (fun e he i hi hlt => by
      have := h e he (i + 1) (by omega) (by simpa using hlt)
      simpa using this)
    have hq : ∃ q, sigPart always es k { staves := List.replicate n { voices := [.empty] } } = .ok q := by
      unfold sigPart
      simp only
      split
      · exact ⟨_, rfl⟩
      · obtain ⟨q, hq⟩ := putSigs_ok (es.filter (fun e => e.1 = k)) { staves := List.replicate n { voices := [.empty] } }
          (by intro st hst; rw [(List.mem_replicate.1 hst).2]; exact ⟨_, rfl⟩)
          (by
            intro e he
            obtain ⟨he1, he2⟩ := List.mem_filter.1 he
            refine ⟨?_, hok e he1⟩
            have := h e he1 0 (by simpa using he2) (by simp)
            simpa using this)
        rw [hq]
        exact ⟨_, rfl⟩
    obtain ⟨q, hq⟩ := hq
    rw [List.map_cons, sigParts, hq, hrest]
    exact ⟨_, rfl⟩

/-- All entries are for staves of the score, and their texts can be made. -/
def EntriesOk (counts : List Nat) (es : ZEntries) : Prop := ∀ e ∈ es, e.2.1 < counts.getD e.1 0 ∧ ∃ o, e.2.2 = .ok o

theorem sigSlice_ok {counts : List Nat} {es : ZEntries} (h : EntriesOk counts es) (time : Rat) (kind : SliceKind) (always : Bool) (b : Bool) :
    ∃ l, lineIf b (sigSlice counts time kind always es) = .ok l := by
  obtain ⟨ps, hps⟩ := sigParts_ok always es counts 0 (fun e he i hi _ => by
    have := (h e he).1
    rw [hi, Nat.zero_add] at this
    exact this) (fun e he => (h e he).2)
  unfold lineIf sigSlice newSlice
  simp only
  rw [hps]
  cases b <;> exact ⟨_, rfl⟩

/-- C117. The lines are written: for all events on staves of the score whose key signatures have at most fourteen sharps or flats. -/
theorem signature_lines_written (counts : List Nat) (time : Rat) (tempoLayout mm : Str) (events : List ZEvent)
    (hin : ∀ e ∈ events, e.staff < counts.getD e.part 0) (hkey : ∀ e ∈ events, ∀ n k, e.obj = .key n k → -14 ≤ n ∧ n ≤ 14) :
    ∃ lines, zeroLines counts time tempoLayout mm events = .ok lines := by
  have entries : ∀ (f : ZAcc → ZEntries) (g : ZEvent → ZEntries), (∀ a e, f (zStep a e) = f a ++ g e) → f {} = [] →
      (∀ e ∈ events, ∀ x ∈ g e, x.1 = e.part ∧ x.2.1 = e.staff ∧ ∃ o, x.2.2 = .ok o) → EntriesOk counts (f (events.foldl zStep {})) := by
    intro f g hstep h0 hg x hx
    rw [fold_append f g hstep events {}, h0, List.nil_append, List.mem_flatMap] at hx
    obtain ⟨e, he, hxe⟩ := hx
    obtain ⟨a1, a2, a3⟩ := hg e he x hxe
    rw [a1, a2]
    exact ⟨hin e he, a3⟩
  have b1 := entries ZAcc.keys _ (fun a e => (zStep_cases a e).1) rfl (by
    intro e he x hx
    split at hx
    · rename_i n k ho
      obtain ⟨t, ht, _⟩ := signature_text_right n (hkey e he n k ho)
      simp only [List.mem_cons, List.not_mem_nil, or_false] at hx
      subst hx
      refine ⟨rfl, rfl, ?_⟩
      rw [ht]
      exact ⟨_, rfl⟩
    · simp at hx)
  have b2 := entries ZAcc.names _ (fun a e => (zStep_cases a e).2.1) rfl (by
    intro e he x hx; split at hx <;> simp at hx; subst hx; exact ⟨rfl, rfl, _, rfl⟩)
  have b3 := entries ZAcc.meters _ (fun a e => (zStep_cases a e).2.2.1) rfl (by
    intro e he x hx; split at hx <;> simp at hx; subst hx; exact ⟨rfl, rfl, _, rfl⟩)
  have b4 := entries ZAcc.symbols _ (fun a e => (zStep_cases a e).2.2.2.1) rfl (by
    intro e he x hx; split at hx <;> simp at hx; subst hx; exact ⟨rfl, rfl, _, rfl⟩)
  have b5 := entries ZAcc.clefs _ (fun a e => (zStep_cases a e).2.2.2.2.1) rfl (by
    intro e he x hx; split at hx <;> simp at hx; subst hx; exact ⟨rfl, rfl, _, rfl⟩)
  have b6 := entries ZAcc.transps _ (fun a e => (zStep_cases a e).2.2.2.2.2.1) rfl (by
    intro e he x hx; split at hx <;> simp at hx; subst hx; exact ⟨rfl, rfl, _, rfl⟩)
  have b7 := entries ZAcc.strias _ (fun a e => (zStep_cases a e).2.2.2.2.2.2.1) rfl (by
    intro e he x hx; split at hx <;> simp at hx; subst hx; exact ⟨rfl, rfl, _, rfl⟩)
  have seq : ∀ (xs : List (Except PyErr (List ZLine))), (∀ x ∈ xs, ∃ l, x = .ok l) → ∃ l, seqLines xs = .ok l := by
    intro xs
    induction xs with
    | nil => intro _; exact ⟨[], rfl⟩
    | cons x xs ih =>
      intro hx
      obtain ⟨l, rfl⟩ := hx x (List.mem_cons_self ..)
      obtain ⟨r, hr⟩ := ih (fun y hy => hx y (List.mem_cons_of_mem _ hy))
      rw [seqLines, hr]
      exact ⟨_, rfl⟩
  apply seq
  intro x hx
  unfold zeroSteps at hx
  simp only [List.mem_cons, List.not_mem_nil, or_false] at hx
  rcases hx with rfl | rfl | rfl | rfl | rfl | rfl | rfl | rfl | rfl | rfl | rfl
  · exact ⟨_, rfl⟩
  · exact sigSlice_ok b7 _ _ _ _
  · exact sigSlice_ok b5 _ _ _ _
  · exact sigSlice_ok b6 _ _ _ _
  · exact sigSlice_ok b1 _ _ _ _
  · exact sigSlice_ok b2 _ _ _ _
  · exact ⟨_, rfl⟩
  · exact sigSlice_ok b3 _ _ _ _
  · exact sigSlice_ok b4 _ _ _ _
  · unfold lineIf
    split <;> exact ⟨_, rfl⟩
  · exact ⟨_, rfl⟩

/-! ### Cases -/

/-- Two parts, the second with two staves: a treble clef, a bass clef, a C clef, G major in part one, G major and a signature of two flats in part two,
and a common time. -/
def momentExample : List ZEvent :=
  [⟨0, 0, 0, .grace 7⟩, ⟨0, 0, 0, .clef ⟨.G, none, some 2⟩⟩, ⟨0, 0, 0, .key 1 (some ⟨'G', 0, .major⟩)⟩, ⟨0, 0, 0, .meter [(4, 4)] .common⟩,
   ⟨1, 1, 0, .clef ⟨.F, none, some 4⟩⟩, ⟨0, 0, 0, .grace 8⟩, ⟨1, 1, 0, .key (-2) none⟩, ⟨1, 1, 0, .meter [(3, 4)] .plain⟩]

/-- The staff numbers of the example, counted from the bottom. -/
def exampleNum (p s : Nat) : Nat := if p = 0 then 3 else 2 - s

/-- The lines of the example. -/
def exampleLines : List ZLine := ((zeroLines [1, 2] 0 [] "*MM80".toList momentExample).toOption).getD []

example : zeroLines [1, 2] 0 [] "*MM80".toList momentExample = .ok exampleLines ∧ exampleLines.length = 6 := by
  have h : (zeroLines [1, 2] 0 [] "*MM80".toList momentExample).toOption = some exampleLines ∧ exampleLines.length = 6 := by decide +kernel
  refine ⟨?_, h.2⟩
  cases e : zeroLines [1, 2] 0 [] "*MM80".toList momentExample with
  | error x => have := h.1; rw [e] at this; cases this
  | ok l => have := h.1; rw [e] at this; simp only [Except.toOption, Option.some.injEq] at this; rw [this]

example : StaffNumbers exampleNum [1, 2] := by
  intro p s p' s' hp hs hp' hs' h
  match p, p', hp, hp' with
  | 0, 0, _, _ => simp at hs hs'; omega
  | 0, 1, _, _ => simp [exampleNum] at hs hs' h; omega
  | 1, 0, _, _ => simp [exampleNum] at hs hs' h; omega
  | 1, 1, _, _ => simp [exampleNum] at hs hs' h; omega

/-- The key of the first part has lost its name, its time signature the symbol; the staff in the middle has nothing, the other its own. -/
example :
    keyObjs (sigInserted readTimeObj readKeyObj (writtenLines exampleNum [1, 2] 0 exampleLines) 3) = [(0, .sharps 1)] ∧
    timeObjs (sigInserted readTimeObj readKeyObj (writtenLines exampleNum [1, 2] 0 exampleLines) 3) = [(0, (some (4, 4), .plain))] ∧
    keyObjs (sigInserted readTimeObj readKeyObj (writtenLines exampleNum [1, 2] 0 exampleLines) 2) = [] ∧
    keyObjs (sigInserted readTimeObj readKeyObj (writtenLines exampleNum [1, 2] 0 exampleLines) 1) = [(0, .sharps (-2))] ∧
    timeObjs (sigInserted readTimeObj readKeyObj (writtenLines exampleNum [1, 2] 0 exampleLines) 1) = [(0, (some (3, 4), .plain))] := by decide +kernel

example : keysAt momentExample 0 0 = [(1, some ⟨'G', 0, .major⟩)] ∧ (⟨'G', 0, .major⟩ : M21Key).sharps = 1 ∧ lastKeyNamed momentExample = false ∧
    metersAt momentExample 0 0 = [([(4, 4)], .common)] ∧ metersAt momentExample 1 0 = [] ∧ keysAt momentExample 1 0 = [] ∧
    (clefsAt momentExample 1 1).getLast? = some ⟨.F, none, some 4⟩ ∧ lastMeterSymbol momentExample = false ∧
    lastKeyNamed (momentExample.take 4) = true ∧ lastMeterSymbol (momentExample.take 4) = true := by decide +kernel

/-- C117 fails: the symbol of a time signature is lost if the last time signature of the moment has none. -/
theorem metersymbol_lost {num : Nat → Nat → Nat} {counts : List Nat} (hnum : StaffNumbers num counts) (off time : Rat) (p s : Nat) (hp : p < counts.length)
    (hs : s < counts.getD p 0) (tempoLayout mm : Str) (hmm : mm = [] ∨ ∃ x, mm = "*MM".toList ++ x) (events : List ZEvent) (lines : List ZLine)
    (h : zeroLines counts time tempoLayout mm events = .ok lines) (hk : ∀ x ∈ keysAt events p s, ∀ k, x.2 = some k → k.Valid)
    (n d : Nat) (hd : d ≠ 0) (m : MeterSym) (hm : metersAt events p s = [([(n, d)], m)]) (hl : lastMeterSymbol events = false) :
    timeObjs (sigInserted readTimeObj readKeyObj (writtenLines num counts off lines) (num p s)) = [(off, (some (n, d), .plain))] := by
  rw [time_signatures_round_trip_partial hnum off time p s hp hs tempoLayout mm hmm events lines h hk n d hd m hm, hl]
  rfl

end C21
