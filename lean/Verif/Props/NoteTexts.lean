import Verif.Model.NoteTexts
import Verif.Spec.NoteTexts
/-
C131: directions, dynamics and tempos attached to a note are found at the note.
-/
namespace C21

/-- Elements that write to a name at a note. -/
def writesTo (id : Str) (k : TextKind) (e : TextEl) : Prop :=
  e.startId = id ∧ attrName e.kind = k ∧ e.text ≠ [] ∧ ¬ (e.kind = .dir ∧ e.fingering = true)

instance (id : Str) (k : TextKind) (e : TextEl) : Decidable (writesTo id k e) := by unfold writesTo; infer_instance

theorem textWrites_other (id : Str) (hid : id ≠ []) (k : TextKind) (x : Option TextField) (e : TextEl) (h : ¬ writesTo id k e) :
    (textWrites e).filterMap (fun w => if w.1 = (id, k, x) then some w.2 else none) = [] := by
  rw [List.filterMap_eq_nil_iff]
  intro w hw
  unfold textWrites at hw
  by_cases h1 : e.kind = .dir ∧ e.fingering = true
  · rw [if_pos h1] at hw; cases hw
  · rw [if_neg h1] at hw
    by_cases h2 : e.startId = []
    · rw [if_pos h2] at hw; cases hw
    · rw [if_neg h2] at hw
      by_cases h3 : e.text = []
      · rw [if_pos h3] at hw; cases hw
      · rw [if_neg h3] at hw
        have hkey : ∃ y, w.1 = (e.startId, attrName e.kind, y) := by
          rcases List.mem_cons.1 hw with rfl | hw
          · exact ⟨_, rfl⟩
          · obtain ⟨f, _, hf⟩ := List.mem_filterMap.1 hw
            split at hf
            · cases hf
            · cases hf; exact ⟨_, rfl⟩
        obtain ⟨y, hy⟩ := hkey
        rw [hy, if_neg]
        intro hc
        simp only [Prod.mk.injEq] at hc
        exact h ⟨hc.1, hc.2.1, h3, h1⟩

theorem flatMap_writes (id : Str) (hid : id ≠ []) (k : TextKind) (x : Option TextField) (es : List TextEl) :
    (es.flatMap textWrites).filterMap (fun w => if w.1 = (id, k, x) then some w.2 else none) =
      (es.filter (fun e => writesTo id k e)).flatMap (fun e => (textWrites e).filterMap (fun w => if w.1 = (id, k, x) then some w.2 else none)) := by
  induction es with
  | nil => rfl
  | cons e es ih =>
    rw [List.flatMap_cons, List.filterMap_append, ih]
    by_cases h : writesTo id k e
    · rw [List.filter_cons_of_pos (by simpa using h), List.flatMap_cons]
    · rw [List.filter_cons_of_neg (by simpa using h), textWrites_other id hid k x e h, List.nil_append]

theorem own_text (id : Str) (hid : id ≠ []) (k : TextKind) (e : TextEl) (h : writesTo id k e) :
    (textWrites e).filterMap (fun w => if w.1 = (id, k, none) then some w.2 else none) = [enclosedText e] := by
  obtain ⟨h1, h2, h3, h4⟩ := h
  unfold textWrites
  rw [if_neg h4, if_neg (by rw [h1]; exact hid), if_neg h3, List.filterMap_cons]
  simp only [h1, h2, if_true]
  rw [List.filterMap_eq_nil_iff.2]
  intro w hw
  obtain ⟨f, _, hf⟩ := List.mem_filterMap.1 hw
  split at hf
  · cases hf
  · cases hf; simp

theorem own_field (id : Str) (hid : id ≠ []) (k : TextKind) (e : TextEl) (h : writesTo id k e) (f : TextField) :
    (textWrites e).filterMap (fun w => if w.1 = (id, k, some f) then some w.2 else none) = if fieldOf e f = [] then [] else [fieldOf e f] := by
  obtain ⟨h1, h2, h3, h4⟩ := h
  unfold textWrites
  rw [if_neg h4, if_neg (by rw [h1]; exact hid), if_neg h3, List.filterMap_cons]
  simp only [h1, h2, Prod.mk.injEq, reduceCtorEq, and_false, if_false]
  have key : ∀ (l : List TextField), l.Nodup → ((l.filterMap (fun f => if fieldOf e f = [] then none else some ((id, k, some f), fieldOf e f))).filterMap
      (fun w => if w.1 = (id, k, some f) then some w.2 else none)) = if f ∈ l ∧ fieldOf e f ≠ [] then [fieldOf e f] else [] := by
    intro l
    induction l with
    | nil => intro _; simp
    | cons g l ih =>
      intro hn
      rw [List.nodup_cons] at hn
      rw [List.filterMap_cons]
      by_cases hg : fieldOf e g = []
      · simp only [hg, if_true, ih hn.2]
        by_cases hfg : f = g
        · subst hfg; simp [hg]
        · simp [hfg]
      · simp only [hg, if_false, List.filterMap_cons, Prod.mk.injEq, true_and, Option.some.injEq]
        by_cases hfg : g = f
        · subst hfg
          simp only [if_true, ih hn.2]
          simp [hn.1, hg]
        · simp only [hfg, if_false, ih hn.2]
          have : ¬ f = g := fun hc => hfg hc.symm
          simp [this]
  rw [key allTextFields (by decide)]
  have hall : f ∈ allTextFields := by cases f <;> decide
  by_cases hz : fieldOf e f = [] <;> simp [hz, hall]

theorem enclosed_ne (e : TextEl) (h : e.text ≠ []) : enclosedText e ≠ [] := by
  unfold enclosedText
  split <;> simp [h]

/-- What is found for a name if one element, or none, writes to it. -/
theorem look_single (els : List TextEl) (id : Str) (hid : id ≠ []) (k : TextKind) (e : TextEl)
    (h : (els.filter (fun e => e.kind = .dir) ++ els.filter (fun e => e.kind = .dynam) ++ els.filter (fun e => e.kind = .tempo)).filter
      (fun e => writesTo id k e) = [e]) :
    lookText (ppTexts els) (id, k, none) = enclosedText e ∧ ∀ f, lookText (ppTexts els) (id, k, some f) = fieldOf e f := by
  have hw : writesTo id k e := by
    have : e ∈ [e] := by simp
    rw [← h] at this
    simpa using (List.mem_filter.1 this).2
  unfold lookText ppTexts
  constructor
  · rw [flatMap_writes id hid, h]
    simp [own_text id hid k e hw]
  · intro f
    rw [flatMap_writes id hid, h]
    simp only [List.flatMap_cons, List.flatMap_nil, List.append_nil, own_field id hid k e hw]
    by_cases hz : fieldOf e f = [] <;> simp [hz]

theorem look_none (els : List TextEl) (id : Str) (hid : id ≠ []) (k : TextKind)
    (h : (els.filter (fun e => e.kind = .dir) ++ els.filter (fun e => e.kind = .dynam) ++ els.filter (fun e => e.kind = .tempo)).filter
      (fun e => writesTo id k e) = []) : lookText (ppTexts els) (id, k, none) = [] := by
  unfold lookText ppTexts
  rw [flatMap_writes id hid, h]
  rfl

theorem filter_kind_eq (els : List TextEl) (id : Str) (k k' : TextKind) (hk : attrName k' = k) :
    (els.filter (fun e => e.kind = k')).filter (fun e => writesTo id k e) = attached els id k' := by
  rw [List.filter_filter]
  unfold attached
  apply List.filter_congr
  intro e _
  unfold writesTo
  by_cases h : e.kind = k'
  · subst h
    simp [hk]
  · simp [h]

theorem filter_kind_ne (els : List TextEl) (id : Str) (k k' : TextKind) (hk : attrName k' ≠ k) :
    (els.filter (fun e => e.kind = k')).filter (fun e => writesTo id k e) = [] := by
  rw [List.filter_filter, List.filter_eq_nil_iff]
  intro e _ hc
  simp only [Bool.and_eq_true, decide_eq_true_eq] at hc
  exact hk (hc.2 ▸ hc.1.2.1)

theorem writers_dir (els : List TextEl) (id : Str) :
    (els.filter (fun e => e.kind = .dir) ++ els.filter (fun e => e.kind = .dynam) ++ els.filter (fun e => e.kind = .tempo)).filter
      (fun e => writesTo id .dir e) = attached els id .dir := by
  rw [List.filter_append, List.filter_append, filter_kind_eq els id .dir .dir rfl, filter_kind_ne els id .dir .dynam (by decide),
    filter_kind_ne els id .dir .tempo (by decide)]
  simp

theorem writers_dynam (els : List TextEl) (id : Str) :
    (els.filter (fun e => e.kind = .dir) ++ els.filter (fun e => e.kind = .dynam) ++ els.filter (fun e => e.kind = .tempo)).filter
      (fun e => writesTo id .dynam e) = attached els id .dynam ++ attached els id .tempo := by
  rw [List.filter_append, List.filter_append, filter_kind_ne els id .dynam .dir (by decide), filter_kind_eq els id .dynam .dynam rfl,
    filter_kind_eq els id .dynam .tempo rfl]
  simp

theorem writers_tempo (els : List TextEl) (id : Str) :
    (els.filter (fun e => e.kind = .dir) ++ els.filter (fun e => e.kind = .dynam) ++ els.filter (fun e => e.kind = .tempo)).filter
      (fun e => writesTo id .tempo e) = [] := by
  rw [List.filter_append, List.filter_append, filter_kind_ne els id .tempo .dir (by decide), filter_kind_ne els id .tempo .dynam (by decide),
    filter_kind_ne els id .tempo .tempo (by decide)]
  simp

theorem attached_props (els : List TextEl) (id : Str) (k : TextKind) (e : TextEl) (h : e ∈ attached els id k) : e.kind = k ∧ e.text ≠ [] := by
  have := (List.mem_filter.1 h).2
  simp only [decide_eq_true_eq] at this
  exact ⟨this.2.1, this.2.2.1⟩

theorem read_entry (els : List TextEl) (id : Str) (hid : id ≠ []) (k : TextKind) (hk : k ≠ .tempo) (l : List TextEl)
    (hw : (els.filter (fun e => e.kind = .dir) ++ els.filter (fun e => e.kind = .dynam) ++ els.filter (fun e => e.kind = .tempo)).filter
      (fun e => writesTo id k e) = l) (hl : l.length ≤ 1) (hp : ∀ e ∈ l, e.kind = k ∧ e.text ≠ []) :
    (if lookText (ppTexts els) (id, k, none) = [] then none
      else some (⟨k, lookText (ppTexts els) (id, k, none), (fieldsRead k).map (fun f => (f, lookText (ppTexts els) (id, k, some f)))⟩ : TextRead)) =
      (l.map textAsRead).head? := by
  match l, hl with
  | [], _ =>
    rw [look_none els id hid k hw]
    rfl
  | [e], _ =>
    obtain ⟨g1, g2⟩ := look_single els id hid k e hw
    obtain ⟨g3, g4⟩ := hp e (by simp)
    rw [g1, if_neg (enclosed_ne e g4)]
    simp only [g2, List.map_cons, List.map_nil, List.head?_cons, Option.some.injEq]
    have hf : ∀ f, f ≠ .midiBPM → fieldOf e f = e.field f := by
      intro f hne
      unfold fieldOf
      simp [hne]
    have ht : enclosedText e = (textAsRead e).text := by
      unfold enclosedText textAsRead
      cases e.enclose <;> rfl
    have hkind : (textAsRead e).kind = k := g3
    have hfs : (fieldsRead k).map (fun f => (f, fieldOf e f)) = (textAsRead e).fields := by
      cases k with
      | dir => simp [fieldsRead, textAsRead, hf]
      | dynam => simp [fieldsRead, textAsRead, hf]
      | tempo => exact absurd rfl hk
    rw [ht, hfs]
    cases hr : textAsRead e with
    | mk a b c => rw [hr] at hkind; simp only at hkind; rw [hkind]
  | _ :: _ :: _, hl => simp at hl

/-- C131: if at most one direction, at most one dynamic and no tempo are attached to a note, the note gets exactly these, with
their texts and styles, whatever is attached to other notes. -/
theorem note_texts_partial (els : List TextEl) (id : Str) (hid : id ≠ []) (h1 : (attached els id .dir).length ≤ 1)
    (h2 : (attached els id .dynam).length ≤ 1) (h3 : attached els id .tempo = []) :
    noteTexts els id = (attached els id .dir).map textAsRead ++ (attached els id .dynam).map textAsRead := by
  have e1 := read_entry els id hid .dir (by decide) _ (writers_dir els id) h1 (fun e he => attached_props els id _ e he)
  have hwd := writers_dynam els id
  rw [h3, List.append_nil] at hwd
  have e2 := read_entry els id hid .dynam (by decide) _ hwd h2 (fun e he => attached_props els id _ e he)
  have e3 := look_none els id hid .tempo (writers_tempo els id)
  have hsmall : ∀ (l : List TextRead), l.length ≤ 1 → l.head?.toList = l := by
    intro l hl
    match l, hl with
    | [], _ => rfl
    | [x], _ => rfl
    | _ :: _ :: _, hl => simp at hl
  unfold noteTexts
  have hfm : ∀ (g : TextKind → Option TextRead), [TextKind.dir, .dynam, .tempo].filterMap g = (g .dir).toList ++ ((g .dynam).toList ++ (g .tempo).toList) := by
    intro g
    simp only [List.filterMap_cons, List.filterMap_nil]
    cases g .dir <;> cases g .dynam <;> cases g .tempo <;> rfl
  rw [hfm]
  simp only [e1, e2, e3, if_true, Option.toList_none, List.append_nil]
  rw [hsmall _ (by simpa using h1), hsmall _ (by simpa using h2)]

/-! ## Where the claim is false -/

/-- No note ever gets a tempo, in any file. -/
theorem tempo_never_found (els : List TextEl) (id : Str) (hid : id ≠ []) : ∀ r ∈ noteTexts els id, r.kind ≠ .tempo := by
  intro r hr
  obtain ⟨k, _, hk⟩ := List.mem_filterMap.1 hr
  split at hk
  · cases hk
  · rename_i hne
    cases hk
    rintro rfl
    exact hne (look_none els id hid .tempo (writers_tempo els id))

/-- A tempo that is attached to a note becomes a dynamic with its text, in place of the dynamic of the note. -/
theorem tempo_is_dynamic (els : List TextEl) (id : Str) (hid : id ≠ []) (e : TextEl) (h : (attached els id .tempo).getLast? = some e) :
    ∃ r ∈ noteTexts els id, r.kind = .dynam ∧ r.text = (textAsRead e).text ∧ ∀ r' ∈ noteTexts els id, r'.kind = .dynam → r' = r := by
  have hmem : e ∈ attached els id .tempo := List.mem_of_getLast? h
  have hw : ∀ e' ∈ attached els id .dynam ++ attached els id .tempo, writesTo id .dynam e' := by
    intro e' he'
    rw [← writers_dynam] at he'
    simpa using (List.mem_filter.1 he').2
  have hl : lookText (ppTexts els) (id, .dynam, none) = enclosedText e := by
    unfold lookText ppTexts
    rw [flatMap_writes id hid, writers_dynam]
    obtain ⟨l, hl⟩ := List.getLast?_eq_some_iff.1 h
    rw [hl, ← List.append_assoc, List.flatMap_append]
    simp [own_text id hid .dynam e (hw e (by simp [hmem]))]
  have ht : enclosedText e = (textAsRead e).text := by
    unfold enclosedText textAsRead
    cases e.enclose <;> rfl
  have hne : lookText (ppTexts els) (id, .dynam, none) ≠ [] := by rw [hl]; exact enclosed_ne e (attached_props els id _ e hmem).2
  refine ⟨⟨.dynam, lookText (ppTexts els) (id, .dynam, none), (fieldsRead .dynam).map (fun f => (f, lookText (ppTexts els) (id, .dynam, some f)))⟩, ?_, rfl, ?_, ?_⟩
  · exact List.mem_filterMap.2 ⟨.dynam, by simp, by rw [if_neg hne]⟩
  · rw [← ht]; exact hl
  · intro r' hr' hk'
    obtain ⟨k, _, hk⟩ := List.mem_filterMap.1 hr'
    split at hk
    · cases hk
    · cases hk
      simp only at hk'
      subst hk'
      rfl

/-- An element with nothing but a text and a placement. -/
def placedText (k : TextKind) (id text place : String) : TextEl :=
  ⟨k, false, id.toList, text.toList, .no, fun f => if f = .place then place.toList else []⟩

/-- Of two directions at a note only the second is found, and it takes over the placement of the first. -/
theorem second_dir_breaks :
    (noteTexts [placedText .dir "n" "dolce" "above", placedText .dir "n" "cresc." ""] "n".toList).map (fun r => (r.text, r.fields.head?)) =
      [("cresc.".toList, some (.place, "above".toList))] := by decide +kernel

/-! ## The hypotheses are met -/

/-- A direction and a dynamic at one note, a dynamic and a tempo at another, and an empty direction. -/
def textEls : List TextEl :=
  [placedText .dynam "n" "p" "below", placedText .dir "n" "dolce" "above", placedText .dynam "m" "f" "", placedText .tempo "m" "Allegro" "above",
   placedText .dir "n" "" ""]

example : (attached textEls "n".toList .dir).length = 1 ∧ (attached textEls "n".toList .dynam).length = 1 ∧
    (attached textEls "n".toList .tempo).length = 0 := by decide +kernel

example : (noteTexts textEls "n".toList).map (fun r => (r.kind, r.text)) = [(.dir, "dolce".toList), (.dynam, "p".toList)] ∧
    (noteTexts textEls "m".toList).map (fun r => (r.kind, r.text)) = [(.dynam, "Allegro".toList)] := by decide +kernel

end C21
