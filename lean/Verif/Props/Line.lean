import Verif.Model.Line
import Verif.Spec.Line
import Verif.Lemmas.PyStr
import Verif.Lemmas.PyNum
import Verif.Lemmas.Tac
import Mathlib.Data.List.TakeWhile
/-
Property theorems for lines and files as text (C11, C12, C13, C14, C23).
-/
namespace C21

/-! ### Helper lemmas -/

/-- Tokens as `createTokensFromLine` makes them: not empty and without tabs. -/
def CleanTokens (ts : List Str) : Prop := ∀ t ∈ ts, t ≠ [] ∧ '\t' ∉ t

theorem scan_spec (s : Str) :
    s = List.replicate (scanTokens s).1 '\t' ++
      ((scanTokens s).2.map (fun p => p.1 ++ List.replicate p.2 '\t')).flatten ∧
    (∀ p ∈ (scanTokens s).2, p.1 ≠ [] ∧ '\t' ∉ p.1) ∧
    (∀ p ∈ (scanTokens s).2.dropLast, p.2 ≥ 1) := by
  induction s with
  | nil => simp [scanTokens]
  | cons c cs ih =>
    obtain ⟨h1, h2, h3⟩ := ih
    simp only [scanTokens]
    generalize scanTokens cs = r at h1 h2 h3
    obtain ⟨n, ms⟩ := r
    simp only at h1 h2 h3 ⊢
    by_cases hc : c = '\t'
    · subst hc
      simp only [if_true]
      refine ⟨?_, h2, h3⟩
      rw [List.replicate_succ, List.cons_append, ← h1]
    · simp only [hc, if_false]
      by_cases hn : n > 0
      · simp only [hn, if_true]
        refine ⟨?_, ?_, ?_⟩
        · simp [← h1]
        · intro p hp
          rcases List.mem_cons.1 hp with rfl | hp
          · refine ⟨by simp, ?_⟩
            simp only [List.mem_singleton]; exact fun e => hc e.symm
          · exact h2 p hp
        · intro p hp
          cases ms with
          | nil => simp at hp
          | cons q qs =>
            rw [List.dropLast_cons_of_ne_nil (by simp)] at hp
            rcases List.mem_cons.1 hp with rfl | hp
            · exact hn
            · exact h3 p hp
      · simp only [hn, if_false]
        have hn0 : n = 0 := by omega
        subst hn0
        cases ms with
        | nil =>
          simp at h1
          subst h1
          refine ⟨by simp, ?_, by simp⟩
          intro p hp
          simp only [List.mem_singleton] at hp
          subst hp
          exact ⟨by simp, by simp only [List.mem_singleton]; exact fun e => hc e.symm⟩
        | cons q qs =>
          obtain ⟨t, k⟩ := q
          refine ⟨?_, ?_, ?_⟩
          · simp only [List.replicate_zero, List.nil_append] at h1 ⊢
            rw [h1]; simp
          · intro p hp
            rcases List.mem_cons.1 hp with rfl | hp
            · refine ⟨by simp, ?_⟩
              have := (h2 (t, k) (by simp)).2
              simp only [List.mem_cons, not_or]
              exact ⟨fun e => hc e.symm, this⟩
            · exact h2 p (by simp [hp])
          · intro p hp
            cases qs with
            | nil => simp at hp
            | cons q2 qs2 =>
              rw [List.dropLast_cons_of_ne_nil (by simp)] at hp h3
              rcases List.mem_cons.1 hp with rfl | hp
              · exact h3 (t, k) (by simp)
              · exact h3 p (by simp [hp])

theorem repairTabs_id (l : List Nat) (h : ∀ n ∈ l.dropLast, n ≥ 1) : repairTabs l = l := by
  induction l with
  | nil => rfl
  | cons x xs ih =>
    cases xs with
    | nil => rfl
    | cons y ys =>
      have hx : x ≥ 1 := h x (by simp)
      have : ¬ x = 0 := by omega
      simp only [repairTabs, this, if_false]
      rw [ih (fun n hn => h n (by simp; exact Or.inr hn))]

theorem repairTabs_length (l : List Nat) : (repairTabs l).length = l.length := by
  induction l with
  | nil => rfl
  | cons x xs ih =>
    cases xs with
    | nil => rfl
    | cons y ys => simp only [repairTabs, List.length_cons] at ih ⊢; omega

theorem repairTabs_pos (l : List Nat) : ∀ n ∈ (repairTabs l).dropLast, n ≥ 1 := by
  induction l with
  | nil => simp [repairTabs]
  | cons x xs ih =>
    cases xs with
    | nil => simp [repairTabs]
    | cons y ys =>
      intro n hn
      simp only [repairTabs] at hn
      have hne : repairTabs (y :: ys) ≠ [] := by
        intro e; have := repairTabs_length (y :: ys); rw [e] at this; simp at this
      rw [List.dropLast_cons_of_ne_nil hne] at hn
      rcases List.mem_cons.1 hn with rfl | hn
      · split <;> omega
      · exact ih n hn

theorem fitTabs_length (n : Nat) (tabs : List Nat) : (fitTabs n tabs).length = n := by
  unfold fitTabs
  split
  · simp; omega
  · split
    · next h1 h2 =>
      simp only
      split
      · next h3 =>
        have : (tabs.take n).length = n := by simp; omega
        rw [h3] at this ⊢; exact this
      · next h3 =>
        have : (tabs.take n).length = n := by simp; omega
        have hp : (tabs.take n).length > 0 := List.length_pos_iff.2 h3
        simp only [List.length_append, List.length_dropLast, List.length_singleton]; omega
    · omega

theorem zipWith_map_pair (ms : List (Str × Nat)) :
    List.zipWith (fun t n => t ++ List.replicate n '\t') (ms.map (·.1)) (ms.map (·.2)) =
      ms.map (fun p => p.1 ++ List.replicate p.2 '\t') := by
  induction ms with
  | nil => rfl
  | cons a b ih => simp [ih]

theorem dropWhile_replicate_append (n : Nat) (s : Str) :
    (List.replicate n '\t' ++ s).dropWhile (· == '\t') = s.dropWhile (· == '\t') := by
  induction n with
  | zero => rfl
  | succ k ih => simp [List.replicate_succ, ih]

theorem flatten_no_leading_tab (ms : List (Str × Nat)) (h : ∀ p ∈ ms, p.1 ≠ [] ∧ '\t' ∉ p.1) :
    ((ms.map (fun p => p.1 ++ List.replicate p.2 '\t')).flatten).dropWhile (· == '\t') =
      (ms.map (fun p => p.1 ++ List.replicate p.2 '\t')).flatten := by
  cases ms with
  | nil => rfl
  | cons p ps =>
    obtain ⟨h1, h2⟩ := h p (by simp)
    obtain ⟨x, xs, hx⟩ := List.exists_cons_of_ne_nil h1
    have : x ≠ '\t' := by
      rintro rfl; apply h2; rw [hx]; simp
    simp [hx, this]

/-! ## C11 -/

/-- C11. Rebuilding the line from its tokens gives back the text except for leading tabs, for every text. -/
theorem line_rebuild (text : Str) :
    (createLineFromTokens (createTokensFromLine text)).text = text.dropWhile (· == '\t') := by
  unfold createTokensFromLine
  by_cases h0 : text = []
  · subst h0; rfl
  rw [if_neg h0]
  by_cases h1 : startsWith text "!!".toList = true
  · rw [if_pos h1]
    have hd : text.dropWhile (· == '\t') = text := by
      cases text with
      | nil => rfl
      | cons a b =>
        have : a = '!' := by
          simp [startsWith, List.isPrefixOf] at h1
          exact h1.1.symm
        subst this; rfl
    rw [hd]
    simp [createLineFromTokens, fitTabs, repairTabs, joinTabs]
  · rw [if_neg h1]
    obtain ⟨e, hc, hp⟩ := scan_spec text
    simp only [createLineFromTokens]
    have hfit : fitTabs ((scanTokens text).2.map (·.1)).length ((scanTokens text).2.map (·.2)) =
        (scanTokens text).2.map (·.2) := by
      simp [fitTabs]
    rw [hfit, repairTabs_id]
    · unfold joinTabs
      rw [zipWith_map_pair]
      conv_rhs => rw [e]
      rw [dropWhile_replicate_append, flatten_no_leading_tab _ hc]
    · intro n hn
      rw [← List.map_dropLast] at hn
      obtain ⟨p, hp', rfl⟩ := List.mem_map.1 hn
      exact hp p hp'

/-- C11 (proved part). A line that does not start with a tab is rebuilt exactly.
Missing from the full property: lines starting with a tab, whose leading tabs are lost
(`line_leading_tab_lost`). -/
theorem line_roundtrip_partial (text : Str) (h : text.head? ≠ some '\t') :
    (createLineFromTokens (createTokensFromLine text)).text = text := by
  rw [line_rebuild]
  cases text with
  | nil => rfl
  | cons a b =>
    have : a ≠ '\t' := by rintro rfl; simp at h
    simp [this]

/-- C11, the part that is false. -/
theorem line_leading_tab_lost :
    (createLineFromTokens (createTokensFromLine "\t4c\t4e".toList)).text = "4c\t4e".toList := by decide

example : (createTokensFromLine "4c\t\t4e\t.".toList).tokens = ["4c".toList, "4e".toList, ".".toList] ∧
    (createTokensFromLine "4c\t\t4e\t.".toList).tabs = [2, 1, 0] := by decide

/-- C11. Tokens of a spined line never contain tabs and are never empty. -/
theorem tokens_clean (text : Str) (h0 : text ≠ []) (h1 : startsWith text "!!".toList = false) :
    CleanTokens (createTokensFromLine text).tokens := by
  unfold createTokensFromLine
  rw [if_neg h0, if_neg (by rw [h1]; decide)]
  intro t ht
  obtain ⟨p, hp, rfl⟩ := List.mem_map.1 ht
  exact (scan_spec text).2.1 p hp

/-- C11. There is one tab count per token, and at least one tab between tokens. -/
theorem tabs_match (text : Str) :
    (createTokensFromLine text).tabs.length = (createTokensFromLine text).tokens.length ∧
    ∀ n ∈ (createTokensFromLine text).tabs.dropLast, n ≥ 1 := by
  unfold createTokensFromLine
  split
  · simp
  split
  · simp
  · refine ⟨by simp, ?_⟩
    intro n hn
    simp only at hn
    rw [← List.map_dropLast] at hn
    obtain ⟨p, hp', rfl⟩ := List.mem_map.1 hn
    exact (scan_spec text).2.2 p hp'

theorem scan_no_tab (t rest : Str) (ht : '\t' ∉ t) (h0 : t ≠ [])
    (hr : rest = [] ∨ ∃ r, rest = '\t' :: r) :
    scanTokens (t ++ rest) = (0, (t, (scanTokens rest).1) :: (scanTokens rest).2) := by
  induction t with
  | nil => simp at h0
  | cons c cs ih =>
    have hc : c ≠ '\t' := by rintro rfl; simp at ht
    cases cs with
    | nil =>
      simp only [List.cons_append, List.nil_append, scanTokens, hc, if_false]
      rcases hr with rfl | ⟨r, rfl⟩
      · simp [scanTokens]
      · have : (scanTokens ('\t' :: r)).1 > 0 := by simp [scanTokens]
        simp [this]
    | cons d ds =>
      have := ih (by simp at ht ⊢; tauto) (by simp)
      simp only [List.cons_append] at this ⊢
      rw [scanTokens, this]
      simp [hc]

theorem scan_tabs (n : Nat) (s : Str) :
    scanTokens (List.replicate n '\t' ++ s) = ((scanTokens s).1 + n, (scanTokens s).2) := by
  induction n with
  | zero => simp
  | succ k ih => simp [List.replicate_succ, scanTokens, ih]; omega

theorem scan_joinTabs (tokens : List Str) (tabs : List Nat) (hl : tokens.length = tabs.length)
    (hc : CleanTokens tokens) (hp : ∀ n ∈ tabs.dropLast, n ≥ 1) :
    scanTokens (joinTabs tokens tabs) = (0, tokens.zip tabs) := by
  induction tokens generalizing tabs with
  | nil => cases tabs with
    | nil => rfl
    | cons => simp at hl
  | cons t ts ih =>
    cases tabs with
    | nil => simp at hl
    | cons n ns =>
      have hcl := hc t (by simp)
      have hj : joinTabs (t :: ts) (n :: ns) = t ++ (List.replicate n '\t' ++ joinTabs ts ns) := by
        simp [joinTabs]
      have hih := ih ns (by simpa using hl) (fun x hx => hc x (by simp [hx])) (by
        intro m hm
        apply hp
        cases ns with
        | nil => simp at hm
        | cons a b => simp at hm ⊢; exact Or.inr hm)
      have hrest : (List.replicate n '\t' ++ joinTabs ts ns = [] ∨
          ∃ r, List.replicate n '\t' ++ joinTabs ts ns = '\t' :: r) := by
        cases ns with
        | nil =>
          have : ts = [] := by
            cases ts with
            | nil => rfl
            | cons => simp at hl
          subst this
          cases n with
          | zero => left; rfl
          | succ k => right; exact ⟨_, by rw [List.replicate_succ]; rfl⟩
        | cons a b =>
          have : n ≥ 1 := hp n (by simp)
          obtain ⟨k, rfl⟩ : ∃ k, n = k + 1 := ⟨n - 1, by omega⟩
          right; exact ⟨_, by rw [List.replicate_succ]; rfl⟩
      rw [hj, scan_no_tab t _ hcl.2 hcl.1 hrest, scan_tabs, hih]
      simp

/-- C11. The other direction: whatever tab counts a line holds, printing its tokens and tokenising the text
again gives the same tokens (tokens not empty and tab-free; not a global comment; at least one token). -/
theorem tokens_roundtrip (l : Line) (hc : CleanTokens l.tokens) (hne : l.tokens ≠ [])
    (hg : ∀ t, l.tokens.head? = some t → startsWith t "!!".toList = false) :
    (createTokensFromLine (createLineFromTokens l).text).tokens = l.tokens := by
  obtain ⟨t, ts, ht⟩ := List.exists_cons_of_ne_nil hne
  have hcl := hc t (by rw [ht]; simp)
  obtain ⟨x, xs, hx⟩ := List.exists_cons_of_ne_nil hcl.1
  have hlen : l.tokens.length = (repairTabs (fitTabs l.tokens.length l.tabs)).length := by
    rw [repairTabs_length, fitTabs_length]
  have hscan := scan_joinTabs l.tokens _ hlen hc (repairTabs_pos _)
  have htext : (createLineFromTokens l).text =
      joinTabs l.tokens (repairTabs (fitTabs l.tokens.length l.tabs)) := rfl
  -- the text starts with the first token followed by a tab or nothing
  have hstart : ∃ r, (createLineFromTokens l).text = t ++ r ∧ (r = [] ∨ ∃ r', r = '\t' :: r') := by
    rw [htext, ht]
    cases htab : repairTabs (fitTabs (t :: ts).length l.tabs) with
    | nil => rw [ht, htab] at hlen; simp at hlen
    | cons n ns =>
      refine ⟨List.replicate n '\t' ++ joinTabs ts ns, by simp [joinTabs], ?_⟩
      cases n with
      | succ k => right; exact ⟨_, by rw [List.replicate_succ]; rfl⟩
      | zero =>
        cases ns with
        | nil => left; cases ts <;> rfl
        | cons a b =>
          have := repairTabs_pos (fitTabs (t :: ts).length l.tabs) 0 (by rw [htab]; simp)
          omega
  obtain ⟨r, hr, hr2⟩ := hstart
  have hnn : (createLineFromTokens l).text ≠ [] := by rw [hr, hx]; simp
  have hng : ¬ startsWith (createLineFromTokens l).text "!!".toList = true := by
    have hgt := hg t (by rw [ht]; rfl)
    rw [hr]
    intro hcon
    apply Bool.noConfusion (hgt.symm.trans (?_ : startsWith t "!!".toList = true))
    rw [hx] at hcon ⊢
    cases xs with
    | cons y ys => simpa [startsWith, List.isPrefixOf] using hcon
    | nil =>
      rcases hr2 with rfl | ⟨r', rfl⟩
      · simpa using hcon
      · simp [startsWith, List.isPrefixOf] at hcon
  unfold createTokensFromLine
  rw [if_neg hnn, if_neg hng, htext, hscan]
  simp only
  rw [List.map_fst_zip (by omega)]


example : (createTokensFromLine (createLineFromTokens
    ⟨[], ["4c".toList, "!".toList, ".".toList], [0, 0, 0, 5]⟩).text).tokens =
      ["4c".toList, "!".toList, ".".toList] := by decide

/-! ## C13 -/

theorem first_token (a : Char) (b : Str) (ha : a ≠ '\t') :
    ∃ t r ts k ks, scanTokens (a :: b) = (0, (a :: t, k) :: r) ∧ (ts = r.map (·.1)) ∧ (ks = r.map (·.2)) := by
  obtain ⟨h1, h2, h3⟩ := scan_spec (a :: b)
  generalize hs : scanTokens (a :: b) = s at h1 h2 h3
  obtain ⟨n, ms⟩ := s
  have hn : n = 0 := by
    cases n with
    | zero => rfl
    | succ k => simp [List.replicate_succ] at h1; exact absurd h1.1 ha
  subst hn
  cases ms with
  | nil => simp at h1
  | cons p ps =>
    obtain ⟨t, k⟩ := p
    have hne := (h2 (t, k) (by simp)).1
    obtain ⟨x, xs, rfl⟩ := List.exists_cons_of_ne_nil hne
    simp at h1
    obtain ⟨rfl, _⟩ := h1
    exact ⟨xs, ps, _, k, _, rfl, rfl, rfl⟩

/-- C13 (proved part). For every line not starting with a tab, the predicates agree with its class (so exactly
one of the six holds).
Missing from the full property: lines starting with a tab (`class_leading_tab`, `class_only_tabs`). -/
theorem class_agrees_partial (text : Str) (h : text.head? ≠ some '\t') :
    (createTokensFromLine text).isEmpty = decide (lineClass text = .empty) ∧
    (createTokensFromLine text).isGlobalComment = decide (lineClass text = .globalComment) ∧
    (createTokensFromLine text).isLocalComment = decide (lineClass text = .localComment) ∧
    (createTokensFromLine text).isInterpretation = decide (lineClass text = .interpretation) ∧
    (createTokensFromLine text).isBarline = .ok (decide (lineClass text = .barline)) ∧
    (createTokensFromLine text).isData = .ok (decide (lineClass text = .data)) ∧
    (createTokensFromLine text).isComment =
      decide (lineClass text = .globalComment ∨ lineClass text = .localComment) ∧
    (createTokensFromLine text).hasSpines =
      decide (lineClass text ≠ .empty ∧ lineClass text ≠ .globalComment) := by
  have htext : ∀ t, (createTokensFromLine t).text = t := by
    intro t; unfold createTokensFromLine
    split
    · rfl
    · split <;> rfl
  cases text with
  | nil => decide
  | cons a b =>
    have ha : a ≠ '\t' := by rintro rfl; simp at h
    have hb : (createTokensFromLine (a :: b)).isBarline = .ok (decide (a = '=')) := by
      unfold createTokensFromLine
      rw [if_neg (by simp)]
      by_cases h1 : startsWith (a :: b) "!!".toList = true
      · rw [if_pos h1]
        simp only [Line.isBarline, startsWith, show "=".toList = ['='] from rfl, List.isPrefixOf, Bool.and_true]
        congr 1; rw [Bool.eq_iff_iff, beq_iff_eq, decide_eq_true_iff]; exact eq_comm
      · rw [if_neg h1]
        obtain ⟨t, r, _, k, _, hs, _, _⟩ := first_token a b ha
        simp only [hs, List.map_cons, Line.isBarline, startsWith, show "=".toList = ['='] from rfl, List.isPrefixOf, Bool.and_true]
        congr 1; rw [Bool.eq_iff_iff, beq_iff_eq, decide_eq_true_iff]; exact eq_comm
    have hd : (createTokensFromLine (a :: b)).isData =
        .ok (decide (a ≠ '!' ∧ a ≠ '*' ∧ a ≠ '=')) := by
      unfold Line.isData
      rw [hb]
      simp only [Line.isComment, Line.isInterpretation, Line.isEmpty, htext]
      by_cases e1 : a = '!'
      · subst e1; simp [startsWith, List.isPrefixOf]
      by_cases e2 : a = '*'
      · subst e2; simp [startsWith, List.isPrefixOf]
      have e1' : '!' ≠ a := fun e => e1 e.symm
      have e2' : '*' ≠ a := fun e => e2 e.symm
      simp [startsWith, List.isPrefixOf, e1, e2, e1', e2']
    rw [hb, hd]
    simp only [Line.isEmpty, Line.isGlobalComment, Line.isLocalComment, Line.isInterpretation, Line.isComment,
      Line.hasSpines, Line.isGlobal, htext]
    by_cases e1 : a = '!'
    · subst e1
      cases b with
      | nil => decide
      | cons c d =>
        by_cases e2 : c = '!'
        · subst e2; simp [startsWith, List.isPrefixOf, lineClass]
        · have e2' : '!' ≠ c := fun e => e2 e.symm
          have : lineClass ('!' :: c :: d) = .localComment := by
            unfold lineClass; split <;> simp_all
          simp [startsWith, List.isPrefixOf, this, e2']
    have e1' : '!' ≠ a := fun e => e1 e.symm
    by_cases e2 : a = '*'
    · subst e2; simp [startsWith, List.isPrefixOf, lineClass]
    have e2' : '*' ≠ a := fun e => e2 e.symm
    by_cases e3 : a = '='
    · subst e3; simp [startsWith, List.isPrefixOf, lineClass]
    have : lineClass (a :: b) = .data := by
      unfold lineClass; split <;> simp_all
    simp [startsWith, List.isPrefixOf, this, e1, e1', e2, e2', e3]

example : lineClass "4c\t4e".toList = .data ∧ lineClass "=1".toList = .barline ∧
    lineClass "!LO:N".toList = .localComment ∧ lineClass "!!x".toList = .globalComment := by decide

/-- C13, the part that is false: an interpretation line with a leading tab is reported as data. -/
theorem class_leading_tab :
    (createTokensFromLine "\t*clefG2".toList).isData = .ok true ∧
    (createTokensFromLine "\t*clefG2".toList).tokens = ["*clefG2".toList] := by decide

/-- C13, the part that is false: on a line of tabs only, the class tests raise IndexError. -/
theorem class_only_tabs (n : Nat) :
    (createTokensFromLine (List.replicate (n + 1) '\t')).isData = .error .indexError := by
  have h := scan_tabs (n + 1) []
  simp only [List.append_nil, scanTokens] at h
  have : createTokensFromLine (List.replicate (n + 1) '\t') =
      ⟨List.replicate (n + 1) '\t', [], []⟩ := by
    unfold createTokensFromLine
    rw [if_neg (by simp), if_neg (by simp [List.replicate_succ, startsWith, List.isPrefixOf]), h]
    rfl
  rw [this]
  simp [Line.isData, Line.isComment, Line.isInterpretation, startsWith, List.isPrefixOf, Line.isBarline,
    List.replicate_succ]

/-- C13. Reference records are global comments; a manipulator line is an interpretation line whenever its
tokens all are. -/
theorem reference_is_global (text : Str) (h : isGlobalReference text = true ∨ isUniversalReference text = true) :
    lineClass text = .globalComment := by
  have key : startsWith text "!!!".toList = true → lineClass text = .globalComment := by
    intro hs
    match text, hs with
    | a :: b :: c :: r, hs =>
      simp [startsWith, List.isPrefixOf] at hs
      obtain ⟨rfl, rfl, rfl⟩ := hs
      rfl
    | [], hs => simp [startsWith, List.isPrefixOf] at hs
    | [a], hs => simp [startsWith, List.isPrefixOf] at hs
    | [a, b], hs => simp [startsWith, List.isPrefixOf] at hs
  rcases h with h | h
  · apply key
    unfold isGlobalReference at h
    by_contra hc
    have hc' : startsWith text "!!!".toList = false := by simpa using hc
    rw [hc'] at h
    by_cases hl : text.length < 5 <;> simp [hl] at h
  · apply key
    unfold isUniversalReference at h
    by_cases hs : startsWith text "!!!!".toList = true
    · match text, hs with
      | a :: b :: c :: d :: r, hs =>
        simp [startsWith, List.isPrefixOf] at hs ⊢
        exact ⟨hs.1, hs.2.1, hs.2.2.1⟩
      | [], hs => simp [startsWith, List.isPrefixOf] at hs
      | [a], hs => simp [startsWith, List.isPrefixOf] at hs
      | [a, b], hs => simp [startsWith, List.isPrefixOf] at hs
      | [a, b, c], hs => simp [startsWith, List.isPrefixOf] at hs
    · have hc' : startsWith text "!!!!".toList = false := by simpa using hs
      rw [hc'] at h
      by_cases hl : text.length < 5 <;> simp [hl] at h

/-! ## C14 -/

theorem dropWhile_all {p : Char → Bool} (w s : Str) (hw : ∀ c ∈ w, p c = true)
    (hs : ∀ c, s.head? = some c → p c = false) : (w ++ s).dropWhile p = s := by
  induction w with
  | nil =>
    cases s with
    | nil => rfl
    | cons a b => simp [hs a rfl]
  | cons a b ih => simp [hw a (by simp), ih (fun c hc => hw c (by simp [hc]))]

/-- `strip` removes exactly the blanks around a trimmed text. -/
theorem strip_spec (w1 s w2 : Str) (h1 : ∀ c ∈ w1, isPySpace c = true) (h2 : ∀ c ∈ w2, isPySpace c = true)
    (hs : Trim isPySpace s) : strip (w1 ++ s ++ w2) = s := by
  unfold strip
  by_cases h0 : s = []
  · subst h0
    have : (w1 ++ [] ++ w2).dropWhile isPySpace = [] := by
      have := dropWhile_all (p := isPySpace) (w1 ++ w2) [] (by
        intro c hc; rcases List.mem_append.1 hc with h | h
        · exact h1 c h
        · exact h2 c h) (by simp)
      simpa using this
    rw [this]; rfl
  · have e1 : (w1 ++ s ++ w2).dropWhile isPySpace = s ++ w2 := by
      rw [List.append_assoc]
      apply dropWhile_all _ _ h1
      intro c hc
      obtain ⟨a, b, rfl⟩ := List.exists_cons_of_ne_nil h0
      exact hs.1 c (by simpa using hc)
    rw [e1, List.reverse_append]
    have e2 : (w2.reverse ++ s.reverse).dropWhile isPySpace = s.reverse := by
      apply dropWhile_all
      · intro c hc; exact h2 c (by simpa using hc)
      · intro c hc; apply hs.2; rw [← hc, List.head?_reverse]
    rw [e2, List.reverse_reverse]

/-- The blanks of a reference record: around key and value. -/
def Blank (w : Str) : Prop := ∀ c ∈ w, isPySpace c = true

theorem colon_test (text : Str) (h : text.length ≥ 5) :
    (match colonSplitBy text with
     | p :: _ => if ' ' ∈ p then false else if '\t' ∈ p then false else true
     | [] => false) = true := by
  have : text ≠ ":".toList := by rintro rfl; simp at h
  have e : colonSplitBy text = [":".toList] := by unfold colonSplitBy; rw [if_neg this]
  rw [e]; decide

/-- C14 (global records). For a record "!!!key: value", with any blanks around key and value, the accessors
return the key and the value. The key has no colon and does not start with '!'; the value may hold colons. -/
theorem reference_global (w1 key w2 w3 value w4 : Str) (b1 : Blank w1) (b2 : Blank w2) (b3 : Blank w3)
    (b4 : Blank w4) (hk : ':' ∉ key) (hk0 : key ≠ []) (hk1 : ∀ c, key.head? = some c → c ≠ '!')
    (tk : Trim isPySpace key) (tv : Trim isPySpace value) :
    referenceKey ("!!!".toList ++ (w1 ++ key ++ w2) ++ ':' :: (w3 ++ value ++ w4)) = key ∧
    referenceValue ("!!!".toList ++ (w1 ++ key ++ w2) ++ ':' :: (w3 ++ value ++ w4)) = value := by
  have hcol : ∀ w, Blank w → ':' ∉ w := by
    intro w hw hc
    have := hw ':' hc
    revert this; decide
  have hbang : ∀ w, Blank w → ∀ c, w.head? = some c → c ≠ '!' := by
    intro w hw c hc e
    subst e
    have := hw '!' (List.mem_of_head? hc)
    revert this; decide
  obtain ⟨k0, ks, rfl⟩ := List.exists_cons_of_ne_nil hk0
  have hkc : ':' ∉ w1 ++ (k0 :: ks) ++ w2 := by
    simp only [List.mem_append, not_or]
    exact ⟨⟨hcol _ b1, hk⟩, hcol _ b2⟩
  have hhead : ∀ c, (w1 ++ (k0 :: ks) ++ w2 ++ ':' :: (w3 ++ value ++ w4)).head? = some c → c ≠ '!' := by
    intro c hc
    cases w1 with
    | nil => exact hk1 c (by simpa using hc)
    | cons a b => exact hbang _ b1 c (by simpa using hc)
  have href : isGlobalReference ("!!!".toList ++ (w1 ++ (k0 :: ks) ++ w2) ++ ':' :: (w3 ++ value ++ w4)) = true := by
    unfold isGlobalReference
    rw [if_neg (by simp; omega)]
    have s1 : startsWith ("!!!".toList ++ (w1 ++ (k0 :: ks) ++ w2) ++ ':' :: (w3 ++ value ++ w4)) "!!!".toList = true := by
      simp [startsWith, List.isPrefixOf]
    have s2 : startsWith ("!!!".toList ++ (w1 ++ (k0 :: ks) ++ w2) ++ ':' :: (w3 ++ value ++ w4)) "!!!!".toList = false := by
      have : ∃ x xs, w1 ++ (k0 :: ks) ++ w2 ++ ':' :: (w3 ++ value ++ w4) = x :: xs := by
        cases w1 with
        | nil => exact ⟨_, _, rfl⟩
        | cons a b => exact ⟨_, _, rfl⟩
      obtain ⟨x, xs, hx⟩ := this
      have hxb := hhead x (by rw [hx]; rfl)
      rw [List.append_assoc, hx]
      have : ('!' == x) = false := by simp; exact fun e => hxb e.symm
      show ("!!!!".toList).isPrefixOf ('!' :: '!' :: '!' :: x :: xs) = false
      simp only [show "!!!!".toList = ['!', '!', '!', '!'] from rfl, List.isPrefixOf, this]
      rfl
    rw [s1, s2]
    rw [if_neg (by decide), if_neg (by decide), if_neg (by simp)]
    refine colon_test ("!!!".toList ++ (w1 ++ (k0 :: ks) ++ w2) ++ ':' :: (w3 ++ value ++ w4)) (by simp; omega)
  have hdrop : ("!!!".toList ++ (w1 ++ (k0 :: ks) ++ w2) ++ ':' :: (w3 ++ value ++ w4)).drop 3 =
      (w1 ++ (k0 :: ks) ++ w2) ++ ':' :: (w3 ++ value ++ w4) := rfl
  have hkv : getKeyAndValue ((w1 ++ (k0 :: ks) ++ w2) ++ ':' :: (w3 ++ value ++ w4)) = (k0 :: ks, value) := by
    unfold getKeyAndValue
    rw [splitFirst_append _ _ _ hkc]
    simp only [strip_spec _ _ _ b1 b2 tk, strip_spec _ _ _ b3 b4 tv]
  unfold referenceKey referenceValue globalReferenceKey globalReferenceValue
  simp only [href, if_true, hdrop, hkv]
  trivial

example : referenceKey "!!!OTL@@DE: Die Kunst: der Fuge ".toList = "OTL@@DE".toList ∧
    referenceValue "!!!OTL@@DE: Die Kunst: der Fuge ".toList = "Die Kunst: der Fuge".toList := by decide

/-- C14 (universal records, key only). -/
theorem reference_universal_key_partial (key rest : Str) (hk : ':' ∉ key) (hk0 : key ≠ [])
    (hk1 : ∀ c, key.head? = some c → c ≠ '!') (tk : Trim isPySpace key) :
    referenceKey ("!!!!".toList ++ key ++ ':' :: rest) = key ∧
    referenceValue ("!!!!".toList ++ key ++ ':' :: rest) = key := by
  obtain ⟨k0, ks, rfl⟩ := List.exists_cons_of_ne_nil hk0
  have hkb : k0 ≠ '!' := hk1 k0 rfl
  have hnb : ('!' == k0) = false := by simp; exact fun e => hkb e.symm
  have hng : isGlobalReference ("!!!!".toList ++ (k0 :: ks) ++ ':' :: rest) = false := by
    unfold isGlobalReference
    have s2 : startsWith ("!!!!".toList ++ (k0 :: ks) ++ ':' :: rest) "!!!!".toList = true := by
      simp [startsWith, List.isPrefixOf]
    rw [s2]
    by_cases h5 : ("!!!!".toList ++ (k0 :: ks) ++ ':' :: rest).length < 5
    · rw [if_pos h5]
    · rw [if_neg h5]
      by_cases h6 : (!startsWith ("!!!!".toList ++ (k0 :: ks) ++ ':' :: rest) "!!!".toList) = true
      · rw [if_pos h6]
      · rw [if_neg h6, if_pos rfl]
  have hu : isUniversalReference ("!!!!".toList ++ (k0 :: ks) ++ ':' :: rest) = true := by
    unfold isUniversalReference
    have s1 : startsWith ("!!!!".toList ++ (k0 :: ks) ++ ':' :: rest) "!!!!".toList = true := by
      simp [startsWith, List.isPrefixOf]
    have s2 : startsWith ("!!!!".toList ++ (k0 :: ks) ++ ':' :: rest) "!!!!!".toList = false := by
      show ("!!!!!".toList).isPrefixOf ('!' :: '!' :: '!' :: '!' :: k0 :: (ks ++ ':' :: rest)) = false
      simp only [show "!!!!!".toList = ['!', '!', '!', '!', '!'] from rfl, List.isPrefixOf, hnb]
      rfl
    rw [if_neg (by simp), s1, s2]
    rw [if_neg (by decide), if_neg (by decide), if_neg (by simp)]
    refine colon_test ("!!!!".toList ++ (k0 :: ks) ++ ':' :: rest) (by simp)
  have hdrop : ("!!!!".toList ++ (k0 :: ks) ++ ':' :: rest).drop 4 = (k0 :: ks) ++ ':' :: rest := rfl
  have hkv : (getKeyAndValue ((k0 :: ks) ++ ':' :: rest)).1 = k0 :: ks := by
    unfold getKeyAndValue
    rw [splitFirst_append _ _ _ hk]
    have := strip_spec [] (k0 :: ks) [] (by simp) (by simp) tk
    simpa using this
  unfold referenceKey referenceValue universalReferenceKey universalReferenceValue
  simp only [hng, hu, if_true, hdrop, hkv]
  exact ⟨rfl, rfl⟩

/-- C14, the part that is false: the value of a universal record is reported to be its key. -/
theorem reference_universal_value_wrong :
    referenceValue "!!!!COM: Bach".toList = "COM".toList := by decide

/-- C14, the part that is false: a comment whose text before the colon holds blanks counts as a reference
record (the test splits the wrong string). -/
theorem reference_accepts_prose :
    isGlobalReference "!!!a note: not a record".toList = true := by decide

/-! ## C12 -/

/-- The consistency that the `acceptSyntaxErrors` repair enforces: every token has the class of its line. -/
def Consistent (l : Line) : Prop :=
  (l.isData = .ok true → l.tokens.all tokIsData = true) ∧
  (l.isInterpretation = true → l.tokens.all tokIsInterpretation = true) ∧
  (l.isComment = true → l.tokens.all tokIsComment = true) ∧
  (l.isBarline = .ok true → l.tokens.all tokIsBarline = true) ∧
  l.tokens ≠ []

theorem fixMismatch_consistent (l : Line) (h : Consistent l) : fixMismatch l = .ok l := by
  obtain ⟨h1, h2, h3, h4, h5⟩ := h
  unfold fixMismatch
  simp only
  obtain ⟨t, ts, ht⟩ := List.exists_cons_of_ne_nil h5
  have hb : ∃ b, l.isBarline = .ok b := ⟨_, by unfold Line.isBarline; rw [ht]⟩
  obtain ⟨b, hb⟩ := hb
  have hd : ∃ d, l.isData = .ok d := by
    unfold Line.isData
    rw [hb]
    split
    · exact ⟨_, rfl⟩
    · exact ⟨_, rfl⟩
  obtain ⟨d, hd⟩ := hd
  cases d with
  | true => simp only [hd, h1 hd, if_true]
  | false =>
    simp only [hd]
    by_cases hi : l.isInterpretation = true
    · simp only [hi, if_true, h2 hi]
    · simp only [hi]
      by_cases hc : l.isComment = true
      · simp only [hc, if_true, h3 hc]; simp
      · simp only [hc, hb]
        cases b with
        | true => simp [h4 hb]
        | false => simp

theorem createTokens_text (t : Str) : (createTokensFromLine t).text = t := by
  unfold createTokensFromLine
  split
  · rfl
  · split <;> rfl

/-- The hypothesis of C12 on rhythm-only tokens: no token of a **kern spine is a bare rhythm. -/
def NoBareRhythm (kern : Nat → Nat → Bool) (texts : List Str) : Prop :=
  ∀ i text, texts[i]? = some text → ∀ j t, (createTokensFromLine text).tokens[j]? = some t →
    kern i j = true → isRecipOnly t = false

theorem fixRecipOnly_id (kern : Nat → Bool) (l : Line)
    (h : ∀ j t, l.tokens[j]? = some t → kern j = true → isRecipOnly t = false) : fixRecipOnly kern l = l := by
  unfold fixRecipOnly
  split
  · rfl
  · simp only
    rw [if_neg]
    simp only [List.any_eq_true, not_exists, not_and]
    rintro ⟨t, j⟩ hm
    have hj := List.mem_zipIdx_iff_getElem?.1 hm
    cases hk : kern j with
    | false => simp [hk]
    | true => simp [hk, h j t hj hk]

theorem zipIdx_map_id {α : Type} (l : List α) (f : α × Nat → α) (h : ∀ i x, l[i]? = some x → f (x, i) = x) :
    l.zipIdx.map f = l := by
  apply List.ext_getElem?
  intro i
  simp only [List.getElem?_map, List.getElem?_zipIdx]
  cases hx : l[i]? with
  | none => simp
  | some x => simp [h i x hx]

/-- C12 (proved part). Printing a file just read gives the text that was read, up to one final newline.
Missing from the full property, each with a proof that it fails: the empty text (`read_empty_fails`), texts
with an `<eos>` line (`read_stops_at_eos`), **kern tokens holding only a rhythm (`read_edits_bare_rhythm`)
and, when syntax errors are accepted, lines mixing token classes (`read_edits_mixed_line`). -/
theorem file_roundtrip_partial (accept : Bool) (kern : Nat → Nat → Bool) (contents : Str)
    (h0 : contents ≠ [])
    (heos : "<eos>".toList ∉ splitOn '\n' (dropFinalNewline contents))
    (hk : NoBareRhythm kern (splitOn '\n' (dropFinalNewline contents)))
    (hc : accept = true → ∀ t ∈ splitOn '\n' (dropFinalNewline contents), Consistent (createTokensFromLine t)) :
    ∃ lines, readString accept kern contents = .ok lines ∧ fileStr lines = dropFinalNewline contents := by
  obtain ⟨c, hlast⟩ : ∃ c, contents.getLast? = some c := by
    cases h : contents.getLast? with
    | none => exact absurd (List.getLast?_eq_none_iff.1 h) h0
    | some c => exact ⟨c, rfl⟩
  have hdrop : (if c = '\n' then contents.dropLast else contents) = dropFinalNewline contents := by
    unfold dropFinalNewline
    rw [hlast]
    by_cases hc : c = '\n' <;> simp [hc]
  have hread : readLines contents = .ok (splitOn '\n' (dropFinalNewline contents)) := by
    unfold readLines
    rw [hlast]
    simp only [hdrop]
    congr 1
    rw [List.takeWhile_eq_self_iff]
    intro l hl
    simp only [decide_not, Bool.not_eq_eq_eq_not, Bool.not_true, decide_eq_false_iff_not]
    rintro rfl; exact heos hl
  have hfix : (if accept = true then ((splitOn '\n' (dropFinalNewline contents)).map createTokensFromLine).mapM fixMismatch
      else .ok ((splitOn '\n' (dropFinalNewline contents)).map createTokensFromLine) : Except PyErr (List Line)) =
      .ok ((splitOn '\n' (dropFinalNewline contents)).map createTokensFromLine) := by
    by_cases ha : accept = true
    · rw [if_pos ha]
      have : ∀ ls : List Line, (∀ l ∈ ls, Consistent l) → ls.mapM fixMismatch = .ok ls := by
        intro ls
        induction ls with
        | nil => intro _; rfl
        | cons a b ih =>
          intro hl
          rw [List.mapM_cons, fixMismatch_consistent a (hl a (by simp)), ih (fun x hx => hl x (by simp [hx]))]
          rfl
      apply this
      intro l hl
      obtain ⟨t, ht, rfl⟩ := List.mem_map.1 hl
      exact hc ha t ht
    · rw [if_neg ha]
  refine ⟨(splitOn '\n' (dropFinalNewline contents)).map createTokensFromLine, ?_, ?_⟩
  · unfold readString
    rw [hread]
    simp only [hfix]
    congr 1
    apply zipIdx_map_id
    intro i l hl
    apply fixRecipOnly_id
    intro j t hj hkern
    simp only [List.getElem?_map] at hl
    cases ht : (splitOn '\n' (dropFinalNewline contents))[i]? with
    | none => rw [ht] at hl; simp at hl
    | some text =>
      rw [ht] at hl
      simp at hl
      subst hl
      exact hk i text ht j t hj hkern
  · unfold fileStr
    rw [List.map_map]
    have : (splitOn '\n' (dropFinalNewline contents)).map ((·.text) ∘ createTokensFromLine) =
        splitOn '\n' (dropFinalNewline contents) := by
      conv_rhs => rw [← List.map_id (splitOn '\n' (dropFinalNewline contents))]
      apply List.map_congr_left
      intro t _
      exact createTokens_text t
    rw [this, joinWith_splitOn]

example : (readString true (fun _ _ => true) "**kern\n4c\n*-\n".toList).toOption.map fileStr =
    some "**kern\n4c\n*-".toList := by decide

/-- Reading the empty text fails. -/
theorem read_empty_fails (accept : Bool) (kern : Nat → Nat → Bool) :
    readString accept kern [] = .error .indexError := rfl
/-- Reading stops at a line `<eos>`; the rest of the text is dropped without a message. -/
theorem read_stops_at_eos : (readString false (fun _ _ => true) "a\n<eos>\nb".toList).toOption.map fileStr =
    some "a".toList := by decide
/-- A rhythm without a pitch becomes an invisible rest in the text that is kept. -/
theorem read_edits_bare_rhythm :
    (readString false (fun _ _ => true) "**kern\n4\n*-".toList).toOption.map fileStr =
    some "**kern\n4ryy\n*-".toList := by decide
/-- When syntax errors are accepted, a `*` on a data line is turned into a null token. -/
theorem read_edits_mixed_line :
    (readString true (fun _ _ => false) "4c\t*".toList).toOption.map fileStr = some "4c\t.".toList := by decide

/-! ## C23 -/

/-- Every line reports its own position. -/
def Numbered {α : Type} (f : Indexed α) : Prop := ∀ (i : Nat) (p : α × Int), f[(i : Nat)]? = some p → p.2 = (i : Int)

/-- C23. After `analyzeLines` every line reports its position. -/
theorem analyzeLines_numbered {α : Type} (f : Indexed α) :
    Numbered (analyzeLines f) ∧ (analyzeLines f).map (·.1) = f.map (·.1) := by
  constructor
  · intro i p hp
    simp only [analyzeLines, List.getElem?_map, List.getElem?_zipIdx] at hp
    cases hx : f[i]? with
    | none => simp [hx] at hp
    | some x => simp [hx] at hp; simp [← hp]
  · apply List.ext_getElem?
    intro i
    simp only [analyzeLines, List.getElem?_map, List.getElem?_zipIdx]
    cases f[i]? <;> simp

theorem insertLine_fst {α : Type} (f : Indexed α) (index : Int) (l : α) :
    (insertLine f index l).map (·.1) = pyInsert (f.map (·.1)) index l := by
  have h1 : (insertLine f index l).map (·.1) = (pyInsert f index (l, -1)).map (·.1) := by
    apply List.ext_getElem?
    intro i
    simp only [insertLine, List.getElem?_map, List.getElem?_zipIdx]
    cases (pyInsert f index (l, -1))[i]? with
    | none => simp
    | some x => simp only [Option.map_some, Nat.zero_add]; split <;> rfl
  rw [h1]
  simp [pyInsert, List.map_take, List.map_drop]

/-- C23. Where the new line goes: at a valid index the lines before it stay, then comes the new line, then the
rest; a negative index counts from the end. -/
theorem insert_position {α : Type} (xs : List α) (k : Nat) (hk : k ≤ xs.length) (x : α) :
    pyInsert xs (k : Int) x = xs.take k ++ x :: xs.drop k ∧
    (0 < k → pyInsert xs ((k : Int) - 1 - xs.length) x = xs.take (k - 1) ++ x :: xs.drop (k - 1)) := by
  constructor
  · unfold pyInsert
    rw [if_neg (by omega)]
    simp only
    have : (max 0 (min (k : Int) xs.length)).toNat = k := by omega
    rw [this]
  · intro h0
    unfold pyInsert
    rw [if_pos (by omega)]
    simp only
    have : (max 0 (min ((k : Int) - 1 - xs.length + xs.length) xs.length)).toNat = k - 1 := by omega
    rw [this]

/-- C23. `insertLine` at a position inside the file (or counted from the end) keeps every line's index equal
to its position; the lines are the old ones in order with the new one inserted. -/
theorem insertLine_numbered {α : Type} (f : Indexed α) (hf : Numbered f) (index : Int)
    (hi : index ≤ f.length) (l : α) :
    Numbered (insertLine f index l) ∧ (insertLine f index l).map (·.1) = pyInsert (f.map (·.1)) index l := by
  refine ⟨?_, insertLine_fst f index l⟩
  intro i p hp
  simp only [insertLine, List.getElem?_map, List.getElem?_zipIdx] at hp
  cases hx : (pyInsert f index (l, -1))[i]? with
  | none => simp [hx] at hp
  | some x =>
    simp only [hx, Option.map_some, Nat.zero_add, Option.some.injEq] at hp
    by_cases hge : (i : Int) ≥ index
    · rw [if_pos hge] at hp; rw [← hp]
    · rw [if_neg hge] at hp
      subst hp
      apply hf i
      rw [← hx]
      unfold pyInsert
      simp only
      have hneg : ¬ index < 0 := by omega
      rw [if_neg hneg]
      have hk : (max 0 (min index (f.length : Int))).toNat = index.toNat := by omega
      rw [hk, List.getElem?_append_left (by simp; omega), List.getElem?_take, if_pos (by omega)]

/-- C23 (proved part). Any sequence of insertions at positions inside the file keeps the numbering.
Missing from the full property: `appendLine`, which leaves the new line unnumbered
(`appendLine_not_numbered`), and insertion past the end (`insertLine_past_end_not_numbered`). -/
theorem insertions_numbered_partial {α : Type} (f : Indexed α) (hf : Numbered f) (ops : List (Int × α))
    (h : ∀ op ∈ ops, op.1 ≤ f.length) :
    Numbered (ops.foldl (fun g op => insertLine g op.1 op.2) f) ∧
    (ops.foldl (fun g op => insertLine g op.1 op.2) f).map (·.1) =
      ops.foldl (fun g op => pyInsert g op.1 op.2) (f.map (·.1)) := by
  induction ops generalizing f with
  | nil => exact ⟨hf, rfl⟩
  | cons op ops ih =>
    obtain ⟨h1, h2⟩ := insertLine_numbered f hf op.1 (h op (by simp)) op.2
    have hlen : (insertLine f op.1 op.2).length = f.length + 1 := by
      have := congrArg List.length h2
      simp [pyInsert] at this
      rw [this]; omega
    obtain ⟨g1, g2⟩ := ih (insertLine f op.1 op.2) h1 (by
      intro o ho
      have := h o (by simp [ho])
      rw [hlen]; omega)
    exact ⟨g1, by simp only [List.foldl_cons]; rw [g2, h2]⟩

example : insertLine [("a", (0 : Int)), ("b", 1)] 1 "x" = [("a", 0), ("x", 1), ("b", 2)] := by decide

/-- C23, false parts. -/
theorem appendLine_not_numbered : ¬ Numbered (appendLine [("a", (0 : Int))] "b") := by
  intro h
  have := h 1 ("b", -1) rfl
  simp at this
/-- So does a line inserted past the end of the file. -/
theorem insertLine_past_end_not_numbered : ¬ Numbered (insertLine [("a", (0 : Int))] 5 "b") := by
  intro h
  have := h 1 ("b", -1) (by decide)
  simp at this

end C21
