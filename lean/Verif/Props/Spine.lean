import Verif.Lemmas.Spine
/-
C15 spine bookkeeping, C16 split and merge, C17 links, C18 subtracks.
-/
namespace C21

def typesOf (ss : List Spine) : List Str := ss.map (·.type)
def infosOf (ss : List Spine) : List Str := ss.map (fun s => describe s.track s.path)

/-! ## C16 -/

/-- C16. However a spine was split, merging all its sub-spines with one `*v` group gives its description
back, wherever the group stands on the line. -/
theorem split_merge_restores_partial (t : Nat) (l r : Tree) (p : List Bool) (pre post : List Str) :
    getMergedSpineInfo (pre ++ ((Tree.node l r).places p).map (describe t) ++ post) pre.length
      (((Tree.node l r).places p).length - 1) = .ok (describe t p) :=
  merged_tree t l r p pre post

example : ((Tree.node (.node .leaf .leaf) .leaf).places []).map (describe 3) =
    ["((3)a)a".toList, "((3)a)b".toList, "(3)b".toList] := by decide
example : getMergedSpineInfo ["1".toList, "((3)a)a".toList, "((3)a)b".toList, "(3)b".toList] 1 2 =
    .ok "3".toList := by decide

theorem trackOf_describe (t : Nat) (p : List Bool) : trackOf (describe t p) = t := by
  have key : ∀ (p : List Bool) (post : Str), (∀ c, post.head? = some c → isDig c = false) →
      parseNat (((describe t p ++ post).dropWhile (· == '(')).takeWhile isDig) = t := by
    intro p
    induction p with
    | nil =>
      intro post hpost
      have h1 : (natStr t ++ post).dropWhile (· == '(') = natStr t ++ post := by
        obtain ⟨a, b, hab⟩ := List.exists_cons_of_ne_nil (natStr_ne_nil t)
        have : a ≠ '(' := by
          rintro rfl
          exact natStr_not_mem t '(' (by decide) (by rw [hab]; simp)
        rw [hab]; simp [this]
      have h2 : (natStr t ++ post).takeWhile isDig = natStr t := by
        rw [List.takeWhile_append_of_pos (natStr_isDig t)]
        cases post with
        | nil => simp
        | cons a b => simp [hpost a rfl]
      simp only [describe, h1, h2, parse_natStr]
    | cons b p ih =>
      intro post _
      simp only [describe, List.cons_append, List.append_assoc]
      rw [List.dropWhile_cons_of_pos (by simp)]
      exact ih _ (by simp; decide)
  have := key p [] (by simp)
  simpa [trackOf] using this

/-- C16, false part: merging two different unsplit spines with one-digit numbers yields the empty
description, whose track is 0; three such spines crash the reader; two split ones give a crash too. -/
theorem merge_two_tracks_loses_track :
    getMergedSpineInfo ["1".toList, "2".toList] 0 1 = .ok [] ∧ trackOf [] = 0 := by decide
/-- Merging three unsplit spines crashes the reader. -/
theorem merge_three_tracks_crashes :
    getMergedSpineInfo ["1".toList, "2".toList, "3".toList] 0 2 = .error .indexError := by decide
/-- Merging three spines with two-digit numbers keeps the last one. -/
theorem merge_wrong_track :
    getMergedSpineInfo ["10".toList, "11".toList, "12".toList] 0 2 = .ok "12".toList := by decide

/-! ## C15 -/

theorem lineOk_tail {g : Group} {gs : List Group} (h : LineOk (g :: gs)) : g.Ok ∧ LineOk gs := by
  cases gs with
  | nil => exact ⟨h, trivial⟩
  | cons k gs => exact ⟨h.1, h.2.2⟩

/-- After a merge group the next token is not `*v`. -/
theorem head_not_merge {n : Nat} {gs : List Group} (h : LineOk (.merge n :: gs)) :
    ∀ t, (lineText gs).head? = some t → kindOf t ≠ .merge := by
  cases gs with
  | nil => simp [lineText]
  | cons k gs =>
    intro t ht
    have hk := (lineOk_tail h.2.2).1
    have hn := h.2.1
    cases k with
    | keep u => simp [lineText, Group.text] at ht; subst ht; rw [kind_keep u hk]; decide
    | split => simp [lineText, Group.text] at ht; subst ht; decide
    | merge m => exact absurd ⟨⟨n, rfl⟩, ⟨m, rfl⟩⟩ hn
    | swap => simp [lineText, Group.text] at ht; subst ht; decide
    | add => simp [lineText, Group.text] at ht; subst ht; decide
    | stop => simp [lineText, Group.text] at ht; subst ht; decide
    | excl u => simp [lineText, Group.text] at ht; subst ht; rw [kind_excl u hk]; decide

/-- The loop state corresponds to `n` tracks, with `w` saying whether the last one awaits its name. -/
def TracksOk (n : Nat) (w : Bool) (a : Adj) : Prop :=
  a.starts.length = n + 1 ∧ a.ends.length = n + 1 ∧
  ((a.starts.length > 1 ∧ a.starts.getLast? = some none) ↔ w = true)

theorem adj_single (li : Nat) (dt si : List Str) (i : Nat) (t : Str) (rest : List Str) (a : Adj)
    (hs : a.skip = false) (hm : a.merge = 0) (a' : Adj) (h : adjTok li dt si i t rest a = .ok a') :
    adjLoop li dt si i (t :: rest) a = adjLoop li dt si (i + 1) rest a' := by
  conv_lhs => unfold adjLoop
  rw [if_neg (by simp [hs]), if_neg (by simp [hm])]
  simp [hm, h]

theorem adj_moves (li : Nat) (gs : List Group) (n : Nat) (ss rs : List Spine) (m : Nat)
    (hM : Moves n gs ss rs m) (hL : LineOk gs) : ∀ (pre : List Spine) (a : Adj) (w w' : Bool),
    a.skip = false → a.merge = 0 → TracksOk n w a → waiting w gs = some w' →
    ∃ a', adjLoop li (typesOf (pre ++ ss)) (infosOf (pre ++ ss)) pre.length (lineText gs) a = .ok a' ∧
      a'.newType = a.newType ++ typesOf rs ∧ a'.newInfo = a.newInfo ++ infosOf rs ∧
      TracksOk m w' a' := by
  induction hM with
  | nil =>
    intro pre a w w' hs hm hT hw
    simp [waiting] at hw
    subst hw
    exact ⟨a, rfl, by simp [typesOf], by simp [infosOf], hT⟩
  | @keep n t gs s ss rs m _ ih =>
    intro pre a w w' hs hm hT hw
    obtain ⟨hg, hL'⟩ := lineOk_tail hL
    have e : adjTok li (typesOf (pre ++ s :: ss)) (infosOf (pre ++ s :: ss)) pre.length t (lineText gs) a =
        .ok { a with newType := a.newType ++ [s.type], newInfo := a.newInfo ++ [describe s.track s.path] } := by
      simp [adjTok, typesOf, infosOf, kind_keep t hg]
    obtain ⟨a', h1, h2, h3, h4⟩ := ih hL' (pre ++ [s])
      { a with newType := a.newType ++ [s.type], newInfo := a.newInfo ++ [describe s.track s.path] } w w'
      hs hm hT hw
    refine ⟨a', ?_, ?_, ?_, h4⟩
    · show adjLoop _ _ _ _ (t :: lineText gs) a = _
      rw [adj_single _ _ _ _ _ _ _ hs hm _ e]
      simpa using h1
    · simp [h2, typesOf]
    · simp [h3, infosOf]
  | @split n gs s ss rs m _ ih =>
    intro pre a w w' hs hm hT hw
    obtain ⟨hg, hL'⟩ := lineOk_tail hL
    have e : adjTok li (typesOf (pre ++ s :: ss)) (infosOf (pre ++ s :: ss)) pre.length "*^".toList (lineText gs) a =
        .ok { a with newType := a.newType ++ [s.type, s.type],
                     newInfo := a.newInfo ++ [describe s.track (false :: s.path), describe s.track (true :: s.path)] } := by
      simp [adjTok, typesOf, infosOf, show kindOf ['*', '^'] = .split by decide, describe]
    obtain ⟨a', h1, h2, h3, h4⟩ := ih hL' (pre ++ [s])
      { a with newType := a.newType ++ [s.type, s.type],
               newInfo := a.newInfo ++ [describe s.track (false :: s.path), describe s.track (true :: s.path)] } w w'
      hs hm hT hw
    refine ⟨a', ?_, ?_, ?_, h4⟩
    · show adjLoop _ _ _ _ ("*^".toList :: lineText gs) a = _
      rw [adj_single _ _ _ _ _ _ _ hs hm _ e]
      simpa using h1
    · simp [h2, typesOf]
    · simp [h3, infosOf]
  | @merge n gs t l r p ty ss rs m _ ih =>
    intro pre a w w' hs hm hT hw
    obtain ⟨hg, hL'⟩ := lineOk_tail hL
    have hg : 2 ≤ ((Tree.node l r).places p).length := hg
    generalize hP : (Tree.node l r).places p = P at *
    have hinf : infosOf (pre ++ (P.map (fun q => (⟨t, q, ty⟩ : Spine)) ++ ss)) =
        infosOf pre ++ P.map (describe t) ++ infosOf ss := by
      simp [infosOf, Function.comp_def]
    have hmd : mergeDone (typesOf (pre ++ (P.map (fun q => (⟨t, q, ty⟩ : Spine)) ++ ss)))
        (infosOf (pre ++ (P.map (fun q => (⟨t, q, ty⟩ : Spine)) ++ ss))) pre.length P.length a =
        .ok { a with newType := a.newType ++ [ty], newInfo := a.newInfo ++ [describe t p], merge := 0 } := by
      unfold mergeDone
      have e1 := merged_tree t l r p (infosOf pre) (infosOf ss)
      rw [hP] at e1
      rw [hinf, show pre.length = (infosOf pre).length by simp [infosOf], e1]
      have e2 : (typesOf (pre ++ (P.map (fun q => (⟨t, q, ty⟩ : Spine)) ++ ss)))[(infosOf pre).length]? = some ty := by
        obtain ⟨x, xs, rfl⟩ : ∃ x xs, P = x :: xs := by
          cases P with
          | nil => simp at hg
          | cons x xs => exact ⟨x, xs, rfl⟩
        simp [typesOf, infosOf]
      rw [e2]
    obtain ⟨a', h1, h2, h3, h4⟩ := ih hL' (pre ++ P.map (fun q => (⟨t, q, ty⟩ : Spine)))
      { a with newType := a.newType ++ [ty], newInfo := a.newInfo ++ [describe t p], merge := 0 } w w'
      hs rfl hT hw
    refine ⟨a', ?_, ?_, ?_, h4⟩
    · show adjLoop _ _ _ _ (List.replicate P.length "*v".toList ++ lineText gs) a = _
      rw [adj_merge _ _ _ _ _ _ (head_not_merge hL) hg a hs hm (by simp [typesOf]; omega) (by simp [infosOf]; omega),
        hmd]
      simp only
      simpa using h1
    · simp [h2, typesOf]
    · simp [h3, infosOf]
  | @swap n gs s s' ss rs m _ ih =>
    intro pre a w w' hs hm hT hw
    obtain ⟨hg, hL'⟩ := lineOk_tail hL
    have e : adjTok li (typesOf (pre ++ s :: s' :: ss)) (infosOf (pre ++ s :: s' :: ss)) pre.length "*x".toList
        ("*x".toList :: lineText gs) a =
        .ok { a with newType := a.newType ++ [s'.type, s.type],
                     newInfo := a.newInfo ++ [describe s'.track s'.path, describe s.track s.path], skip := true } := by
      simp [adjTok, typesOf, infosOf, show kindOf ['*', 'x'] = .exchange by decide]
    obtain ⟨a', h1, h2, h3, h4⟩ := ih hL' (pre ++ [s, s'])
      { a with newType := a.newType ++ [s'.type, s.type],
               newInfo := a.newInfo ++ [describe s'.track s'.path, describe s.track s.path], skip := false } w w'
      rfl hm hT hw
    refine ⟨a', ?_, ?_, ?_, h4⟩
    · show adjLoop _ _ _ _ ("*x".toList :: "*x".toList :: lineText gs) a = _
      rw [adj_single _ _ _ _ _ _ _ hs hm _ e]
      conv_lhs => unfold adjLoop
      simp only [if_true]
      simpa using h1
    · simp [h2, typesOf]
    · simp [h3, infosOf]
  | @add n gs s ss rs m _ ih =>
    intro pre a w w' hs hm hT hw
    obtain ⟨hg, hL'⟩ := lineOk_tail hL
    simp only [waiting] at hw
    have hw0 : w = false := by cases w <;> simp_all
    subst hw0
    simp at hw
    obtain ⟨t1, t2, t3⟩ := hT
    have e : adjTok li (typesOf (pre ++ s :: ss)) (infosOf (pre ++ s :: ss)) pre.length "*+".toList (lineText gs) a =
        .ok { a with newType := a.newType ++ [s.type, []],
                     newInfo := a.newInfo ++ [describe s.track s.path, natStr (n + 1)],
                     starts := a.starts ++ [none], ends := a.ends ++ [[]] } := by
      simp [adjTok, typesOf, infosOf, show kindOf ['*', '+'] = .add by decide, addToTrackStarts, t1]
    obtain ⟨a', h1, h2, h3, h4⟩ := ih hL' (pre ++ [s])
      { a with newType := a.newType ++ [s.type, []],
               newInfo := a.newInfo ++ [describe s.track s.path, natStr (n + 1)],
               starts := a.starts ++ [none], ends := a.ends ++ [[]] } true w'
      hs hm ⟨by simp [t1], by simp [t2], by simp [t1]⟩ hw
    refine ⟨a', ?_, ?_, ?_, h4⟩
    · show adjLoop _ _ _ _ ("*+".toList :: lineText gs) a = _
      rw [adj_single _ _ _ _ _ _ _ hs hm _ e]
      simpa using h1
    · simp [h2, typesOf]
    · simp [h3, infosOf, describe]
  | @stop n gs s ss rs m _ ih =>
    intro pre a w w' hs hm hT hw
    obtain ⟨hg, hL'⟩ := lineOk_tail hL
    obtain ⟨t1, t2, t3⟩ := hT
    have hap : ∃ ends, appendAt a.ends (a.starts.length - 1) (li, pre.length) = .ok ends ∧
        ends.length = a.ends.length := by
      unfold appendAt
      rw [List.getElem?_eq_getElem (by omega)]
      exact ⟨_, rfl, by simp⟩
    obtain ⟨ends, hap, hel⟩ := hap
    have e : adjTok li (typesOf (pre ++ s :: ss)) (infosOf (pre ++ s :: ss)) pre.length "*-".toList (lineText gs) a =
        .ok { a with ends := ends } := by
      simp [adjTok, typesOf, infosOf, show kindOf ['*', '-'] = .terminate by decide, hap]
    obtain ⟨a', h1, h2, h3, h4⟩ := ih hL' (pre ++ [s]) { a with ends := ends } w w'
      hs hm ⟨t1, by simp [hel, t2], t3⟩ hw
    refine ⟨a', ?_, ?_, ?_, h4⟩
    · show adjLoop _ _ _ _ ("*-".toList :: lineText gs) a = _
      rw [adj_single _ _ _ _ _ _ _ hs hm _ e]
      simpa using h1
    · simp [h2]
    · simp [h3]
  | @excl n t gs s ss rs m _ ih =>
    intro pre a w w' hs hm hT hw
    obtain ⟨hg, hL'⟩ := lineOk_tail hL
    simp only [waiting] at hw
    have hw0 : w = true := by cases w <;> simp_all
    subst hw0
    simp at hw
    obtain ⟨t1, t2, t3⟩ := hT
    have hc := t3.2 rfl
    have e : adjTok li (typesOf (pre ++ s :: ss)) (infosOf (pre ++ s :: ss)) pre.length t (lineText gs) a =
        .ok { a with newType := a.newType ++ [t], newInfo := a.newInfo ++ [describe s.track s.path],
                     starts := a.starts.dropLast ++ [some (li, pre.length)] } := by
      simp [adjTok, typesOf, infosOf, kind_excl t hg, addToTrackStarts, hc]
    obtain ⟨a', h1, h2, h3, h4⟩ := ih hL' (pre ++ [s])
      { a with newType := a.newType ++ [t], newInfo := a.newInfo ++ [describe s.track s.path],
               starts := a.starts.dropLast ++ [some (li, pre.length)] } false w'
      hs hm ⟨by simp [t1], t2, by simp⟩ hw
    refine ⟨a', ?_, ?_, ?_, h4⟩
    · show adjLoop _ _ _ _ (t :: lineText gs) a = _
      rw [adj_single _ _ _ _ _ _ _ hs hm _ e]
      simpa using h1
    · simp [h2, typesOf]
    · simp [h3, infosOf]


theorem lineText_length (gs : List Group) : (lineText gs).length = takesOf gs := by
  induction gs with
  | nil => rfl
  | cons g gs ih =>
    have : g.text.length = g.takes := by cases g <;> simp [Group.text, Group.takes]
    have h2 : lineText (g :: gs) = g.text ++ lineText gs := rfl
    rw [h2, List.length_append, ih, this]
    simp [takesOf]

theorem moves_length {n : Nat} {gs : List Group} {ss rs : List Spine} {m : Nat} (h : Moves n gs ss rs m) :
    ss.length = takesOf gs ∧ rs.length = leavesOf gs := by
  induction h with
  | nil => simp [takesOf, leavesOf]
  | keep _ ih => simp [takesOf, leavesOf, Group.takes, Group.leaves] at *; omega
  | split _ ih => simp [takesOf, leavesOf, Group.takes, Group.leaves] at *; omega
  | merge _ ih => simp [takesOf, leavesOf, Group.takes, Group.leaves] at *; omega
  | swap _ ih => simp [takesOf, leavesOf, Group.takes, Group.leaves] at *; omega
  | add _ ih => simp [takesOf, leavesOf, Group.takes, Group.leaves] at *; omega
  | stop _ ih => simp [takesOf, leavesOf, Group.takes, Group.leaves] at *; omega
  | excl _ ih => simp [takesOf, leavesOf, Group.takes, Group.leaves] at *; omega

theorem tokIsManipulator_iff (t : Str) : tokIsManipulator t = true ↔ kindOf t ≠ .other := by
  unfold tokIsManipulator kindOf
  by_cases h1 : t = "*^".toList
  · subst h1; decide
  by_cases h2 : t = "*v".toList
  · subst h2; decide
  by_cases h3 : t = "*+".toList
  · subst h3; decide
  by_cases h4 : t = "*x".toList
  · subst h4; decide
  by_cases h5 : t = "*-".toList
  · subst h5; decide
  rw [if_neg h1, if_neg h2, if_neg h3, if_neg h4, if_neg h5]
  simp only [beq_eq_false_iff_ne.2 h1, beq_eq_false_iff_ne.2 h2, beq_eq_false_iff_ne.2 h3,
    beq_eq_false_iff_ne.2 h4, beq_eq_false_iff_ne.2 h5, Bool.false_or]
  cases startsWith t "**".toList <;> simp

/-- A line without manipulators leaves the spines alone. -/
theorem moves_plain {n : Nat} {gs : List Group} {ss rs : List Spine} {m : Nat} (h : Moves n gs ss rs m)
    (hL : LineOk gs) (hp : (lineText gs).any tokIsManipulator = false) (w : Bool) :
    rs = ss ∧ m = n ∧ waiting w gs = some w := by
  have hk : ∀ t ∈ lineText gs, kindOf t = .other := by
    intro t ht
    by_contra hc
    have := (tokIsManipulator_iff t).2 hc
    have h2 := List.any_eq_false.1 hp t ht
    exact h2 this
  induction h with
  | nil => exact ⟨rfl, rfl, rfl⟩
  | keep _ ih =>
    obtain ⟨h1, h2⟩ := lineOk_tail hL
    have hk' := fun t ht => hk t (by simp only [lineText, List.flatMap_cons, List.mem_append]; exact Or.inr ht)
    obtain ⟨a, b, c⟩ := ih h2 (by
      rw [List.any_eq_false]; intro t ht hc; exact (tokIsManipulator_iff t).1 hc (hk' t ht)) hk'
    exact ⟨by rw [a], b, by simpa [waiting] using c⟩
  | split _ _ => exact absurd (hk "*^".toList (by simp [lineText, Group.text])) (by decide)
  | @merge n gs t l r p ty ss rs m _ _ =>
    have := places_node_len l r p
    exact absurd (hk "*v".toList (by
      simp only [lineText, List.flatMap_cons, List.mem_append, Group.text, List.mem_replicate]
      exact Or.inl ⟨by omega, trivial⟩)) (by decide)
  | swap _ _ => exact absurd (hk "*x".toList (by simp [lineText, Group.text])) (by decide)
  | add _ _ => exact absurd (hk "*+".toList (by simp [lineText, Group.text])) (by decide)
  | stop _ _ => exact absurd (hk "*-".toList (by simp [lineText, Group.text])) (by decide)
  | @excl n t gs s ss rs m _ _ =>
    have := hk t (by simp [lineText, Group.text])
    rw [kind_excl t (lineOk_tail hL).1] at this
    exact absurd this (by decide)

/-- How a line of the model appears in the specification. -/
def Line.view (l : Line) : Option (List Str) := if l.hasSpines then some l.tokens else none

/-- The reader's state stands for a state of the specification. -/
def Stands (s : Spines) (x : List Spine × Nat × Bool) : Prop :=
  s.types = typesOf x.1 ∧ s.infos = infosOf x.1 ∧ s.starts.length = x.2.1 + 1 ∧ s.ends.length = x.2.1 + 1 ∧
  ((s.starts.length > 1 ∧ s.starts.getLast? = some none) ↔ x.2.2 = true)

def StandsO : Option Spines → Option (List Spine × Nat × Bool) → Prop
  | none, none => True
  | some s, some x => Stands s x
  | _, _ => False

theorem adjust_moves (li : Nat) {gs : List Group} {n : Nat} {ss rs : List Spine} {m : Nat} {w w' : Bool}
    (hL : LineOk gs) (hM : Moves n gs ss rs m) (hw : waiting w gs = some w') (s : Spines)
    (hs : Stands s (ss, n, w)) :
    ∃ s', adjustSpines li (lineText gs) s = .ok s' ∧ Stands s' (rs, m, w') := by
  obtain ⟨h1, h2, h3, h4, h5⟩ := hs
  obtain ⟨a', e1, e2, e3, e4⟩ := adj_moves li gs n ss rs m hM hL [] ⟨[], [], 0, false, s.starts, s.ends⟩ w w'
    rfl rfl ⟨h3, h4, h5⟩ hw
  refine ⟨⟨a'.newType, a'.newInfo, a'.starts, a'.ends⟩, ?_, ?_⟩
  · unfold adjustSpines
    simp only [List.nil_append, List.length_nil] at e1
    simp only [h1, h2]
    rw [e1]
  · obtain ⟨f1, f2, f3⟩ := e4
    exact ⟨by simpa using e2, by simpa using e3, f1, f2, f3⟩

theorem firstSpines_stands (li : Nat) (toks : List Str) (h0 : toks ≠ []) :
    Stands (firstSpines li toks) (openSpines toks, toks.length, false) := by
  have hz : toks.zipIdx.map (fun p => p.2) = List.range toks.length := by
    apply List.ext_getElem?
    intro i
    simp only [List.getElem?_map, List.getElem?_zipIdx]
    by_cases hi : i < toks.length
    · rw [List.getElem?_eq_getElem hi]; simp [hi]
    · rw [List.getElem?_eq_none (by omega)]; simp; omega
  refine ⟨?_, ?_, ?_, ?_, ?_⟩
  · simp only [firstSpines, typesOf, openSpines, List.map_map, Function.comp_def]
    simp
  · simp only [firstSpines, infosOf, openSpines, List.map_map, Function.comp_def, describe]
    rw [← hz, List.map_map]; rfl
  · simp [firstSpines]
  · simp [firstSpines]
  · simp only [firstSpines, Bool.false_eq_true, iff_false, not_and]
    intro _
    obtain ⟨j, hj⟩ : ∃ j, toks.length = j + 1 := by
      cases toks with
      | nil => exact absurd rfl h0
      | cons a b => exact ⟨b.length, rfl⟩
    rw [hj, List.range_succ, List.map_append]
    simp only [List.map_cons, List.map_nil]
    rw [← List.cons_append, List.getLast?_concat]
    simp

/-- The loop accepts every correct file, and computes the descriptions of the specification. -/
theorem spinesLoop_run (lines : List Line) (hlines : ∀ l ∈ lines, l.hasSpines = false → l.tokens ≠ []) :
    ∀ (li : Nat) (s : Option Spines) (x : Option (List Spine × Nat × Bool)) (ds : List (List Str))
      (x' : Option (List Spine × Nat × Bool)), StandsO s x → FileRun x (lines.map Line.view) ds x' →
    ∃ s', spinesLoop li lines s = .ok (ds, s') ∧ StandsO s' x' := by
  induction lines with
  | nil =>
    intro li s x ds x' hs hr
    simp at hr
    cases hr
    exact ⟨s, rfl, hs⟩
  | cons l ls ih =>
    intro li s x ds x' hs hr
    have ih := ih (fun l hl => hlines l (by simp [hl]))
    have hl0 := hlines l (by simp)
    simp only [List.map_cons] at hr
    generalize hv : l.view = v at hr
    cases hr with
    | skip hr =>
      have hsp : l.hasSpines = false := by
        unfold Line.view at hv; cases h : l.hasSpines <;> simp_all
      obtain ⟨s', h1, h2⟩ := ih (li + 1) s _ _ _ hs hr
      refine ⟨s', ?_, h2⟩
      unfold spinesLoop
      rw [if_pos ⟨hsp, hl0 hsp⟩, h1]
    | @start toks _ ds _ hex hr =>
      have hsp : l.hasSpines = true ∧ l.tokens = toks := by
        unfold Line.view at hv; cases h : l.hasSpines <;> simp_all
      obtain ⟨hsp, rfl⟩ := hsp
      have hne : l.tokens ≠ [] := by rintro e; rw [e] at hex; simp at hex
      cases s with
      | some s => exact absurd hs (by simp [StandsO])
      | none =>
        have hst := firstSpines_stands li l.tokens hne
        obtain ⟨s', h1, h2⟩ := ih (li + 1) (some (firstSpines li l.tokens)) (some _) _ _ hst hr
        refine ⟨s', ?_, h2⟩
        unfold spinesLoop
        rw [if_neg (by simp [hsp])]
        simp only
        have hexc : l.isExclusive = true := by
          unfold Line.isExclusive
          rw [List.any_eq_true]
          exact hex
        rw [if_pos hexc, h1]
        simp only
        rw [hst.2.1]; rfl
    | @line ss n w gs rs m w' _ ds _ hL hM hw hr =>
      have hsp : l.hasSpines = true ∧ l.tokens = lineText gs := by
        unfold Line.view at hv; cases h : l.hasSpines <;> simp_all
      obtain ⟨hsp, htok⟩ := hsp
      cases s with
      | none => exact absurd hs (by simp [StandsO])
      | some s =>
        have hs : Stands s (ss, n, w) := hs
        have hlen : s.types.length = l.tokens.length := by
          rw [hs.1, htok, lineText_length, ← (moves_length hM).1]; simp [typesOf]
        have hinf : s.infos = ss.map (fun s => describe s.track s.path) := hs.2.1
        by_cases hman : l.isManipulator = true
        · obtain ⟨s1, g1, g2⟩ := adjust_moves li hL hM hw s hs
          obtain ⟨s', h1, h2⟩ := ih (li + 1) (some s1) (some _) _ _ g2 hr
          refine ⟨s', ?_, h2⟩
          unfold spinesLoop
          rw [if_neg (by simp [hsp])]
          simp only
          rw [if_neg (by simp [hlen]), if_pos hman, htok, g1]
          simp only
          rw [h1, hinf]
        · have hman' : (lineText gs).any tokIsManipulator = false := by
            rw [← htok]; unfold Line.isManipulator at hman; simpa using hman
          obtain ⟨rfl, rfl, hww⟩ := moves_plain hM hL hman' w
          rw [hww] at hw
          cases hw
          obtain ⟨s', h1, h2⟩ := ih (li + 1) (some s) (some _) _ _ hs hr
          refine ⟨s', ?_, h2⟩
          unfold spinesLoop
          rw [if_neg (by simp [hsp])]
          simp only
          rw [if_neg (by simp [hlen]), if_neg hman, h1, hinf]

/-- C15 (acceptance, proved part). Every file that is a correct sequence of lines is accepted, and each token gets the
spine description of the specification. The specification's files are those in which a merge joins all the
sub-spines of one spine, and at most one added spine waits for its name.
Missing from the full property, each with a proof that it fails: merges of different tracks
(`merge_three_tracks_crashes`), two spines added on one line (`two_added_rejected`). -/
theorem file_accepted_partial (lines : List Line) (hlines : ∀ l ∈ lines, l.hasSpines = false → l.tokens ≠ [])
    (ds : List (List Str)) (x : List Spine × Nat × Bool)
    (h : FileRun none (lines.map Line.view) ds (some x)) :
    ∃ s, analyzeSpines lines = .ok (ds, s) ∧ s.infos = infosOf x.1 := by
  obtain ⟨s', h1, h2⟩ := spinesLoop_run lines hlines 0 none none ds (some x) trivial h
  cases s' with
  | none => exact absurd h2 (by simp [StandsO])
  | some s =>
    refine ⟨s, ?_, h2.2.1⟩
    unfold analyzeSpines
    rw [h1]

/-- Every line read from text satisfies the side condition of `file_accepted_partial`. -/
theorem read_line_side (t : Str) : (createTokensFromLine t).hasSpines = false → (createTokensFromLine t).tokens ≠ [] := by
  unfold createTokensFromLine
  intro h
  split at h
  · rename_i h0; rw [if_pos h0]; simp
  · rename_i h0
    rw [if_neg h0]
    split at h
    · rename_i h1; rw [if_pos h1]; simp
    · rename_i h1
      simp only [Line.hasSpines, Line.isEmpty, Line.isGlobal, Line.isGlobalComment] at h
      exfalso
      have h1' : startsWith t "!!".toList = false := by simpa using h1
      rw [h1'] at h
      cases t with
      | nil => exact h0 rfl
      | cons a b => simp at h


theorem takes_cons (g : Group) (gs : List Group) : takesOf (g :: gs) = g.takes + takesOf gs := by simp [takesOf]
theorem leaves_cons (g : Group) (gs : List Group) : leavesOf (g :: gs) = g.leaves + leavesOf gs := by simp [leavesOf]
theorem text_cons (g : Group) (gs : List Group) : lineText (g :: gs) = g.text ++ lineText gs := rfl

/-- A group that is not a merge may stand before any correct line. -/
theorem lineOk_cons {g : Group} {gs : List Group} (hg : g.Ok) (hgs : LineOk gs) (hn : ∀ n, g ≠ .merge n) :
    LineOk (g :: gs) := by
  cases gs with
  | nil => exact hg
  | cons k gs => exact ⟨hg, fun h => by obtain ⟨⟨n, h⟩, _⟩ := h; exact hn n h, hgs⟩

theorem lineOk_merge {n : Nat} {gs : List Group} (hn : 2 ≤ n) (hgs : LineOk gs)
    (hh : (lineText gs).head? ≠ some "*v".toList) : LineOk (.merge n :: gs) := by
  cases gs with
  | nil => exact hn
  | cons k gs =>
    refine ⟨hn, ?_, hgs⟩
    rintro ⟨_, m, rfl⟩
    have hm : 2 ≤ m := (lineOk_tail hgs).1
    apply hh
    obtain ⟨j, rfl⟩ : ∃ j, m = j + 1 := ⟨m - 1, by omega⟩
    simp [lineText, Group.text, List.replicate_succ]

theorem run_split (v : Str) (l : List Str) : ∃ n rest, l = List.replicate n v ++ rest ∧ rest.head? ≠ some v := by
  induction l with
  | nil => exact ⟨0, [], rfl, by simp⟩
  | cons a b ih =>
    by_cases h : a = v
    · obtain ⟨n, rest, h1, h2⟩ := ih
      exact ⟨n + 1, rest, by rw [h, h1]; simp [List.replicate_succ], h2⟩
    · exact ⟨0, a :: b, rfl, by simpa using h⟩

theorem kind_merge_iff (t : Str) : kindOf t = .merge ↔ t = "*v".toList := by
  constructor
  · intro h
    unfold kindOf at h
    by_contra hc
    rw [if_neg hc] at h
    by_cases h1 : t = "*^".toList
    · rw [if_pos h1] at h; cases h
    rw [if_neg h1] at h
    by_cases h2 : t = "*+".toList
    · rw [if_pos h2] at h; cases h
    rw [if_neg h2] at h
    by_cases h3 : t = "*x".toList
    · rw [if_pos h3] at h; cases h
    rw [if_neg h3] at h
    by_cases h4 : t = "*-".toList
    · rw [if_pos h4] at h; cases h
    rw [if_neg h4] at h
    by_cases h5 : startsWith t "**".toList = true
    · rw [if_pos h5] at h; cases h
    rw [if_neg h5] at h; cases h
  · rintro rfl; decide

/-- Which tokens have which kind. -/
theorem kind_cases (t : Str) :
    (kindOf t = .split ∧ t = "*^".toList) ∨ (kindOf t = .merge ∧ t = "*v".toList) ∨
    (kindOf t = .add ∧ t = "*+".toList) ∨ (kindOf t = .exchange ∧ t = "*x".toList) ∨
    (kindOf t = .terminate ∧ t = "*-".toList) ∨ (kindOf t = .exclusive ∧ (Group.excl t).Ok) ∨
    (kindOf t = .other ∧ (Group.keep t).Ok) := by
  by_cases h1 : t = "*^".toList
  · exact .inl ⟨by rw [h1]; decide, h1⟩
  by_cases h2 : t = "*v".toList
  · exact .inr (.inl ⟨by rw [h2]; decide, h2⟩)
  by_cases h3 : t = "*+".toList
  · exact .inr (.inr (.inl ⟨by rw [h3]; decide, h3⟩))
  by_cases h4 : t = "*x".toList
  · exact .inr (.inr (.inr (.inl ⟨by rw [h4]; decide, h4⟩)))
  by_cases h5 : t = "*-".toList
  · exact .inr (.inr (.inr (.inr (.inl ⟨by rw [h5]; decide, h5⟩))))
  by_cases h6 : startsWith t "**".toList = true
  · exact .inr (.inr (.inr (.inr (.inr (.inl ⟨kind_excl t h6, h6⟩)))))
  · have hk : (Group.keep t).Ok := ⟨by simp only [List.mem_cons, List.not_mem_nil, or_false, not_or]; exact ⟨h1, h2, h3, h4, h5⟩,
      by unfold startsWith at h6; exact Bool.eq_false_iff.2 h6⟩
    exact .inr (.inr (.inr (.inr (.inr (.inr ⟨kind_keep t hk, hk⟩)))))

/-- A single token processed by the loop. -/
theorem adj_one (li : Nat) (dt si : List Str) (i : Nat) (t : Str) (rest : List Str) (a : Adj)
    (hs : a.skip = false) (hm : a.merge = 0) :
    adjLoop li dt si i (t :: rest) a =
      match adjTok li dt si i t rest a with
      | .ok a' => adjLoop li dt si (i + 1) rest a'
      | .error e => .error e := by
  conv_lhs => unfold adjLoop
  rw [if_neg (by simp [hs]), if_neg (by simp [hm])]
  simp only [hm, gt_iff_lt, Nat.lt_irrefl, false_and, if_false]
  rfl

/-- What the manipulator loop accepts: a line of well-formed groups, possibly followed by one stray `*v`. -/
theorem adj_sound (li : Nat) (dt si : List Str) (N : Nat) : ∀ (toks : List Str) (i : Nat) (a a' : Adj),
    toks.length ≤ N → dt.length = i + toks.length → si.length = i + toks.length →
    a.skip = false → a.merge = 0 → adjLoop li dt si i toks a = .ok a' →
    ∃ gs, LineOk gs ∧ (toks = lineText gs ∨ toks = lineText gs ++ ["*v".toList]) ∧
      a'.newType.length = a.newType.length + leavesOf gs ∧
      a'.newInfo.length = a.newInfo.length + leavesOf gs := by
  induction N with
  | zero =>
    intro toks i a a' hN _ _ _ _ h
    have : toks = [] := List.length_eq_zero_iff.1 (by omega)
    subst this
    simp [adjLoop] at h
    subst h
    exact ⟨[], trivial, .inl rfl, by simp [leavesOf], by simp [leavesOf]⟩
  | succ N ih =>
    intro toks i a a' hN hdt hsi hs hm h
    cases toks with
    | nil =>
      simp [adjLoop] at h
      subst h
      exact ⟨[], trivial, .inl rfl, by simp [leavesOf], by simp [leavesOf]⟩
    | cons t rest =>
      simp only [List.length_cons] at hN hdt hsi
      -- continuation for groups of one token
      have single : ∀ (g : Group) (a1 : Adj), g.Ok → (∀ n, g ≠ .merge n) → g.text = [t] →
          adjTok li dt si i t rest a = .ok a1 → a1.skip = false → a1.merge = 0 →
          a1.newType.length = a.newType.length + g.leaves →
          a1.newInfo.length = a.newInfo.length + g.leaves →
          ∃ gs, LineOk gs ∧ (t :: rest = lineText gs ∨ t :: rest = lineText gs ++ ["*v".toList]) ∧
            a'.newType.length = a.newType.length + leavesOf gs ∧
            a'.newInfo.length = a.newInfo.length + leavesOf gs := by
        intro g a1 hg hn htx he hs1 hm1 hl1 hl2
        rw [adj_one li dt si i t rest a hs hm, he] at h
        obtain ⟨gs, g1, g2, g3, g4⟩ := ih rest (i + 1) a1 a' (by omega) (by omega) (by omega) hs1 hm1 h
        refine ⟨g :: gs, lineOk_cons hg g1 hn, ?_, ?_, ?_⟩
        · rw [text_cons, htx]
          rcases g2 with rfl | rfl
          · exact .inl rfl
          · exact .inr rfl
        · rw [leaves_cons]; omega
        · rw [leaves_cons]; omega
      have hdi : i < dt.length := by omega
      have hsi' : i < si.length := by omega
      have hget1 : dt[i]? = some dt[i] := List.getElem?_eq_getElem hdi
      have hget2 : si[i]? = some si[i] := List.getElem?_eq_getElem hsi'
      rcases kind_cases t with ⟨hk, rfl⟩ | ⟨hk, rfl⟩ | ⟨hk, rfl⟩ | ⟨hk, rfl⟩ | ⟨hk, rfl⟩ | ⟨hk, hg⟩ | ⟨hk, hg⟩
      · -- split
        refine single .split { a with newType := a.newType ++ [dt[i], dt[i]], newInfo := a.newInfo ++ ['(' :: si[i] ++ ")a".toList, '(' :: si[i] ++ ")b".toList] } trivial (by simp) rfl (by unfold adjTok; rw [hget1, hget2]; simp only [hk]) hs hm ?_ ?_
        · simp [Group.leaves]
        · simp [Group.leaves]
      · -- merge
        obtain ⟨n, rest', hr1, hr2⟩ := run_split "*v".toList rest
        subst hr1
        have hnm : ∀ u, rest'.head? = some u → kindOf u ≠ .merge := by
          intro u hu hc
          rw [kind_merge_iff] at hc
          subst hc
          exact hr2 hu
        cases n with
        | zero =>
          simp only [List.replicate_zero, List.nil_append] at h hN hdt hsi ⊢
          rw [adj_one li dt si i _ rest' a hs hm] at h
          have e : adjTok li dt si i "*v".toList rest' a = .ok { a with merge := 1 } := by
            unfold adjTok; rw [hget1, hget2]; simp only [hk]
          rw [e] at h
          simp only at h
          cases rest' with
          | nil =>
            simp [adjLoop] at h
            subst h
            exact ⟨[], trivial, .inr rfl, by simp [leavesOf], by simp [leavesOf]⟩
          | cons u us =>
            have hu := hnm u rfl
            unfold adjLoop at h
            rw [if_neg (by simp [hs]), if_neg (by simp [hu])] at h
            simp [hu] at h
        | succ n =>
          have e0 : "*v".toList :: (List.replicate (n + 1) "*v".toList ++ rest') =
              List.replicate (n + 2) "*v".toList ++ rest' := by simp [List.replicate_succ]
          rw [e0] at h ⊢
          rw [adj_merge li dt si i (n + 2) rest' hnm (by omega) a hs hm hdi hsi'] at h
          cases hd : mergeDone dt si i (n + 2) a with
          | error e => rw [hd] at h; cases h
          | ok a1 =>
            rw [hd] at h
            have ha1 : a1.skip = false ∧ a1.merge = 0 ∧ a1.newType.length = a.newType.length + 1 ∧
                a1.newInfo.length = a.newInfo.length + 1 := by
              unfold mergeDone at hd
              cases hg : getMergedSpineInfo si i (n + 2 - 1) with
              | error e => rw [hg] at hd; cases hd
              | ok inf =>
                rw [hg, hget1] at hd
                simp only [Except.ok.injEq] at hd
                subst hd
                exact ⟨hs, rfl, by simp, by simp⟩
            obtain ⟨b1, b2, b3, b4⟩ := ha1
            simp only [List.length_append, List.length_replicate] at hN hdt hsi
            obtain ⟨gs, g1, g2, g3, g4⟩ := ih rest' (i + (n + 2)) a1 a' (by omega) (by omega) (by omega) b1 b2 h
            by_cases hstray : gs = []
            · subst hstray
              have : rest' = [] := by
                rcases g2 with g2 | g2
                · simpa [lineText] using g2
                · exfalso; apply hr2; rw [g2]; rfl
              subst this
              refine ⟨[.merge (n + 2)], by show 2 ≤ n + 2; omega, .inl (by simp [lineText, Group.text]), ?_, ?_⟩
              · simp [leavesOf, Group.leaves] at *; omega
              · simp [leavesOf, Group.leaves] at *; omega
            · obtain ⟨g, gs', rfl⟩ := List.exists_cons_of_ne_nil hstray
              have hhead : (lineText (g :: gs')).head? ≠ some "*v".toList := by
                intro hc
                apply hr2
                rcases g2 with g2 | g2
                · rw [g2]; exact hc
                · rw [g2, List.head?_append, hc]; rfl
              refine ⟨.merge (n + 2) :: g :: gs', lineOk_merge (by omega) g1 hhead, ?_, ?_, ?_⟩
              · rw [text_cons]
                rcases g2 with rfl | rfl
                · exact .inl rfl
                · exact .inr (by simp [Group.text])
              · rw [leaves_cons]; simp only [Group.leaves]; omega
              · rw [leaves_cons]; simp only [Group.leaves]; omega
      · -- add
        refine single .add { a with newType := a.newType ++ [dt[i], []], newInfo := a.newInfo ++ [si[i], natStr ((a.starts ++ [none]).length - 1)], starts := a.starts ++ [none], ends := a.ends ++ [[]] } trivial (by simp) rfl
          (by unfold adjTok; rw [hget1, hget2]; simp only [hk, addToTrackStarts]) hs hm ?_ ?_
        · simp [Group.leaves]
        · simp [Group.leaves]
      · -- exchange
        rw [adj_one li dt si i _ rest a hs hm] at h
        unfold adjTok at h
        rw [hget1, hget2] at h
        simp only [hk] at h
        cases rest with
        | nil => cases h
        | cons u us =>
          simp only [List.length_cons] at hN hdt hsi
          simp only at h
          by_cases hu : kindOf u ≠ .exchange
          · rw [if_pos hu] at h; cases h
          · rw [if_neg hu] at h
            have hu' : u = "*x".toList := by
              rcases kind_cases u with ⟨e, _⟩ | ⟨e, _⟩ | ⟨e, _⟩ | ⟨_, e⟩ | ⟨e, _⟩ | ⟨e, _⟩ | ⟨e, _⟩
              all_goals first
                | exact e
                | (exfalso; apply hu; rw [e]; decide)
            subst hu'
            rw [List.getElem?_eq_getElem (show i + 1 < dt.length by omega),
              List.getElem?_eq_getElem (show i + 1 < si.length by omega)] at h
            simp only at h
            unfold adjLoop at h
            simp only [if_true] at h
            obtain ⟨gs, g1, g2, g3, g4⟩ := ih us (i + 1 + 1) { a with newType := a.newType ++ [dt[i + 1], dt[i]], newInfo := a.newInfo ++ [si[i + 1], si[i]], skip := false } a'
              (by omega) (by omega) (by omega) rfl hm h
            refine ⟨.swap :: gs, lineOk_cons trivial g1 (by simp), ?_, ?_, ?_⟩
            · rw [text_cons]
              rcases g2 with rfl | rfl
              · exact .inl rfl
              · exact .inr rfl
            · rw [leaves_cons]; simp [Group.leaves] at *; omega
            · rw [leaves_cons]; simp [Group.leaves] at *; omega
      · -- terminate
        cases hap : appendAt a.ends (a.starts.length - 1) (li, i) with
        | error e =>
          rw [adj_one li dt si i _ rest a hs hm] at h
          unfold adjTok at h
          rw [hget1, hget2] at h
          simp only [hk, hap] at h
          cases h
        | ok ends =>
          refine single .stop { a with ends := ends } trivial (by simp) rfl
            (by unfold adjTok; rw [hget1, hget2]; simp only [hk, hap]) hs hm ?_ ?_
          · simp [Group.leaves]
          · simp [Group.leaves]
      · -- exclusive
        by_cases hc : a.starts.length > 1 ∧ a.starts.getLast? = some none
        · refine single (.excl t) { a with newType := a.newType ++ [t], newInfo := a.newInfo ++ [si[i]], starts := (addToTrackStarts (some (li, i)) a.starts a.ends).1, ends := (addToTrackStarts (some (li, i)) a.starts a.ends).2 } hg (by simp) rfl
            (by unfold adjTok; rw [hget1, hget2]; simp only [hk]; rw [if_pos hc]) ?_ ?_ ?_ ?_
          · exact hs
          · exact hm
          · simp [Group.leaves]
          · simp [Group.leaves]
        · rw [adj_one li dt si i _ rest a hs hm] at h
          unfold adjTok at h
          rw [hget1, hget2] at h
          simp only [hk] at h
          rw [if_neg hc] at h
          cases h
      · -- ordinary token
        refine single (.keep t) { a with newType := a.newType ++ [dt[i]], newInfo := a.newInfo ++ [si[i]] } hg (by simp) rfl
          (by unfold adjTok; rw [hget1, hget2]; simp only [hk]) hs hm ?_ ?_
        · simp [Group.leaves]
        · simp [Group.leaves]

/-- A list of tokens without manipulators is a line of ordinary groups. -/
theorem plain_groups (toks : List Str) (h : toks.any tokIsManipulator = false) :
    ∃ gs, LineOk gs ∧ toks = lineText gs ∧ leavesOf gs = toks.length := by
  induction toks with
  | nil => exact ⟨[], trivial, rfl, rfl⟩
  | cons t rest ih =>
    simp only [List.any_cons, Bool.or_eq_false_iff] at h
    obtain ⟨gs, h1, h2, h3⟩ := ih h.2
    have hk : kindOf t = .other := by
      by_contra hc
      rw [(tokIsManipulator_iff t).2 hc] at h
      exact absurd h.1 (by decide)
    have hg : (Group.keep t).Ok := by
      rcases kind_cases t with ⟨e, _⟩ | ⟨e, _⟩ | ⟨e, _⟩ | ⟨e, _⟩ | ⟨e, _⟩ | ⟨e, _⟩ | ⟨_, e⟩
      all_goals first
        | exact e
        | (rw [hk] at e; cases e)
    refine ⟨.keep t :: gs, lineOk_cons hg h1 (by simp), ?_, ?_⟩
    · rw [text_cons, ← h2]; rfl
    · rw [leaves_cons, h3]; simp [Group.leaves]; omega

theorem spinesLoop_counts (lines : List Line) : ∀ (li : Nat) (s : Option Spines) (r : List (List Str) × Option Spines),
    (∀ x, s = some x → x.types.length = x.infos.length) →
    (∀ l ∈ lines, l.hasSpines = false → l.tokens ≠ []) →
    spinesLoop li lines s = .ok r →
    FileCounts [[], ["*v".toList]] (s.map (fun x => x.types.length)) (lines.map Line.view) := by
  induction lines with
  | nil => intro li s r _ _ _; exact .nil
  | cons l ls ih =>
    intro li s r hs hlines h
    have hl' : ∀ l ∈ ls, l.hasSpines = false → l.tokens ≠ [] := fun l hl => hlines l (by simp [hl])
    unfold spinesLoop at h
    by_cases hsp : l.hasSpines = false
    · rw [if_pos ⟨hsp, hlines l (by simp) hsp⟩] at h
      cases hr : spinesLoop (li + 1) ls s with
      | error e => rw [hr] at h; cases h
      | ok r' =>
        have := ih (li + 1) s r' hs hl' hr
        simp only [List.map_cons, Line.view, hsp, Bool.false_eq_true, if_false]
        exact .skip this
    · have hsp' : l.hasSpines = true := by simpa using hsp
      rw [if_neg (by simp [hsp'])] at h
      have hv : l.view = some l.tokens := by simp [Line.view, hsp']
      rw [List.map_cons, hv]
      cases s with
      | none =>
        simp only at h
        by_cases hex : l.isExclusive = true
        · rw [if_pos hex] at h
          cases hr : spinesLoop (li + 1) ls (some (firstSpines li l.tokens)) with
          | error e => rw [hr] at h; cases h
          | ok r' =>
            have := ih (li + 1) _ r' (by rintro x hx; cases hx; simp [firstSpines]) hl' hr
            exact .start (by simpa [firstSpines] using this)
        · rw [if_neg hex] at h; cases h
      | some s =>
        simp only at h
        have hsl := hs s rfl
        by_cases hlen : s.types.length ≠ l.tokens.length
        · rw [if_pos hlen] at h; cases h
        · rw [if_neg hlen] at h
          simp only [ne_eq, not_not] at hlen
          by_cases hman : l.isManipulator = true
          · rw [if_pos hman] at h
            cases ha : adjustSpines li l.tokens s with
            | error e => rw [ha] at h; cases h
            | ok s1 =>
              rw [ha] at h
              simp only at h
              unfold adjustSpines at ha
              cases hlp : adjLoop li s.types s.infos 0 l.tokens ⟨[], [], 0, false, s.starts, s.ends⟩ with
              | error e => rw [hlp] at ha; cases ha
              | ok a' =>
                rw [hlp] at ha
                simp only [Except.ok.injEq] at ha
                obtain ⟨gs, g1, g2, g3, g4⟩ := adj_sound li s.types s.infos l.tokens.length l.tokens 0 _ a'
                  (by omega) (by omega) (by omega) rfl rfl hlp
                simp only [List.length_nil, Nat.zero_add] at g3 g4
                cases hr : spinesLoop (li + 1) ls (some s1) with
                | error e => rw [hr] at h; cases h
                | ok r' =>
                  have := ih (li + 1) _ r' (by rintro x hx; cases hx; rw [← ha]; simp [g3, g4]) hl' hr
                  have hs1 : s1.types.length = leavesOf gs := by rw [← ha]; exact g3
                  simp only [Option.map_some, hs1] at this ⊢
                  rcases g2 with g2 | g2
                  · have e := FileCounts.line (tail := [[], ["*v".toList]]) (extra := []) g1 (by simp) this
                    simp only [List.length_nil, Nat.add_zero, List.append_nil] at e
                    rw [g2, hlen, g2, lineText_length]
                    exact e
                  · have e := FileCounts.line (tail := [[], ["*v".toList]]) (extra := ["*v".toList]) g1 (by simp) this
                    rw [g2, hlen, g2, List.length_append, lineText_length]
                    exact e
          · rw [if_neg hman] at h
            cases hr : spinesLoop (li + 1) ls (some s) with
            | error e => rw [hr] at h; cases h
            | ok r' =>
              have := ih (li + 1) _ r' hs hl' hr
              obtain ⟨gs, g1, g2, g3⟩ := plain_groups l.tokens (by simpa [Line.isManipulator] using hman)
              have e := FileCounts.line (tail := [[], ["*v".toList]]) (extra := []) (ls := ls.map Line.view) g1 (by simp)
                (by simpa [g3, hlen] using this)
              simp only [List.length_nil, Nat.add_zero, List.append_nil] at e
              simp only [Option.map_some, hlen]
              rw [g2, lineText_length]
              exact e

/-- C15 (rejection, proved part). A file that is accepted has on every line the prescribed number of tokens, each manipulator
line being a sequence of well-formed groups; so a file with a wrong count is rejected.
Missing from the full property: a single `*v` at the end of a line is accepted and its spine disappears
(`stray_merge_accepted`), which is why `["*v"]` is allowed as the end of a line. -/
theorem file_counts_partial (lines : List Line) (hlines : ∀ l ∈ lines, l.hasSpines = false → l.tokens ≠ [])
    (r : List (List Str) × Spines) (h : analyzeSpines lines = .ok r) :
    FileCounts [[], ["*v".toList]] none (lines.map Line.view) := by
  unfold analyzeSpines at h
  cases hr : spinesLoop 0 lines none with
  | error e => rw [hr] at h; cases h
  | ok r' => exact spinesLoop_counts lines 0 none r' (by simp) hlines hr

/-- A file as lines of text. -/
def fileOf (ts : List String) : List Line := ts.map (fun t => createTokensFromLine t.toList)

/-- The hypotheses of `file_accepted_partial` are met by a file with nested splits. -/
example : (analyzeSpines (fileOf ["!! c", "**kern\t**text", "*^\t*", "*^\t*\t*", "4c\t4d\t4e\tla", "*v\t*v\t*v\t*", "*x\t*x", "*-\t*-"])).toOption.map
    (fun r => r.1.map (·.map String.ofList)) =
    some [[], ["1", "2"], ["1", "2"], ["(1)a", "(1)b", "2"], ["((1)a)a", "((1)a)b", "(1)b", "2"],
      ["((1)a)a", "((1)a)b", "(1)b", "2"], ["1", "2"], ["2", "1"]] := by decide +kernel

example : FileRun none [none, some ["**kern".toList], some ["*^".toList], some ["4c".toList, "4e".toList],
      some ["*v".toList, "*v".toList], some ["*-".toList]]
    [[], ["1".toList], ["1".toList], ["(1)a".toList, "(1)b".toList], ["(1)a".toList, "(1)b".toList], ["1".toList]]
    (some ([], 1, false)) := by
  refine .skip (.start ⟨_, List.mem_singleton_self _, by decide⟩ ?_)
  refine .line (gs := [.split]) trivial (.split .nil) rfl ?_
  refine .line (gs := [.keep "4c".toList, .keep "4e".toList]) ⟨by constructor <;> decide, by simp, by constructor <;> decide⟩
    (.keep (.keep .nil)) rfl ?_
  refine .line (gs := [.merge 2]) (by show 2 ≤ 2; decide)
    (Moves.merge (t := 1) (l := .leaf) (r := .leaf) (p := []) (ty := "**kern".toList) .nil) rfl ?_
  exact .line (gs := [.stop]) trivial (.stop .nil) rfl .nil

/-- C15, false parts: a stray `*v` at the end of a line is accepted, its spine vanishing; two spines added on one
line are rejected. -/
theorem stray_merge_accepted :
    (analyzeSpines (fileOf ["**kern\t**kern", "*\t*v", "4c", "*-"])).isOk = true := by decide +kernel
/-- Two spines added on one line are rejected. -/
theorem two_added_rejected :
    analyzeSpines (fileOf ["**kern\t**kern", "*+\t*+", "*\t**text\t*\t**dynam", "4c\ta\t4d\tf", "*-\t*-\t*-\t*-"]) =
      .error .humdrumSyntax := by decide +kernel
/-- A file that merges three spines crashes the reader. -/
theorem merge_tracks_file_crashes :
    analyzeSpines (fileOf ["**kern\t**kern\t**kern", "*v\t*v\t*v", "*-"]) = .error .indexError := by decide +kernel

end C21
