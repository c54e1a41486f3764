import Verif.Props.Spine
/-
C17: links between the tokens of adjacent lines. C18: numbering of sub-tracks.
-/
namespace C21

theorem stitch_one (next : List Str) (i : Nat) (t : Str) (rest : List Str) (s : Stitch)
    (hs : s.skip = false) (hm : s.merge = 0) :
    stitchLoop next i (t :: rest) s =
      match stitchTok next i t rest s with
      | .ok s' => stitchLoop next (i + 1) rest s'
      | .error e => .error e := by
  conv_lhs => unfold stitchLoop
  rw [if_neg (by simp [hs]), if_neg (by simp [hm])]
  simp only [hm, ne_eq, not_true_eq_false, false_and, if_false]
  cases stitchTok next i t rest s <;> rfl

theorem stitch_run (next : List Str) (i j n : Nat) (hj : j < next.length) (rest : List Str)
    (hr : ∀ t, rest.head? = some t → kindOf t ≠ .merge) (h2 : 2 ≤ n) (r : Nat) :
    ∀ (k : Nat) (L : List (Nat × Nat)), 1 ≤ k → k + r = n →
    stitchLoop next (i + k) (List.replicate r "*v".toList ++ rest) ⟨j, false, k, L⟩ =
      if rest = [] ∧ r = 0 then .ok ⟨j, false, k, L⟩ else
      stitchLoop next (i + n) rest ⟨j + 1, false, 0, L ++ (List.range r).map (fun q => (i + k + q, j))⟩ := by
  induction r with
  | zero =>
    intro k L hk hn
    cases rest with
    | nil => simp [stitchLoop]
    | cons t rest =>
      have ht := hr t rfl
      have hkn : k = n := by omega
      subst hkn
      rw [if_neg (by simp)]
      simp only [List.replicate_zero, List.nil_append, List.range_zero, List.map_nil, List.append_nil]
      conv_lhs => unfold stitchLoop
      rw [if_neg (by simp), if_neg (by simp [ht])]
      simp only [ht, and_false, if_false]
      rw [if_pos (by omega), if_neg (by omega), stitch_one _ _ _ _ _ rfl rfl]
      cases stitchTok next (i + k) t rest ⟨j + 1, false, 0, L⟩ <;> rfl
  | succ r ih =>
    intro k L hk hn
    rw [if_neg (by simp)]
    simp only [List.replicate_succ, List.cons_append]
    have hrange : L ++ [(i + k, j)] ++ (List.range r).map (fun q => (i + (k + 1) + q, j)) =
        L ++ (List.range (r + 1)).map (fun q => (i + k + q, j)) := by
      rw [List.range_succ_eq_map]
      simp [Function.comp_def]
      intro a _; omega
    by_cases hlast : List.replicate r "*v".toList ++ rest = []
    · have hr0 : r = 0 := by
        cases r with
        | zero => rfl
        | succ r => simp [List.replicate_succ] at hlast
      subst hr0
      simp at hlast
      subst hlast
      conv_lhs => unfold stitchLoop
      rw [if_neg (by simp), if_neg (by simp)]
      simp only [kind_v, and_true]
      rw [if_pos (show ¬ k = 0 by omega)]
      simp only [linkIf, hj, if_true]
      rw [if_pos (by omega), if_neg (by omega)]
      simp [stitchLoop]
    · conv_lhs => unfold stitchLoop
      rw [if_neg (by simp), if_pos ⟨by simp; omega, kind_v, hlast⟩]
      have := ih (k + 1) (L ++ [(i + k, j)]) (by omega) (by omega)
      simp only [linkIf, hj, if_true]
      rw [show i + k + 1 = i + (k + 1) by omega, this, hrange, if_neg]
      rintro ⟨rfl, rfl⟩; simp at hlast

theorem stitch_merge (next : List Str) (i j n : Nat) (hj : j < next.length) (rest : List Str)
    (hr : ∀ t, rest.head? = some t → kindOf t ≠ .merge) (h2 : 2 ≤ n) (L : List (Nat × Nat)) :
    stitchLoop next i (List.replicate n "*v".toList ++ rest) ⟨j, false, 0, L⟩ =
      stitchLoop next (i + n) rest ⟨j + 1, false, 0, L ++ (List.range n).map (fun q => (i + q, j))⟩ := by
  obtain ⟨r, rfl⟩ : ∃ r, n = r + 1 := ⟨n - 1, by omega⟩
  simp only [List.replicate_succ, List.cons_append]
  rw [stitch_one _ _ _ _ _ rfl rfl]
  have e : stitchTok next i "*v".toList (List.replicate r "*v".toList ++ rest) ⟨j, false, 0, L⟩ =
      .ok ⟨j, false, 1, L ++ [(i, j)]⟩ := by
    unfold stitchTok
    simp [kind_v, hj, linkIf, show kindOf ['*', 'v'] = .merge by decide]
  rw [e]
  simp only
  rw [stitch_run next i j (r + 1) hj rest hr h2 r 1 _ (by omega) (by omega), if_neg (by omega)]
  congr 2
  rw [List.range_succ_eq_map]
  simp [Function.comp_def]
  intro a _; omega

/-- At every field where a spine was added there is an exclusive interpretation. -/
def AddsNamed (next : List Str) (j : Nat) (gs : List Group) : Prop :=
  ∀ k ∈ addedFields j gs, ∃ t, next[k]? = some t ∧ ("**".toList).isPrefixOf t = true

theorem stitch_groups (next : List Str) (gs : List Group) (hL : LineOk gs) :
    ∀ (i j : Nat) (L : List (Nat × Nat)), j + leavesOf gs ≤ next.length → AddsNamed next j gs →
    stitchLoop next i (lineText gs) ⟨j, false, 0, L⟩ =
      .ok ⟨j + leavesOf gs, false, 0, L ++ connections i j gs⟩ := by
  induction gs with
  | nil => intro i j L _ _; simp [lineText, stitchLoop, leavesOf, connections]
  | cons g gs ih =>
    intro i j L hlen hadd
    obtain ⟨hg, hL'⟩ := lineOk_tail hL
    rw [leaves_cons] at hlen
    have hadd' : AddsNamed next (j + g.leaves) gs := by
      intro k hk; exact hadd k (by simp [addedFields, hk])
    have ih := ih hL'
    rw [text_cons, leaves_cons]
    have single : ∀ (t : Str) (M : List (Nat × Nat)), g.text = [t] → g.takes = 1 →
        stitchTok next i t (lineText gs) ⟨j, false, 0, L⟩ = .ok ⟨j + g.leaves, false, 0, L ++ M⟩ →
        connections i j (g :: gs) = M ++ connections (i + 1) (j + g.leaves) gs →
        stitchLoop next i (g.text ++ lineText gs) ⟨j, false, 0, L⟩ =
          .ok ⟨j + (g.leaves + leavesOf gs), false, 0, L ++ connections i j (g :: gs)⟩ := by
      intro t M ht htk he hc
      rw [ht]
      show stitchLoop next i (t :: lineText gs) _ = _
      rw [stitch_one _ _ _ _ _ rfl rfl, he]
      simp only
      rw [ih (i + 1) (j + g.leaves) (L ++ M) (by omega) hadd', hc]
      simp [Nat.add_assoc]
    cases g with
    | keep t =>
      simp only [Group.leaves] at hlen
      refine single t [(i, j)] rfl rfl ?_ (by simp [connections, Group.takes, Group.leaves])
      simp [stitchTok, kind_keep t hg, linkAdvance, Group.leaves, show j < next.length by omega]
    | split =>
      simp only [Group.leaves] at hlen
      refine single _ [(i, j), (i, j + 1)] rfl rfl ?_ (by simp [connections, Group.takes, Group.leaves])
      simp [stitchTok, show kindOf ['*', '^'] = .split by decide, linkAdvance, Group.leaves,
        show j < next.length by omega, show j + 1 < next.length by omega]
    | merge n =>
      simp only [Group.leaves] at hlen
      show stitchLoop next i (List.replicate n "*v".toList ++ lineText gs) _ = _
      rw [stitch_merge next i j n (by omega) _ (head_not_merge hL) hg]
      rw [ih (i + n) (j + 1) _ (by omega) hadd']
      simp [connections, Group.takes, Group.leaves, Nat.add_assoc]
    | swap =>
      simp only [Group.leaves] at hlen
      show stitchLoop next i ("*x".toList :: "*x".toList :: lineText gs) _ = _
      rw [stitch_one _ _ _ _ _ rfl rfl]
      have e : stitchTok next i "*x".toList ("*x".toList :: lineText gs) ⟨j, false, 0, L⟩ =
          .ok ⟨j + 2, true, 0, L ++ [(i + 1, j), (i, j + 1)]⟩ := by
        simp [stitchTok, show kindOf ['*', 'x'] = .exchange by decide, linkIf,
          show j < next.length by omega, show j + 1 < next.length by omega]
      rw [e]
      simp only
      conv_lhs => unfold stitchLoop
      simp only [if_true]
      rw [show i + 1 + 1 = i + 2 by omega, ih (i + 2) (j + 2) _ (by omega) hadd']
      simp [connections, Group.takes, Group.leaves, Nat.add_assoc]
    | add =>
      simp only [Group.leaves] at hlen
      obtain ⟨t, ht1, ht2⟩ := hadd (j + 1) (by simp [addedFields])
      have hk : kindOf t = .exclusive := kind_excl t ht2
      refine single _ [(i, j)] rfl rfl ?_ (by simp [connections, Group.takes, Group.leaves])
      simp [stitchTok, show kindOf ['*', '+'] = .add by decide, linkAdvance, Group.leaves, ht1, hk,
        show j < next.length by omega]
    | stop =>
      refine single _ [] rfl rfl ?_ (by simp [connections, Group.takes, Group.leaves])
      simp [stitchTok, show kindOf ['*', '-'] = .terminate by decide, Group.leaves]
    | excl t =>
      simp only [Group.leaves] at hlen
      refine single t [(i, j)] rfl rfl ?_ (by simp [connections, Group.takes, Group.leaves])
      simp [stitchTok, kind_excl t hg, linkAdvance, Group.leaves, show j < next.length by omega]

theorem connections_plain (gs : List Group) (hL : LineOk gs) (hp : (lineText gs).any tokIsManipulator = false) :
    ∀ i, connections i i gs = (List.range (takesOf gs)).map (fun k => (i + k, i + k)) ∧ leavesOf gs = takesOf gs := by
  induction gs with
  | nil => intro i; simp [connections, takesOf, leavesOf]
  | cons g gs ih =>
    intro i
    obtain ⟨hg, hL'⟩ := lineOk_tail hL
    rw [text_cons, List.any_append, Bool.or_eq_false_iff] at hp
    have ih := ih hL' hp.2
    cases g with
    | keep t =>
      obtain ⟨e1, e2⟩ := ih (i + 1)
      constructor
      · simp only [connections, Group.takes, Group.leaves, e1, takes_cons]
        rw [Nat.add_comm 1, List.range_succ_eq_map]
        simp [Function.comp_def]
        intro a _; omega
      · rw [takes_cons, leaves_cons, e2]; rfl
    | merge n =>
      have : 2 ≤ n := hg
      exfalso
      have := List.any_eq_false.1 hp.1 "*v".toList (by simp [Group.text]; omega)
      exact this (by decide)
    | excl t =>
      exfalso
      have h1 := (tokIsManipulator_iff t).2 (by rw [kind_excl t hg]; decide)
      simp [Group.text, h1] at hp
    | split => exact absurd hp.1 (by decide)
    | swap => exact absurd hp.1 (by decide)
    | add => exact absurd hp.1 (by decide)
    | stop => exact absurd hp.1 (by decide)

/-- C17. Between two lines, the links made are exactly the connections of the specification: the next line has
the tokens the first one calls for, added spines are named there, and manipulators stand on interpretation
lines. -/
theorem stitch_connects (prev next : Line) (gs : List Group) (hL : LineOk gs) (hp : prev.tokens = lineText gs)
    (hn : next.tokens.length = leavesOf gs) (ha : AddsNamed next.tokens 0 gs)
    (hi : prev.isInterpretation = false → prev.isManipulator = false) :
    stitch prev next = .ok (connections 0 0 gs) := by
  unfold stitch
  by_cases h : prev.isInterpretation = false ∧ next.isInterpretation = false
  · rw [if_pos h]
    have hm := hi h.1
    unfold Line.isManipulator at hm
    rw [hp] at hm
    obtain ⟨e1, e2⟩ := connections_plain gs hL hm 0
    rw [if_neg (by rw [hp, lineText_length, hn, e2]; simp), hp, lineText_length, e1]
    simp
  · rw [if_neg h, hp, stitch_groups next.tokens gs hL 0 0 [] (by omega) ha]
    simp [hn]

example : stitch (createTokensFromLine "*^\t*\t*v\t*v\t*-".toList) (createTokensFromLine "4c\t4d\t4e\t4f".toList) =
    .ok [(0, 0), (0, 1), (1, 2), (2, 3), (3, 3)] := by decide
example : LineOk [.split, .keep "*".toList, .merge 2, .stop] := by
  refine ⟨trivial, by simp, ⟨by decide, by decide⟩, by simp, ⟨by show 2 ≤ 2; decide, by simp, trivial⟩⟩

/-- C17. Every token except a terminator is connected to the next line. -/
theorem connections_forward (gs : List Group) (hL : LineOk gs) : ∀ (i j k : Nat) (t : Str),
    (lineText gs)[k]? = some t → t ≠ "*-".toList → ∃ q, (i + k, q) ∈ connections i j gs := by
  induction gs with
  | nil => intro i j k t h; simp [lineText] at h
  | cons g gs ih =>
    intro i j k t h ht
    have ih := ih (lineOk_tail hL).2
    rw [text_cons] at h
    have hlen : g.text.length = g.takes := by cases g <;> simp [Group.text, Group.takes]
    by_cases hk : k < g.takes
    · cases g with
      | keep u => simp [Group.takes] at hk; subst hk; exact ⟨j, by simp [connections]⟩
      | split => simp [Group.takes] at hk; subst hk; exact ⟨j, by simp [connections]⟩
      | merge n =>
        simp [Group.takes] at hk
        exact ⟨j, by simp [connections]; exact .inl hk⟩
      | swap =>
        simp [Group.takes] at hk
        have : k = 0 ∨ k = 1 := by omega
        rcases this with rfl | rfl
        · exact ⟨j + 1, by simp [connections]⟩
        · exact ⟨j, by simp [connections]⟩
      | add => simp [Group.takes] at hk; subst hk; exact ⟨j, by simp [connections]⟩
      | stop =>
        simp [Group.takes] at hk; subst hk
        exfalso; apply ht
        simp [Group.text] at h
        rw [← h]; rfl
      | excl u => simp [Group.takes] at hk; subst hk; exact ⟨j, by simp [connections]⟩
    · rw [List.getElem?_append_right (by omega), hlen] at h
      obtain ⟨q, hq⟩ := ih (i + g.takes) (j + g.leaves) (k - g.takes) t h ht
      refine ⟨q, ?_⟩
      rw [show i + g.takes + (k - g.takes) = i + k by omega] at hq
      simp only [connections, List.mem_append]
      exact .inr hq

/-- C17. Every token of the next line is connected back, except those of newly added spines. -/
theorem connections_backward (gs : List Group) (hL : LineOk gs) : ∀ (i j k : Nat), k < leavesOf gs →
    j + k ∉ addedFields j gs → ∃ q, (q, j + k) ∈ connections i j gs := by
  induction gs with
  | nil => intro i j k h; simp [leavesOf] at h
  | cons g gs ih =>
    intro i j k h hn
    rw [leaves_cons] at h
    simp only [addedFields, List.mem_append, not_or] at hn
    by_cases hk : k < g.leaves
    · cases g with
      | keep u => simp [Group.leaves] at hk; subst hk; exact ⟨i, by simp [connections]⟩
      | split =>
        simp [Group.leaves] at hk
        refine ⟨i, ?_⟩
        have : k = 0 ∨ k = 1 := by omega
        rcases this with rfl | rfl <;> simp [connections]
      | merge n =>
        simp [Group.leaves] at hk; subst hk
        have : 2 ≤ n := (lineOk_tail hL).1
        exact ⟨i, by simp [connections]; exact .inl (by omega)⟩
      | swap =>
        simp [Group.leaves] at hk
        have : k = 0 ∨ k = 1 := by omega
        rcases this with rfl | rfl
        · exact ⟨i + 1, by simp [connections]⟩
        · exact ⟨i, by simp [connections]⟩
      | add =>
        simp [Group.leaves] at hk
        have : k = 0 ∨ k = 1 := by omega
        rcases this with rfl | rfl
        · exact ⟨i, by simp [connections]⟩
        · exact absurd hn.1 (by simp)
      | stop => simp [Group.leaves] at hk
      | excl u => simp [Group.leaves] at hk; subst hk; exact ⟨i, by simp [connections]⟩
    · obtain ⟨q, hq⟩ := ih (lineOk_tail hL).2 (i + g.takes) (j + g.leaves) (k - g.leaves) (by omega) (by
        rw [show j + g.leaves + (k - g.leaves) = j + k by omega]; exact hn.2)
      refine ⟨q, ?_⟩
      rw [show j + g.leaves + (k - g.leaves) = j + k by omega] at hq
      simp only [connections, List.mem_append]
      exact .inr hq

theorem connections_range (gs : List Group) : ∀ (i j : Nat), ∀ p ∈ connections i j gs,
    i ≤ p.1 ∧ p.1 < i + takesOf gs ∧ j ≤ p.2 ∧ p.2 < j + leavesOf gs := by
  induction gs with
  | nil => intro i j p hp; simp [connections] at hp
  | cons g gs ih =>
    intro i j p hp
    rw [takes_cons, leaves_cons]
    simp only [connections, List.mem_append] at hp
    rcases hp with hp | hp
    · cases g <;> simp [Group.takes, Group.leaves] at hp ⊢
      case merge n => obtain ⟨a, ha, rfl⟩ := hp; simp; omega
      case split => rcases hp with rfl | rfl <;> simp <;> omega
      case swap => rcases hp with rfl | rfl <;> simp <;> omega
      all_goals (subst hp; simp)
    · have := ih _ _ p hp
      omega

/-- C17. Connected tokens belong to the same track. -/
theorem connections_track {n : Nat} {gs : List Group} {ss rs : List Spine} {m : Nat} (h : Moves n gs ss rs m) :
    ∀ (i j : Nat), ∀ p ∈ connections i j gs,
      (ss[p.1 - i]?).map (·.track) = (rs[p.2 - j]?).map (·.track) ∧ (ss[p.1 - i]?).isSome := by
  induction h with
  | nil => intro i j p hp; simp [connections] at hp
  | @keep n t gs s ss rs m _ ih =>
    intro i j p hp
    simp only [connections, Group.takes, Group.leaves, List.mem_append, List.mem_singleton] at hp
    rcases hp with rfl | hp
    · simp
    · have hr := connections_range gs _ _ p hp
      have := ih _ _ p hp
      rw [show p.1 - i = (p.1 - (i + 1)) + 1 by omega, show p.2 - j = (p.2 - (j + 1)) + 1 by omega]
      simpa using this
  | @split n gs s ss rs m _ ih =>
    intro i j p hp
    simp only [connections, Group.takes, Group.leaves, List.mem_append, List.mem_cons, List.not_mem_nil, or_false] at hp
    rcases hp with (rfl | rfl) | hp
    · simp
    · simp
    · have hr := connections_range gs _ _ p hp
      have := ih _ _ p hp
      rw [show p.1 - i = (p.1 - (i + 1)) + 1 by omega, show p.2 - j = (p.2 - (j + 2)) + 1 + 1 by omega]
      simpa using this
  | @merge n gs t l r q ty ss rs m _ ih =>
    intro i j p hp
    generalize (Tree.node l r).places q = P at *
    simp only [connections, Group.takes, Group.leaves, List.mem_append, List.mem_map, List.mem_range] at hp
    rcases hp with ⟨a, ha, rfl⟩ | hp
    · simp only [Nat.add_sub_cancel_left, Nat.sub_self]
      rw [List.getElem?_append_left (by simpa using ha), List.getElem?_map, List.getElem?_eq_getElem ha]
      simp
    · have hr := connections_range gs _ _ p hp
      have := ih _ _ p hp
      rw [List.getElem?_append_right (by simp; omega)]
      rw [show p.2 - j = (p.2 - (j + 1)) + 1 by omega]
      rw [show p.1 - i - (P.map (fun q => (⟨t, q, ty⟩ : Spine))).length = p.1 - (i + P.length) by simp; omega]
      simpa using this
  | @swap n gs s s' ss rs m _ ih =>
    intro i j p hp
    simp only [connections, Group.takes, Group.leaves, List.mem_append, List.mem_cons, List.not_mem_nil, or_false] at hp
    rcases hp with (rfl | rfl) | hp
    · simp
    · simp
    · have hr := connections_range gs _ _ p hp
      have := ih _ _ p hp
      rw [show p.1 - i = (p.1 - (i + 2)) + 1 + 1 by omega, show p.2 - j = (p.2 - (j + 2)) + 1 + 1 by omega]
      simpa using this
  | @add n gs s ss rs m _ ih =>
    intro i j p hp
    simp only [connections, Group.takes, Group.leaves, List.mem_append, List.mem_singleton] at hp
    rcases hp with rfl | hp
    · simp
    · have hr := connections_range gs _ _ p hp
      have := ih _ _ p hp
      rw [show p.1 - i = (p.1 - (i + 1)) + 1 by omega, show p.2 - j = (p.2 - (j + 2)) + 1 + 1 by omega]
      simpa using this
  | @stop n gs s ss rs m _ ih =>
    intro i j p hp
    simp only [connections, Group.takes, Group.leaves, List.nil_append] at hp
    have hr := connections_range gs _ _ p hp
    have := ih _ _ p hp
    rw [show p.1 - i = (p.1 - (i + 1)) + 1 by omega]
    simpa using this
  | @excl n t gs s ss rs m _ ih =>
    intro i j p hp
    simp only [connections, Group.takes, Group.leaves, List.mem_append, List.mem_singleton] at hp
    rcases hp with rfl | hp
    · simp
    · have hr := connections_range gs _ _ p hp
      have := ih _ _ p hp
      rw [show p.1 - i = (p.1 - (i + 1)) + 1 by omega, show p.2 - j = (p.2 - (j + 1)) + 1 by omega]
      simpa using this

/-! ### Whole files -/

/-- `b` is listed as next token of `a` as often as `a` is listed as previous token of `b`. -/
def Mutual (s : Links) : Prop := ∀ a b, (s.next a).count b = (s.prev b).count a

theorem mutual_cons (f g : TokId → List TokId) (a b : TokId) (h : ∀ x y, (f x).count y = (g y).count x) (x y : TokId) :
    (if x = a then f x ++ [b] else f x).count y = (if y = b then g y ++ [a] else g y).count x := by
  have := h x y
  have e1 : (if x = a then f x ++ [b] else f x).count y = (f x).count y + (if x = a ∧ y = b then 1 else 0) := by
    by_cases hx : x = a <;> by_cases hy : y = b
    · simp [hx, hy]
    · simp [hx, hy, List.count_eq_zero]
    · simp [hx]
    · simp [hx]
  have e2 : (if y = b then g y ++ [a] else g y).count x = (g y).count x + (if x = a ∧ y = b then 1 else 0) := by
    by_cases hx : x = a <;> by_cases hy : y = b
    · simp [hx, hy]
    · simp [hy]
    · simp [hx, hy, List.count_eq_zero]
    · simp [hy]
  rw [e1, e2, this]

theorem forward_mutual (s : Links) (a b : TokId) (h : Mutual s) : Mutual (makeForwardLink s a b) :=
  fun x y => mutual_cons s.next s.prev a b h x y

theorem backward_mutual (s : Links) (a b : TokId) (h : Mutual s) : Mutual (makeBackwardLink s a b) :=
  fun x y => mutual_cons s.next s.prev b a h x y

theorem links_fold_mutual (lk : List (Nat × Nat)) (p l : Nat) (s : Links) (h : Mutual s) :
    Mutual (lk.foldl (fun s q => makeForwardLink s (p, q.1) (l, q.2)) s) := by
  induction lk generalizing s with
  | nil => exact h
  | cons q lk ih => exact ih _ (forward_mutual s _ _ h)

/-- C17. After link analysis of any file, b is a next token of a exactly as often as a is a previous token
of b. -/
theorem links_mutual (lines : List Line) (L : Links) (h : analyzeLinks lines = .ok L) : Mutual L := by
  have key : ∀ (lines : List Line) (li : Nat) (prev : Option (Nat × Line)) (s : Links), Mutual s →
      linksLoop li lines prev s = .ok L → Mutual L := by
    intro lines
    induction lines with
    | nil => intro li prev s hs h; simp [linksLoop] at h; rw [← h]; exact hs
    | cons l ls ih =>
      intro li prev s hs h
      unfold linksLoop at h
      by_cases hsp : l.hasSpines = true
      · rw [if_pos hsp] at h
        cases prev with
        | none => exact ih _ _ _ hs h
        | some p =>
          simp only at h
          cases hst : stitch p.2 l with
          | error e => rw [hst] at h; cases h
          | ok lk =>
            rw [hst] at h
            exact ih _ _ _ (links_fold_mutual lk p.1 li s hs) h
      · rw [if_neg hsp] at h
        exact ih _ _ _ hs h
  exact key lines 0 none _ (fun _ _ => rfl) h

/-- The spined lines of a file with their numbers. -/
def spined (lines : List Line) : List (Nat × Line) :=
  (lines.zipIdx.filter (fun p => p.1.hasSpines)).map (fun p => (p.2, p.1))

theorem mem_fold_next (lk : List (Nat × Nat)) (p l : Nat) (s : Links) (a b : TokId) :
    b ∈ (lk.foldl (fun s q => makeForwardLink s (p, q.1) (l, q.2)) s).next a ↔
      b ∈ s.next a ∨ ∃ q ∈ lk, a = (p, q.1) ∧ b = (l, q.2) := by
  induction lk generalizing s with
  | nil => simp
  | cons q lk ih =>
    simp only [List.foldl_cons]
    rw [ih]
    by_cases hx : a = (p, q.1)
    · simp only [makeForwardLink, hx, if_true, List.mem_append, List.mem_cons, List.not_mem_nil, or_false]
      constructor
      · rintro ((h | h) | ⟨q', h, h'⟩)
        · exact .inl h
        · exact .inr ⟨q, .inl rfl, rfl, h⟩
        · exact .inr ⟨q', .inr h, h'⟩
      · rintro (h | ⟨q', h | h, h'⟩)
        · exact .inl (.inl h)
        · subst h; exact .inl (.inr h'.2)
        · exact .inr ⟨q', h, h'⟩
    · simp only [makeForwardLink, hx, if_false, List.mem_cons]
      constructor
      · rintro (h | ⟨q', h, h'⟩)
        · exact .inl h
        · exact .inr ⟨q', .inr h, h'⟩
      · rintro (h | ⟨q', h | h, h'⟩)
        · exact .inl h
        · subst h; exact absurd h'.1 hx
        · exact .inr ⟨q', h, h'⟩

/-- C17. The next tokens of a token are those given by the stitching of its line with the following line
having spines, and no others. -/
theorem links_exact (lines : List Line) (L : Links) (h : analyzeLinks lines = .ok L) (a b : TokId) :
    b ∈ L.next a ↔ ∃ p q lk, Consecutive (spined lines) p q ∧ stitch p.2 q.2 = .ok lk ∧
      ∃ c ∈ lk, a = (p.1, c.1) ∧ b = (q.1, c.2) := by
  have key : ∀ (lines : List Line) (li : Nat) (prev : Option (Nat × Line)) (s : Links),
      linksLoop li lines prev s = .ok L →
      (b ∈ L.next a ↔ b ∈ s.next a ∨ ∃ p q lk,
        Consecutive (prev.toList ++ ((lines.zipIdx li).filter (fun p => p.1.hasSpines)).map (fun p => (p.2, p.1))) p q ∧
        stitch p.2 q.2 = .ok lk ∧ ∃ c ∈ lk, a = (p.1, c.1) ∧ b = (q.1, c.2)) := by
    intro lines
    induction lines with
    | nil =>
      intro li prev s h
      simp [linksLoop] at h
      subst h
      have : ∀ p q, ¬ Consecutive prev.toList p q := by
        rintro p q ⟨pre, post, h⟩
        have := congrArg List.length h
        cases prev <;> simp at this <;> omega
      simp [this]
    | cons l ls ih =>
      intro li prev s h
      unfold linksLoop at h
      rw [List.zipIdx_cons]
      by_cases hsp : l.hasSpines = true
      · rw [if_pos hsp] at h
        simp only [List.filter_cons, hsp, if_true, List.map_cons]
        cases prev with
        | none =>
          have := ih _ _ _ h
          simpa using this
        | some p =>
          simp only at h
          cases hst : stitch p.2 l with
          | error e => rw [hst] at h; cases h
          | ok lk =>
            rw [hst] at h
            rw [ih _ _ _ h, mem_fold_next]
            simp only [Option.toList_some, List.singleton_append]
            generalize ((ls.zipIdx (li + 1)).filter (fun p => p.1.hasSpines)).map (fun p => (p.2, p.1)) = R
            constructor
            · rintro ((h | ⟨c, hc, h⟩) | ⟨p', q', lk', ⟨pre, post, hcon⟩, h⟩)
              · exact .inl h
              · exact .inr ⟨p, (li, l), lk, ⟨[], R, rfl⟩, hst, c, hc, h⟩
              · exact .inr ⟨p', q', lk', ⟨p :: pre, post, by rw [hcon]; rfl⟩, h⟩
            · rintro (h | ⟨p', q', lk', ⟨pre, post, hcon⟩, h⟩)
              · exact .inl (.inl h)
              · cases pre with
                | nil =>
                  simp at hcon
                  obtain ⟨rfl, rfl, _⟩ := hcon
                  rw [hst] at h
                  obtain ⟨h1, c, hc, h2⟩ := h
                  cases h1
                  exact .inl (.inr ⟨c, hc, h2⟩)
                | cons x pre =>
                  simp at hcon
                  exact .inr ⟨p', q', lk', ⟨pre, post, by rw [hcon.2]⟩, h⟩
      · rw [if_neg hsp] at h
        simp only [List.filter_cons, hsp, Bool.false_eq_true, if_false]
        exact ih _ _ _ h
  have := key lines 0 none _ h
  simpa [spined] using this

example : (analyzeLinks (fileOf ["**kern", "*^", "4c\t4e", "!! x", "*v\t*v", "*-"])).toOption.map
    (fun L => (L.next (1, 0), L.prev (4, 1), L.next (2, 1), L.prev (5, 0))) =
    some ([(2, 0), (2, 1)], [(2, 1)], [(4, 1)], [(4, 0), (4, 1)]) := by decide +kernel

/-- The spined lines of a file from line number `li`. -/
def spinedFrom (li : Nat) (lines : List Line) : List (Nat × Line) :=
  ((lines.zipIdx li).filter (fun p => p.1.hasSpines)).map (fun p => (p.2, p.1))

theorem spinedFrom_cons (li : Nat) (l : Line) (ls : List Line) :
    spinedFrom li (l :: ls) = if l.hasSpines then (li, l) :: spinedFrom (li + 1) ls else spinedFrom (li + 1) ls := by
  unfold spinedFrom
  rw [List.zipIdx_cons]
  by_cases h : l.hasSpines = true <;> simp [h]

theorem consecutive_cons {α : Type} (x y : α) (l : List α) (p q : α) :
    Consecutive (x :: y :: l) p q ↔ (p = x ∧ q = y) ∨ Consecutive (y :: l) p q := by
  constructor
  · rintro ⟨pre, post, h⟩
    cases pre with
    | nil => simp at h; exact .inl ⟨h.1.symm, h.2.1.symm⟩
    | cons z pre => simp at h; exact .inr ⟨pre, post, h.2⟩
  · rintro (⟨rfl, rfl⟩ | ⟨pre, post, h⟩)
    · exact ⟨[], l, rfl⟩
    · exact ⟨x :: pre, post, by rw [h]; rfl⟩

theorem consecutive_short {α : Type} (l : List α) (h : l.length ≤ 1) (p q : α) : ¬ Consecutive l p q := by
  rintro ⟨pre, post, e⟩
  rw [e] at h; simp at h; omega

/-- The line `p` holds the groups `gs`, which take the spines `ss` to the spines `rs`. -/
def Holds (D : Nat → Option (List Str)) (p : Nat × Line) (gs : List Group) (ss rs : List Spine) : Prop :=
  LineOk gs ∧ p.2.tokens = lineText gs ∧ D p.1 = some (infosOf ss) ∧ ∃ n m, Moves n gs ss rs m

def PrevOk (D : Nat → Option (List Str)) : Option (Nat × Line) → Option (List Spine × Nat × Bool) → Prop
  | none, none => True
  | some p, some x => ∃ gs ss, Holds D p gs ss x.1
  | _, _ => False

theorem open_moves (toks : List Str) (h : ∀ t ∈ toks, ("**".toList).isPrefixOf t = true) (k n : Nat) :
    LineOk (toks.map Group.excl) ∧ lineText (toks.map Group.excl) = toks ∧
    Moves n (toks.map Group.excl) ((toks.zipIdx k).map (fun p => ⟨p.2 + 1, [], p.1⟩))
      ((toks.zipIdx k).map (fun p => ⟨p.2 + 1, [], p.1⟩)) n := by
  induction toks generalizing k with
  | nil => exact ⟨trivial, rfl, .nil⟩
  | cons t ts ih =>
    obtain ⟨h1, h2, h3⟩ := ih (fun u hu => h u (by simp [hu])) (k + 1)
    refine ⟨?_, ?_, ?_⟩
    · exact lineOk_cons (h t (by simp)) h1 (by simp)
    · simp only [List.map_cons, text_cons, Group.text, h2]; rfl
    · simp only [List.map_cons, List.zipIdx_cons]
      exact .excl h3

theorem run_pairs (D : Nat → Option (List Str)) (lines : List Line) :
    ∀ (li : Nat) (prev : Option (Nat × Line)) (s s' : Option (List Spine × Nat × Bool)) (ds : List (List Str)),
    FileRun s (lines.map Line.view) ds s' → (∀ k, k < ds.length → D (li + k) = ds[k]?) → PrevOk D prev s →
    (s = none → ∀ q ∈ (spinedFrom li lines).head?, ∀ t ∈ q.2.tokens, ("**".toList).isPrefixOf t = true) →
    ∀ p q, Consecutive (prev.toList ++ spinedFrom li lines) p q →
      ∃ gs ss rs, Holds D p gs ss rs ∧ q.2.tokens.length = rs.length ∧ D q.1 = some (infosOf rs) := by
  induction lines with
  | nil =>
    intro li prev s s' ds _ _ _ _ p q hc
    exact absurd hc (consecutive_short _ (by cases prev <;> simp [spinedFrom]) p q)
  | cons l ls ih =>
    intro li prev s s' ds hR hD hP hO p q hc
    rw [spinedFrom_cons] at hc hO
    simp only [List.map_cons] at hR
    by_cases hsp : l.hasSpines = true
    · simp only [hsp, if_true] at hc hO
      have hv : Line.view l = some l.tokens := by simp [Line.view, hsp]
      rw [hv] at hR
      generalize htk : l.tokens = T at hR
      cases hR with
      | @start toks ls' ds' s'' hx hR' =>
        cases prev with
        | some pp => exact absurd hP (by simp [PrevOk])
        | none =>
          have hall := hO rfl (li, l) (by simp)
          simp only [htk] at hall
          obtain ⟨m1, m2, m3⟩ := open_moves T hall 0 T.length
          have hD0 : D li = some (infosOf (openSpines T)) := by
            have := hD 0 (by simp); simpa [infosOf] using this
          refine ih (li + 1) (some (li, l)) _ _ _ hR' ?_ ?_ (by simp) p q (by simpa using hc)
          · intro k hk
            have := hD (k + 1) (by simp; omega)
            rw [show li + 1 + k = li + (k + 1) by omega, this]; simp
          · exact ⟨T.map Group.excl, openSpines T, m1, by simp only [htk]; exact m2.symm, hD0, _, _, m3⟩
      | @line ss n w gs rs m w' ls' ds' s'' hL hM hw hR' =>
        cases prev with
        | none => exact absurd hP (by simp [PrevOk])
        | some pp =>
          have hD0 : D li = some (infosOf ss) := by
            have := hD 0 (by simp); simpa [infosOf] using this
          simp only [Option.toList_some, List.singleton_append] at hc
          rw [consecutive_cons] at hc
          rcases hc with ⟨rfl, rfl⟩ | hc
          · obtain ⟨gs', ss', hH⟩ := hP
            refine ⟨gs', ss', ss, hH, ?_, hD0⟩
            simp only [htk]
            rw [lineText_length]
            exact (moves_length hM).1.symm
          · refine ih (li + 1) (some (li, l)) _ _ _ hR' ?_ ?_ (by simp) p q (by simpa using hc)
            · intro k hk
              have := hD (k + 1) (by simp; omega)
              rw [show li + 1 + k = li + (k + 1) by omega, this]; simp
            · exact ⟨gs, ss, hL, htk, hD0, _, _, hM⟩
    · simp only [hsp, Bool.false_eq_true, if_false] at hc hO
      have hv : Line.view l = none := by simp [Line.view, hsp]
      rw [hv] at hR
      cases hR with
      | @skip s0 ls' ds' s'' hR' =>
        refine ih (li + 1) prev _ _ _ hR' ?_ hP hO p q hc
        intro k hk
        have := hD (k + 1) (by simp; omega)
        rw [show li + 1 + k = li + (k + 1) by omega, this]; simp

theorem linksLoop_ok (lines : List Line) : ∀ (li : Nat) (prev : Option (Nat × Line)) (s : Links),
    (∀ p q, Consecutive (prev.toList ++ spinedFrom li lines) p q → ∃ lk, stitch p.2 q.2 = .ok lk) →
    ∃ L, linksLoop li lines prev s = .ok L := by
  induction lines with
  | nil => intro li prev s _; exact ⟨s, rfl⟩
  | cons l ls ih =>
    intro li prev s h
    unfold linksLoop
    rw [spinedFrom_cons] at h
    by_cases hsp : l.hasSpines = true
    · rw [if_pos hsp]
      simp only [hsp, if_true] at h
      cases prev with
      | none => exact ih _ _ _ (fun p q hc => h p q (by simpa using hc))
      | some p =>
        obtain ⟨lk, hlk⟩ := h p (li, l) ⟨[], _, rfl⟩
        simp only [hlk]
        refine ih _ _ _ (fun p' q' hc => h p' q' ?_)
        simp only [Option.toList_some, List.singleton_append] at hc ⊢
        exact (consecutive_cons _ _ _ _ _).2 (.inr hc)
    · rw [if_neg hsp]
      simp only [hsp, Bool.false_eq_true, if_false] at h
      exact ih _ _ _ h

/-- C17. The links of a whole file with correct spine manipulators (`FileRun`, see C15), whose first spined
line is made of exclusive interpretations only, whose manipulators stand on interpretation lines and whose
added spines are named on the next line. The analysis succeeds; links are mutual; every token which is not a
terminator has a next token if any spined line follows; every token which is not an exclusive interpretation has a previous token
if any spined line precedes; linked tokens are on the same track. -/
theorem file_links (lines : List Line) (ds : List (List Str)) (x : Option (List Spine × Nat × Bool))
    (hR : FileRun none (lines.map Line.view) ds x)
    (hfirst : ∀ q ∈ (spined lines).head?, ∀ t ∈ q.2.tokens, ("**".toList).isPrefixOf t = true)
    (hint : ∀ l ∈ lines, l.isInterpretation = false → l.isManipulator = false)
    (hname : ∀ p q gs, Consecutive (spined lines) p q → LineOk gs → p.2.tokens = lineText gs →
      AddsNamed q.2.tokens 0 gs) :
    ∃ L, analyzeLinks lines = .ok L ∧ Mutual L ∧
      (∀ p q, Consecutive (spined lines) p q → ∀ k t, p.2.tokens[k]? = some t → t ≠ "*-".toList →
        ∃ b, b ∈ L.next (p.1, k)) ∧
      (∀ p q, Consecutive (spined lines) p q → ∀ k t, q.2.tokens[k]? = some t →
        ("**".toList).isPrefixOf t = false → ∃ a, a ∈ L.prev (q.1, k)) ∧
      (∀ a b, b ∈ L.next a → ∃ da db, (ds[a.1]?).bind (·[a.2]?) = some da ∧
        (ds[b.1]?).bind (·[b.2]?) = some db ∧ trackOf da = trackOf db) := by
  have hs : spined lines = spinedFrom 0 lines := rfl
  have hpair := run_pairs (fun k => ds[k]?) lines 0 none none x ds hR (by simp) trivial
    (fun _ => hfirst)
  simp only [Option.toList_none, List.nil_append, ← hs] at hpair
  have hmem : ∀ p q, Consecutive (spined lines) p q → p.2 ∈ lines := by
    rintro p q ⟨pre, post, e⟩
    have : p ∈ spined lines := by rw [e]; simp
    simp only [spined, List.mem_map, List.mem_filter] at this
    obtain ⟨y, ⟨hy, _⟩, rfl⟩ := this
    exact (List.mem_zipIdx hy).2.2 ▸ List.getElem_mem _
  have hst : ∀ p q, Consecutive (spined lines) p q → ∃ gs ss rs, Holds (fun k => ds[k]?) p gs ss rs ∧
      q.2.tokens.length = rs.length ∧ ds[q.1]? = some (infosOf rs) ∧ AddsNamed q.2.tokens 0 gs ∧
      stitch p.2 q.2 = .ok (connections 0 0 gs) := by
    intro p q hc
    obtain ⟨gs, ss, rs, hH, hlen, hq⟩ := hpair p q hc
    have hn := hname p q gs hc hH.1 hH.2.1
    obtain ⟨hL, ht, hd, n, m, hM⟩ := hH
    refine ⟨gs, ss, rs, ⟨hL, ht, hd, n, m, hM⟩, hlen, hq, hn, ?_⟩
    exact stitch_connects p.2 q.2 gs hL ht (by rw [hlen]; exact (moves_length hM).2) hn (hint p.2 (hmem p q hc))
  obtain ⟨L, hLok⟩ := linksLoop_ok lines 0 none ⟨fun _ => [], fun _ => []⟩ (by
    intro p q hc
    simp only [Option.toList_none, List.nil_append, ← hs] at hc
    obtain ⟨gs, _, _, _, _, _, _, h⟩ := hst p q hc
    exact ⟨_, h⟩)
  have hmut := links_mutual lines L hLok
  refine ⟨L, hLok, hmut, ?_, ?_, ?_⟩
  · intro p q hc k t hk ht
    obtain ⟨gs, ss, rs, hH, _, _, _, h⟩ := hst p q hc
    rw [hH.2.1] at hk
    obtain ⟨j, hj⟩ := connections_forward gs hH.1 0 0 k t hk ht
    exact ⟨(q.1, j), (links_exact lines L hLok _ _).2 ⟨p, q, _, hc, h, (0 + k, j), hj, by simp, rfl⟩⟩
  · intro p q hc k t hk ht
    obtain ⟨gs, ss, rs, hH, hlen, _, hn, h⟩ := hst p q hc
    obtain ⟨hL, ht', hd, n, m, hM⟩ := hH
    have hkl : k < q.2.tokens.length := by
      rw [List.getElem?_eq_some_iff] at hk; exact hk.1
    obtain ⟨i, hi⟩ := connections_backward gs hL 0 0 k (by rw [← (moves_length hM).2, ← hlen]; exact hkl) (by
      intro hmem'
      obtain ⟨u, hu1, hu2⟩ := hn _ hmem'
      rw [Nat.zero_add, hk] at hu1
      cases hu1
      rw [ht] at hu2; cases hu2)
    have hb : (q.1, k) ∈ L.next (p.1, i) :=
      (links_exact lines L hLok _ _).2 ⟨p, q, _, hc, h, (i, 0 + k), hi, rfl, by simp⟩
    refine ⟨(p.1, i), ?_⟩
    have := hmut (p.1, i) (q.1, k)
    have hpos := List.count_pos_iff.2 hb
    exact List.count_pos_iff.1 (by omega)
  · intro a b hb
    obtain ⟨p, q, lk, hc, hlk, c, hcm, rfl, rfl⟩ := (links_exact lines L hLok a b).1 hb
    obtain ⟨gs, ss, rs, hH, hlen, hq, hn, h⟩ := hst p q hc
    rw [hlk] at h; cases h
    obtain ⟨hL, ht', hd, n, m, hM⟩ := hH
    have hd' : ds[p.1]? = some (infosOf ss) := hd
    obtain ⟨e1, e2⟩ := connections_track hM 0 0 c hcm
    simp only [Nat.sub_zero] at e1 e2
    obtain ⟨sa, hsa⟩ := Option.isSome_iff_exists.1 e2
    rw [hsa] at e1
    cases hsb : rs[c.2]? with
    | none => rw [hsb] at e1; cases e1
    | some sb =>
      rw [hsb] at e1
      simp only [Option.map_some, Option.some.injEq] at e1
      refine ⟨describe sa.track sa.path, describe sb.track sb.path, ?_, ?_, ?_⟩
      · simp only [hd', Option.bind_some, infosOf, List.getElem?_map, hsa, Option.map_some]
      · simp only [hq, Option.bind_some, infosOf, List.getElem?_map, hsb, Option.map_some]
      · rw [trackOf_describe, trackOf_describe, e1]

/-! ## C18 -/

/-- C18. On a line, the track of each token is the one of its description, and its sub-track is 0 if it is
alone in its track, otherwise one plus the number of tokens of that track to its left. -/
theorem subtrack_numbers (infos : List Str) (r : List (Nat × Nat)) (h : analyzeTracks infos = .ok r) (k : Nat)
    (info : Str) (hk : infos[k]? = some info) :
    r[k]? = some (trackOf info,
      if (infos.map trackOf).count (trackOf info) > 1 then
        ((infos.take k).map trackOf).count (trackOf info) + 1 else 0) := by
  have key : ∀ (all ts seen : List Nat) (k : Nat) (t : Nat), ts[k]? = some t →
      (subTracks all seen ts)[k]? = some (if all.count t > 1 then seen.count t + (ts.take k).count t + 1 else 0) := by
    intro all ts
    induction ts with
    | nil => intro seen k t h; simp at h
    | cons x xs ih =>
      intro seen k t h
      cases k with
      | zero => simp at h; subst h; simp [subTracks]
      | succ k =>
        simp at h
        simp only [subTracks, List.getElem?_cons_succ]
        rw [ih (x :: seen) k t h]
        congr 1
        by_cases hc : all.count t > 1
        · simp only [hc, if_true, List.take_succ_cons, List.count_cons]
          omega
        · simp [hc]
  unfold analyzeTracks at h
  simp only at h
  split at h
  · cases h
  split at h
  · cases h
  cases h
  have ht : (infos.map trackOf)[k]? = some (trackOf info) := by simp [hk]
  have := key (infos.map trackOf) (infos.map trackOf) [] k _ ht
  simp only [List.count_nil, Nat.zero_add, ← List.map_take] at this
  rw [List.getElem?_zip_eq_some]
  exact ⟨ht, this⟩

/-- C18. Together with `trackOf_describe`: the track of a token is the track of its spine. -/
theorem subtrack_of_spines (ss : List Spine) (r : List (Nat × Nat)) (h : analyzeTracks (infosOf ss) = .ok r)
    (k : Nat) (s : Spine) (hk : ss[k]? = some s) :
    r[k]? = some (s.track,
      if (ss.map (·.track)).count s.track > 1 then ((ss.take k).map (·.track)).count s.track + 1 else 0) := by
  have e : (infosOf ss).map trackOf = ss.map (·.track) := by
    simp [infosOf, Function.comp_def, trackOf_describe]
  have := subtrack_numbers (infosOf ss) r h k (describe s.track s.path) (by simp [infosOf, hk])
  rw [trackOf_describe, e] at this
  rw [this]
  have e2 : ((infosOf ss).take k).map trackOf = (ss.take k).map (·.track) := by
    rw [infosOf, ← List.map_take]; simp [Function.comp_def, trackOf_describe]
  rw [e2]

/-- C18. The analysis succeeds whenever no track number and no count exceeds 1000. -/
theorem analyzeTracks_ok (infos : List Str) (h1 : ∀ i ∈ infos, trackOf i ≤ 1000) (h2 : infos.length ≤ 1000) :
    ∃ r, analyzeTracks infos = .ok r := by
  have key : ∀ (all ts seen : List Nat), ∀ x ∈ subTracks all seen ts, x ≤ seen.length + ts.length := by
    intro all ts
    induction ts with
    | nil => intro seen x hx; simp [subTracks] at hx
    | cons t ts ih =>
      intro seen x hx
      simp only [subTracks, List.mem_cons] at hx
      rcases hx with rfl | hx
      · have := List.count_le_length (a := t) (l := seen)
        split
        · simp; omega
        · omega
      · have := ih (t :: seen) x hx
        simp at this ⊢; omega
  unfold analyzeTracks
  simp only
  rw [if_neg, if_neg]
  · exact ⟨_, rfl⟩
  · simp only [List.any_eq_true, decide_eq_true_eq, not_exists, not_and]
    intro x hx
    have := key _ _ _ x hx
    simp at this; omega
  · simp only [List.any_eq_true, decide_eq_true_eq, not_exists, not_and, List.mem_map]
    rintro x ⟨i, hi, rfl⟩
    have := h1 i hi; omega

example : analyzeTracks ["(1)a".toList, "2".toList, "(1)b".toList] = .ok [(1, 1), (2, 0), (1, 2)] := by decide

/-- The fields of a file without `*+`: no spine is added, so nothing needs a name. -/
theorem addedFields_nil (gs : List Group) (h : "*+".toList ∉ lineText gs) : ∀ j, addedFields j gs = [] := by
  induction gs with
  | nil => intro j; rfl
  | cons g gs ih =>
    intro j
    rw [text_cons, List.mem_append, not_or] at h
    simp only [addedFields, ih h.2]
    cases g <;> simp
    exact h.1 (by simp [Group.text])

/-- The hypotheses of `file_links` are met. -/
example : ∃ ds x, FileRun none ((fileOf ["**kern", "*^", "4c\t4e", "*v\t*v", "*-"]).map Line.view) ds x ∧
    (∀ q ∈ (spined (fileOf ["**kern", "*^", "4c\t4e", "*v\t*v", "*-"])).head?, ∀ t ∈ q.2.tokens,
      ("**".toList).isPrefixOf t = true) ∧
    (∀ l ∈ fileOf ["**kern", "*^", "4c\t4e", "*v\t*v", "*-"], l.isInterpretation = false → l.isManipulator = false) ∧
    (∀ p q gs, Consecutive (spined (fileOf ["**kern", "*^", "4c\t4e", "*v\t*v", "*-"])) p q → LineOk gs →
      p.2.tokens = lineText gs → AddsNamed q.2.tokens 0 gs) := by
  refine ⟨[["1".toList], ["1".toList], ["(1)a".toList, "(1)b".toList], ["(1)a".toList, "(1)b".toList], ["1".toList]],
    some ([], 1, false), ?_, by decide +kernel, by decide +kernel, ?_⟩
  · rw [show (fileOf ["**kern", "*^", "4c\t4e", "*v\t*v", "*-"]).map Line.view =
      [some ["**kern".toList], some ["*^".toList], some ["4c".toList, "4e".toList],
       some ["*v".toList, "*v".toList], some ["*-".toList]] by decide +kernel]
    refine .start ⟨_, List.mem_singleton_self _, by decide⟩ ?_
    refine .line (gs := [.split]) trivial (.split .nil) rfl ?_
    refine .line (gs := [.keep "4c".toList, .keep "4e".toList]) ⟨by constructor <;> decide, by simp, by constructor <;> decide⟩
      (.keep (.keep .nil)) rfl ?_
    refine .line (gs := [.merge 2]) (by show 2 ≤ 2; decide)
      (Moves.merge (t := 1) (l := .leaf) (r := .leaf) (p := []) (ty := "**kern".toList) .nil) rfl ?_
    exact .line (gs := [.stop]) trivial (.stop .nil) rfl .nil
  · intro p q gs hc _ ht
    have hp : p ∈ spined (fileOf ["**kern", "*^", "4c\t4e", "*v\t*v", "*-"]) := by
      obtain ⟨pre, post, e⟩ := hc; rw [e]; simp
    have hno : ∀ p ∈ spined (fileOf ["**kern", "*^", "4c\t4e", "*v\t*v", "*-"]), "*+".toList ∉ p.2.tokens := by
      decide +kernel
    have := hno p hp
    rw [ht] at this
    intro k hk
    rw [addedFields_nil gs this] at hk
    simp at hk

/-! ## C59: terminators -/

theorem kind_stop_iff (t : Str) : kindOf t = .terminate ↔ t = "*-".toList := by
  constructor
  · intro h
    rcases kind_cases t with ⟨e, _⟩ | ⟨e, _⟩ | ⟨e, _⟩ | ⟨e, _⟩ | ⟨_, e⟩ | ⟨e, _⟩ | ⟨e, _⟩
    all_goals first | exact e | (rw [h] at e; cases e)
  · rintro rfl; decide

theorem flatten_set_last (l : List (List TokId)) (x : TokId) (h : l ≠ []) :
    ∃ l', appendAt l (l.length - 1) x = .ok l' ∧ l'.flatten = l.flatten ++ [x] ∧ l'.length = l.length := by
  obtain ⟨init, r, rfl⟩ : ∃ init r, l = init ++ [r] := ⟨l.dropLast, l.getLast h, (List.dropLast_append_getLast h).symm⟩
  refine ⟨init ++ [r ++ [x]], ?_, by simp, by simp⟩
  unfold appendAt
  simp

/-- What every step of the loop keeps. -/
def EndsOk (a : Adj) : Prop := a.starts.length = a.ends.length ∧ a.ends ≠ []

theorem addToTrackStarts_ends (t : Option TokId) (a : Adj) (h : EndsOk a) :
    (addToTrackStarts t a.starts a.ends).1.length = (addToTrackStarts t a.starts a.ends).2.length ∧
    (addToTrackStarts t a.starts a.ends).2 ≠ [] ∧
    (addToTrackStarts t a.starts a.ends).2.flatten = a.ends.flatten := by
  obtain ⟨h1, h2⟩ := h
  cases t with
  | none => simp [addToTrackStarts, h1]
  | some t =>
    simp only [addToTrackStarts]
    split
    · rename_i hc
      refine ⟨by simp; omega, h2, rfl⟩
    · simp [h1]

theorem adjTok_ends (li : Nat) (dt si : List Str) (i : Nat) (t : Str) (rest : List Str) (a a' : Adj)
    (h : adjTok li dt si i t rest a = .ok a') (ha : EndsOk a) :
    EndsOk a' ∧ a'.ends.flatten = a.ends.flatten ++ (if t = "*-".toList then [(li, i)] else []) ∧
    (a'.skip = true → a.skip = true ∨ ∃ u r, rest = u :: r ∧ kindOf u = .exchange) := by
  unfold adjTok at h
  have hne : kindOf t ≠ .terminate → (if t = "*-".toList then [(li, i)] else []) = ([] : List TokId) := by
    intro hk; rw [if_neg]; intro e; exact hk ((kind_stop_iff t).2 e)
  cases h1 : dt[i]? with
  | none => rw [h1] at h; cases h
  | some ty =>
    cases h2 : si[i]? with
    | none => rw [h1, h2] at h; cases h
    | some inf =>
      rw [h1, h2] at h
      simp only at h
      cases hk : kindOf t <;> rw [hk] at h <;> simp only at h
      case split => cases h; exact ⟨ha, by rw [hne (by simp [hk])]; simp, fun x => .inl x⟩
      case merge => cases h; exact ⟨ha, by rw [hne (by simp [hk])]; simp, fun x => .inl x⟩
      case add =>
        have := addToTrackStarts_ends none a ha
        cases h
        exact ⟨⟨this.1, this.2.1⟩, by rw [hne (by simp [hk])]; simpa using this.2.2, fun x => .inl x⟩
      case exchange =>
        cases rest with
        | nil => cases h
        | cons u r =>
          simp only at h
          split at h
          · cases h
          · rename_i hu
            split at h
            · cases h
              exact ⟨ha, by rw [hne (by simp [hk])]; simp, fun _ => .inr ⟨u, r, rfl, by simpa using hu⟩⟩
            · cases h
      case terminate =>
        have ht := (kind_stop_iff t).1 hk
        obtain ⟨l', e1, e2, e3⟩ := flatten_set_last a.ends (li, i) ha.2
        rw [ha.1, e1] at h
        cases h
        refine ⟨⟨by simp [e3, ha.1], ?_⟩, by simp only [ht, if_true]; exact e2, fun x => .inl x⟩
        intro hn
        have hn' : l' = [] := hn
        rw [hn'] at e3; simp at e3
        exact ha.2 (List.length_eq_zero_iff.1 e3.symm)
      case exclusive =>
        split at h
        · have := addToTrackStarts_ends (some (li, i)) a ha
          cases h
          exact ⟨⟨this.1, this.2.1⟩, by rw [hne (by simp [hk])]; simpa using this.2.2, fun x => .inl x⟩
        · cases h
      case other => cases h; exact ⟨ha, by rw [hne (by simp [hk])]; simp, fun x => .inl x⟩

theorem adjLoop_ends (li : Nat) (dt si : List Str) (toks : List Str) : ∀ (i : Nat) (a a' : Adj),
    adjLoop li dt si i toks a = .ok a' → EndsOk a →
    (a.skip = true → ∃ u r, toks = u :: r ∧ kindOf u = .exchange) →
    EndsOk a' ∧ a'.ends.flatten = a.ends.flatten ++ stopFields li i toks := by
  induction toks with
  | nil => intro i a a' h ha _; simp [adjLoop] at h; subst h; exact ⟨ha, by simp [stopFields]⟩
  | cons t rest ih =>
    intro i a a' h ha hskip
    unfold adjLoop at h
    have ne_of : kindOf t ≠ .terminate → stopFields li i (t :: rest) = stopFields li (i + 1) rest := by
      intro hk
      have : t ≠ "*-".toList := fun e => hk ((kind_stop_iff t).2 e)
      simp only [stopFields]; rw [if_neg this]; rfl
    by_cases hs : a.skip = true
    · rw [if_pos hs] at h
      obtain ⟨u, r, e, hu⟩ := hskip hs
      simp at e; obtain ⟨rfl, rfl⟩ := e
      have := ih (i + 1) { a with skip := false } a' h ha (by simp)
      rw [ne_of (by simp [hu])]
      exact this
    · rw [if_neg hs] at h
      have tok : ∀ b a'' : Adj, adjTok li dt si i t rest b = .ok a'' → EndsOk b → b.ends = a.ends → b.skip = false →
          adjLoop li dt si (i + 1) rest a'' = .ok a' →
          EndsOk a' ∧ a'.ends.flatten = a.ends.flatten ++ stopFields li i (t :: rest) := by
        intro b a'' h1 hb hbe hbs h2
        obtain ⟨c1, c2, c3⟩ := adjTok_ends li dt si i t rest b a'' h1 hb
        obtain ⟨d1, d2⟩ := ih (i + 1) a'' a' h2 c1 (by
          intro hh
          rcases c3 hh with c | c
          · rw [hbs] at c; cases c
          · exact c)
        refine ⟨d1, ?_⟩
        rw [d2, c2, hbe]
        simp [stopFields]
      by_cases hm : a.merge > 0 ∧ kindOf t = .merge ∧ rest ≠ []
      · rw [if_pos hm] at h
        have := ih (i + 1) { a with merge := a.merge + 1 } a' h ha (by simp [hs])
        rw [ne_of (by rw [hm.2.1]; decide)]
        exact this
      · rw [if_neg hm] at h
        simp only at h
        generalize (if a.merge > 0 ∧ kindOf t = .merge then a.merge + 1 else a.merge) = m at h
        by_cases hm0 : m > 0
        · rw [if_pos hm0] at h
          by_cases hm1 : m = 1
          · rw [if_pos hm1] at h; cases h
          · rw [if_neg hm1] at h
            generalize (if kindOf t = .merge then i + 1 - m else i - m) = st at h
            cases hinf : getMergedSpineInfo si st (m - 1) with
            | error e => rw [hinf] at h; cases h
            | ok inf =>
              cases hty : dt[st]? with
              | none => rw [hinf, hty] at h; cases h
              | some ty =>
                rw [hinf, hty] at h
                simp only at h
                by_cases hk : kindOf t = .merge
                · rw [if_pos hk] at h
                  have := ih (i + 1) { a with newType := a.newType ++ [ty], newInfo := a.newInfo ++ [inf], merge := 0 } a' h ha (by simp [hs])
                  rw [ne_of (by rw [hk]; decide)]
                  exact this
                · rw [if_neg hk] at h
                  cases ht : adjTok li dt si i t rest { a with newType := a.newType ++ [ty], newInfo := a.newInfo ++ [inf], merge := 0 } with
                  | error e => rw [ht] at h; cases h
                  | ok a'' => rw [ht] at h; exact tok _ a'' ht ha rfl (by simpa using hs) h
        · rw [if_neg hm0] at h
          cases ht : adjTok li dt si i t rest a with
          | error e => rw [ht] at h; cases h
          | ok a'' => rw [ht] at h; exact tok _ a'' ht ha rfl (by simpa using hs) h

theorem stopFields_plain (li : Nat) (toks : List Str) (h : toks.any tokIsManipulator = false) :
    ∀ i, stopFields li i toks = [] := by
  induction toks with
  | nil => intro i; rfl
  | cons t ts ih =>
    intro i
    simp only [List.any_cons, Bool.or_eq_false_iff] at h
    simp only [stopFields, ih h.2]
    rw [if_neg]
    · rfl
    · rintro rfl; exact absurd h.1 (by decide)

theorem spinesLoop_stops (lines : List Line) (hlines : ∀ l ∈ lines, l.hasSpines = false → l.tokens ≠ []) :
    ∀ (li : Nat) (s : Option Spines) (ds : List (List Str)) (s' : Spines),
    spinesLoop li lines s = .ok (ds, some s') →
    (∀ x, s = some x → x.starts.length = x.ends.length ∧ x.ends ≠ []) →
    s'.ends.flatten = (match s with | none => [] | some x => x.ends.flatten) ++
      stopsOf li s.isSome (lines.map Line.view) := by
  induction lines with
  | nil =>
    intro li s ds s' h _
    simp [spinesLoop] at h
    obtain ⟨_, rfl⟩ := h
    simp [stopsOf]
  | cons l ls ih =>
    intro li s ds s' h hs
    have ih := ih (fun l hl => hlines l (by simp [hl]))
    unfold spinesLoop at h
    simp only [List.map_cons]
    by_cases hsp : l.hasSpines = true
    · rw [if_neg (by simp [hsp])] at h
      have hv : Line.view l = some l.tokens := by simp [Line.view, hsp]
      rw [hv]
      cases s with
      | none =>
        simp only at h
        split at h
        · cases hr : spinesLoop (li + 1) ls (some (firstSpines li l.tokens)) with
          | error e => rw [hr] at h; cases h
          | ok r =>
            obtain ⟨r1, r2⟩ := r
            rw [hr] at h
            simp only [Except.ok.injEq, Prod.mk.injEq] at h
            obtain ⟨_, rfl⟩ := h
            have := ih (li + 1) _ r1 s' hr (by
              intro x hx; cases hx; simp [firstSpines])
            have hz : (firstSpines li l.tokens).ends.flatten = [] := by
              simp [firstSpines]
            simp only [hz] at this
            simpa [stopsOf] using this
        · cases h
      | some x =>
        simp only at h
        by_cases hlen : x.types.length ≠ l.tokens.length
        · rw [if_pos hlen] at h; cases h
        · rw [if_neg hlen] at h
          by_cases hman : l.isManipulator = true
          · rw [if_pos hman] at h
            cases ha : adjustSpines li l.tokens x with
            | error e => rw [ha] at h; cases h
            | ok y =>
              rw [ha] at h
              simp only at h
              cases hr : spinesLoop (li + 1) ls (some y) with
              | error e => rw [hr] at h; cases h
              | ok r =>
                obtain ⟨r1, r2⟩ := r
                rw [hr] at h
                simp only [Except.ok.injEq, Prod.mk.injEq] at h
                obtain ⟨_, rfl⟩ := h
                unfold adjustSpines at ha
                cases hl : adjLoop li x.types x.infos 0 l.tokens ⟨[], [], 0, false, x.starts, x.ends⟩ with
                | error e => rw [hl] at ha; cases ha
                | ok b =>
                  rw [hl] at ha
                  simp only [Except.ok.injEq] at ha
                  subst ha
                  obtain ⟨e1, e2⟩ := adjLoop_ends li x.types x.infos l.tokens 0 _ b hl (hs x rfl) (by simp)
                  have := ih (li + 1) _ r1 s' hr (by intro z hz; cases hz; exact e1)
                  simp only [e2] at this
                  simpa [stopsOf] using this
          · rw [if_neg hman] at h
            cases hr : spinesLoop (li + 1) ls (some x) with
            | error e => rw [hr] at h; cases h
            | ok r =>
              obtain ⟨r1, r2⟩ := r
              rw [hr] at h
              simp only [Except.ok.injEq, Prod.mk.injEq] at h
              obtain ⟨_, rfl⟩ := h
              have := ih (li + 1) _ r1 s' hr hs
              have hz := stopFields_plain li l.tokens (by simpa [Line.isManipulator] using hman) 0
              simpa [stopsOf, hz] using this
    · have hsp' : l.hasSpines = false := by simpa using hsp
      have hv : Line.view l = none := by simp [Line.view, hsp]
      rw [if_pos ⟨hsp', hlines l (by simp) hsp'⟩] at h
      rw [hv]
      cases hr : spinesLoop (li + 1) ls s with
      | error e => rw [hr] at h; cases h
      | ok r =>
        obtain ⟨r1, r2⟩ := r
        rw [hr] at h
        simp only [Except.ok.injEq, Prod.mk.injEq] at h
        obtain ⟨_, rfl⟩ := h
        have := ih (li + 1) s r1 s' hr hs
        cases s <;> simpa [stopsOf] using this

/-- C59. For every accepted file, the list of all spine ends (humdrumfilebase.py:1763 `spineStopList`) is exactly the
list of the terminators after the first exclusive interpretation line, in file order. -/
theorem stop_list_exact_partial (lines : List Line) (hlines : ∀ l ∈ lines, l.hasSpines = false → l.tokens ≠ [])
    (ds : List (List Str)) (s : Spines) (h : analyzeSpines lines = .ok (ds, s)) :
    s.ends.flatten = stopsOf 0 false (lines.map Line.view) := by
  unfold analyzeSpines at h
  cases hr : spinesLoop 0 lines none with
  | error e => rw [hr] at h; cases h
  | ok r =>
    obtain ⟨r1, r2⟩ := r
    rw [hr] at h
    cases r2 with
    | none => cases h
    | some s2 =>
      simp only [Except.ok.injEq, Prod.mk.injEq] at h
      obtain ⟨rfl, rfl⟩ := h
      have := spinesLoop_stops lines hlines 0 none r1 s2 hr (by simp)
      simpa using this

example : (analyzeSpines (fileOf ["**kern\t**kern", "*^\t*", "*-\t*v\t*v", "4c", "*-"])).toOption.map (fun r => r.2.ends.flatten) =
    some [(2, 0), (4, 0)] := by decide +kernel

/-- C59, false part: with two spines ended on one line, the first track has no end and the second has both
(`trackEndCount(1)` is 0, `trackEnd(2, 0)` is the terminator of track 1). -/
theorem track_end_misplaced :
    (analyzeSpines (fileOf ["**kern\t**text", "4c\tla", "*-\t*-"])).toOption.map (fun r => r.2.ends) =
      some [[], [], [(2, 0), (2, 1)]] := by decide +kernel

end C21
