import Verif.Model.Spine
import Verif.Spec.Spine
import Verif.Lemmas.PyNum
import Verif.Lemmas.Tac
/- Lemmas about merging split trees and about the manipulator loop. -/
namespace C21

theorem describe_ne_nil (t : Nat) (p : List Bool) : describe t p ≠ [] := by
  cases p with
  | nil => exact natStr_ne_nil t
  | cons b p => simp [describe]

theorem describe_inj (t : Nat) (p q : List Bool) (h : describe t p = describe t q) : p = q := by
  have hd : ∀ b p, describe t (b :: p) ≠ natStr t := by
    intro b p h
    have : '(' ∈ natStr t := by rw [← h]; simp [describe]
    exact natStr_not_mem t '(' (by decide) this
  induction p generalizing q with
  | nil =>
    cases q with
    | nil => rfl
    | cons c q => exact absurd h.symm (hd c q)
  | cons b p ih =>
    cases q with
    | nil => exact absurd h (hd b p)
    | cons c q =>
      simp only [describe, List.cons_append, List.cons.injEq, true_and] at h
      have := List.append_inj' h rfl
      obtain ⟨h1, h2⟩ := this
      have hb : b = c := by
        simp at h2
        cases b <;> cases c <;> simp_all
      rw [ih q h1, hb]

theorem describe_dropLast (t : Nat) (b : Bool) (p : List Bool) :
    (describe t (b :: p)).dropLast = '(' :: describe t p ++ [')'] := by
  have : describe t (b :: p) = ('(' :: describe t p ++ [')']) ++ [if b then 'b' else 'a'] := by
    simp [describe]
  rw [this, List.dropLast_concat]

theorem inner_describe (t : Nat) (b : Bool) (p : List Bool) : inner (describe t (b :: p)) = describe t p := by
  unfold inner
  have : (describe t (b :: p)).length - 2 = ('(' :: describe t p).length := by simp [describe]
  rw [this]
  simp only [describe]
  rw [List.take_left]
  rfl

/-- Descriptions of places other than the root agree up to the last letter iff the places are siblings. -/
theorem describe_sibling (t : Nat) (x y : List Bool) (hx : x ≠ []) (hy : y ≠ []) :
    ((describe t x).dropLast = (describe t y).dropLast) ↔ x.tail = y.tail := by
  obtain ⟨b, p, rfl⟩ := List.exists_cons_of_ne_nil hx
  obtain ⟨c, q, rfl⟩ := List.exists_cons_of_ne_nil hy
  rw [describe_dropLast, describe_dropLast]
  constructor
  · intro h
    simp at h
    exact describe_inj t p q h
  · intro h
    simp at h
    rw [h]

/-! ### Frontiers -/

theorem places_suffix (tr : Tree) (p : List Bool) : ∀ q ∈ tr.places p, ∃ u, q = u ++ p := by
  induction tr generalizing p with
  | leaf => intro q hq; simp [Tree.places] at hq; exact ⟨[], by simp [hq]⟩
  | node l r ihl ihr =>
    intro q hq
    simp only [Tree.places, List.mem_append] at hq
    rcases hq with h | h
    · obtain ⟨u, rfl⟩ := ihl _ q h; exact ⟨u ++ [false], by simp⟩
    · obtain ⟨u, rfl⟩ := ihr _ q h; exact ⟨u ++ [true], by simp⟩

theorem places_ne_nil (tr : Tree) (p : List Bool) : tr.places p ≠ [] := by
  induction tr generalizing p with
  | leaf => simp [Tree.places]
  | node l r ihl ihr => simp [Tree.places, ihl]

theorem places_node_len (l r : Tree) (p : List Bool) : 2 ≤ ((Tree.node l r).places p).length := by
  have h1 := List.length_pos_iff.2 (places_ne_nil l (false :: p))
  have h2 := List.length_pos_iff.2 (places_ne_nil r (true :: p))
  simp [Tree.places]; omega

theorem places_node_nonroot (l r : Tree) (p : List Bool) : ∀ q ∈ (Tree.node l r).places p, q ≠ [] := by
  intro q hq
  simp only [Tree.places, List.mem_append] at hq
  rcases hq with h | h
  · obtain ⟨u, rfl⟩ := places_suffix _ _ q h; simp
  · obtain ⟨u, rfl⟩ := places_suffix _ _ q h; simp

/-- A place equal to the root of its tree means the tree is a leaf. -/
theorem places_root (tr : Tree) (p : List Bool) (h : p ∈ tr.places p) : tr = .leaf := by
  cases tr with
  | leaf => rfl
  | node l r =>
    simp only [Tree.places, List.mem_append] at h
    rcases h with h | h
    · obtain ⟨u, hu⟩ := places_suffix _ _ p h
      have := congrArg List.length hu
      simp at this; omega
    · obtain ⟨u, hu⟩ := places_suffix _ _ p h
      have := congrArg List.length hu
      simp at this; omega

/-- Joining two adjacent siblings of a frontier gives a frontier. -/
theorem places_join (tr : Tree) (p : List Bool) (A B : List (List Bool)) (x y : List Bool)
    (h : tr.places p = A ++ x :: y :: B) (hx : x ≠ []) (hy : y ≠ []) (hs : x.tail = y.tail) :
    ∃ tr' : Tree, tr'.places p = A ++ x.tail :: B := by
  induction tr generalizing p A B with
  | leaf =>
    simp only [Tree.places] at h
    have := congrArg List.length h
    simp at this; omega
  | node l r ihl ihr =>
    simp only [Tree.places] at h
    rw [show A ++ x :: y :: B = A ++ ([x, y] ++ B) from rfl] at h
    rcases List.append_eq_append_iff.1 h with ⟨as, h1, h2⟩ | ⟨bs, h1, h2⟩
    · -- A = L ++ as, R = as ++ x :: y :: B
      obtain ⟨r', hr'⟩ := ihr (true :: p) as B (by simpa using h2)
      exact ⟨.node l r', by simp [Tree.places, hr', h1]⟩
    · -- L = A ++ bs, [x,y] ++ B = bs ++ R
      match bs, h1, h2 with
      | [], h1, h2 =>
        obtain ⟨r', hr'⟩ := ihr (true :: p) [] B (by simpa using h2.symm)
        exact ⟨.node l r', by simp [Tree.places, hr', h1]⟩
      | [z], h1, h2 =>
        simp at h2
        obtain ⟨rfl, h2⟩ := h2
        -- x last of l, y first of r
        obtain ⟨u, hu⟩ := places_suffix l (false :: p) x (by rw [h1]; simp)
        obtain ⟨v, hv⟩ := places_suffix r (true :: p) y (by rw [← h2]; simp)
        have hlen : u.length = v.length := by
          have e1 := congrArg List.length hs
          rw [List.length_tail, List.length_tail, hu, hv] at e1
          simp at e1; omega
        match u, v, hu, hv, hlen with
        | [], [], hu, hv, _ =>
          have hl : l = .leaf := places_root l (false :: p) (by rw [h1, hu]; simp)
          have hr : r = .leaf := places_root r (true :: p) (by rw [← h2, hv]; simp)
          subst hl; subst hr
          refine ⟨.leaf, ?_⟩
          have hA : A = [] := by
            have e := congrArg List.length h1
            simp [Tree.places] at e
            exact e
          have hB : B = [] := by
            have e := congrArg List.length h2
            simp [Tree.places] at e
            exact e
          simp [Tree.places, hA, hB, hu]
        | a :: u, b :: v, hu, hv, _ =>
          rw [hu, hv] at hs
          simp only [List.cons_append, List.tail_cons] at hs
          have := List.append_inj' hs rfl
          simp at this
      | z :: w :: bs, h1, h2 =>
        simp at h2
        obtain ⟨rfl, rfl, h2⟩ := h2
        obtain ⟨l', hl'⟩ := ihl (false :: p) A bs (by simpa using h1)
        exact ⟨.node l' r, by simp [Tree.places, hl', h2]⟩

/-- A split tree has two adjacent siblings. -/
theorem places_has_siblings (tr : Tree) (p : List Bool) :
    tr = .leaf ∨ ∃ A x y B, tr.places p = A ++ x :: y :: B ∧ x.tail = y.tail := by
  induction tr generalizing p with
  | leaf => exact .inl rfl
  | node l r ihl ihr =>
    refine .inr ?_
    rcases ihl (false :: p) with rfl | ⟨A, x, y, B, h, hs⟩
    · rcases ihr (true :: p) with rfl | ⟨A, x, y, B, h, hs⟩
      · exact ⟨[], false :: p, true :: p, [], rfl, rfl⟩
      · exact ⟨(false :: p) :: A, x, y, B, by simp [Tree.places, h], hs⟩
    · exact ⟨A, x, y, B ++ r.places (true :: p), by simp [Tree.places, h], hs⟩

theorem places_nonroot (tr : Tree) (p : List Bool) (h : 2 ≤ (tr.places p).length) :
    ∀ q ∈ tr.places p, q ≠ [] := by
  cases tr with
  | leaf => simp [Tree.places] at h
  | node l r => exact places_node_nonroot l r p

/-- One sweep over the descriptions of a frontier gives the descriptions of a frontier, shorter if anything
was simplified. -/
theorem sweepFrom_places (t : Nat) (p : List Bool) (rest : List (List Bool)) :
    ∀ (tr : Tree) (done : List (List Bool)) (prev : List Bool), tr.places p = done ++ prev :: rest →
    ∃ tr' : Tree,
      done.map (describe t) ++ (mergeSweepFrom (describe t prev) (rest.map (describe t))).1.filter (· ≠ []) =
        (tr'.places p).map (describe t) ∧
      (tr'.places p).length ≤ (tr.places p).length ∧
      ((mergeSweepFrom (describe t prev) (rest.map (describe t))).2 = true →
        (tr'.places p).length < (tr.places p).length) ∧
      ((mergeSweepFrom (describe t prev) (rest.map (describe t))).2 = false → tr' = tr ∧
        ∀ A x y B, prev :: rest = A ++ x :: y :: B → x.tail ≠ y.tail) := by
  induction rest with
  | nil =>
    intro tr done prev h
    refine ⟨tr, ?_, Nat.le_refl _, by simp [mergeSweepFrom], ?_⟩
    · have := describe_ne_nil t prev
      simp [mergeSweepFrom, h, this]
    · intro _
      refine ⟨rfl, ?_⟩
      intro A x y B h'
      have := congrArg List.length h'
      simp at this; omega
  | cons x xs ih =>
    intro tr done prev h
    have hlen : 2 ≤ (tr.places p).length := by rw [h]; simp; omega
    have hp : prev ≠ [] := places_nonroot tr p hlen prev (by rw [h]; simp)
    have hx : x ≠ [] := places_nonroot tr p hlen x (by rw [h]; simp)
    by_cases hs : (describe t prev).dropLast = (describe t x).dropLast
    · have htl := (describe_sibling t prev x hp hx).1 hs
      obtain ⟨tr1, h1⟩ := places_join tr p done xs prev x h hp hx htl
      obtain ⟨tr', e1, e2, _, _⟩ := ih tr1 done prev.tail h1
      have hin : inner (describe t x) = describe t prev.tail := by
        obtain ⟨b, q, rfl⟩ := List.exists_cons_of_ne_nil hx
        rw [inner_describe, htl]; rfl
      have hl1 : (tr1.places p).length < (tr.places p).length := by rw [h, h1]; simp
      refine ⟨tr', ?_, by omega, fun _ => by omega, ?_⟩
      · rw [← e1]
        simp [mergeSweepFrom, hs, hin]
      · intro hf; simp [mergeSweepFrom, hs] at hf
    · have hns : prev.tail ≠ x.tail := fun e => hs ((describe_sibling t prev x hp hx).2 e)
      obtain ⟨tr', e1, e2, e3, e4⟩ := ih tr (done ++ [prev]) x (by simp [h])
      refine ⟨tr', ?_, e2, ?_, ?_⟩
      · rw [← e1]
        have := describe_ne_nil t prev
        simp [mergeSweepFrom, hs, this]
      · intro hf; apply e3; simpa [mergeSweepFrom, hs] using hf
      · intro hf
        obtain ⟨g1, g2⟩ := e4 (by simpa [mergeSweepFrom, hs] using hf)
        refine ⟨g1, ?_⟩
        intro A a b B hA
        cases A with
        | nil =>
          simp at hA
          obtain ⟨rfl, rfl, _⟩ := hA
          exact hns
        | cons c A =>
          simp at hA
          exact g2 A a b B (by simpa using hA.2)

theorem sweep_places (t : Nat) (p : List Bool) (tr : Tree) :
    ∃ tr' : Tree,
      (mergeSweep ((tr.places p).map (describe t))).1 = (tr'.places p).map (describe t) ∧
      (tr'.places p).length ≤ (tr.places p).length ∧
      ((mergeSweep ((tr.places p).map (describe t))).2 = true →
        (tr'.places p).length < (tr.places p).length) ∧
      ((mergeSweep ((tr.places p).map (describe t))).2 = false → tr = .leaf) := by
  obtain ⟨a, l, hal⟩ := List.exists_cons_of_ne_nil (places_ne_nil tr p)
  obtain ⟨tr', e1, e2, e3, e4⟩ := sweepFrom_places t p l tr [] a hal
  refine ⟨tr', ?_, e2, ?_, ?_⟩
  · rw [← e1, hal]; rfl
  · rw [hal] at *; exact e3
  · rw [hal]
    intro hf
    obtain ⟨_, g⟩ := e4 hf
    rcases places_has_siblings tr p with h | ⟨A, x, y, B, h, hs⟩
    · exact h
    · rw [hal] at h
      exact absurd hs (g A x y B h)

theorem rounds_places (t : Nat) (p : List Bool) (fuel : Nat) (tr : Tree) (hf : (tr.places p).length ≤ fuel + 1) :
    mergeRounds fuel ((tr.places p).map (describe t)) = [describe t p] := by
  have hleaf : ∀ tr : Tree, (tr.places p).length ≤ 1 → tr.places p = [p] := by
    intro tr h
    cases tr with
    | leaf => rfl
    | node l r => have := places_node_len l r p; omega
  induction fuel generalizing tr with
  | zero => simp [mergeRounds, hleaf tr hf]
  | succ fuel ih =>
    unfold mergeRounds
    by_cases hl : ((tr.places p).map (describe t)).length > 1
    · rw [if_pos hl]
      obtain ⟨tr1, a1, a2, a3, a4⟩ := sweep_places t p tr
      obtain ⟨tr2, b1, b2, b3, b4⟩ := sweep_places t p tr1
      have ht1 : (mergeSweep ((tr.places p).map (describe t))).2 = true := by
        by_contra hc
        have := a4 (by simpa using hc)
        subst this
        simp [Tree.places] at hl
      have := a3 ht1
      simp only [a1, b1, ht1, Bool.true_or, if_true]
      exact ih tr2 (by omega)
    · rw [if_neg hl]
      rw [hleaf tr (by simpa using hl)]; rfl

/-- Merging all the sub-spines of a split spine gives its description back. -/
theorem merged_tree (t : Nat) (l r : Tree) (p : List Bool) (pre post : List Str) :
    getMergedSpineInfo (pre ++ ((Tree.node l r).places p).map (describe t) ++ post) pre.length
      (((Tree.node l r).places p).length - 1) = .ok (describe t p) := by
  have hlen := places_node_len l r p
  generalize hL : (Tree.node l r).places p = L at *
  unfold getMergedSpineInfo
  rw [if_neg (by omega)]
  by_cases h2 : L.length - 1 = 1
  · rw [if_pos h2]
    match L, h2, hL with
    | [x, y], _, hL =>
      have hx : x ≠ [] := places_node_nonroot l r p x (by rw [hL]; simp)
      have hy : y ≠ [] := places_node_nonroot l r p y (by rw [hL]; simp)
      rcases places_has_siblings (.node l r) p with h | ⟨A, a, b, B, h, hs⟩
      · cases h
      · rw [hL] at h
        have hA : A = [] := by
          have := congrArg List.length h
          simp at this
          exact List.length_eq_zero_iff.1 (by omega)
        subst hA
        simp at h
        obtain ⟨rfl, rfl, rfl⟩ := h
        have e := (describe_sibling t x y hx hy).2 hs
        obtain ⟨tr', hj⟩ := places_join (.node l r) p [] [] x y hL hx hy hs
        have hxp : x.tail = p := by
          cases tr' with
          | leaf => simpa [Tree.places, eq_comm] using hj
          | node a b =>
            have := places_node_len a b p
            rw [hj] at this
            simp at this
        have e0 : (pre ++ [x, y].map (describe t) ++ post)[pre.length]? = some (describe t x) := by
          simp
        have e1 : (pre ++ [x, y].map (describe t) ++ post)[pre.length + 1]? = some (describe t y) := by
          simp
        rw [e0, e1]
        simp only [e, if_true]
        obtain ⟨b, q, rfl⟩ := List.exists_cons_of_ne_nil hx
        rw [inner_describe]
        simp at hxp
        rw [hxp]
  · rw [if_neg h2]
    have hin : pre.length + (L.length - 1) < (pre ++ L.map (describe t) ++ post).length := by
      simp; omega
    rw [if_pos hin]
    have hsub : ((pre ++ L.map (describe t) ++ post).drop pre.length).take (L.length - 1 + 1) =
        L.map (describe t) := by
      rw [List.append_assoc, List.drop_left, show L.length - 1 + 1 = (L.map (describe t)).length by simp; omega,
        List.take_left]
    rw [hsub]
    have := rounds_places t p L.length (.node l r) (by rw [hL]; omega)
    rw [hL] at this
    simp only [List.length_map, this]
    rfl

/-! ### The manipulator loop -/

theorem kind_keep (t : Str) (h : (Group.keep t).Ok) : kindOf t = .other := by
  obtain ⟨h1, h2⟩ := h
  simp only [List.mem_cons, List.not_mem_nil, or_false, not_or] at h1
  obtain ⟨a, b, c, d, e⟩ := h1
  unfold kindOf
  rw [if_neg a, if_neg b, if_neg c, if_neg d, if_neg e]
  unfold startsWith
  rw [h2]
  rfl

theorem kind_excl (t : Str) (h : (Group.excl t).Ok) : kindOf t = .exclusive := by
  have h : ("**".toList).isPrefixOf t = true := h
  unfold kindOf
  rw [if_neg, if_neg, if_neg, if_neg, if_neg]
  · unfold startsWith; rw [h]; rfl
  all_goals (rintro rfl; revert h; decide)

theorem kind_v : kindOf "*v".toList = .merge := by decide

/-- What is appended when a merge group of `n` tokens starting at field `i` is complete. -/
def mergeDone (dt si : List Str) (i n : Nat) (a : Adj) : Except PyErr Adj :=
  match getMergedSpineInfo si i (n - 1), dt[i]? with
  | .error e, _ => .error e
  | _, none => .error .indexError
  | .ok inf, some ty =>
    .ok { a with newType := a.newType ++ [ty], newInfo := a.newInfo ++ [inf], merge := 0 }

/-- A run of `*v`, once one of them has been counted. -/
theorem adj_run (li : Nat) (dt si : List Str) (i n : Nat) (rest : List Str)
    (hr : ∀ t, rest.head? = some t → kindOf t ≠ .merge) (j k : Nat) (hk : 1 ≤ k) (hn : k + j = n) (h2 : 2 ≤ n)
    (a : Adj) (hs : a.skip = false) (hm : a.merge = k) :
    adjLoop li dt si (i + k) (List.replicate j "*v".toList ++ rest) a =
      (if rest = [] ∧ j = 0 then .ok a else
       match mergeDone dt si i n a with
       | .error e => .error e
       | .ok a' => adjLoop li dt si (i + n) rest a') := by
  induction j generalizing k a with
  | zero =>
    simp only [List.replicate_zero, List.nil_append]
    cases rest with
    | nil => simp [adjLoop]
    | cons t rest =>
      have ht := hr t rfl
      have hkn : k = n := by omega
      subst hkn
      rw [if_neg (by simp)]
      conv_lhs => unfold adjLoop
      rw [if_neg (by simp [hs]), if_neg (by simp [ht])]
      simp only [ht, and_false, if_false, hm]
      rw [if_pos (by omega), if_neg (by omega)]
      rw [show i + k - k = i by omega]
      unfold mergeDone
      cases getMergedSpineInfo si i (k - 1) with
      | error e => rfl
      | ok inf =>
        cases dt[i]? with
        | none => rfl
        | some ty =>
          simp only
          conv_rhs => unfold adjLoop
          simp [hs]
  | succ j ih =>
    rw [if_neg (by simp)]
    simp only [List.replicate_succ, List.cons_append]
    by_cases hlast : List.replicate j "*v".toList ++ rest = []
    · have hj : j = 0 := by
        cases j with
        | zero => rfl
        | succ j => simp [List.replicate_succ] at hlast
      subst hj
      simp at hlast
      subst hlast
      conv_lhs => unfold adjLoop
      rw [if_neg (by simp [hs]), if_neg (by simp)]
      simp only [kind_v, and_true, hm]
      rw [if_pos (show k > 0 by omega), if_pos (by omega), if_neg (by omega)]
      simp only [if_true]
      have e1 : i + k + 1 - (k + 1) = i := by omega
      rw [e1]
      have e2 : k + 1 - 1 = n - 1 := by omega
      rw [e2]
      unfold mergeDone
      cases getMergedSpineInfo si i (n - 1) with
      | error e => rfl
      | ok inf =>
        cases dt[i]? with
        | none => rfl
        | some ty => simp [adjLoop]
    · conv_lhs => unfold adjLoop
      rw [if_neg (by simp [hs]), if_pos ⟨by rw [hm]; omega, kind_v, hlast⟩]
      have := ih (k + 1) (by omega) (by omega) { a with merge := a.merge + 1 } hs (by simp [hm])
      rw [show i + k + 1 = i + (k + 1) by omega, this]
      have hne : ¬ (rest = [] ∧ j = 0) := by
        rintro ⟨rfl, rfl⟩; simp at hlast
      rw [if_neg hne]
      rfl

/-- A merge group of at least two tokens, followed by anything but `*v`. -/
theorem adj_merge (li : Nat) (dt si : List Str) (i n : Nat) (rest : List Str)
    (hr : ∀ t, rest.head? = some t → kindOf t ≠ .merge) (h2 : 2 ≤ n)
    (a : Adj) (hs : a.skip = false) (hm : a.merge = 0) (hi : i < dt.length) (hi' : i < si.length) :
    adjLoop li dt si i (List.replicate n "*v".toList ++ rest) a =
      (match mergeDone dt si i n a with
       | .error e => .error e
       | .ok a' => adjLoop li dt si (i + n) rest a') := by
  obtain ⟨j, rfl⟩ : ∃ j, n = j + 1 := ⟨n - 1, by omega⟩
  simp only [List.replicate_succ, List.cons_append]
  conv_lhs => unfold adjLoop
  rw [if_neg (by simp [hs]), if_neg (by simp [hm])]
  simp only [hm]
  rw [if_neg (by simp)]
  have e : adjTok li dt si i "*v".toList (List.replicate j "*v".toList ++ rest) a = .ok { a with merge := 1 } := by
    unfold adjTok
    rw [List.getElem?_eq_getElem hi, List.getElem?_eq_getElem hi']
    simp only [kind_v]
  rw [e]
  simp only
  have := adj_run li dt si i (j + 1) rest hr j 1 (by omega) (by omega) h2 { a with merge := 1 } hs rfl
  rw [this, if_neg (by omega)]
  rfl

end C21
