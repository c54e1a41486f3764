import Verif.Spec.Decoration
import Verif.Lemmas.Tac
/-
C53: the system decoration lists each staff exactly once, with balanced brackets.
-/
namespace C21

theorem stavesListed_append (v w : List DTok) : stavesListed (v ++ w) = stavesListed v ++ stavesListed w := by
  induction v with
  | nil => rfl
  | cons t v ih => cases t <;> simp [stavesListed, ih]

/-! ## One tree -/

theorem stavesBefore_facts (low : Nat) (todo : List Nat) (sorted : List Nat) : ∀ i, sorted.Pairwise (· < ·) →
    stavesListed (stavesBefore low todo i sorted).1 = (stavesBefore low todo i sorted).2 ∧ Balanced (stavesBefore low todo i sorted).1 ∧
      (stavesBefore low todo i sorted).2 = sorted.filter (fun n => decide (n < low) && todo.contains n) := by
  induction sorted with
  | nil => intro i _; exact ⟨rfl, Balanced.nil, rfl⟩
  | cons n ns ih =>
    intro i hs
    rw [List.pairwise_cons] at hs
    unfold stavesBefore
    by_cases hl : low ≤ n
    · rw [if_pos hl]
      refine ⟨rfl, Balanced.nil, ?_⟩
      symm
      rw [List.filter_eq_nil_iff]
      intro m hm
      have : ¬ m < low := by
        rcases List.mem_cons.1 hm with rfl | hm
        · omega
        · have := hs.1 m hm; omega
      simp [this]
    · rw [if_neg hl]
      obtain ⟨h1, h2, h3⟩ := ih (i + 1) hs.2
      by_cases ht : todo.contains n = true
      · rw [if_neg (by rw [ht]; simp)]
        refine ⟨?_, ?_, ?_⟩
        · dsimp only
          rw [stavesListed_append]
          have : stavesListed (if 0 < i then [DTok.comma] else []) = [] := by split <;> rfl
          rw [this, List.nil_append, stavesListed, h1]
        · dsimp only
          refine Balanced.append ?_ (Balanced.append (Balanced.staff n) h2)
          split
          · exact Balanced.comma
          · exact Balanced.nil
        · dsimp only
          rw [h3, List.filter_cons, if_pos (by simp only [ht, Bool.and_true, decide_eq_true_eq]; omega)]
      · rw [if_pos (by simpa using ht)]
        refine ⟨h1, h2, ?_⟩
        rw [h3, List.filter_cons, if_neg (by simp only [ht, Bool.and_false]; simp)]

theorem stavesAtEnd_facts (ns : List Nat) : ∀ i, stavesListed (stavesAtEnd i ns) = ns ∧ Balanced (stavesAtEnd i ns) := by
  induction ns with
  | nil => intro i; exact ⟨rfl, Balanced.nil⟩
  | cons n ns ih =>
    intro i
    obtain ⟨h1, h2⟩ := ih (i + 1)
    unfold stavesAtEnd
    constructor
    · rw [stavesListed_append]
      have : stavesListed (if 0 < i then [DTok.comma] else []) = [] := by split <;> rfl
      rw [this, List.nil_append, stavesListed, h1]
    · refine Balanced.append ?_ (Balanced.append (Balanced.staff n) h2)
      split
      · exact Balanced.comma
      · exact Balanced.nil

theorem lowest_mem {g : SGroup} (h : g.nums ≠ []) : g.lowest ∈ g.nums := by
  unfold SGroup.lowest
  cases hg : g.nums with
  | nil => exact absurd hg h
  | cons a b => simp

theorem lowest_le {g : SGroup} (h : g.nums.Pairwise (· < ·)) : ∀ n ∈ g.nums, g.lowest ≤ n := by
  unfold SGroup.lowest
  cases hg : g.nums with
  | nil => intro n hn; exact absurd hn (by simp)
  | cons a b =>
    rw [hg, List.pairwise_cons] at h
    intro n hn
    rcases List.mem_cons.1 hn with rfl | hn
    · exact Nat.le_refl _
    · exact le_of_lt (h.1 n hn)

/-- What is claimed of a tree. -/
structure DecoTreeOk (t : SGTree) : Prop where
  perm : (decoTree t).2.Perm t.group.nums
  listed : stavesListed (decoTree t).1 = (decoTree t).2
  balanced : Balanced (decoTree t).1

theorem filter_split_perm {l a : List Nat} (hl : l.Nodup) (ha : a.Nodup) (hs : ∀ n ∈ a, n ∈ l) : (a ++ l.filter (fun n => !a.contains n)).Perm l := by
  refine (List.perm_ext_iff_of_nodup ?_ hl).2 ?_
  · rw [List.nodup_append]
    refine ⟨ha, hl.filter _, ?_⟩
    intro x hx y hy e
    subst e
    have := (List.mem_filter.1 hy).2
    simp [hx] at this
  · intro n
    rw [List.mem_append, List.mem_filter]
    constructor
    · rintro (h | h)
      · exact hs n h
      · exact h.1
    · intro h
      by_cases hn : n ∈ a
      · exact Or.inl hn
      · exact Or.inr ⟨h, by simpa using hn⟩

theorem decoChildren_facts (sorted : List Nat) (hs : sorted.Pairwise (· < ·)) (cs : List SGTree) : ∀ todo : List Nat, todo.Nodup → (∀ n ∈ todo, n ∈ sorted) →
    (∀ c ∈ cs, DecoTreeOk c) → (∀ c ∈ cs, StaffSet c.group.nums) → (∀ c ∈ cs, ∀ n ∈ c.group.nums, n ∈ todo) →
    cs.Pairwise (fun a b => ∀ n ∈ a.group.nums, n ∉ b.group.nums) → cs.Pairwise (fun a b => a.group.lowest ≤ b.group.lowest) →
    ((decoChildren sorted todo cs).nums ++ (decoChildren sorted todo cs).todo).Perm todo ∧
      stavesListed (decoChildren sorted todo cs).toks = (decoChildren sorted todo cs).nums ∧ Balanced (decoChildren sorted todo cs).toks := by
  induction cs with
  | nil => intro todo _ _ _ _ _ _ _; unfold decoChildren; exact ⟨List.Perm.refl _, rfl, Balanced.nil⟩
  | cons c cs ih =>
    intro todo hnd hsub hok hset hmem hdis hlow
    rw [List.pairwise_cons] at hdis hlow
    unfold decoChildren
    dsimp only
    obtain ⟨b1, b2, b3⟩ := stavesBefore_facts c.group.lowest todo sorted 0 hs
    have hbn : (stavesBefore c.group.lowest todo 0 sorted).2.Nodup := by
      rw [b3]
      exact (hs.imp (fun h => Nat.ne_of_lt h)).filter _
    have hbm : ∀ n ∈ (stavesBefore c.group.lowest todo 0 sorted).2, n < c.group.lowest ∧ n ∈ todo := by
      intro n hn
      rw [b3, List.mem_filter, Bool.and_eq_true] at hn
      exact ⟨by simpa using hn.2.1, by simpa using hn.2.2⟩
    generalize hB : stavesBefore c.group.lowest todo 0 sorted = B at *
    have hc := hok c List.mem_cons_self
    have hcs := hset c List.mem_cons_self
    have hcn : (decoTree c).2.Nodup := hc.perm.nodup_iff.2 (hcs.sorted.imp (fun h => Nat.ne_of_lt h))
    have hcm : ∀ n, n ∈ (decoTree c).2 ↔ n ∈ c.group.nums := fun n => hc.perm.mem_iff
    have p1 := filter_split_perm hnd hbn (fun n hn => (hbm n hn).2)
    have hnd1 : (todo.filter (fun n => !B.2.contains n)).Nodup := hnd.filter _
    have hm1 : ∀ n ∈ (decoTree c).2, n ∈ todo.filter (fun n => !B.2.contains n) := by
      intro n hn
      rw [hcm] at hn
      refine List.mem_filter.2 ⟨hmem c List.mem_cons_self n hn, ?_⟩
      have : n ∉ B.2 := fun hb => by
        have h1 := (hbm n hb).1
        have h2 := lowest_le hcs.sorted n hn
        omega
      simpa using this
    have p2 := filter_split_perm hnd1 hcn hm1
    have hm2 : ∀ d ∈ cs, ∀ n ∈ d.group.nums, n ∈ (todo.filter (fun n => !B.2.contains n)).filter (fun n => !(decoTree c).2.contains n) := by
      intro d hd n hn
      refine List.mem_filter.2 ⟨List.mem_filter.2 ⟨hmem d (List.mem_cons_of_mem _ hd) n hn, ?_⟩, ?_⟩
      · have : n ∉ B.2 := fun hb => by
          have h1 := (hbm n hb).1
          have h2 := lowest_le (hset d (List.mem_cons_of_mem _ hd)).sorted n hn
          have h3 := hlow.1 d hd
          omega
        simpa using this
      · have : n ∉ (decoTree c).2 := fun hb => hdis.1 d hd n ((hcm n).1 hb) hn
        simpa using this
    obtain ⟨i1, i2, i3⟩ := ih ((todo.filter (fun n => !B.2.contains n)).filter (fun n => !(decoTree c).2.contains n)) (hnd1.filter _)
      (fun n hn => hsub n (List.mem_filter.1 (List.mem_filter.1 hn).1).1) (fun d hd => hok d (List.mem_cons_of_mem _ hd))
      (fun d hd => hset d (List.mem_cons_of_mem _ hd)) hm2 hdis.2 hlow.2
    refine ⟨?_, ?_, Balanced.append (Balanced.append b2 hc.balanced) i3⟩
    · rw [List.append_assoc, List.append_assoc]
      exact ((List.Perm.append_left _ ((List.Perm.append_left _ i1).trans p2)).trans p1)
    · rw [stavesListed_append, stavesListed_append, b1, hc.listed, i2]

theorem wrap_group (g : SGroup) {w : List DTok} (h : Balanced w) : Balanced (preToks g ++ w ++ postToks g) ∧
    stavesListed (preToks g ++ w ++ postToks g) = stavesListed w := by
  have hb : Balanced ((if g.bar then [DTok.op .paren] else []) ++ w ++ (if g.bar then [DTok.cl .paren] else [])) ∧
      stavesListed ((if g.bar then [DTok.op .paren] else []) ++ w ++ (if g.bar then [DTok.cl .paren] else [])) = stavesListed w := by
    cases g.bar with
    | false => simpa using h
    | true => exact ⟨Balanced.wrap .paren h, by simp [stavesListed, stavesListed_append]⟩
  unfold preToks postToks
  cases g.sym.delim with
  | none => simpa using hb
  | some d =>
    have e : (Option.map DTok.op (some d)).toList ++ (if g.bar then [DTok.op .paren] else []) ++ w ++ ((if g.bar then [DTok.cl .paren] else []) ++
        (Option.map DTok.cl (some d)).toList) = .op d :: (((if g.bar then [DTok.op .paren] else []) ++ w ++ (if g.bar then [DTok.cl .paren] else [])) ++ [.cl d]) := by
      simp
    rw [e]
    refine ⟨Balanced.wrap d hb.1, ?_⟩
    rw [stavesListed, stavesListed_append, hb.2]
    simp [stavesListed]

/-- C53: the decoration of a tree of staff groups lists each staff of the tree exactly once, with balanced brackets. -/
theorem decoTree_ok (t : SGTree) (h : TreeOk t) : DecoTreeOk t := by
  induction h with
  | node g cs hset hcs hsub hstrict hdis hlow ih =>
    have hsets : ∀ c ∈ cs, StaffSet c.group.nums := by
      intro c hc
      cases hcs c hc with
      | node _ _ hs => exact hs
    have hnd : g.nums.Nodup := hset.sorted.imp (fun h => Nat.ne_of_lt h)
    obtain ⟨h1, h2, h3⟩ := decoChildren_facts g.nums hset.sorted cs g.nums hnd (fun n hn => hn) ih hsets hsub hdis hlow
    obtain ⟨e1, e2⟩ := stavesAtEnd_facts (decoChildren g.nums g.nums cs).todo 0
    have ht : decoTree (.node g cs) = (preToks g ++ (decoChildren g.nums g.nums cs).toks ++ stavesAtEnd 0 (decoChildren g.nums g.nums cs).todo ++ postToks g,
        (decoChildren g.nums g.nums cs).nums ++ (decoChildren g.nums g.nums cs).todo) := by
      rw [decoTree, if_neg hset.nonempty]
    have hw := wrap_group g (Balanced.append h3 e2)
    rw [← List.append_assoc] at hw
    refine ⟨?_, ?_, ?_⟩
    · rw [ht]; exact h1
    · rw [ht]
      dsimp only
      rw [hw.2, stavesListed_append, h2, e1]
    · rw [ht]; exact hw.1

example : TreeOk (.node ⟨.bracket, true, [1, 2, 3, 4]⟩ [.node ⟨.brace, false, [2, 3]⟩ []]) ∧
    (decoTree (.node ⟨.bracket, true, [1, 2, 3, 4]⟩ [.node ⟨.brace, false, [2, 3]⟩ []])).1.flatMap DTok.text = "[(s1{s2,s3}s4)]".toList := by
  constructor
  · refine TreeOk.node _ _ ⟨by decide, by decide⟩ ?_ (by simp [SGTree.group]) ?_ (by simp) (by simp)
    · intro c hc
      rw [List.mem_singleton.1 hc]
      exact TreeOk.node _ _ ⟨by decide, by decide⟩ (by simp) (by simp) (by simp) (by simp) (by simp)
    · intro c hc
      rw [List.mem_singleton.1 hc]
      exact ⟨1, by decide, by decide⟩
  · decide

/-- Groups that overlap: staff 2 is listed twice. -/
theorem overlap_listed_twice : systemDecoration [⟨.brace, false, [1, 2]⟩, ⟨.bracket, false, [2, 3]⟩] = "{s1,s2}[s2,s3]".toList := by decide +kernel

/-! ## The forest -/

theorem getD_lt {α : Type} {l : List α} {i : Nat} (d : α) (h : i < l.length) : l.getD i d = l[i] := by
  rw [List.getD_eq_getElem?_getD, List.getElem?_eq_getElem h]; rfl

/-- The staves of the `i`-th group. -/
def numsAt (gs : List SGroup) (i : Nat) : List Nat := (gs.getD i ⟨.none, false, []⟩).nums

theorem numsAt_eq (gs : List SGroup) (i : Nat) : (gs[i]?.map (·.nums)).getD [] = numsAt gs i := by
  unfold numsAt
  rw [List.getD_eq_getElem?_getD]
  cases gs[i]? <;> rfl

/-- The first other group, in order of size, with all the staves of the `i`-th. -/
def parentOf (gs : List SGroup) (i : Nat) : Option Nat :=
  (List.range gs.length).find? fun j => decide (j ≠ i) && (numsAt gs i).all (fun n => (numsAt gs j).contains n)

/-- Groups in order of size, nested or disjoint, all different. -/
structure SortedNested (gs : List SGroup) : Prop where
  nested : Nested gs
  size : gs.Pairwise (fun a b => a.nums.length ≤ b.nums.length)

theorem numsAt_mem {gs : List SGroup} {i : Nat} (h : i < gs.length) : ∃ g ∈ gs, numsAt gs i = g.nums := by
  refine ⟨gs[i], List.getElem_mem h, ?_⟩
  unfold numsAt
  rw [getD_lt _ h]

theorem numsAt_set {gs : List SGroup} (hg : Nested gs) {i : Nat} (h : i < gs.length) : StaffSet (numsAt gs i) := by
  obtain ⟨g, hm, e⟩ := numsAt_mem h
  rw [e]; exact hg.sets g hm

theorem numsAt_inj {gs : List SGroup} (hg : Nested gs) {i j : Nat} (hi : i < gs.length) (hj : j < gs.length) (h : numsAt gs i = numsAt gs j) : i = j := by
  have hd := hg.distinct
  unfold numsAt at h
  rw [getD_lt _ hi, getD_lt _ hj] at h
  have := (List.nodup_iff_injective_getElem.1 hd) (a₁ := ⟨i, by simpa using hi⟩) (a₂ := ⟨j, by simpa using hj⟩) (by simpa using h)
  simpa using this

theorem sorted_ext {a b : List Nat} (ha : a.Pairwise (· < ·)) (hb : b.Pairwise (· < ·)) (h : ∀ n, n ∈ a ↔ n ∈ b) : a = b := by
  have hp : a.Perm b := (List.perm_ext_iff_of_nodup (ha.imp (fun h => Nat.ne_of_lt h)) (hb.imp (fun h => Nat.ne_of_lt h))).2 h
  exact hp.eq_of_pairwise (fun x y _ _ h1 h2 => absurd (lt_trans h1 h2) (lt_irrefl _)) ha hb

theorem subset_antisymm {gs : List SGroup} (hg : Nested gs) {i j : Nat} (hi : i < gs.length) (hj : j < gs.length)
    (h1 : ∀ n ∈ numsAt gs i, n ∈ numsAt gs j) (h2 : ∀ n ∈ numsAt gs j, n ∈ numsAt gs i) : i = j :=
  numsAt_inj hg hi hj (sorted_ext (numsAt_set hg hi).sorted (numsAt_set hg hj).sorted (fun n => ⟨h1 n, h2 n⟩))

theorem subset_lt {gs : List SGroup} (hg : SortedNested gs) {i j : Nat} (hi : i < gs.length) (hj : j < gs.length) (hne : j ≠ i)
    (h : ∀ n ∈ numsAt gs i, n ∈ numsAt gs j) : i < j ∧ ∃ n ∈ numsAt gs j, n ∉ numsAt gs i := by
  have hex : ∃ n ∈ numsAt gs j, n ∉ numsAt gs i := by
    by_contra hcon
    push Not at hcon
    exact hne (subset_antisymm hg.nested hj hi hcon h)
  refine ⟨?_, hex⟩
  have hni : (numsAt gs i).Nodup := (numsAt_set hg.nested hi).sorted.imp (fun h => Nat.ne_of_lt h)
  have hlen : (numsAt gs i).length < (numsAt gs j).length := by
    obtain ⟨n, hn1, hn2⟩ := hex
    have : (n :: numsAt gs i).length ≤ (numsAt gs j).length := by
      refine (List.subperm_of_subset (List.nodup_cons.2 ⟨hn2, hni⟩) ?_).length_le
      intro m hm
      rcases List.mem_cons.1 hm with rfl | hm
      · exact hn1
      · exact h m hm
    rw [List.length_cons] at this; omega
  by_contra hcon
  have hji : j < i := by omega
  have := List.pairwise_iff_getElem.1 hg.size j i hj hi hji
  unfold numsAt at hlen
  rw [getD_lt _ hi, getD_lt _ hj] at hlen
  omega

theorem find_congr {α : Type} {p q : α → Bool} : ∀ {l : List α}, (∀ x ∈ l, p x = q x) → l.find? p = l.find? q
  | [], _ => rfl
  | x :: xs, h => by
    rw [List.find?_cons, List.find?_cons, h x List.mem_cons_self, find_congr (fun y hy => h y (List.mem_cons_of_mem _ hy))]

theorem parentOf_facts {gs : List SGroup} (hg : SortedNested gs) {i p : Nat} (hi : i < gs.length) (h : parentOf gs i = some p) :
    p < gs.length ∧ i < p ∧ (∀ n ∈ numsAt gs i, n ∈ numsAt gs p) ∧ (∃ n ∈ numsAt gs p, n ∉ numsAt gs i) ∧
      ∀ k < gs.length, k ≠ i → (∀ n ∈ numsAt gs i, n ∈ numsAt gs k) → p ≤ k := by
  unfold parentOf at h
  have hmem := List.mem_range.1 (List.mem_of_find?_eq_some h)
  have hp := List.find?_some h
  rw [Bool.and_eq_true, List.all_eq_true] at hp
  have hne : p ≠ i := by simpa using hp.1
  have hsub : ∀ n ∈ numsAt gs i, n ∈ numsAt gs p := fun n hn => by simpa using hp.2 n hn
  obtain ⟨hlt, hex⟩ := subset_lt hg hi hmem hne hsub
  refine ⟨hmem, hlt, hsub, hex, ?_⟩
  intro k hk hki hks
  by_contra hcon
  have hkp : k < p := by omega
  have := (List.find?_eq_some_iff_getElem.1 h).2
  obtain ⟨idx, hidx, he, hall⟩ := this
  have hpi : idx = p := by simpa using he
  have := hall k (by omega)
  simp only [List.getElem_range, Bool.not_eq_true', Bool.and_eq_false_iff, decide_eq_false_iff_not] at this
  rcases this with h1 | h1
  · exact h1 hki
  · rw [List.all_eq_false] at h1
    obtain ⟨n, hn, hn2⟩ := h1
    exact hn2 (by simpa using hks n hn)

theorem parentOf_none {gs : List SGroup} {i : Nat} (h : parentOf gs i = none) : ∀ k < gs.length, k ≠ i → ¬ ∀ n ∈ numsAt gs i, n ∈ numsAt gs k := by
  intro k hk hki hs
  unfold parentOf at h
  have := List.find?_eq_none.1 h k (List.mem_range.2 hk)
  apply this
  rw [Bool.and_eq_true, List.all_eq_true]
  exact ⟨by simpa using hki, fun n hn => by simpa using hs n hn⟩

/-- The children in the end. -/
def childrenOf (gs : List SGroup) (m : Nat) (j : Nat) : List Nat := (List.range m).filter (fun i => parentOf gs i == some j)

/-- The groups without parent. -/
def topOf (gs : List SGroup) (m : Nat) : List Nat := (List.range m).filter (fun i => parentOf gs i == none)

theorem smallestParent_eq {gs : List SGroup} (hg : SortedNested gs) {i : Nat} (hi : i < gs.length) (top : List Nat) :
    smallestParent gs (childrenOf gs i) top i = parentOf gs i := by
  unfold smallestParent parentOf
  refine find_congr ?_
  intro j hj
  rw [List.mem_range] at hj
  rw [numsAt_eq, numsAt_eq]
  by_cases hne : j = i
  · simp [hne]
  by_cases hs : (numsAt gs i).all (fun n => (numsAt gs j).contains n) = true
  · have hs' : ∀ n ∈ numsAt gs i, n ∈ numsAt gs j := fun n hn => by simpa using (List.all_eq_true.1 hs) n hn
    obtain ⟨hlt, -⟩ := subset_lt hg hi hj hne hs'
    have hch : (childrenOf gs i i).contains j = false := by
      rw [← Bool.not_eq_true]
      intro hc
      have hc' : j ∈ childrenOf gs i i := by simpa using hc
      unfold childrenOf at hc'
      rw [List.mem_filter, List.mem_range] at hc'
      omega
    rw [hch, hs]
    simp only [Bool.not_false, Bool.and_true]
    have : decide (i + 1 < gs.length) = true := by simp; omega
    rw [this]
    simp
  · have hs' : (numsAt gs i).all (fun n => (numsAt gs j).contains n) = false := by simpa using hs
    rw [hs']
    simp

theorem forestLoop_prefix {gs : List SGroup} (hg : SortedNested gs) (m : Nat) (hm : m ≤ gs.length) :
    (List.range m).foldl (forestStep gs) ⟨fun _ => [], []⟩ = ⟨childrenOf gs m, topOf gs m⟩ := by
  induction m with
  | zero => rfl
  | succ m ih =>
    rw [List.range_succ, List.foldl_append, ih (by omega), List.foldl_cons, List.foldl_nil]
    unfold forestStep
    dsimp only
    rw [smallestParent_eq hg (by omega)]
    have hc : ∀ j, childrenOf gs (m + 1) j = childrenOf gs m j ++ (if parentOf gs m = some j then [m] else []) := by
      intro j
      unfold childrenOf
      rw [List.range_succ, List.filter_append, List.filter_cons]
      by_cases h : parentOf gs m = some j
      · simp [h]
      · simp [h]
    have ht : topOf gs (m + 1) = topOf gs m ++ (if parentOf gs m = none then [m] else []) := by
      unfold topOf
      rw [List.range_succ, List.filter_append, List.filter_cons]
      by_cases h : parentOf gs m = none
      · simp [h]
      · simp [h]
    cases hp : parentOf gs m with
    | none =>
      dsimp only
      rw [ht, hp, if_pos rfl]
      congr 1
      funext j
      rw [hc, hp, if_neg (by simp), List.append_nil]
    | some p =>
      dsimp only
      rw [ht, hp, if_neg (by simp), List.append_nil]
      congr 1
      funext j
      rw [hc, hp]
      by_cases hj : j = p
      · subst hj; simp
      · rw [if_neg hj, if_neg (by simpa using fun e => hj (Eq.symm e)), List.append_nil]

theorem forestLoop_eq {gs : List SGroup} (hg : SortedNested gs) : forestLoop gs = ⟨childrenOf gs gs.length, topOf gs gs.length⟩ :=
  forestLoop_prefix hg gs.length (le_refl _)

theorem mem_childrenOf {gs : List SGroup} {i p : Nat} : i ∈ childrenOf gs gs.length p ↔ i < gs.length ∧ parentOf gs i = some p := by
  unfold childrenOf; rw [List.mem_filter, List.mem_range, beq_iff_eq]

theorem sortByLowest_perm (gs : List SGroup) (is : List Nat) : (sortByLowest gs is).Perm is := List.perm_insertionSort _ _

theorem mem_sortByLowest {gs : List SGroup} {is : List Nat} {i : Nat} : i ∈ sortByLowest gs is ↔ i ∈ is := (sortByLowest_perm gs is).mem_iff

theorem sortByLowest_sorted (gs : List SGroup) (is : List Nat) :
    (sortByLowest gs is).Pairwise (fun i j => (gs.getD i ⟨.none, false, []⟩).lowest ≤ (gs.getD j ⟨.none, false, []⟩).lowest) := by
  have ht : IsTrans Nat (fun i j => (gs.getD i ⟨.none, false, []⟩).lowest ≤ (gs.getD j ⟨.none, false, []⟩).lowest) := ⟨fun _ _ _ h1 h2 => le_trans h1 h2⟩
  have hto : Std.Total (fun i j : Nat => (gs.getD i ⟨.none, false, []⟩).lowest ≤ (gs.getD j ⟨.none, false, []⟩).lowest) := ⟨fun _ _ => le_total _ _⟩
  exact List.pairwise_insertionSort _ _

theorem treeAt_group (gs : List SGroup) (ch : Nat → List Nat) (f i : Nat) : (treeAt gs ch f i).group = gs.getD i ⟨.none, false, []⟩ := by
  cases f <;> rfl

theorem siblings_disjoint {gs : List SGroup} (hg : SortedNested gs) {a b : Nat} (ha : a < gs.length) (hb : b < gs.length) (hne : a ≠ b)
    (h : parentOf gs a = parentOf gs b) : ∀ n ∈ numsAt gs a, n ∉ numsAt gs b := by
  have key : ∀ {x y : Nat}, x < gs.length → y < gs.length → x ≠ y → parentOf gs x = parentOf gs y → ¬ ∀ n ∈ numsAt gs x, n ∈ numsAt gs y := by
    intro x y hx hy hxy hp hs
    cases hpx : parentOf gs x with
    | none => exact parentOf_none hpx y hy (fun e => hxy e.symm) hs
    | some p =>
      have h1 := (parentOf_facts hg hx hpx).2.2.2.2 y hy (fun e => hxy e.symm) hs
      have h2 := (parentOf_facts hg hy (hp ▸ hpx)).2.1
      omega
  obtain ⟨ga, hga, ea⟩ := numsAt_mem ha
  obtain ⟨gb, hgb, eb⟩ := numsAt_mem hb
  have hl := hg.nested.laminar ga hga gb hgb
  rw [← ea, ← eb] at hl
  rcases hl with hl | hl | hl
  · exact absurd hl (key ha hb hne h)
  · exact absurd hl (key hb ha (fun e => hne e.symm) h.symm)
  · exact hl

theorem nodup_pairwise_map {gs : List SGroup} (hg : SortedNested gs) (is : List Nat) (hn : is.Nodup) (hlt : ∀ i ∈ is, i < gs.length)
    (hp : ∀ a ∈ is, ∀ b ∈ is, parentOf gs a = parentOf gs b) (ch : Nat → List Nat) (f : Nat) :
    (is.map (treeAt gs ch f)).Pairwise (fun a b => ∀ n ∈ a.group.nums, n ∉ b.group.nums) := by
  rw [List.pairwise_map]
  refine List.Pairwise.imp_of_mem ?_ hn
  intro a b ha hb hne
  rw [treeAt_group, treeAt_group]
  exact siblings_disjoint hg (hlt a ha) (hlt b hb) hne (hp a ha b hb)

theorem treeAt_ok {gs : List SGroup} (hg : SortedNested gs) : ∀ (f i : Nat), i < gs.length → i ≤ f → TreeOk (treeAt gs (childrenOf gs gs.length) f i) := by
  intro f
  induction f with
  | zero =>
    intro i hi hf
    refine TreeOk.node _ _ (numsAt_set hg.nested hi) ?_ ?_ ?_ ?_ ?_ <;> simp
  | succ f ih =>
    intro i hi hf
    have hmem : ∀ c ∈ (sortByLowest gs (childrenOf gs gs.length i)).map (treeAt gs (childrenOf gs gs.length) f), ∃ k, k < gs.length ∧ parentOf gs k = some i ∧
        c = treeAt gs (childrenOf gs gs.length) f k := by
      intro c hc
      obtain ⟨k, hk, e⟩ := List.mem_map.1 hc
      rw [mem_sortByLowest, mem_childrenOf] at hk
      exact ⟨k, hk.1, hk.2, e.symm⟩
    refine TreeOk.node _ _ (numsAt_set hg.nested hi) ?_ ?_ ?_ ?_ ?_
    · intro c hc
      obtain ⟨k, hk, hp, rfl⟩ := hmem c hc
      have := (parentOf_facts hg hk hp).2.1
      exact ih k hk (by omega)
    · intro c hc
      obtain ⟨k, hk, hp, rfl⟩ := hmem c hc
      rw [treeAt_group]
      exact (parentOf_facts hg hk hp).2.2.1
    · intro c hc
      obtain ⟨k, hk, hp, rfl⟩ := hmem c hc
      rw [treeAt_group]
      exact (parentOf_facts hg hk hp).2.2.2.1
    · refine nodup_pairwise_map hg _ ?_ ?_ ?_ _ _
      · exact (sortByLowest_perm gs _).nodup_iff.2 (List.nodup_range.filter _)
      · intro k hk
        rw [mem_sortByLowest, mem_childrenOf] at hk
        exact hk.1
      · intro a ha b hb
        rw [mem_sortByLowest, mem_childrenOf] at ha hb
        rw [ha.2, hb.2]
    · rw [List.pairwise_map]
      refine (sortByLowest_sorted gs _).imp ?_
      intro a b h
      rw [treeAt_group, treeAt_group]
      exact h

/-- The indices of the groups of a tree. -/
def treeIdx (gs : List SGroup) (ch : Nat → List Nat) : Nat → Nat → List Nat
  | 0, i => [i]
  | f + 1, i => i :: (sortByLowest gs (ch i)).flatMap (treeIdx gs ch f)

theorem groupsList_eq (ts : List SGTree) : groupsList ts = ts.flatMap SGTree.groups := by
  induction ts with
  | nil => rfl
  | cons t ts ih => rw [groupsList, ih, List.flatMap_cons]

theorem treeAt_groups (gs : List SGroup) (ch : Nat → List Nat) : ∀ f i, (treeAt gs ch f i).groups = (treeIdx gs ch f i).map (fun k => gs.getD k ⟨.none, false, []⟩) := by
  intro f
  induction f with
  | zero => intro i; rfl
  | succ f ih =>
    intro i
    rw [treeAt, SGTree.groups, groupsList_eq, List.flatMap_map, treeIdx, List.map_cons, List.map_flatMap]
    congr 1
    refine List.flatMap_congr ?_
    intro k _
    exact ih k

theorem treeIdx_sub {gs : List SGroup} (hg : SortedNested gs) : ∀ f i, i < gs.length → i ≤ f → ∀ k ∈ treeIdx gs (childrenOf gs gs.length) f i,
    k ≤ i ∧ k < gs.length ∧ ∀ n ∈ numsAt gs k, n ∈ numsAt gs i := by
  intro f
  induction f with
  | zero => intro i hi _ k hk; rw [List.mem_singleton.1 hk]; exact ⟨le_refl _, hi, fun n h => h⟩
  | succ f ih =>
    intro i hi hf k hk
    rcases List.mem_cons.1 hk with rfl | hk
    · exact ⟨le_refl _, hi, fun n h => h⟩
    · obtain ⟨c, hc, hk⟩ := List.mem_flatMap.1 hk
      rw [mem_sortByLowest, mem_childrenOf] at hc
      obtain ⟨h1, h2, h3, -⟩ := parentOf_facts hg hc.1 hc.2
      obtain ⟨h4, h5, h6⟩ := ih c hc.1 (by omega) k hk
      exact ⟨by omega, h5, fun n hn => h3 n (h6 n hn)⟩

theorem flatMap_idx_nodup {gs : List SGroup} (hg : SortedNested gs) (f : Nat) (is : List Nat) (hn : is.Nodup) (hlt : ∀ i ∈ is, i < gs.length ∧ i ≤ f)
    (hp : ∀ a ∈ is, ∀ b ∈ is, parentOf gs a = parentOf gs b) (hsub : ∀ i ∈ is, (treeIdx gs (childrenOf gs gs.length) f i).Nodup) :
    (is.flatMap (treeIdx gs (childrenOf gs gs.length) f)).Nodup := by
  rw [List.nodup_flatMap]
  refine ⟨hsub, ?_⟩
  refine List.Pairwise.imp_of_mem ?_ hn
  intro a b ha hb hne
  show List.Disjoint _ _
  intro k hka hkb
  obtain ⟨-, h1, h2⟩ := treeIdx_sub hg f a (hlt a ha).1 (hlt a ha).2 k hka
  obtain ⟨-, -, h3⟩ := treeIdx_sub hg f b (hlt b hb).1 (hlt b hb).2 k hkb
  have hne' := (numsAt_set hg.nested h1).nonempty
  obtain ⟨n, hn⟩ := List.exists_mem_of_ne_nil _ hne'
  exact siblings_disjoint hg (hlt a ha).1 (hlt b hb).1 hne (hp a ha b hb) n (h2 n hn) (h3 n hn)

theorem treeIdx_nodup {gs : List SGroup} (hg : SortedNested gs) : ∀ f i, i < gs.length → i ≤ f → (treeIdx gs (childrenOf gs gs.length) f i).Nodup := by
  intro f
  induction f with
  | zero => intro i _ _; simp [treeIdx]
  | succ f ih =>
    intro i hi hf
    have hc : ∀ c ∈ sortByLowest gs (childrenOf gs gs.length i), c < gs.length ∧ parentOf gs c = some i ∧ c < i := by
      intro c hc
      rw [mem_sortByLowest, mem_childrenOf] at hc
      exact ⟨hc.1, hc.2, (parentOf_facts hg hc.1 hc.2).2.1⟩
    rw [treeIdx, List.nodup_cons]
    constructor
    · intro hmem
      obtain ⟨c, hc', hk⟩ := List.mem_flatMap.1 hmem
      obtain ⟨h1, h2, h3⟩ := hc c hc'
      have := (treeIdx_sub hg f c h1 (by omega) i hk).1
      omega
    · refine flatMap_idx_nodup hg f _ ((sortByLowest_perm gs _).nodup_iff.2 (List.nodup_range.filter _)) ?_ ?_ ?_
      · intro c hc'; obtain ⟨h1, h2, h3⟩ := hc c hc'; exact ⟨h1, by omega⟩
      · intro a ha b hb; rw [(hc a ha).2.1, (hc b hb).2.1]
      · intro c hc'; obtain ⟨h1, h2, h3⟩ := hc c hc'; exact ih c h1 (by omega)

theorem treeIdx_child {gs : List SGroup} (hg : SortedNested gs) : ∀ f i, i < gs.length → i ≤ f → ∀ p ∈ treeIdx gs (childrenOf gs gs.length) f i,
    ∀ c ∈ childrenOf gs gs.length p, c ∈ treeIdx gs (childrenOf gs gs.length) f i := by
  intro f
  induction f with
  | zero =>
    intro i hi hf p hp c hc
    rw [List.mem_singleton.1 hp, mem_childrenOf] at hc
    have := (parentOf_facts hg hc.1 hc.2).2.1
    omega
  | succ f ih =>
    intro i hi hf p hp c hc
    rcases List.mem_cons.1 hp with rfl | hp
    · refine List.mem_cons_of_mem _ (List.mem_flatMap.2 ⟨c, mem_sortByLowest.2 hc, ?_⟩)
      cases f <;> exact List.mem_cons_self
    · obtain ⟨d, hd, hp⟩ := List.mem_flatMap.1 hp
      have hd' := hd
      rw [mem_sortByLowest, mem_childrenOf] at hd'
      have := (parentOf_facts hg hd'.1 hd'.2).2.1
      exact List.mem_cons_of_mem _ (List.mem_flatMap.2 ⟨d, hd, ih d hd'.1 (by omega) p hp c hc⟩)

theorem forest_idx_perm {gs : List SGroup} (hg : SortedNested gs) :
    ((sortByLowest gs (topOf gs gs.length)).flatMap (treeIdx gs (childrenOf gs gs.length) gs.length)).Perm (List.range gs.length) := by
  have ht : ∀ t ∈ sortByLowest gs (topOf gs gs.length), t < gs.length ∧ parentOf gs t = none := by
    intro t ht
    rw [mem_sortByLowest] at ht
    unfold topOf at ht
    rw [List.mem_filter, List.mem_range, beq_iff_eq] at ht
    exact ht
  refine (List.perm_ext_iff_of_nodup ?_ List.nodup_range).2 ?_
  · refine flatMap_idx_nodup hg _ _ ((sortByLowest_perm gs _).nodup_iff.2 (List.nodup_range.filter _)) ?_ ?_ ?_
    · intro t h; exact ⟨(ht t h).1, le_of_lt (ht t h).1⟩
    · intro a ha b hb; rw [(ht a ha).2, (ht b hb).2]
    · intro t h; exact treeIdx_nodup hg _ t (ht t h).1 (le_of_lt (ht t h).1)
  · intro k
    rw [List.mem_range]
    constructor
    · intro hk
      obtain ⟨t, h, hk⟩ := List.mem_flatMap.1 hk
      exact (treeIdx_sub hg _ t (ht t h).1 (le_of_lt (ht t h).1) k hk).2.1
    · intro hk
      have : ∀ d k, k < gs.length → gs.length - k ≤ d → k ∈ (sortByLowest gs (topOf gs gs.length)).flatMap (treeIdx gs (childrenOf gs gs.length) gs.length) := by
        intro d
        induction d with
        | zero => intro k hk hd; omega
        | succ d ih =>
          intro k hk hd
          cases hp : parentOf gs k with
          | none =>
            refine List.mem_flatMap.2 ⟨k, ?_, ?_⟩
            · rw [mem_sortByLowest]; unfold topOf; rw [List.mem_filter, List.mem_range, beq_iff_eq]; exact ⟨hk, hp⟩
            · cases gs.length <;> exact List.mem_cons_self
          | some p =>
            obtain ⟨h1, h2, -⟩ := parentOf_facts hg hk hp
            obtain ⟨t, h, hpt⟩ := List.mem_flatMap.1 (ih p h1 (by omega))
            exact List.mem_flatMap.2 ⟨t, h, treeIdx_child hg _ t (ht t h).1 (le_of_lt (ht t h).1) p hpt k (mem_childrenOf.2 ⟨hk, hp⟩)⟩
      exact this _ k hk (le_refl _)

theorem range_map_getD (gs : List SGroup) : (List.range gs.length).map (fun k => gs.getD k ⟨.none, false, []⟩) = gs := by
  refine List.ext_getElem (by simp) ?_
  intro i h1 h2
  rw [List.getElem_map, List.getElem_range, getD_lt _ h2]

/-- The trees of groups that are in order of size. -/
theorem forestOf_ok {gs : List SGroup} (hg : SortedNested gs) : (∀ t ∈ forestOf gs, TreeOk t) ∧
    (forestOf gs).Pairwise (fun a b => ∀ n ∈ a.group.nums, n ∉ b.group.nums) ∧ (groupsList (forestOf gs)).Perm gs := by
  have ht : ∀ t ∈ sortByLowest gs (topOf gs gs.length), t < gs.length ∧ parentOf gs t = none := by
    intro t ht
    rw [mem_sortByLowest] at ht
    unfold topOf at ht
    rw [List.mem_filter, List.mem_range, beq_iff_eq] at ht
    exact ht
  unfold forestOf
  rw [forestLoop_eq hg]
  dsimp only
  refine ⟨?_, ?_, ?_⟩
  · intro t h
    obtain ⟨k, hk, rfl⟩ := List.mem_map.1 h
    exact treeAt_ok hg _ k (ht k hk).1 (le_of_lt (ht k hk).1)
  · refine nodup_pairwise_map hg _ ((sortByLowest_perm gs _).nodup_iff.2 (List.nodup_range.filter _)) (fun t h => (ht t h).1) ?_ _ _
    intro a ha b hb
    rw [(ht a ha).2, (ht b hb).2]
  · rw [groupsList_eq, List.flatMap_map]
    have e : (sortByLowest gs (topOf gs gs.length)).flatMap (fun k => (treeAt gs (childrenOf gs gs.length) gs.length k).groups) =
        ((sortByLowest gs (topOf gs gs.length)).flatMap (treeIdx gs (childrenOf gs gs.length) gs.length)).map (fun k => gs.getD k ⟨.none, false, []⟩) := by
      rw [List.map_flatMap]
      exact List.flatMap_congr (fun k _ => treeAt_groups gs _ _ k)
    rw [e]
    exact ((forest_idx_perm hg).map _).trans (List.Perm.of_eq (range_map_getD gs))

theorem sortBySize_perm (gs : List SGroup) : (sortBySize gs).Perm gs := List.perm_insertionSort _ _

theorem sortBySize_nested {gs : List SGroup} (h : Nested gs) : SortedNested (sortBySize gs) := by
  have hp := sortBySize_perm gs
  refine ⟨⟨fun g hg => h.sets g (hp.mem_iff.1 hg), (hp.map _).nodup_iff.2 h.distinct,
    fun g hg k hk => h.laminar g (hp.mem_iff.1 hg) k (hp.mem_iff.1 hk)⟩, ?_⟩
  have ht : IsTrans SGroup (fun a b => a.nums.length ≤ b.nums.length) := ⟨fun _ _ _ h1 h2 => le_trans h1 h2⟩
  have hto : Std.Total (fun a b : SGroup => a.nums.length ≤ b.nums.length) := ⟨fun _ _ => le_total _ _⟩
  exact List.pairwise_insertionSort _ _

/-- C53: for staff groups that are nested or disjoint, with different staves, every group is in the forest exactly once. -/
theorem every_group_once (gs : List SGroup) (h : Nested gs) : (groupsList (staffGroupTrees gs)).Perm gs :=
  (forestOf_ok (sortBySize_nested h)).2.2.trans (sortBySize_perm gs)

mutual
theorem groups_sub_tree : ∀ (t : SGTree), TreeOk t → ∀ g ∈ t.groups, ∀ n ∈ g.nums, n ∈ t.group.nums
  | .node g cs, h => by
    cases h with
    | node _ _ hs hc hsub _ _ _ =>
      intro k hk n hn
      rw [SGTree.groups] at hk
      rcases List.mem_cons.1 hk with rfl | hk
      · exact hn
      · obtain ⟨c, hcm, hn'⟩ := groups_sub_list cs hc k hk n hn
        exact hsub c hcm n hn'
theorem groups_sub_list : ∀ (cs : List SGTree), (∀ c ∈ cs, TreeOk c) → ∀ g ∈ groupsList cs, ∀ n ∈ g.nums, ∃ c ∈ cs, n ∈ c.group.nums
  | [], _ => by intro g hg; exact absurd hg (by simp [groupsList])
  | c :: cs, h => by
    intro g hg n hn
    rw [groupsList] at hg
    rcases List.mem_append.1 hg with hg | hg
    · exact ⟨c, List.mem_cons_self, groups_sub_tree c (h c List.mem_cons_self) g hg n hn⟩
    · obtain ⟨d, hd, hn'⟩ := groups_sub_list cs (fun x hx => h x (List.mem_cons_of_mem _ hx)) g hg n hn
      exact ⟨d, List.mem_cons_of_mem _ hd, hn'⟩
end

theorem group_mem_groups (t : SGTree) : t.group ∈ t.groups := by cases t; exact List.mem_cons_self

theorem decoForest_facts (ts : List SGTree) (h : ∀ t ∈ ts, TreeOk t) (hd : ts.Pairwise (fun a b => ∀ n ∈ a.group.nums, n ∉ b.group.nums)) :
    Balanced (decoForest ts) ∧ (stavesListed (decoForest ts)).Nodup ∧ ∀ n, n ∈ stavesListed (decoForest ts) ↔ ∃ t ∈ ts, n ∈ t.group.nums := by
  induction ts with
  | nil => exact ⟨Balanced.nil, List.nodup_nil, by simp [decoForest, stavesListed]⟩
  | cons t ts ih =>
    rw [List.pairwise_cons] at hd
    obtain ⟨i1, i2, i3⟩ := ih (fun x hx => h x (List.mem_cons_of_mem _ hx)) hd.2
    have ht := decoTree_ok t (h t List.mem_cons_self)
    have hset : StaffSet t.group.nums := by cases h t List.mem_cons_self with | node _ _ hs => exact hs
    have e : decoForest (t :: ts) = (decoTree t).1 ++ decoForest ts := by unfold decoForest; rw [List.flatMap_cons]
    rw [e, stavesListed_append, ht.listed]
    refine ⟨Balanced.append ht.balanced i1, ?_, ?_⟩
    · rw [List.nodup_append]
      refine ⟨ht.perm.nodup_iff.2 (hset.sorted.imp (fun h => Nat.ne_of_lt h)), i2, ?_⟩
      intro a ha b hb e
      subst e
      obtain ⟨s, hs, hn⟩ := (i3 a).1 hb
      exact hd.1 s hs a (ht.perm.mem_iff.1 ha) hn
    · intro n
      rw [List.mem_append, ht.perm.mem_iff, i3]
      simp

/-- C53: for staff groups that are nested or disjoint, with different staves, the system decoration has balanced brackets and lists every staff that is in a
group exactly once. -/
theorem decoration_lists_once (gs : List SGroup) (h : Nested gs) :
    Balanced (decoForest (staffGroupTrees gs)) ∧ (stavesListed (decoForest (staffGroupTrees gs))).Nodup ∧
      ∀ n, n ∈ stavesListed (decoForest (staffGroupTrees gs)) ↔ ∃ g ∈ gs, n ∈ g.nums := by
  obtain ⟨h1, h2, h3⟩ := forestOf_ok (sortBySize_nested h)
  obtain ⟨d1, d2, d3⟩ := decoForest_facts (staffGroupTrees gs) h1 h2
  refine ⟨d1, d2, ?_⟩
  intro n
  rw [d3]
  have hp := every_group_once gs h
  constructor
  · rintro ⟨t, ht, hn⟩
    refine ⟨t.group, hp.mem_iff.1 ?_, hn⟩
    rw [groupsList_eq]
    exact List.mem_flatMap.2 ⟨t, ht, group_mem_groups t⟩
  · rintro ⟨g, hg, hn⟩
    exact groups_sub_list _ h1 g (hp.mem_iff.2 hg) n hn

example : Nested [⟨.bracket, true, [1, 2, 3, 4]⟩, ⟨.brace, false, [3, 4]⟩, ⟨.none, true, [1, 2]⟩] ∧
    systemDecoration [⟨.bracket, true, [1, 2, 3, 4]⟩, ⟨.brace, false, [3, 4]⟩, ⟨.none, true, [1, 2]⟩] = "[((s1,s2){s3,s4})]".toList := by
  refine ⟨⟨?_, by decide, ?_⟩, by decide +kernel⟩
  · intro g hg
    simp only [List.mem_cons, List.not_mem_nil, or_false] at hg
    rcases hg with rfl | rfl | rfl <;> exact ⟨by decide, by decide⟩
  · intro g hg k hk
    simp only [List.mem_cons, List.not_mem_nil, or_false] at hg hk
    rcases hg with rfl | rfl | rfl <;> rcases hk with rfl | rfl | rfl <;> decide

/-- Three groups of the same staves beside a larger group: none of the three is written. -/
theorem equal_groups_lost : systemDecoration [⟨.brace, true, [1, 2]⟩, ⟨.bracket, true, [1, 2]⟩, ⟨.square, true, [1, 2]⟩, ⟨.bracket, false, [3, 4, 5]⟩] =
    "[s3,s4,s5]".toList := by decide +kernel

end C21
