import Verif.Spec.Pending
import Verif.Lemmas.PyDict
import Verif.Lemmas.Tac
import Mathlib.Data.List.Induction
/-
C38: pending stops are emitted exactly once.
-/
namespace C21

theorem makeStops_time (t : Rat) (n : Nat) (ss : List Str) : ∀ x ∈ makeStops t n ss, x.time = t ∧ n ≤ x.id ∧ x.id < n + ss.length := by
  induction ss generalizing n with
  | nil => intro x hx; simp [makeStops] at hx
  | cons a as ih =>
    intro x hx
    rw [makeStops] at hx
    rcases List.mem_cons.1 hx with rfl | hx
    · simp
    · obtain ⟨h1, h2, h3⟩ := ih (n + 1) x hx
      simp only [List.length_cons]
      exact ⟨h1, by omega, by omega⟩

theorem makeStops_text (t : Rat) (n : Nat) (ss : List Str) : (makeStops t n ss).map (·.text) = ss := by
  induction ss generalizing n with
  | nil => rfl
  | cons a as ih => rw [makeStops, List.map_cons, ih]

theorem makeStops_nodup (t : Rat) (n : Nat) (ss : List Str) : (makeStops t n ss).Nodup := by
  induction ss generalizing n with
  | nil => exact List.nodup_nil
  | cons a as ih =>
    rw [makeStops, List.nodup_cons]
    refine ⟨?_, ih _⟩
    intro h
    have := (makeStops_time t (n + 1) as _ h).2.1
    simp only at this
    omega

theorem erase_filter_nodup {l : List PStop} (h : l.Nodup) (q : PStop → Bool) (r : PStop) (hr : q r = true) :
    (l.filter (fun x => !q x)) = (l.erase r).filter (fun x => !q x) := by
  induction l with
  | nil => rfl
  | cons x xs ih =>
    by_cases hx : x = r
    · subst hx
      rw [List.erase_cons_head, List.filter_cons_of_neg (by simp [hr])]
    · rw [List.erase_cons_tail (by simpa using hx)]
      have ih' := ih (List.nodup_cons.1 h).2
      rw [List.filter_cons, List.filter_cons, ih']

theorem removeStops_eq {l : List PStop} (h : l.Nodup) (q : PStop → Bool) : ∀ rs : List PStop, (∀ x, x ∈ rs ↔ x ∈ l ∧ q x = true) → rs.Nodup →
    removeStops l rs = l.filter (fun x => !q x) := by
  intro rs
  induction rs generalizing l with
  | nil =>
    intro hm _
    rw [removeStops, List.filter_eq_self.2]
    intro x hx
    by_cases hq : q x = true
    · exact absurd ((hm x).2 ⟨hx, hq⟩) (by simp)
    · simpa using hq
  | cons r rs ih =>
    intro hm hn
    have hr := (hm r).1 List.mem_cons_self
    rw [removeStops, ih (h.erase r), erase_filter_nodup h q r hr.2]
    · intro x
      rw [h.mem_erase_iff]
      constructor
      · intro hx
        have := (hm x).1 (List.mem_cons_of_mem _ hx)
        refine ⟨⟨?_, this.1⟩, this.2⟩
        rintro rfl
        exact (List.nodup_cons.1 hn).1 hx
      · rintro ⟨⟨hne, hx⟩, hq⟩
        rcases List.mem_cons.1 ((hm x).2 ⟨hx, hq⟩) with e | e
        · exact absurd e hne
        · exact e
    · exact (List.nodup_cons.1 hn).2

theorem removeStops_filter {l : List PStop} (h : l.Nodup) (q : PStop → Bool) : removeStops l (l.filter q) = l.filter (fun x => !q x) :=
  removeStops_eq h q _ (fun _ => List.mem_filter) (h.filter _)

theorem staffStops_set (st : PendState) (d : Dict Int (List PStop)) (n : Nat) (p s p' s' : Int) (l : List PStop) (hd : partDict st p = d) :
    staffStops ⟨st.parts.set p (d.set s l), n⟩ p' s' = if p = p' ∧ s = s' then l else staffStops st p' s' := by
  unfold staffStops
  unfold partDict at hd ⊢
  dsimp only
  rw [Dict.get?_set]
  by_cases hp : p = p'
  · subst hp
    rw [if_pos rfl, Option.getD_some, Dict.get?_set]
    by_cases hs : s = s'
    · subst hs; simp
    · rw [if_neg hs, if_neg (fun h => hs h.2), hd]
  · rw [if_neg hp, if_neg (fun h => hp h.1)]

theorem staffStops_store (st : PendState) (ss : List Str) (t : Rat) (p s p' s' : Int) : staffStops (storeStops st ss t p s) p' s' =
    if p = p' ∧ s = s' then staffStops st p s ++ makeStops t st.made ss else staffStops st p' s' := by
  unfold storeStops
  exact staffStops_set st _ _ p s p' s' _ rfl

theorem pop_texts (st : PendState) (p s : Int) (t : Rat) :
    (popStops st p s t).1 = ((staffStops st p s).filter (fun x => decide (x.time = t))).map (·.text) := by
  unfold popStops staffStops partDict
  cases st.parts.get? p with
  | none => rfl
  | some d =>
    dsimp only [Option.getD_some]
    cases d.get? s <;> rfl

theorem staffStops_pop (st : PendState) (p s : Int) (t : Rat) (hn : (staffStops st p s).Nodup) (p' s' : Int) :
    staffStops (popStops st p s t).2 p' s' =
      if p = p' ∧ s = s' then (staffStops st p s).filter (fun x => !decide (x.time = t)) else staffStops st p' s' := by
  unfold popStops
  cases hd : st.parts.get? p with
  | none =>
    dsimp only
    split
    · next h =>
      obtain ⟨rfl, rfl⟩ := h
      have : staffStops st p s = [] := by unfold staffStops partDict; rw [hd]; rfl
      rw [this]; rfl
    · rfl
  | some d =>
    dsimp only
    cases hl : d.get? s with
    | none =>
      dsimp only
      split
      · next h =>
        obtain ⟨rfl, rfl⟩ := h
        have : staffStops st p s = [] := by unfold staffStops partDict; rw [hd, Option.getD_some, hl]; rfl
        rw [this]; rfl
      · rfl
    | some l =>
      dsimp only
      have e : staffStops st p s = l := by unfold staffStops partDict; rw [hd, Option.getD_some, hl]; rfl
      rw [staffStops_set st d _ p s p' s' _ (by unfold partDict; rw [hd]; rfl), removeStops_filter (e ▸ hn), e]

/-- The state represents what is due. -/
structure PendInv (ops : List PendOp) (st : PendState) : Prop where
  nodup : ∀ p s, (staffStops st p s).Nodup
  small : ∀ p s, ∀ x ∈ staffStops st p s, x.id < st.made
  due : ∀ p s t, ((staffStops st p s).filter (fun x => decide (x.time = t))).map (·.text) = due ops p s t

theorem pop_made (st : PendState) (p s : Int) (t : Rat) : (popStops st p s t).2.made = st.made := by
  unfold popStops
  cases st.parts.get? p with
  | none => rfl
  | some d =>
    dsimp only
    cases d.get? s <;> rfl

theorem due_snoc (ops : List PendOp) (op : PendOp) (p s : Int) (t : Rat) : due (ops ++ [op]) p s t = dueStep p s t (due ops p s t) op := by
  unfold due; rw [List.foldl_append]; rfl

theorem pendRun_snoc (ops : List PendOp) (op : PendOp) : pendRun (ops ++ [op]) = pendStep (pendRun ops) op := by
  unfold pendRun; rw [List.foldl_append]; rfl

theorem pendInv (ops : List PendOp) : PendInv ops (pendRun ops) := by
  induction ops using List.reverseRecOn with
  | nil =>
    constructor
    · intro p s; exact List.nodup_nil
    · intro p s x hx; exact absurd hx (by simp [pendRun, staffStops, partDict, Dict.get?])
    · intro p s t; rfl
  | append_singleton ops op ih =>
    rw [pendRun_snoc]
    cases op with
    | store ss time p0 s0 =>
      constructor
      · intro p s
        show (staffStops (storeStops _ _ _ _ _) p s).Nodup
        rw [staffStops_store]
        split
        · rw [List.nodup_append]
          refine ⟨ih.nodup _ _, makeStops_nodup _ _ _, ?_⟩
          intro a ha b hb
          rintro rfl
          have h1 := ih.small _ _ _ ha
          have h2 := (makeStops_time _ _ _ _ hb).2.1
          omega
        · exact ih.nodup _ _
      · intro p s x hx
        change x ∈ staffStops (storeStops _ _ _ _ _) p s at hx
        rw [staffStops_store] at hx
        show x.id < (pendRun ops).made + ss.length
        split at hx
        · rcases List.mem_append.1 hx with hx | hx
          · have := ih.small _ _ _ hx; omega
          · exact (makeStops_time _ _ _ _ hx).2.2
        · have := ih.small _ _ _ hx; omega
      · intro p s t
        show ((staffStops (storeStops _ _ _ _ _) p s).filter _).map _ = _
        rw [staffStops_store, due_snoc, dueStep]
        by_cases h : p0 = p ∧ s0 = s
        · obtain ⟨rfl, rfl⟩ := h
          rw [if_pos ⟨rfl, rfl⟩, List.filter_append, List.map_append, ih.due]
          by_cases ht : time = t
          · rw [if_pos ⟨rfl, rfl, ht⟩, List.filter_eq_self.2, makeStops_text]
            intro x hx
            simpa [(makeStops_time _ _ _ _ hx).1] using ht
          · rw [if_neg (fun h => ht h.2.2), List.filter_eq_nil_iff.2, List.map_nil, List.append_nil]
            intro x hx
            simpa [(makeStops_time _ _ _ _ hx).1] using ht
        · rw [if_neg h, if_neg (fun h' => h ⟨h'.1, h'.2.1⟩), ih.due]
    | pop p0 s0 time =>
      constructor
      · intro p s
        show (staffStops (popStops _ _ _ _).2 p s).Nodup
        rw [staffStops_pop _ _ _ _ (ih.nodup _ _)]
        split
        · exact (ih.nodup _ _).filter _
        · exact ih.nodup _ _
      · intro p s x hx
        change x ∈ staffStops (popStops _ _ _ _).2 p s at hx
        show x.id < (popStops _ _ _ _).2.made
        rw [pop_made]
        rw [staffStops_pop _ _ _ _ (ih.nodup _ _)] at hx
        split at hx
        · exact ih.small _ _ _ (List.mem_of_mem_filter hx)
        · exact ih.small _ _ _ hx
      · intro p s t
        show ((staffStops (popStops _ _ _ _).2 p s).filter _).map _ = _
        rw [staffStops_pop _ _ _ _ (ih.nodup _ _), due_snoc, dueStep]
        by_cases h : p0 = p ∧ s0 = s
        · obtain ⟨rfl, rfl⟩ := h
          rw [if_pos ⟨rfl, rfl⟩, List.filter_filter]
          by_cases ht : time = t
          · subst ht
            rw [if_pos ⟨rfl, rfl, rfl⟩, List.filter_eq_nil_iff.2, List.map_nil]
            intro x _
            by_cases hx : x.time = time <;> simp [hx]
          · rw [if_neg (fun h => ht h.2.2), ← ih.due]
            congr 1
            apply List.filter_congr
            intro x _
            by_cases hx : x.time = t
            · simp [hx]
              exact fun e => ht e.symm
            · simp [hx]
        · rw [if_neg h, if_neg (fun h' => h ⟨h'.1, h'.2.1⟩), ih.due]

/-- C38: whatever the history of calls, a pop returns exactly what was stored for that part, staff and time since the last pop there, in the order
stored. -/
theorem pop_returns_due (ops : List PendOp) (p s : Int) (t : Rat) : (popStops (pendRun ops) p s t).1 = due ops p s t := by
  rw [pop_texts]; exact (pendInv ops).due p s t

/-- C38: nothing is returned twice. -/
theorem pop_twice (ops : List PendOp) (p s : Int) (t : Rat) : (popStops (popStops (pendRun ops) p s t).2 p s t).1 = [] := by
  have h := pop_returns_due (ops ++ [.pop p s t]) p s t
  rw [pendRun_snoc, due_snoc, dueStep, if_pos ⟨rfl, rfl, rfl⟩] at h
  exact h

/-- C38: a pop elsewhere or at another time disturbs nothing. -/
theorem pop_elsewhere (ops : List PendOp) (p s p' s' : Int) (t t' : Rat) (h : ¬ (p' = p ∧ s' = s ∧ t' = t)) :
    (popStops (popStops (pendRun ops) p' s' t').2 p s t).1 = (popStops (pendRun ops) p s t).1 := by
  have h1 := pop_returns_due (ops ++ [.pop p' s' t']) p s t
  rw [pendRun_snoc, due_snoc, dueStep, if_neg h] at h1
  rw [pop_returns_due]
  exact h1

example : (popStops (pendRun [.store ["*X8va".toList] 4 0 1, .store ["*Xped".toList, "*X8ba".toList] 4 0 1, .pop 0 0 4]) 0 1 4).1 =
    ["*X8va".toList, "*Xped".toList, "*X8ba".toList] := by decide +kernel

/-! ## The end -/

/-- The keys of the dicts are distinct. -/
structure PendKeys (st : PendState) : Prop where
  parts : (Dict.keys st.parts).Nodup
  staves : ∀ q ∈ st.parts, (Dict.keys q.2).Nodup

theorem mem_dict_set {κ υ : Type} [DecidableEq κ] (d : Dict κ υ) (k : κ) (v : υ) (q : κ × υ) (h : q ∈ d.set k v) : q = (k, v) ∨ q ∈ d := by
  induction d with
  | nil => simpa [Dict.set] using h
  | cons x xs ih =>
    obtain ⟨a, b⟩ := x
    rw [Dict.set] at h
    split at h
    · next e =>
      subst e
      rcases List.mem_cons.1 h with h | h
      · exact Or.inl h
      · exact Or.inr (List.mem_cons_of_mem _ h)
    · rcases List.mem_cons.1 h with h | h
      · exact Or.inr (h ▸ List.mem_cons_self)
      · rcases ih h with h | h
        · exact Or.inl h
        · exact Or.inr (List.mem_cons_of_mem _ h)

theorem partDict_keys {st : PendState} (h : PendKeys st) (p : Int) : (Dict.keys (partDict st p)).Nodup := by
  unfold partDict
  cases hd : st.parts.get? p with
  | none => exact List.nodup_nil
  | some d => exact h.staves (p, d) (Dict.mem_of_get? _ _ _ hd)

theorem pendKeys_set {st : PendState} (h : PendKeys st) (p : Int) (d : Dict Int (List PStop)) (hd : (Dict.keys d).Nodup) (n : Nat) :
    PendKeys ⟨st.parts.set p d, n⟩ := by
  refine ⟨Dict.nodup_set _ _ _ h.parts, ?_⟩
  intro q hq
  rcases mem_dict_set _ _ _ _ hq with rfl | hq
  · exact hd
  · exact h.staves q hq

theorem pendKeys (ops : List PendOp) : PendKeys (pendRun ops) := by
  induction ops using List.reverseRecOn with
  | nil => exact ⟨List.nodup_nil, fun q hq => by simp [pendRun] at hq⟩
  | append_singleton ops op ih =>
    rw [pendRun_snoc]
    cases op with
    | store ss t p s => exact pendKeys_set ih p _ (Dict.nodup_set _ _ _ (partDict_keys ih p)) _
    | pop p s t =>
      show PendKeys (popStops _ p s t).2
      unfold popStops
      cases hd : (pendRun ops).parts.get? p with
      | none => exact ih
      | some d =>
        dsimp only
        cases hl : d.get? s with
        | none => exact ih
        | some l => exact pendKeys_set ih p _ (Dict.nodup_set _ _ _ (ih.staves (p, d) (Dict.mem_of_get? _ _ _ hd))) _

theorem flatMap_key {κ υ β : Type} [DecidableEq κ] (d : Dict κ υ) (hn : (Dict.keys d).Nodup) (f : κ × υ → List β) (k : κ) (q : β → Bool)
    (hq : ∀ x ∈ d, ∀ y ∈ f x, x.1 ≠ k → q y = false) :
    (d.flatMap f).filter q = ((d.get? k).map (fun v => (f (k, v)).filter q)).getD [] := by
  induction d with
  | nil => rfl
  | cons x xs ih =>
    obtain ⟨a, b⟩ := x
    rw [List.flatMap_cons, List.filter_append]
    have hn' := List.nodup_cons.1 hn
    have ih' := ih hn'.2 (fun x hx => hq x (List.mem_cons_of_mem _ hx))
    rw [ih', Dict.get?]
    by_cases h : a = k
    · subst h
      rw [if_pos rfl, (Dict.get?_eq_none_iff xs a).2 hn'.1]
      simp
    · rw [if_neg h, List.filter_eq_nil_iff.2]
      · rfl
      · intro y hy
        rw [hq (a, b) List.mem_cons_self y hy h]
        simp

/-- C38: what is left at the end is written, for every part and staff: exactly what is still due there, for each of its times. -/
theorem finish_writes_rest (ops : List PendOp) (p s : Int) :
    ∃ l : List (Str × Rat), (finishStops (pendRun ops)).filter (fun x => decide (x.1 = p ∧ x.2.1 = s)) = l.map (fun x => (p, s, x.1)) ∧
      ∀ t, (l.filter (fun x => decide (x.2 = t))).map (·.1) = due ops p s t := by
  refine ⟨(staffStops (pendRun ops) p s).map (fun x => (x.text, x.time)), ?_, ?_⟩
  · unfold finishStops
    rw [flatMap_key _ (pendKeys ops).parts _ p]
    · unfold staffStops partDict
      cases hd : (pendRun ops).parts.get? p with
      | none => rfl
      | some d =>
        dsimp only [Option.map_some, Option.getD_some]
        rw [flatMap_key d ((pendKeys ops).staves (p, d) (Dict.mem_of_get? _ _ _ hd)) _ s]
        · cases d.get? s with
          | none => rfl
          | some l =>
            dsimp only [Option.map_some, Option.getD_some]
            rw [List.filter_eq_self.2, List.map_map]
            · rfl
            · intro x hx
              obtain ⟨y, _, rfl⟩ := List.mem_map.1 hx
              simp
        · intro x _ y hy hne
          obtain ⟨z, _, rfl⟩ := List.mem_map.1 hy
          simp [hne]
    · intro x _ y hy hne
      obtain ⟨z, _, hz⟩ := List.mem_flatMap.1 hy
      obtain ⟨w, _, rfl⟩ := List.mem_map.1 hz
      simp [hne]
  · intro t
    rw [← (pendInv ops).due p s t, List.filter_map, List.map_map]
    rfl

end C21
