import Verif.Model.PyDict
namespace C21.Dict
variable {κ υ : Type} [DecidableEq κ]

theorem get?_set (d : Dict κ υ) (k : κ) (v : υ) (k' : κ) :
    get? (set d k v) k' = if k = k' then some v else get? d k' := by
  induction d with
  | nil => simp [set, get?]
  | cons p rest ih =>
    obtain ⟨a, b⟩ := p
    simp only [set]
    split
    · next h => subst h; simp only [get?]; split <;> simp_all
    · next h =>
      simp only [get?, ih]
      split
      · next h2 => subst h2; rw [if_neg (fun e => h e.symm)]
      · rfl

theorem get?_eq_none_iff (d : Dict κ υ) (k : κ) : get? d k = none ↔ k ∉ keys d := by
  induction d with
  | nil => simp [get?, keys]
  | cons p rest ih =>
    obtain ⟨a, b⟩ := p
    simp only [get?, keys, List.map_cons, List.mem_cons, not_or]
    split
    · next h => subst h; simp
    · next h =>
      rw [ih]
      have h' : k ≠ a := fun e => h e.symm
      simp [keys, h']

theorem get?_isSome_iff (d : Dict κ υ) (k : κ) : (get? d k).isSome ↔ k ∈ keys d := by
  have := get?_eq_none_iff d k
  cases h : get? d k <;> simp_all

theorem get?_del (d : Dict κ υ) (hn : (keys d).Nodup) (k k' : κ) :
    get? (del d k) k' = if k = k' then none else get? d k' := by
  induction d with
  | nil => simp [del, get?]
  | cons p rest ih =>
    obtain ⟨a, b⟩ := p
    simp only [keys, List.map_cons, List.nodup_cons] at hn
    simp only [del]
    split
    · next h =>
      subst h
      split
      · next h2 =>
        subst h2; exact (get?_eq_none_iff _ _).2 hn.1
      · next h2 => simp [get?, h2]
    · next h =>
      simp only [get?, ih hn.2]
      split
      · next h2 => subst h2; rw [if_neg (fun e => h e.symm)]
      · rfl

theorem mem_keys_set (d : Dict κ υ) (k : κ) (v : υ) (x : κ) :
    x ∈ keys (set d k v) ↔ x = k ∨ x ∈ keys d := by
  rw [← get?_isSome_iff, ← get?_isSome_iff, get?_set]
  by_cases h : k = x
  · simp [h]
  · have h' : x ≠ k := fun e => h e.symm
    simp [h, h']

theorem nodup_set (d : Dict κ υ) (k : κ) (v : υ) (hn : (keys d).Nodup) :
    (keys (set d k v)).Nodup := by
  induction d with
  | nil => simp [set, keys]
  | cons p rest ih =>
    obtain ⟨a, b⟩ := p
    simp only [keys, List.map_cons, List.nodup_cons] at hn
    simp only [set]
    split
    · simp only [keys, List.map_cons, List.nodup_cons]; exact hn
    · next h =>
      simp only [keys, List.map_cons, List.nodup_cons]
      refine ⟨?_, ih hn.2⟩
      intro hm
      have := (mem_keys_set rest k v a).1 hm
      rcases this with e | e
      · exact h e
      · exact hn.1 e

theorem del_sublist (d : Dict κ υ) (k : κ) : List.Sublist (del d k) d := by
  induction d with
  | nil => simp [del]
  | cons p rest ih =>
    obtain ⟨a, b⟩ := p
    simp only [del]
    split
    · exact List.sublist_cons_self _ _
    · exact ih.cons_cons _

theorem nodup_del (d : Dict κ υ) (k : κ) (hn : (keys d).Nodup) : (keys (del d k)).Nodup :=
  List.Nodup.sublist ((del_sublist d k).map _) hn

theorem get?_of_mem (d : Dict κ υ) (hn : (keys d).Nodup) (k : κ) (v : υ) (h : (k, v) ∈ d) :
    get? d k = some v := by
  induction d with
  | nil => simp at h
  | cons p rest ih =>
    obtain ⟨a, b⟩ := p
    simp only [keys, List.map_cons, List.nodup_cons] at hn
    rcases List.mem_cons.1 h with e | e
    · simp only [Prod.mk.injEq] at e; obtain ⟨rfl, rfl⟩ := e; simp [get?]
    · have : a ≠ k := by
        intro e2; subst e2; exact hn.1 (List.mem_map.2 ⟨_, e, rfl⟩)
      simp [get?, this, ih hn.2 e]

theorem mem_of_get? (d : Dict κ υ) (k : κ) (v : υ) (h : get? d k = some v) : (k, v) ∈ d := by
  induction d with
  | nil => simp [get?] at h
  | cons p rest ih =>
    obtain ⟨a, b⟩ := p
    simp only [get?] at h
    split at h
    · next e => subst e; simp_all
    · exact List.mem_cons_of_mem _ (ih h)

end C21.Dict
