import Verif.Spec.HumHash
import Verif.Lemmas.PyStr
import Verif.Lemmas.PyDict
namespace C21
open HumHashSpec

theorem fixup_eq_docAddr (args : List Str) :
    fixupNs1Ns2Key args = (docAddr args).map (fun a => (a.ns1, a.ns2, a.key)) := by
  have doc1 : ∀ k, some (fixupParts [] [] k) =
      (docAddr [k]).map (fun a => (a.ns1, a.ns2, a.key)) := by
    intro k
    have hne := splitOn_ne_nil ':' k
    rcases hs : splitOn ':' k with _ | ⟨a, _ | ⟨b, _ | ⟨c, r⟩⟩⟩
    · exact absurd hs hne
    · simp [fixupParts, getKeyTuple, docAddr, hs, swapNamespaces]
    · by_cases ha : a = [] <;> simp [fixupParts, getKeyTuple, docAddr, hs, swapNamespaces, Addr.canon, ha]
    · by_cases ha : a = [] <;> by_cases hb : b = [] <;>
        simp [fixupParts, getKeyTuple, docAddr, hs, swapNamespaces, Addr.canon, ha, hb]
  match args with
  | [] => simp [fixupNs1Ns2Key, docAddr]
  | [k] => simp only [fixupNs1Ns2Key]; exact doc1 k
  | [n2, k] =>
    simp only [fixupNs1Ns2Key]
    by_cases h : n2 = []
    · subst h
      rw [doc1 k]; simp only [docAddr, if_true]
    · simp [fixupParts, docAddr, h, swapNamespaces]
  | [n1, n2, k] =>
    simp only [fixupNs1Ns2Key]
    by_cases h : n1 = [] ∧ n2 = []
    · obtain ⟨rfl, rfl⟩ := h
      rw [doc1 k]; simp only [docAddr, and_self, if_true]
    · simp only [fixupParts, docAddr, if_neg h, swapNamespaces, Addr.canon]
      by_cases h2 : n2 = [] <;> by_cases h1 : n1 = [] <;> simp_all
  | a :: b :: c :: d :: e => simp [fixupNs1Ns2Key, docAddr]

namespace HumHash
variable {α τ : Type}

/-- All dictionaries in the store have distinct keys (a Python dict always does). -/
structure WF (h : HumHash α τ) : Prop where
  top : (Dict.keys h).Nodup
  mid : ∀ n1 d1, Dict.get? h n1 = some d1 → (Dict.keys d1).Nodup
  bot : ∀ n1 d1 n2 d2, Dict.get? h n1 = some d1 → Dict.get? d1 n2 = some d2 → (Dict.keys d2).Nodup

theorem wf_nil : WF ([] : HumHash α τ) := by
  constructor
  · simp [Dict.keys]
  · intro n1 d1 h; simp [Dict.get?] at h
  · intro n1 d1 n2 d2 h; simp [Dict.get?] at h

theorem WF.set2 {h : HumHash α τ} (w : WF h) (n1 : Str) (d1 : Dict Str (Dict Str (HumParameter α τ)))
    (hd : (Dict.keys d1).Nodup)
    (hb : ∀ n2 d2, Dict.get? d1 n2 = some d2 → (Dict.keys d2).Nodup) :
    WF (Dict.set h n1 d1) := by
  constructor
  · exact Dict.nodup_set _ _ _ w.top
  · intro a b hab
    rw [Dict.get?_set] at hab
    split at hab
    · cases hab; exact hd
    · exact w.mid a b hab
  · intro a b c d hab hcd
    rw [Dict.get?_set] at hab
    split at hab
    · cases hab; exact hb c d hcd
    · exact w.bot a b c d hab hcd

theorem WF.set3 {h : HumHash α τ} (w : WF h) (n1 n2 : Str) (d1 : Dict Str (Dict Str (HumParameter α τ)))
    (d2 : Dict Str (HumParameter α τ)) (h1 : Dict.get? h n1 = some d1)
    (hd : (Dict.keys d2).Nodup) : WF (Dict.set h n1 (Dict.set d1 n2 d2)) := by
  apply w.set2
  · exact Dict.nodup_set _ _ _ (w.mid n1 d1 h1)
  · intro a b hab
    rw [Dict.get?_set] at hab
    split at hab
    · cases hab; exact hd
    · exact w.bot n1 d1 a b h1 hab

theorem WF.setAt {h : HumHash α τ} (w : WF h) (n1 n2 k : Str) (v : Option α) :
    WF (h.setAt n1 n2 k v) := by
  unfold HumHash.setAt
  split
  · apply w.set2
    · simp [Dict.keys]
    · intro a b hab; simp only [Dict.get?] at hab
      split at hab
      · cases hab; simp [Dict.keys]
      · simp at hab
  · next d1 h1 =>
    split
    · exact w.set3 n1 n2 d1 _ h1 (by simp [Dict.keys])
    · next d2 h2 => exact w.set3 n1 n2 d1 _ h1 (Dict.nodup_set _ _ _ (w.bot _ _ _ _ h1 h2))

theorem WF.deleteAt {h : HumHash α τ} (w : WF h) (n1 n2 k : Str) : WF (h.deleteAt n1 n2 k) := by
  unfold HumHash.deleteAt
  split
  · exact w
  · next d1 h1 =>
    split
    · exact w
    · next d2 h2 =>
      split
      · exact w
      · exact w.set3 n1 n2 d1 _ h1 (Dict.nodup_del _ _ (w.bot _ _ _ _ h1 h2))

theorem WF.setOriginAt {h : HumHash α τ} (w : WF h) (n1 n2 k : Str) (o : τ) :
    WF (h.setOriginAt n1 n2 k o) := by
  unfold HumHash.setOriginAt
  split
  · exact w
  · next d1 h1 =>
    split
    · exact w
    · next d2 h2 =>
      split
      · exact w
      · exact w.set3 n1 n2 d1 _ h1 (Dict.nodup_set _ _ _ (w.bot _ _ _ _ h1 h2))

theorem find_setAt (h : HumHash α τ) (n1 n2 k : Str) (v : Option α) (m1 m2 l : Str) :
    (h.setAt n1 n2 k v).find m1 m2 l =
      if n1 = m1 ∧ n2 = m2 ∧ k = l then some ⟨v, none⟩ else h.find m1 m2 l := by
  unfold HumHash.setAt find
  by_cases e1 : n1 = m1
  · subst e1
    cases h1 : Dict.get? h n1 with
    | none =>
      simp only [Dict.get?_set, if_true, Dict.get?]
      by_cases e2 : n2 = m2 <;> by_cases e3 : k = l <;> simp [e2, e3, Dict.get?]
    | some d1 =>
      cases h2 : Dict.get? d1 n2 with
      | none =>
        simp only [h2, Dict.get?_set, if_true]
        by_cases e2 : n2 = m2
        · subst e2; by_cases e3 : k = l <;> simp [e3, h2, Dict.get?]
        · simp [e2]
      | some d2 =>
        simp only [h2, Dict.get?_set, if_true]
        by_cases e2 : n2 = m2
        · subst e2; by_cases e3 : k = l <;> simp [e3, h2, Dict.get?_set]
        · simp [e2]
  · have : ∀ d, Dict.get? (Dict.set h n1 d) m1 = Dict.get? h m1 := by
      intro d; rw [Dict.get?_set, if_neg e1]
    cases h1 : Dict.get? h n1 with
    | none => simp [this, e1]
    | some d1 => cases h2 : Dict.get? d1 n2 <;> simp [h2, this, e1]

theorem find_deleteAt {h : HumHash α τ} (w : WF h) (n1 n2 k m1 m2 l : Str) :
    (h.deleteAt n1 n2 k).find m1 m2 l =
      if n1 = m1 ∧ n2 = m2 ∧ k = l then none else h.find m1 m2 l := by
  unfold HumHash.deleteAt find
  by_cases e1 : n1 = m1
  · subst e1
    cases h1 : Dict.get? h n1 with
    | none => simp [h1]
    | some d1 =>
      cases h2 : Dict.get? d1 n2 with
      | none =>
        simp only [h2, h1]
        by_cases e2 : n2 = m2
        · subst e2; simp [h2]
        · simp [e2]
      | some d2 =>
        simp only [h2]
        cases h3 : Dict.get? d2 k with
        | none =>
          simp only [h1]
          by_cases e2 : n2 = m2
          · subst e2; by_cases e3 : k = l
            · subst e3; simp [h2, h3]
            · simp [h2, e3]
          · simp [e2]
        | some p =>
          simp only [Dict.get?_set, if_true]
          by_cases e2 : n2 = m2
          · subst e2
            by_cases e3 : k = l <;> simp [h2, e3, Dict.get?_del _ (w.bot _ _ _ _ h1 h2)]
          · simp [e2]
  · have : ∀ d, Dict.get? (Dict.set h n1 d) m1 = Dict.get? h m1 := by
      intro d; rw [Dict.get?_set, if_neg e1]
    cases h1 : Dict.get? h n1 with
    | none => simp [e1]
    | some d1 =>
      cases h2 : Dict.get? d1 n2 with
      | none => simp [h2, e1]
      | some d2 => cases h3 : Dict.get? d2 k <;> simp [h2, h3, this, e1]

theorem find_setOriginAt (h : HumHash α τ) (n1 n2 k : Str) (o : τ) (m1 m2 l : Str) :
    (h.setOriginAt n1 n2 k o).find m1 m2 l =
      if n1 = m1 ∧ n2 = m2 ∧ k = l then (h.find m1 m2 l).map (fun p => { p with origin := some o })
      else h.find m1 m2 l := by
  unfold HumHash.setOriginAt find
  by_cases e1 : n1 = m1
  · subst e1
    cases h1 : Dict.get? h n1 with
    | none => simp [h1]
    | some d1 =>
      cases h2 : Dict.get? d1 n2 with
      | none =>
        simp only [h2, h1]
        by_cases e2 : n2 = m2
        · subst e2; simp [h2]
        · simp [e2]
      | some d2 =>
        simp only [h2]
        cases h3 : Dict.get? d2 k with
        | none =>
          simp only [h1]
          by_cases e2 : n2 = m2
          · subst e2; by_cases e3 : k = l
            · subst e3; simp [h2, h3]
            · simp [h2, e3]
          · simp [e2]
        | some p =>
          simp only [Dict.get?_set, if_true]
          by_cases e2 : n2 = m2
          · subst e2
            by_cases e3 : k = l
            · subst e3; simp [h2, h3, Dict.get?_set]
            · simp [h2, e3, Dict.get?_set]
          · simp [e2]
  · have : ∀ d, Dict.get? (Dict.set h n1 d) m1 = Dict.get? h m1 := by
      intro d; rw [Dict.get?_set, if_neg e1]
    cases h1 : Dict.get? h n1 with
    | none => simp [e1]
    | some d1 =>
      cases h2 : Dict.get? d1 n2 with
      | none => simp [h2, e1]
      | some d2 => cases h3 : Dict.get? d2 k <;> simp [h2, h3, this, e1]

theorem find_nil (m1 m2 l : Str) : find ([] : HumHash α τ) m1 m2 l = none := by
  simp [find, Dict.get?]

theorem find_of_isEmpty {h : HumHash α τ} (he : h.isEmpty = true) (m1 m2 l : Str) :
    h.find m1 m2 l = none := by
  have : h = [] := by simpa using he
  subst this; exact find_nil _ _ _

theorem deleteAt_of_isEmpty {h : HumHash α τ} (he : h.isEmpty = true) (a b c : Str) :
    h.deleteAt a b c = h := by
  have : h = [] := by simpa using he
  subst this; simp [deleteAt, Dict.get?]

theorem setOriginAt_of_isEmpty {h : HumHash α τ} (he : h.isEmpty = true) (a b c : Str) (o : τ) :
    h.setOriginAt a b c o = h := by
  have : h = [] := by simpa using he
  subst this; simp [setOriginAt, Dict.get?]

theorem step_eq (h : HumHash α τ) (op : Op α τ) :
    h.step op = match op with
      | .set a v => match docAddr a with
        | none => h
        | some t => h.setAt t.ns1 t.ns2 t.key v
      | .delete a => match docAddr a with
        | none => h
        | some t => h.deleteAt t.ns1 t.ns2 t.key
      | .setOrigin a o => match docAddr a with
        | none => h
        | some t => h.setOriginAt t.ns1 t.ns2 t.key o := by
  cases op with
  | set a v =>
    simp only [step, setValue, fixup_eq_docAddr]
    cases docAddr a <;> simp
  | delete a =>
    simp only [step, deleteValue, fixup_eq_docAddr]
    by_cases he : h.isEmpty = true
    · cases docAddr a <;> simp [he, deleteAt_of_isEmpty he]
    · cases docAddr a <;> simp [he]
  | setOrigin a o =>
    simp only [step, setOrigin, fixup_eq_docAddr]
    by_cases he : h.isEmpty = true
    · cases docAddr a <;> simp [he, setOriginAt_of_isEmpty he]
    · cases docAddr a <;> simp [he]

theorem WF.step {h : HumHash α τ} (w : WF h) (op : Op α τ) : WF (h.step op) := by
  rw [step_eq]
  cases op <;> simp only <;> split <;> first | exact w | exact w.setAt .. | exact w.deleteAt .. | exact w.setOriginAt ..

theorem wf_foldl (ops : List (Op α τ)) (h : HumHash α τ) (w : WF h) : WF (ops.foldl HumHash.step h) := by
  induction ops generalizing h with
  | nil => exact w
  | cons o os ih => exact ih _ (w.step o)

theorem wf_run (ops : List (Op α τ)) : WF (run ops) := wf_foldl ops [] wf_nil

theorem Addr_ext_iff (a : Addr) (n1 n2 k : Str) :
    (n1 = a.ns1 ∧ n2 = a.ns2 ∧ k = a.key) ↔ (⟨n1, n2, k⟩ : Addr) = a := by
  cases a; simp

/-- The refinement: what is stored at an address is what the history left there. -/
theorem find_run (ops : List (Op α τ)) (a : Addr) :
    ((run ops).find a.ns1 a.ns2 a.key).map (fun p => (p.value, p.origin)) =
      lastParam docAddr ops.reverse a := by
  suffices ∀ (rev : List (Op α τ)),
      ((run rev.reverse).find a.ns1 a.ns2 a.key).map (fun p => (p.value, p.origin)) =
        lastParam docAddr rev a by
    have := this ops.reverse; simpa using this
  intro rev
  induction rev with
  | nil => simp [run, find_nil, lastParam]
  | cons op older ih =>
    have hr : run (op :: older).reverse = (run older.reverse).step op := by
      simp [run, List.foldl_append]
    rw [hr, step_eq]
    have w := wf_run (α := α) (τ := τ) older.reverse
    cases op with
    | set args v =>
      simp only [lastParam]
      cases hd : docAddr args with
      | none => simp [ih]
      | some t =>
        simp only [find_setAt, Option.some.injEq]
        have := Addr_ext_iff a t.ns1 t.ns2 t.key
        by_cases e : t = a
        · subst e; simp
        · have : ¬ (t.ns1 = a.ns1 ∧ t.ns2 = a.ns2 ∧ t.key = a.key) := by rw [this]; exact e
          simp [this, e, ih]
    | delete args =>
      simp only [lastParam]
      cases hd : docAddr args with
      | none => simp [ih]
      | some t =>
        simp only [find_deleteAt w, Option.some.injEq]
        have := Addr_ext_iff a t.ns1 t.ns2 t.key
        by_cases e : t = a
        · subst e; simp
        · have : ¬ (t.ns1 = a.ns1 ∧ t.ns2 = a.ns2 ∧ t.key = a.key) := by rw [this]; exact e
          simp [this, e, ih]
    | setOrigin args o =>
      simp only [lastParam]
      cases hd : docAddr args with
      | none => simp [ih]
      | some t =>
        simp only [find_setOriginAt, Option.some.injEq]
        have := Addr_ext_iff a t.ns1 t.ns2 t.key
        by_cases e : t = a
        · subst e; simp only [true_and, if_true]
          rw [← ih]; simp [Function.comp_def]
        · have : ¬ (t.ns1 = a.ns1 ∧ t.ns2 = a.ns2 ∧ t.key = a.key) := by rw [this]; exact e
          simp [this, e, ih]

end HumHash
end C21
