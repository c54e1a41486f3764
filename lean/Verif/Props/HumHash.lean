import Verif.Lemmas.HumHash
/-
Property theorems for the hierarchical parameter store (C01, C02, C03).
-/
namespace C21.HumHash
open HumHashSpec
variable {α τ : Type}

/-! ## C01: the store behaves like a map -/

/-- C01. After any history of calls, `getValue` of an address returns the value most recently set there and
not since deleted, through any argument form that denotes the address. -/
theorem getValue_is_last_write (ops : List (Op α τ)) (args : List Str) (a : Addr)
    (h : docAddr args = some a) :
    (run ops).getValue args = some ((lastParam docAddr ops.reverse a).bind (·.1)) := by
  have hr := find_run ops a
  unfold getValue
  split
  · next he =>
    rw [find_of_isEmpty he] at hr
    simp only [Option.map_none] at hr
    rw [← hr]; rfl
  · rw [fixup_eq_docAddr, h, ← hr]
    simp only [Option.map_some]
    cases find (run ops) a.ns1 a.ns2 a.key <;> rfl

/-- C01. `isDefined` says whether the history left a parameter at the address. -/
theorem isDefined_is_last_write (ops : List (Op α τ)) (args : List Str) (a : Addr)
    (h : docAddr args = some a) :
    (run ops).isDefined args = some (lastParam docAddr ops.reverse a).isSome := by
  have hr := find_run ops a
  unfold isDefined
  split
  · next he =>
    rw [find_of_isEmpty he] at hr
    simp only [Option.map_none] at hr
    rw [← hr]; rfl
  · rw [fixup_eq_docAddr, h, ← hr]
    simp

/-- C01 (frame). A call on one address changes nothing that is observable at another address. -/
theorem other_address_unaffected (ops : List (Op α τ)) (op : Op α τ) (args : List Str) (a b : Addr)
    (hb : docAddr args = some b)
    (hop : docAddr (match op with | .set x _ => x | .delete x => x | .setOrigin x _ => x) = some a)
    (hne : a ≠ b) :
    (run (ops ++ [op])).getValue args = (run ops).getValue args ∧
    (run (ops ++ [op])).isDefined args = (run ops).isDefined args := by
  rw [getValue_is_last_write _ _ _ hb, getValue_is_last_write _ _ _ hb,
    isDefined_is_last_write _ _ _ hb, isDefined_is_last_write _ _ _ hb]
  cases op <;> simp_all [lastParam]

/-- C01 (error branch). An argument list of the wrong length is a ValueError, except that an empty store
answers None before looking at the arguments. -/
theorem getValue_bad_args (ops : List (Op α τ)) (args : List Str)
    (h : args.length = 0 ∨ args.length > 3) :
    (run ops).getValue args = if (run ops).isEmpty then some none else none := by
  unfold getValue
  split
  · rfl
  · rw [fixup_eq_docAddr]
    match args, h with
    | [], _ => rfl
    | [_], h => simp at h
    | [_, _], h => simp at h
    | [_, _, _], h => simp at h
    | _ :: _ :: _ :: _ :: _, _ => rfl

/-- Every argument list of one to three strings denotes some address: the hypotheses above are met by all
the calls the API accepts. -/
theorem docAddr_isSome (args : List Str) (h : 1 ≤ args.length ∧ args.length ≤ 3) :
    (docAddr args).isSome := by
  have h1 : ∀ k, (docAddr [k]).isSome := by
    intro k
    have hne := splitOn_ne_nil ':' k
    rcases hs : splitOn ':' k with _ | ⟨a, _ | ⟨b, _ | ⟨c, r⟩⟩⟩
    · exact absurd hs hne
    all_goals simp [docAddr, hs]
  match args, h with
  | [], h => simp at h
  | [k], _ => exact h1 k
  | [n2, k], _ => unfold docAddr; split <;> first | exact h1 k | rfl
  | [n1, n2, k], _ => unfold docAddr; split <;> first | exact h1 k | rfl
  | _ :: _ :: _ :: _ :: _, h => simp at h

-- a concrete history that overwrites, deletes and touches another address
example :
    let ops : List (Op Nat Nat) :=
      [.set ["LO".toList, "N".toList, "x".toList] (some 1),
       .set ["LO:N:x".toList] (some 2),
       .set ["LO:N:y".toList] (some 3),
       .delete ["LO:N:y".toList]]
    (run ops).getValue ["LO".toList, "N".toList, "x".toList] = some (some 2) ∧
    (run ops).getValue ["LO:N:y".toList] = some none ∧
    docAddr ["LO:N:y".toList] = some ⟨"LO".toList, "N".toList, "y".toList⟩ := by decide

/-! ## C02: address forms -/

/-- C02. The three-argument form and the colon form of an address are the same for every operation:
they denote the same address. -/
theorem colon3_same (n1 n2 k : Str) (h1 : ':' ∉ n1) (h2 : ':' ∉ n2) (h3 : ':' ∉ k) :
    docAddr [n1 ++ ':' :: n2 ++ ':' :: k] = docAddr [n1, n2, k] := by
  have hs : splitOn ':' (n1 ++ ':' :: n2 ++ ':' :: k) = [n1, n2, k] := by
    rw [List.append_assoc, List.cons_append, splitOn_append_sep _ _ _ h1, splitOn_append_sep _ _ _ h2,
      splitOn_of_not_mem _ _ h3]
  have hk : splitOn ':' k = [k] := splitOn_of_not_mem _ _ h3
  by_cases e1 : n1 = [] <;> by_cases e2 : n2 = [] <;> simp_all [docAddr, Addr.canon]

/-- C02. The two-argument form and the one-colon form are the same. -/
theorem colon2_same (n2 k : Str) (h2 : ':' ∉ n2) (h3 : ':' ∉ k) :
    docAddr [n2 ++ ':' :: k] = docAddr [n2, k] := by
  have hs : splitOn ':' (n2 ++ ':' :: k) = [n2, k] := by
    rw [splitOn_append_sep _ _ _ h2, splitOn_of_not_mem _ _ h3]
  have hk : splitOn ':' k = [k] := splitOn_of_not_mem _ _ h3
  by_cases e2 : n2 = [] <;> simp_all [docAddr, Addr.canon]

/-- C02, on the API: reading, testing and deleting through the colon form is the same as through the
separate-argument form, in every store. -/
theorem forms_interchangeable (h : HumHash α τ) (n1 n2 k : Str) (v : Option α) (o : τ)
    (h1 : ':' ∉ n1) (h2 : ':' ∉ n2) (h3 : ':' ∉ k) :
    h.getValue [n1 ++ ':' :: n2 ++ ':' :: k] = h.getValue [n1, n2, k] ∧
    h.isDefined [n1 ++ ':' :: n2 ++ ':' :: k] = h.isDefined [n1, n2, k] ∧
    h.deleteValue [n1 ++ ':' :: n2 ++ ':' :: k] = h.deleteValue [n1, n2, k] ∧
    h.setValue [n1 ++ ':' :: n2 ++ ':' :: k] v = h.setValue [n1, n2, k] v ∧
    h.setOrigin [n1 ++ ':' :: n2 ++ ':' :: k] o = h.setOrigin [n1, n2, k] o ∧
    h.getOrigin [n1 ++ ':' :: n2 ++ ':' :: k] = h.getOrigin [n1, n2, k] ∧
    h.getValue [n2 ++ ':' :: k] = h.getValue [n2, k] ∧
    h.setValue [n2 ++ ':' :: k] v = h.setValue [n2, k] v ∧
    h.getValue [n1, [], k] = h.getValue [[], n1, k] ∧
    h.setValue [n1, [], k] v = h.setValue [[], n1, k] v := by
  have e3 : fixupNs1Ns2Key [n1 ++ ':' :: n2 ++ ':' :: k] = fixupNs1Ns2Key [n1, n2, k] := by
    simp only [fixup_eq_docAddr, colon3_same n1 n2 k h1 h2 h3]
  have e2 : fixupNs1Ns2Key [n2 ++ ':' :: k] = fixupNs1Ns2Key [n2, k] := by
    simp only [fixup_eq_docAddr, colon2_same n2 k h2 h3]
  have e1 : fixupNs1Ns2Key [n1, [], k] = fixupNs1Ns2Key [[], n1, k] := by
    simp only [fixup_eq_docAddr]
    by_cases e : n1 = [] <;> simp [docAddr, e, Addr.canon]
  simp only [getValue, isDefined, deleteValue, setValue, setOrigin, getOrigin, e3, e2, e1, and_self]

/-- Colon-free names denote themselves (up to the documented single-namespace identification). -/
theorem docAddr_plain (args : List Str) (h : ∀ s ∈ args, ':' ∉ s) : docAddr args = plainAddr args := by
  match args with
  | [] => rfl
  | [k] => simp [docAddr, plainAddr, splitOn_of_not_mem _ _ (h k (by simp))]
  | [n2, k] =>
    have := splitOn_of_not_mem _ _ (h k (by simp))
    by_cases e : n2 = [] <;> simp [docAddr, plainAddr, this, e, Addr.canon]
  | [n1, n2, k] =>
    have := splitOn_of_not_mem _ _ (h k (by simp))
    by_cases e : n2 = [] <;> by_cases e1 : n1 = [] <;> simp [docAddr, plainAddr, this, e, e1, Addr.canon]
  | _ :: _ :: _ :: _ :: _ => rfl

/-- C02 (queries). The parameter count is the number of keys listed, and `hasParameters` says whether it is
non-zero, for every store and every namespace argument. -/
theorem count_eq_keys (h : HumHash α τ) (ns1 ns2 : Option Str) :
    h.getParameterCount ns1 ns2 = (h.getKeys ns1 ns2).length ∧
    (h.hasParameters ns1 ns2 = true ↔ h.getKeys ns1 ns2 ≠ []) := by
  unfold getParameterCount getKeys hasParameters
  by_cases he : h.isEmpty = true
  · simp [he]
  · simp only [he, if_false, Bool.false_eq_true]
    generalize fixupNs1Ns2 ns1 ns2 = p
    obtain ⟨a, b⟩ := p
    cases a with
    | none =>
      cases b with
      | none =>
        simp only [List.length_flatMap, List.length_map, List.any_eq_true, ne_eq,
          List.flatMap_eq_nil_iff, List.map_eq_nil_iff]
        refine ⟨trivial, ?_⟩
        constructor
        · rintro ⟨x, hx, y, hy, hz⟩ hall
          have := hall x hx y hy
          simp [this] at hz
        · intro hn
          apply Classical.byContradiction
          intro hc
          apply hn
          intro x hx y hy
          apply Classical.byContradiction
          intro hz
          exact hc ⟨x, hx, y, hy, by simpa using hz⟩
      | some b => simp
    | some a =>
      cases b with
      | none =>
        simp only
        cases hg : Dict.get? h a with
        | none => simp
        | some d1 =>
          simp only [List.length_flatMap, List.length_map, List.any_eq_true, ne_eq,
            List.flatMap_eq_nil_iff, List.map_eq_nil_iff]
          refine ⟨trivial, ?_⟩
          constructor
          · rintro ⟨y, hy, hz⟩ hall
            have := hall y hy
            simp [this] at hz
          · intro hn
            apply Classical.byContradiction
            intro hc
            apply hn
            intro y hy
            apply Classical.byContradiction
            intro hz
            exact hc ⟨y, hy, by simpa using hz⟩
      | some b =>
        simp only
        cases hg : Dict.get? h a with
        | none => simp
        | some d1 =>
          cases hg2 : Dict.get? d1 b with
          | none => simp [hg2]
          | some d2 => simp [hg2]

/-- C02 (queries). With both namespaces given, the keys listed are exactly the keys defined there, each once.
`n2 = ""` with a non-empty `n1` is excluded: see `getKeys_single_namespace_misses`. -/
theorem getKeys_two_partial (ops : List (Op α τ)) (n1 n2 k : Str) (hk : ':' ∉ k)
    (hn : n2 ≠ [] ∨ n1 = []) :
    (k ∈ (run ops).getKeys (some n1) (some n2) ↔ (run ops).isDefined [n1, n2, k] = some true) ∧
    ((run ops).getKeys (some n1) (some n2)).Nodup := by
  have w := wf_run (α := α) (τ := τ) ops
  generalize hH : run ops = h at w
  have hf : fixupNs1Ns2Key [n1, n2, k] = some (n1, n2, k) := by
    rw [fixup_eq_docAddr]
    have hs := splitOn_of_not_mem _ _ hk
    rcases hn with hn | hn
    · simp [docAddr, Addr.canon, hn]
    · subst hn; by_cases e : n2 = [] <;> simp [docAddr, Addr.canon, hs, e]
  unfold getKeys isDefined
  by_cases he : h.isEmpty = true
  · simp [he]
  · simp only [he, Bool.false_eq_true, if_false, fixupNs1Ns2, hf, Option.map_some, Option.some.injEq, find]
    cases hg : Dict.get? h n1 with
    | none => simp
    | some d1 =>
      cases hg2 : Dict.get? d1 n2 with
      | none => simp [hg2]
      | some d2 =>
        simp only [hg2]
        exact ⟨(Dict.get?_isSome_iff d2 k).symm, w.bot _ _ _ _ hg hg2⟩

/-- C02 (queries), the part that is false: the documented single-argument "NS1:NS2" form never finds
anything that the two-argument form finds. -/
theorem getKeys_colon_form_broken :
    ∃ ops : List (Op Nat Nat),
      (run ops).getKeys (some "LO".toList) (some "N".toList) = ["x".toList] ∧
      (run ops).getKeys (some "LO:N".toList) none = [] ∧
      (run ops).getParameterCount (some "LO:N".toList) none = 0 ∧
      (run ops).hasParameters (some "LO:N".toList) none = false :=
  ⟨[.set ["LO:N:x".toList] (some 1)], by decide⟩

/-- C02 (queries), the part that is false: a value set in a single-level namespace given as `ns1` is listed
neither under that `ns1` nor under the same pair of arguments. -/
theorem getKeys_single_namespace_misses :
    ∃ ops : List (Op Nat Nat),
      (run ops).isDefined ["LO".toList, [], "x".toList] = some true ∧
      (run ops).getKeys (some "LO".toList) (some []) = [] ∧
      (run ops).getKeys (some "LO".toList) none = [] :=
  ⟨[.set ["LO".toList, [], "x".toList] (some 1)], by decide⟩

example : (':' ∉ "x".toList) ∧ ("N".toList ≠ [] ∨ "LO".toList = []) := by decide

/-! ## C03: origins -/

/-- C03. `getOrigin` returns the origin last attached to the parameter currently at the address. -/
theorem getOrigin_is_last_write (ops : List (Op α τ)) (args : List Str) (a : Addr)
    (h : docAddr args = some a) :
    (run ops).getOrigin args = some ((lastParam docAddr ops.reverse a).bind (·.2)) := by
  have hr := find_run ops a
  unfold getOrigin
  split
  · next he =>
    rw [find_of_isEmpty he] at hr
    simp only [Option.map_none] at hr
    rw [← hr]; rfl
  · rw [fixup_eq_docAddr, h, ← hr]
    simp only [Option.map_some]
    cases find (run ops) a.ns1 a.ns2 a.key <;> rfl

/-- C03. Attaching an origin to a parameter that is not defined changes nothing that can be observed. -/
theorem setOrigin_absent (ops : List (Op α τ)) (args args' : List Str) (o : τ)
    (hv : 1 ≤ args.length ∧ args.length ≤ 3) (hv' : 1 ≤ args'.length ∧ args'.length ≤ 3)
    (h : (run ops).isDefined args = some false) :
    (run (ops ++ [.setOrigin args o])).getValue args' = (run ops).getValue args' ∧
    (run (ops ++ [.setOrigin args o])).isDefined args' = (run ops).isDefined args' ∧
    (run (ops ++ [.setOrigin args o])).getOrigin args' = (run ops).getOrigin args' := by
  obtain ⟨a, ha⟩ := Option.isSome_iff_exists.1 (docAddr_isSome args hv)
  obtain ⟨b, hb⟩ := Option.isSome_iff_exists.1 (docAddr_isSome args' hv')
  rw [isDefined_is_last_write _ _ _ ha] at h
  have hn : lastParam docAddr ops.reverse a = none := by
    cases hl : lastParam docAddr ops.reverse a <;> simp_all
  have key : lastParam docAddr (ops ++ [Op.setOrigin args o]).reverse b =
      lastParam docAddr ops.reverse b := by
    simp only [List.reverse_append, List.reverse_cons, List.reverse_nil, List.nil_append,
      List.singleton_append, lastParam, ha, Option.some.injEq]
    split
    · next e => subst e; simp [hn]
    · rfl
  simp only [getValue_is_last_write _ _ _ hb, isDefined_is_last_write _ _ _ hb,
    getOrigin_is_last_write _ _ _ hb, key, and_self]

/-- C03. Setting a value resets its origin; setting an origin keeps the value. -/
theorem origin_history (ops : List (Op α τ)) (args : List Str) (v : Option α) (o : τ)
    (hv : 1 ≤ args.length ∧ args.length ≤ 3) :
    (run (ops ++ [.set args v])).getOrigin args = some none ∧
    (run (ops ++ [.set args v, .setOrigin args o])).getOrigin args = some (some o) ∧
    (run (ops ++ [.set args v, .setOrigin args o])).getValue args = some v := by
  obtain ⟨a, ha⟩ := Option.isSome_iff_exists.1 (docAddr_isSome args hv)
  simp [getOrigin_is_last_write _ _ _ ha, getValue_is_last_write _ _ _ ha, lastParam, ha]

example : (run ([.set ["a".toList] (some 1), .setOrigin ["a".toList] 7] : List (Op Nat Nat))).getOrigin
    ["a".toList] = some (some 7) := by decide

/-- The boolean reading of a stored value is false exactly for: absent, `False`, "false", "0", and a
number whose integer part is zero. -/
theorem valueBool_false_iff (v : Option PyVal) :
    valueBool v = false ↔ v = none ∨ v = some (.bool false) ∨ v = some (.str "false".toList) ∨
      v = some (.str "0".toList) ∨ v = some (.num 0) := by
  match v with
  | none => simp [valueBool]
  | some (.bool b) => simp [valueBool]
  | some (.token _) => simp [valueBool]
  | some (.str s) =>
    by_cases e1 : s = "false".toList
    · simp [valueBool, e1]
    · by_cases e2 : s = "0".toList
      · simp [valueBool, e2]
      · unfold valueBool
        simp only [e1, e2, if_false]
        simp
        constructor
        · intro h; exact e1 (by simpa using h)
        · intro h; exact e2 (by simpa using h)
  | some (.num n) => simp [valueBool]
  | some (.other _) => simp [valueBool]

end C21.HumHash
