import Verif.Model.ParamSet
import Verif.Model.Text
import Verif.Lemmas.PyStr
/-
Property theorems for layout parameters and exported text (C04, C48, C49).
-/
namespace C21
open HumParamSet

/-! ## C04: layout parameter sets -/

/-- The text of a layout comment with the given bangs, namespaces and already formatted pieces. -/
def layoutText (bangs : Nat) (ns1 ns2 : Str) (pieces : List Str) : Str :=
  List.replicate bangs '!' ++ joinWith ':' (ns1 :: ns2 :: pieces)

/-- A parameter as written in a file: `name` alone for the value "true", else `name=value`. -/
def writeParam (p : Str × Option Str) : Str :=
  match p.2 with
  | none => p.1
  | some v => p.1 ++ '=' :: v

theorem skipBangs_layout (bangs : Nat) (s : Str) (h : ∃ c r, s = c :: r ∧ c ≠ '!') :
    skipBangs (List.replicate bangs '!' ++ s) = s := by
  obtain ⟨c, r, rfl, hc⟩ := h
  have : (List.replicate bangs '!' ++ c :: r).dropWhile (· == '!') = c :: r := by
    induction bangs with
    | zero => simp [hc]
    | succ n ih => simpa [List.replicate_succ] using ih
  simp [skipBangs, this]

/-- C04 (proved part). Any number of parameters is read back in order, a bare name meaning "true", whatever
the number of leading bangs; names are free of ':' and '=', values free of ':'.
Missing from the full property: values whose colons were escaped as `&colon;` (see
`readString_colon_not_unescaped`). -/
theorem readString_roundtrip_partial (bangs : Nat) (ns1 ns2 : Str) (ps : List (Str × Option Str))
    (hps : ps ≠ []) (h1 : ':' ∉ ns1) (h1' : ∃ c r, ns1 = c :: r ∧ c ≠ '!') (h2 : ':' ∉ ns2)
    (hn : ∀ p ∈ ps, ':' ∉ p.1 ∧ '=' ∉ p.1) (hv : ∀ p ∈ ps, ∀ v, p.2 = some v → ':' ∉ v) :
    ({} : HumParamSet).readString (layoutText bangs ns1 ns2 (ps.map writeParam)) =
      ⟨ns1, ns2, ps.map fun p => (p.1, p.2.getD "true".toList)⟩ := by
  have hw : ∀ p ∈ ps, ':' ∉ writeParam p := by
    intro p hp
    have a := hn p hp
    have b := hv p hp
    unfold writeParam
    split
    · exact a.1
    · next v hv' =>
      simp only [List.mem_append, List.mem_cons, not_or]
      exact ⟨a.1, by decide, b v hv'⟩
  have hnv : ∀ p ∈ ps, nameValue (writeParam p) = (p.1, p.2.getD "true".toList) := by
    intro p hp
    have a := hn p hp
    unfold writeParam nameValue
    cases h : p.2 with
    | none => simp [splitFirst_of_not_mem _ _ a.2]
    | some v => simp [splitFirst_append _ _ _ a.2]
  obtain ⟨c, r, hc, hc'⟩ := h1'
  obtain ⟨q, rest, rfl⟩ := List.exists_cons_of_ne_nil hps
  have hsplit : splitOn ':' (joinWith ':' (ns1 :: ns2 :: (q :: rest).map writeParam)) =
      ns1 :: ns2 :: (q :: rest).map writeParam := by
    apply splitOn_joinWith _ _ (by simp)
    intro p hp
    rcases List.mem_cons.1 hp with e | hp
    · subst e; exact h1
    rcases List.mem_cons.1 hp with e | hp
    · subst e; exact h2
    · obtain ⟨x, hx, rfl⟩ := List.mem_map.1 hp
      exact hw x hx
  unfold readString layoutText
  rw [skipBangs_layout _ _ ⟨c, r ++ ':' :: joinWith ':' (ns2 :: (q :: rest).map writeParam), by
    simp [joinWith, hc], hc'⟩, hsplit]
  simp only [List.map_cons, List.nil_append, HumParamSet.mk.injEq, true_and]
  have := List.map_congr_left hnv
  simpa using this

example : ({} : HumParamSet).readString "!!LO:TX:a:t=hello world=2".toList =
    ⟨"LO".toList, "TX".toList, [("a".toList, "true".toList), ("t".toList, "hello world=2".toList)]⟩ := by
  decide

/-- C04, the part that is false: an escaped colon in a value is not turned back into a colon. -/
theorem readString_colon_not_unescaped :
    ({} : HumParamSet).readString "!LO:TX:t=a&colon;b".toList =
      ⟨"LO".toList, "TX".toList, [("t".toList, "a&colon;b".toList)]⟩ := by decide

/-- C04, the part that is false for global layout lines: un-escaping leaves the semicolon, and a value
containing '=' is truncated. -/
theorem lineSetParameters_mangles :
    lineSetParameters "LO:TX:t=a&colon;b".toList =
      [("LO".toList, "TX".toList, "t".toList, "a:;b".toList)] ∧
    lineSetParameters "LO:TX:t=x=y".toList =
      [("LO".toList, "TX".toList, "t".toList, "x".toList)] := by decide

/-- C04 for global layout lines (proved part): values free of ':', '=' and '&' are read back. -/
theorem lineSetParameters_roundtrip_partial (ns1 ns2 : Str) (ps : List (Str × Option Str))
    (hps : ps ≠ []) (h1 : ':' ∉ ns1) (h2 : ':' ∉ ns2)
    (hn : ∀ p ∈ ps, ':' ∉ p.1 ∧ '=' ∉ p.1 ∧ '&' ∉ p.1)
    (hv : ∀ p ∈ ps, ∀ v, p.2 = some v → ':' ∉ v ∧ '=' ∉ v ∧ '&' ∉ v) :
    lineSetParameters (joinWith ':' (ns1 :: ns2 :: ps.map writeParam)) =
      ps.map fun p => (ns1, ns2, p.1, p.2.getD "true".toList) := by
  have hw : ∀ p ∈ ps, ':' ∉ writeParam p ∧ '&' ∉ writeParam p := by
    intro p hp
    have a := hn p hp
    have b := hv p hp
    unfold writeParam
    split
    · exact ⟨a.1, a.2.2⟩
    · next v hv' =>
      simp only [List.mem_append, List.mem_cons, not_or]
      exact ⟨⟨a.1, by decide, (b v hv').1⟩, ⟨a.2.2, by decide, (b v hv').2.2⟩⟩
  have hnv : ∀ p ∈ ps, lineNameValue (writeParam p) = (p.1, p.2.getD "true".toList) := by
    intro p hp
    have a := hn p hp
    have hr : replaceAll "&colon".toList [':'] (writeParam p) = writeParam p :=
      replaceGo_of_head_not_mem _ _ _ _ (hw p hp).2
    unfold lineNameValue
    rw [hr]
    unfold writeParam
    cases h : p.2 with
    | none => simp [splitOn_of_not_mem _ _ a.2.1]
    | some v => simp [splitOn_append_sep _ _ _ a.2.1, splitOn_of_not_mem _ _ (hv p hp v h).2.1]
  obtain ⟨q, rest, rfl⟩ := List.exists_cons_of_ne_nil hps
  have hsplit : splitOn ':' (joinWith ':' (ns1 :: ns2 :: (q :: rest).map writeParam)) =
      ns1 :: ns2 :: (q :: rest).map writeParam := by
    apply splitOn_joinWith _ _ (by simp)
    intro p hp
    rcases List.mem_cons.1 hp with e | hp
    · subst e; exact h1
    rcases List.mem_cons.1 hp with e | hp
    · subst e; exact h2
    · obtain ⟨x, hx, rfl⟩ := List.mem_map.1 hp
      exact (hw x hx).1
  unfold lineSetParameters
  rw [hsplit]
  simp only [List.map_cons, List.map_map]
  rw [hnv q (by simp)]
  congr 1
  apply List.map_congr_left
  intro p hp
  simp [hnv p (by simp [hp])]

example : lineSetParameters "LO:TX:a:t=hi".toList =
    [("LO".toList, "TX".toList, "a".toList, "true".toList),
     ("LO".toList, "TX".toList, "t".toList, "hi".toList)] := by decide

theorem getName_nat (p : HumParamSet) (i : Nat) :
    p.getParameterName (i : Int) = ((p.params[i]?).map (·.1)).getD [] := by
  unfold getParameterName count
  split
  · next h => rw [List.getElem?_eq_none (by omega)]; rfl
  · rw [if_neg (by omega)]; simp

theorem getValue_nat (p : HumParamSet) (i : Nat) :
    p.getParameterValue (i : Int) = ((p.params[i]?).map (·.2)).getD [] := by
  unfold getParameterValue count
  split
  · next h => rw [List.getElem?_eq_none (by omega)]; rfl
  · rw [if_neg (by omega)]; simp

/-- C04. `setParameter` makes the parameter readable under its index and leaves every other index alone;
it appends only when the name is new. -/
theorem setParameter_spec (p : HumParamSet) (name value : Str) :
    let r := p.setParameter name value
    r.1.getParameterName r.2 = name ∧ r.1.getParameterValue r.2 = value ∧
    (∀ i : Nat, i ≠ r.2 → i < p.count → r.1.getParameterName i = p.getParameterName i ∧
      r.1.getParameterValue i = p.getParameterValue i) ∧
    r.1.count = (if name ∈ p.params.map (·.1) then p.count else p.count + 1) := by
  have key : ∀ ps : List (Str × Str), match setFirst name value ps with
      | none => name ∉ ps.map (·.1)
      | some (qs, i) => name ∈ ps.map (·.1) ∧ qs.length = ps.length ∧ qs[i]? = some (name, value) ∧
          ∀ j, j ≠ i → qs[j]? = ps[j]? := by
    intro ps
    induction ps with
    | nil => simp [setFirst]
    | cons a rest ih =>
      obtain ⟨n, v⟩ := a
      simp only [setFirst]
      by_cases hn : n = name
      · simp only [hn, if_true]
        refine ⟨by simp, by simp, by simp, ?_⟩
        intro j hj
        cases j with
        | zero => exact absurd rfl hj
        | succ j => simp
      · simp only [hn, if_false]
        cases hs : setFirst name value rest with
        | none =>
          rw [hs] at ih
          simp only [Option.map_none, List.map_cons, List.mem_cons, not_or]
          exact ⟨fun e => hn e.symm, ih⟩
        | some r =>
          rw [hs] at ih
          obtain ⟨qs, i⟩ := r
          simp only [Option.map_some]
          refine ⟨by simp [ih.1], by simp [ih.2.1], by simpa using ih.2.2.1, ?_⟩
          intro j hj
          cases j with
          | zero => simp
          | succ j => simpa using ih.2.2.2 j (by omega)
  have k := key p.params
  simp only [setParameter]
  cases hs : setFirst name value p.params with
  | none =>
    rw [hs] at k
    simp only at k
    simp only [addParameter, getName_nat, getValue_nat, count, List.length_append, List.length_cons,
      List.length_nil]
    refine ⟨by simp, by simp, ?_, by simp [k]⟩
    intro i _ hlt
    simp [List.getElem?_append_left hlt]
  | some r =>
    obtain ⟨qs, i⟩ := r
    rw [hs] at k
    obtain ⟨k1, k2, k3, k4⟩ := k
    simp only [getName_nat, getValue_nat, count]
    refine ⟨by simp [k3], by simp [k3], ?_, ?_⟩
    · intro j hj _
      simp [k4 j hj]
    · rw [if_pos k1, k2]

end C21
