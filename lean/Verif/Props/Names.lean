import Verif.Model.Names
import Verif.Spec.Names
import Verif.Lemmas.PyNum
import Verif.Lemmas.PyStr
import Verif.Lemmas.Tac
namespace C21

/-! ## Letters -/

theorem isUpper_iff (c : Char) : c.isUpper = true ↔ ('A' ≤ c ∧ c ≤ 'Z') := by
  unfold Char.isUpper
  rw [decide_eq_true_iff]
  exact Iff.rfl

theorem char_range (c : Char) (lo n : Nat) (h : lo ≤ c.toNat) (h2 : c.toNat < lo + n) : ∃ k < n, c = Char.ofNat (lo + k) :=
  ⟨c.toNat - lo, by omega, by rw [show lo + (c.toNat - lo) = c.toNat by omega, Char.ofNat_toNat]⟩

theorem char_le (a b : Char) : a ≤ b ↔ a.toNat ≤ b.toNat := by
  show a.val ≤ b.val ↔ _
  rw [UInt32.le_iff_toNat_le]
  exact Iff.rfl

theorem upper_cases {c : Char} (h : 'A' ≤ c ∧ c ≤ 'Z') : ∃ k < 26, c = Char.ofNat (65 + k) := by
  rw [char_le, char_le] at h
  have h1 : 'A'.toNat = 65 := rfl
  have h2 : 'Z'.toNat = 90 := rfl
  exact char_range c 65 26 (by omega) (by omega)

theorem lower_cases {c : Char} (h : 'a' ≤ c ∧ c ≤ 'z') : ∃ k < 26, c = Char.ofNat (97 + k) := by
  rw [char_le, char_le] at h
  have h1 : 'a'.toNat = 97 := rfl
  have h2 : 'z'.toNat = 122 := rfl
  exact char_range c 97 26 (by omega) (by omega)

theorem upper_facts : ∀ k < 26, (Char.ofNat (65 + k)).toLower.toUpper = Char.ofNat (65 + k) ∧ (Char.ofNat (65 + k)).toLower ≠ ' ' ∧
    Char.ofNat (65 + k) ≠ ' ' := by decide +kernel

theorem lower_facts : ∀ k < 26, (Char.ofNat (97 + k)).toUpper.isUpper = true ∧ (Char.ofNat (97 + k)).toUpper.toLower = Char.ofNat (97 + k) ∧
    Char.ofNat (97 + k) ≠ '-' ∧ (Char.ofNat (97 + k)).toNat = 97 + k := by decide +kernel

theorem toLower_of_not (c : Char) (h : c.isUpper = false) : c.toLower = c := by
  unfold Char.toLower
  rw [dif_neg]
  intro hc
  unfold Char.isUpper at h
  rw [decide_eq_false_iff_not] at h
  exact h hc

theorem toUpper_of_not (c : Char) (h : ¬ ('a' ≤ c ∧ c ≤ 'z')) : c.toUpper = c := by
  unfold Char.toUpper
  rw [dif_neg]
  exact h

theorem toLower_not_upper (c : Char) : c.toLower.isUpper = false := by
  by_cases h : c.isUpper = true
  · obtain ⟨k, hk, rfl⟩ := upper_cases ((isUpper_iff c).1 h)
    have : ∀ k < 26, (Char.ofNat (65 + k)).toLower.isUpper = false := by decide +kernel
    exact this k hk
  · rw [toLower_of_not c (by simpa using h)]; simpa using h

/-! ## C42: xml:ids -/

/-- Reading an encoded number. -/
def decodeId (s : Str) : Nat := s.foldl (fun a c => a * 26 + (c.toNat - 97)) 0

theorem encodeLoop_decode : ∀ (fuel n : Nat) (acc : Str), n ≤ fuel →
    (encodeLoop fuel n acc).foldl (fun a c => a * 26 + (c.toNat - 97)) 0 = acc.foldl (fun a c => a * 26 + (c.toNat - 97)) n := by
  intro fuel
  induction fuel with
  | zero =>
    intro n acc h
    have : n = 0 := by omega
    subst this; rfl
  | succ f ih =>
    intro n acc h
    unfold encodeLoop
    by_cases h0 : n = 0
    · subst h0; simp
    · rw [if_neg h0, ih _ _ (by omega)]
      simp only [List.foldl_cons]
      rw [(lower_facts (n % 26) (by omega)).2.2.2]
      congr 1
      omega

theorem alphabetEncode_decode (n : Nat) : decodeId (alphabetEncode n) = n := by
  unfold alphabetEncode decodeId
  by_cases h : n = 0
  · subst h; rfl
  · rw [if_neg h, encodeLoop_decode n n [] (le_refl n)]; rfl

theorem encodeLoop_chars : ∀ (fuel n : Nat) (acc : Str), (∀ c ∈ acc, ∃ k < 26, c = Char.ofNat (97 + k)) →
    ∀ c ∈ encodeLoop fuel n acc, ∃ k < 26, c = Char.ofNat (97 + k) := by
  intro fuel
  induction fuel with
  | zero => intro n acc h; exact h
  | succ f ih =>
    intro n acc h
    unfold encodeLoop
    split
    · exact h
    · apply ih
      intro c hc
      rcases List.mem_cons.1 hc with rfl | hc
      · exact ⟨n % 26, by omega, rfl⟩
      · exact h c hc

theorem alphabetEncode_chars (n : Nat) : ∀ c ∈ alphabetEncode n, ∃ k < 26, c = Char.ofNat (97 + k) := by
  unfold alphabetEncode
  split
  · intro c hc
    rcases List.mem_singleton.1 hc with rfl
    exact ⟨0, by omega, rfl⟩
  · exact encodeLoop_chars _ _ _ (by simp)

theorem encodeLoop_ne : ∀ (fuel n : Nat) (acc : Str), acc ≠ [] → encodeLoop fuel n acc ≠ [] := by
  intro fuel
  induction fuel with
  | zero => intro n acc h; exact h
  | succ f ih => intro n acc h; unfold encodeLoop; split; exact h; exact ih _ _ (by simp)

theorem alphabetEncode_ne (n : Nat) : alphabetEncode n ≠ [] := by
  unfold alphabetEncode
  split
  · simp
  · obtain ⟨m, rfl⟩ : ∃ m, n = m + 1 := ⟨n - 1, by omega⟩
    unfold encodeLoop
    rw [if_neg (by omega)]
    exact encodeLoop_ne _ _ _ (by simp)

/-- The number part of an id. -/
def idText (limit n : Nat) : Str := if n < limit then natStr n else alphabetEncode n

theorem idText_no_dash (limit n : Nat) : '-' ∉ idText limit n := by
  unfold idText
  split
  · exact natStr_not_mem n '-' (by decide)
  · intro h
    obtain ⟨k, hk, e⟩ := alphabetEncode_chars n _ h
    exact (lower_facts k hk).2.2.1 e.symm

theorem idText_inj (limit n m : Nat) (h : idText limit n = idText limit m) : n = m := by
  unfold idText at h
  have mixed : ∀ a b, natStr a ≠ alphabetEncode b := by
    intro a b e
    have hne := alphabetEncode_ne b
    cases hb : alphabetEncode b with
    | nil => exact hne hb
    | cons c cs =>
      obtain ⟨k, hk, hc⟩ := alphabetEncode_chars b c (by rw [hb]; simp)
      have hm : c ∈ natStr a := by rw [e, hb]; simp
      have hd := natStr_isDig a c hm
      rw [hc] at hd
      have : ∀ k < 26, isDig (Char.ofNat (97 + k)) = false := by decide +kernel
      rw [this k hk] at hd
      exact absurd hd (by simp)
  split at h
  · split at h
    · exact natStr_inj _ _ h
    · exact absurd h (mixed n m)
  · split at h
    · exact absurd h.symm (mixed m n)
    · rw [← alphabetEncode_decode n, h, alphabetEncode_decode]

theorem last_dash {p q a b : Str} (ha : '-' ∉ a) (hb : '-' ∉ b) (h : p ++ '-' :: a = q ++ '-' :: b) : a = b := by
  have hr : a.reverse ++ '-' :: p.reverse = b.reverse ++ '-' :: q.reverse := by
    have := congrArg List.reverse h
    simpa using this
  have t : ∀ (x : Str) (y : Str), '-' ∉ x → (x ++ '-' :: y).takeWhile (· != '-') = x := by
    intro x y hx
    rw [List.takeWhile_append_of_pos (by intro c hc; have : c ≠ '-' := by rintro rfl; exact hx hc
                                         simpa using this)]
    simp
  have := congrArg (List.takeWhile (· != '-')) hr
  rw [t _ _ (by simpa using ha), t _ _ (by simpa using hb)] at this
  exact List.reverse_inj.1 this

/-- C42. Objects with different integer ids get different xml:ids, whatever prefixes they are given. -/
theorem xmlid_injective (limit n m : Nat) (p q : Str) (h : makeXmlId limit (.int n) p = makeXmlId limit (.int m) q) : n = m := by
  have ha := idText_no_dash limit n
  have hb := idText_no_dash limit m
  have h' : addIdPrefix p (idText limit n) = addIdPrefix q (idText limit m) := h
  apply idText_inj limit
  have cases : ∀ (p a : Str), addIdPrefix p a = a ∨ addIdPrefix p a = p ++ '-' :: a := by
    intro p a
    unfold addIdPrefix
    split
    · exact Or.inl rfl
    split
    · exact Or.inl rfl
    · exact Or.inr rfl
  rcases cases p (idText limit n) with h1 | h1 <;> rcases cases q (idText limit m) with h2 | h2 <;> rw [h1, h2] at h'
  · exact h'
  · rw [h'] at ha; simp at ha
  · rw [← h'] at hb; simp at hb
  · exact last_dash ha hb h'

/-- C42. The xml:id of an integer id with a prefix that starts with a letter starts with a letter, as XML requires. -/
theorem xmlid_starts_with_letter (limit n : Nat) (c : Char) (p : Str) (hc : 'a' ≤ c ∧ c ≤ 'z') :
    ∃ d r, makeXmlId limit (.int n) (c :: p) = d :: r ∧ 'a' ≤ d ∧ d ≤ 'z' := by
  show ∃ d r, addIdPrefix (c :: p) (idText limit n) = d :: r ∧ 'a' ≤ d ∧ d ≤ 'z'
  unfold addIdPrefix
  simp only [List.isEmpty_cons, Bool.false_eq_true, if_false]
  by_cases hs : startsWith (lowerStr (idText limit n)) (lowerStr (c :: p)) = true
  · rw [if_pos hs]
    unfold idText at hs ⊢
    by_cases hl : n < limit
    · rw [if_pos hl] at hs
      exfalso
      cases ht : natStr n with
      | nil => exact natStr_ne_nil n ht
      | cons d ds =>
        have hd := natStr_isDig n d (by rw [ht]; simp)
        rw [ht] at hs
        unfold startsWith lowerStr at hs
        simp only [List.map_cons, List.isPrefixOf, Bool.and_eq_true, beq_iff_eq] at hs
        have e := hs.1
        obtain ⟨k, hk, rfl⟩ := lower_cases hc
        have l1 : ∀ k < 26, (Char.ofNat (97 + k)).toLower = Char.ofNat (97 + k) := by decide +kernel
        have l2 : ∀ k < 26, isDig (Char.ofNat (97 + k)) = false := by decide +kernel
        have hu : d.isUpper = false := by
          by_contra hu
          obtain ⟨j, hj, rfl⟩ := upper_cases ((isUpper_iff d).1 (by simpa using hu))
          have : ∀ k < 26, isDig (Char.ofNat (65 + k)) = false := by decide +kernel
          rw [this j hj] at hd; exact absurd hd (by simp)
        rw [l1 k hk, toLower_of_not d hu] at e
        rw [← e, l2 k hk] at hd
        exact absurd hd (by simp)
    · rw [if_neg hl]
      cases ht : alphabetEncode n with
      | nil => exact absurd ht (alphabetEncode_ne n)
      | cons d ds =>
        obtain ⟨k, hk, e⟩ := alphabetEncode_chars n d (by rw [ht]; simp)
        refine ⟨d, ds, rfl, ?_⟩
        subst e
        have : ∀ k < 26, 'a' ≤ Char.ofNat (97 + k) ∧ Char.ofNat (97 + k) ≤ 'z' := by decide +kernel
        exact this k hk
  · rw [if_neg hs]; exact ⟨c, _, rfl, hc⟩

/-- C42 does not extend to objects with string ids: those are used as they are. -/
theorem xmlid_string_collides (limit n : Nat) (p : Str) :
    makeXmlId limit (.str (makeXmlId limit (.int n) p)) p = makeXmlId limit (.int n) p := rfl

example : makeXmlId 1000 (.int 5) "note".toList = "note-5".toList := by decide +kernel
example : makeXmlId 1000 (.int 123456) "note".toList = "note-haqi".toList := by decide +kernel
example : makeXmlId 10 (.int 13) "n".toList = "n".toList := by decide +kernel

/-! ## C45: spelling of roles -/

/-- One character of each spelling. -/
theorem camel_roundtrip_go : ∀ (s : Str), ' ' ∉ s → spaceToCamelGo false (camelToSpace s) = s := by
  intro s
  induction s with
  | nil => intro _; rfl
  | cons c cs ih =>
    intro h
    have hc : c ≠ ' ' := by rintro rfl; simp at h
    have hcs : ' ' ∉ cs := fun hm => h (List.mem_cons_of_mem _ hm)
    unfold camelToSpace
    by_cases hu : c.isUpper = true
    · rw [if_pos hu]
      obtain ⟨k, hk, rfl⟩ := upper_cases ((isUpper_iff c).1 hu)
      have f := upper_facts k hk
      rw [spaceToCamelGo, if_pos rfl, spaceToCamelGo, if_neg f.2.1, if_pos rfl, f.1, ih hcs]
    · rw [if_neg hu, spaceToCamelGo, if_neg hc, ih hcs]
      rw [if_neg (by simp), toLower_of_not c (by simpa using hu)]

theorem spaceToCamel_no_space : ∀ (s : Str) (cap : Bool), ' ' ∉ spaceToCamelGo cap s := by
  intro s
  induction s with
  | nil => intro cap; simp [spaceToCamelGo]
  | cons c cs ih =>
    intro cap
    unfold spaceToCamelGo
    by_cases hc : c = ' '
    · rw [if_pos hc]; exact ih true
    · rw [if_neg hc]
      intro h
      rcases List.mem_cons.1 h with h | h
      · cases cap with
        | true =>
          rw [if_pos rfl] at h
          by_cases hl : 'a' ≤ c ∧ c ≤ 'z'
          · obtain ⟨k, hk, rfl⟩ := lower_cases hl
            have : ∀ k < 26, ' ' ≠ (Char.ofNat (97 + k)).toUpper := by decide +kernel
            exact this k hk h
          · rw [toUpper_of_not c hl] at h; exact hc h.symm
        | false =>
          rw [if_neg (by simp)] at h
          by_cases hu : c.isUpper = true
          · obtain ⟨k, hk, rfl⟩ := upper_cases ((isUpper_iff c).1 hu)
            exact (upper_facts k hk).2.1 h.symm
          · rw [toLower_of_not c (by simpa using hu)] at h; exact hc h.symm
      · exact ih false h

/-- C45. A camelCase role spelled in words and back is unchanged, exactly if it has no spaces. -/
theorem camel_roundtrip (s : Str) : spaceToCamel (camelToSpace s) = s ↔ ' ' ∉ s := by
  constructor
  · intro h hm
    rw [← h] at hm
    exact spaceToCamel_no_space _ _ hm
  · exact camel_roundtrip_go s

/-- What a reading of the words gives, with the flag. -/
def wordsOk : Bool → Str → Prop
  | cap, [] => cap = false
  | cap, c :: cs => if c = ' ' then cap = false ∧ wordsOk true cs
      else (cap = true → 'a' ≤ c ∧ c ≤ 'z') ∧ c.isUpper = false ∧ wordsOk false cs

theorem spaced_go : ∀ (s : Str) (cap : Bool),
    (camelToSpace (spaceToCamelGo cap s) = (if cap then ' ' :: s else s)) ↔ wordsOk cap s := by
  intro s
  induction s with
  | nil => intro cap; cases cap <;> simp [spaceToCamelGo, camelToSpace, wordsOk]
  | cons c cs ih =>
    intro cap
    by_cases hc : c = ' '
    · subst hc
      unfold wordsOk
      rw [if_pos rfl, spaceToCamelGo, if_pos rfl]
      have ht := ih true
      rw [if_pos rfl] at ht
      cases cap with
      | false => simp only [Bool.false_eq_true, if_false, true_and]; exact ht
      | true =>
        simp only [if_true, Bool.true_eq_false, false_and, iff_false]
        intro h
        -- two spaces in front cannot come out
        cases hr : spaceToCamelGo true cs with
        | nil => rw [hr] at h; simp [camelToSpace] at h
        | cons d ds =>
          have hns : d ≠ ' ' := by
            rintro rfl
            exact spaceToCamel_no_space cs true (by rw [hr]; simp)
          rw [hr] at h
          unfold camelToSpace at h
          by_cases hu : d.isUpper = true
          · rw [if_pos hu] at h
            simp only [List.cons.injEq] at h
            obtain ⟨k, hk, rfl⟩ := upper_cases ((isUpper_iff d).1 hu)
            exact (upper_facts k hk).2.1 h.2.1
          · rw [if_neg hu] at h
            simp only [List.cons.injEq] at h
            exact hns h.1
    · unfold wordsOk
      rw [if_neg hc, spaceToCamelGo, if_neg hc]
      have hf := ih false
      rw [if_neg (by simp)] at hf
      cases cap with
      | false =>
        simp only [Bool.false_eq_true, if_false, false_implies, true_and]
        have hl := toLower_not_upper c
        rw [camelToSpace, if_neg (by rw [hl]; simp)]
        constructor
        · intro h
          simp only [List.cons.injEq] at h
          refine ⟨?_, hf.1 h.2⟩
          rw [← h.1]; exact hl
        · rintro ⟨h1, h2⟩
          rw [toLower_of_not c h1, hf.2 h2]
      | true =>
        simp only [if_true, forall_const]
        constructor
        · intro h
          by_cases hl : 'a' ≤ c ∧ c ≤ 'z'
          · obtain ⟨k, hk, rfl⟩ := lower_cases hl
            have f := lower_facts k hk
            rw [camelToSpace, if_pos f.1, f.2.1] at h
            simp only [List.cons.injEq, true_and] at h
            have g : ∀ k < 26, (Char.ofNat (97 + k)).isUpper = false := by decide +kernel
            exact ⟨hl, g k hk, hf.1 h⟩
          · rw [toUpper_of_not c hl] at h
            unfold camelToSpace at h
            by_cases hu : c.isUpper = true
            · rw [if_pos hu] at h
              simp only [List.cons.injEq, true_and] at h
              have := toLower_not_upper c
              rw [h.1, hu] at this
              exact absurd this (by simp)
            · rw [if_neg hu] at h
              simp only [List.cons.injEq] at h
              exact absurd h.1 hc
        · rintro ⟨hl, h1, h2⟩
          obtain ⟨k, hk, rfl⟩ := lower_cases hl
          have f := lower_facts k hk
          rw [camelToSpace, if_pos f.1, f.2.1, hf.2 h2]

theorem wordsOk_iff : ∀ (s : Str) (cap : Bool), wordsOk cap s ↔
    SpacedRole s ∧ (cap = true → ∃ c r, s = c :: r ∧ 'a' ≤ c ∧ c ≤ 'z') := by
  intro s
  induction s with
  | nil =>
    intro cap
    cases cap with
    | false => simp [wordsOk]; exact ⟨by simp, by simp⟩
    | true => simp [wordsOk]
  | cons c cs ih =>
    intro cap
    have tail : SpacedRole (c :: cs) → SpacedRole cs := fun h =>
      ⟨fun d hd => h.small d (List.mem_cons_of_mem _ hd), fun a b e => h.word (c :: a) b (by rw [e]; rfl)⟩
    unfold wordsOk
    by_cases hc : c = ' '
    · rw [if_pos hc, ih true]
      subst hc
      constructor
      · rintro ⟨h1, h2, h3⟩
        refine ⟨⟨?_, ?_⟩, by rw [h1]; simp⟩
        · intro d hd
          rcases List.mem_cons.1 hd with rfl | hd
          · decide
          · exact h2.small d hd
        · intro a b e
          cases a with
          | nil =>
            simp only [List.nil_append, List.cons.injEq, true_and] at e
            rw [← e]; exact h3 rfl
          | cons x xs =>
            simp only [List.cons_append, List.cons.injEq] at e
            exact h2.word xs b e.2
      · rintro ⟨h1, h2⟩
        refine ⟨?_, tail h1, fun _ => h1.word [] cs rfl⟩
        cases cap with
        | false => rfl
        | true =>
          obtain ⟨d, r, e, hd⟩ := h2 rfl
          simp only [List.cons.injEq] at e
          rw [← e.1] at hd
          exact absurd hd (by decide)
    · rw [if_neg hc, ih false]
      constructor
      · rintro ⟨h1, h2, h3, _⟩
        refine ⟨⟨?_, ?_⟩, fun hcap => ⟨c, cs, rfl, h1 hcap⟩⟩
        · intro d hd
          rcases List.mem_cons.1 hd with rfl | hd
          · intro hx; rw [(isUpper_iff d).2 hx] at h2; exact absurd h2 (by simp)
          · exact h3.small d hd
        · intro a b e
          cases a with
          | nil => simp only [List.nil_append, List.cons.injEq] at e; exact absurd e.1 hc
          | cons x xs => simp only [List.cons_append, List.cons.injEq] at e; exact h3.word xs b e.2
      · rintro ⟨h1, h2⟩
        refine ⟨?_, ?_, tail h1, by simp⟩
        · intro hcap
          obtain ⟨d, r, e, hd⟩ := h2 hcap
          simp only [List.cons.injEq] at e
          rw [e.1]; exact hd
        · have := h1.small c (by simp)
          cases hu : c.isUpper with
          | false => rfl
          | true => exact absurd ((isUpper_iff c).1 hu) this

/-- C45. A role spelled in words, in camelCase and back is unchanged exactly if it has no capitals and a letter after every space. -/
theorem spaced_roundtrip (s : Str) : camelToSpace (spaceToCamel s) = s ↔ SpacedRole s := by
  have h := (spaced_go s false).trans (wordsOk_iff s false)
  simp only [Bool.false_eq_true, if_false, false_implies, and_true] at h
  exact h

example : SpacedRole "suspected performer".toList := (spaced_roundtrip _).1 (by decide +kernel)
/-- A number after a space comes back without the space. -/
theorem spaced_digit_wrong : camelToSpace (spaceToCamel "piano 2".toList) = "piano2".toList := by decide +kernel

/-! ## C64: reference keys -/

/-- C64. Every reference key with a music21 name is found again from that name: no two keys share a name. -/
theorem refKey_roundtrip : ∀ p ∈ refKeyTable, p.2 ≠ "" → uniqueNameToKey.get? p.2 = some p.1 := by decide +kernel

/-- C64. The keys are distinct, so that the table is a function. -/
theorem refKey_distinct : (refKeyTable.map (·.1)).Nodup := by decide +kernel

/-- C64. The key of a contributor kept under another role is found again from that role. -/
theorem otherRole_roundtrip : ∀ p ∈ keyToOtherRole, roleKey p.2.toList = some p.1 := by decide +kernel

theorem dict_get_mem_str {d : Dict String String} {k v : String} (h : d.get? k = some v) : (k, v) ∈ d := by
  induction d with
  | nil => simp [Dict.get?] at h
  | cons p rest ih =>
    obtain ⟨a, b⟩ := p
    unfold Dict.get? at h
    split at h
    · rename_i e
      simp only [Option.some.injEq] at h
      rw [e, h]; simp
    · exact List.mem_cons_of_mem _ (ih h)

/-- C64. A role finds the same key in both spellings. -/
theorem roleKey_spelling (s : Str) (h : SpacedRole s) : roleKey s = roleKey (spaceToCamel s) := by
  have hback := (spaced_roundtrip s).2 h
  have hns : (spaceToCamel s).contains ' ' = false := by
    have : ' ' ∉ spaceToCamel s := spaceToCamel_no_space s false
    simpa using this
  by_cases hsp : s.contains ' ' = true
  · have hU : uniqueNameToKey.get? (String.ofList s) = none := by
      cases hg : uniqueNameToKey.get? (String.ofList s) with
      | none => rfl
      | some v =>
        have hm := dict_get_mem_str hg
        have : ∀ p ∈ uniqueNameToKey, p.1.toList.contains ' ' = false := by decide +kernel
        have := this _ hm
        simp only [String.toList_ofList] at this
        rw [this] at hsp; exact absurd hsp (by simp)
    cases hO : otherRoleToKey.get? (String.ofList s) with
    | some v =>
      have hm := dict_get_mem_str hO
      have t : ∀ p ∈ otherRoleToKey, p.1.toList.contains ' ' = true → roleKey p.1.toList = roleKey (spaceToCamel p.1.toList) := by
        decide +kernel
      have := t _ hm
      simp only [String.toList_ofList] at this
      exact this hsp
    | none =>
      have hL : roleLookup s = none := by unfold roleLookup; rw [hU]; exact hO
      have e1 : roleKey s = roleLookup (spaceToCamel s) := by
        unfold roleKey
        rw [hL, if_pos hsp]
      have e2 : roleKey (spaceToCamel s) = roleLookup (spaceToCamel s) := by
        unfold roleKey
        cases hx : roleLookup (spaceToCamel s) with
        | some v => rfl
        | none =>
          show roleLookup (if (spaceToCamel s).contains ' ' = true then _ else _) = none
          rw [if_neg (by rw [hns]; simp), hback, hL]
      rw [e1, e2]
  · have : spaceToCamel s = s := by
      have hs : ' ' ∉ s := by simpa using hsp
      have hlow : ∀ (t : Str), ' ' ∉ t → (∀ c ∈ t, ¬ ('A' ≤ c ∧ c ≤ 'Z')) → spaceToCamelGo false t = t := by
        intro t
        induction t with
        | nil => intro _ _; rfl
        | cons c cs ih =>
          intro h1 h2
          have hc : c ≠ ' ' := by rintro rfl; simp at h1
          have hu : c.isUpper = false := by
            cases hu : c.isUpper with
            | false => rfl
            | true => exact absurd ((isUpper_iff c).1 hu) (h2 c (by simp))
          rw [spaceToCamelGo, if_neg hc, if_neg (by simp), toLower_of_not c hu,
            ih (fun hm => h1 (List.mem_cons_of_mem _ hm)) (fun d hd => h2 d (List.mem_cons_of_mem _ hd))]
      exact hlow s hs h.small
    rw [this]

example : roleKey "suspectedPerformer".toList = some "MPS" := by decide +kernel
example : roleKey "attributed composer".toList = some "COA" := by decide +kernel

end C21
