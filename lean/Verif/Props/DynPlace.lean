import Verif.Model.DynPlace
import Verif.Props.HumDynam
import Verif.Props.HumHarm
import Verif.Props.HumChords
import Verif.Lemmas.Tac
/-
C118: staff, place and justification of dynamics and hairpins.
-/
namespace C21
open HumParamSet

/-! ### Specification -/

/-- The state of a staff in whose **dynam spine no `*above` or `*below` stands. -/
def NoForce (st : DynState) : Prop := st.pos = 0

/-- The place a dynamic gets that says nothing about it. -/
def defaultPos (st : DynState) : Option DynPos := if st.defined then some .middle else if st.lyrics then some .above else none

/-- The tokens right of a note: other spines around one **dynam token, then nothing or the next staff. -/
def aroundDynam (m n : Nat) (text : Str) (layouts : List Str) (next : Option (List DynField)) : List DynField :=
  List.replicate m .other ++ .dynam text layouts false :: (List.replicate n .other ++ (match next with | none => [] | some fs => .kern :: fs))

/-! ### Comments -/

theorem comment_set (cat p : Str) (ps : List Str) (h2 : ':' ∉ cat) (h : ∀ q ∈ p :: ps, ':' ∉ q) :
    (dynComment cat (p :: ps)).map (({} : HumParamSet).readString ·) = [⟨"LO".toList, cat, (p :: ps).map nameValue⟩] := by
  rw [← read_pieces_one cat p ps h2 h]
  simp [dynComment]

theorem mem_replaceFirst (pat rep : Str) (c : Char) : ∀ s : Str, c ∈ replaceFirst pat rep s → c ∈ rep ∨ c ∈ s
  | [], h => by simp [replaceFirst] at h
  | x :: r, h => by
    unfold replaceFirst at h
    split at h
    · rcases List.mem_append.1 h with h | h
      · exact .inl h
      · exact .inr (List.mem_of_mem_drop h)
    · rcases List.mem_cons.1 h with rfl | h
      · exact .inr (by simp)
      · rcases mem_replaceFirst pat rep c r h with h | h
        · exact .inl h
        · exact .inr (List.mem_cons_of_mem _ h)

theorem params_colon (value : Str) (h : ':' ∉ value) : ':' ∉ (dynParams value).1 ∧ ':' ∉ (dynParams value).2 := by
  unfold dynParams
  split
  · simp
  · cases hb : dynBracketed value with
    | some x =>
      simp only
      refine ⟨?_, by simp⟩
      unfold dynBracketed at hb
      obtain ⟨k, _, hk⟩ := List.exists_of_findSome?_eq_some hb
      obtain ⟨b, hb1, hb2⟩ := List.exists_of_findSome?_eq_some hk
      obtain ⟨t, _, rfl⟩ := Option.map_eq_some_iff.1 hb2
      have : ∀ b ∈ dynBrackets, ':' ∉ b.1 := by decide
      exact this b hb1
    | none =>
      cases hh : dynHit value with
      | none => simp
      | some x =>
        simp only
        refine ⟨by simp, ?_⟩
        intro hm
        rcases mem_replaceFirst _ _ _ _ hm with hm | hm
        · exact absurd hm (by decide)
        · rcases mem_replaceFirst _ _ _ _ hm with hm | hm
          · unfold dynHit at hh
            obtain ⟨k, _, hk⟩ := List.exists_of_findSome?_eq_some hh
            obtain ⟨a, b, e, _, _, _, hf, _, hbk⟩ := hit_sound k value x hk
            simp only [List.mem_append, Option.mem_toList] at hm
            rcases hm with (hm | hm) | hm
            · rcases hf with ⟨h0, _⟩ | ⟨c, a', hc, ha⟩
              · rw [h0] at hm; cases hm
              · rw [hc] at hm
                cases hm
                apply h
                rw [e, ha]
                simp
            · exact absurd hm (by decide)
            · have := hbk ':' hm
              apply h
              rw [e]
              apply List.mem_append_right
              exact List.mem_of_mem_head? this
          · exact h hm

theorem mem_textPieces (value : Str) (q : Str) (h : q ∈ textPieces value) :
    ((dynParams value).1 ≠ [] ∧ q = "ed".toList ++ '=' :: (dynParams value).1) ∨
    ((dynParams value).1 = [] ∧ (dynParams value).2 ≠ [] ∧ q = "t".toList ++ '=' :: (dynParams value).2) := by
  unfold textPieces at h
  simp only at h
  by_cases h1 : (dynParams value).1 = []
  · by_cases h2 : (dynParams value).2 = []
    · simp [h1, h2] at h
    · simp [h1, h2] at h
      exact .inr ⟨h1, h2, h⟩
  · simp [h1] at h
    exact .inl ⟨h1, h⟩

theorem suffix_colon (i : Nat) : ':' ∉ staffSuffix i := by
  unfold staffSuffix
  split
  · intro h
    rcases List.mem_cons.1 h with h | h
    · cases h
    · exact natStr_not_mem _ ':' (by decide) h
  · simp

theorem mem_posPieces (pos : Option DynPos) (i : Nat) (q : Str) (h : q ∈ posPieces pos i) : ∃ c ∈ "abc".toList, q = c :: staffSuffix i := by
  cases pos with
  | none => simp [posPieces] at h
  | some x =>
    cases x with
    | above => exact ⟨'a', by decide, by simpa [posPieces] using h⟩
    | below => exact ⟨'b', by decide, by simpa [posPieces] using h⟩
    | middle =>
      unfold posPieces at h
      simp only at h
      split at h
      · simp at h
      · exact ⟨'c', by decide, by simpa using h⟩

theorem pieces_colon (value : Str) (hv : ':' ∉ value) (pos : Option DynPos) (just : DynJust) (i : Nat) :
    ∀ q ∈ posPieces pos i ++ justPieces just ++ textPieces value, ':' ∉ q := by
  intro q hq
  rcases List.mem_append.1 hq with hq | hq
  · rcases List.mem_append.1 hq with hq | hq
    · obtain ⟨c, hc, rfl⟩ := mem_posPieces pos i q hq
      intro hm
      rcases List.mem_cons.1 hm with rfl | hm
      · exact absurd hc (by decide)
      · exact suffix_colon i hm
    · cases just <;> simp [justPieces] at hq <;> subst hq <;> decide
  · rcases mem_textPieces value q hq with ⟨_, rfl⟩ | ⟨_, _, rfl⟩
    · intro hm
      rcases List.mem_append.1 hm with hm | hm
      · exact absurd hm (by decide)
      · rcases List.mem_cons.1 hm with hm | hm
        · cases hm
        · exact (params_colon value hv).1 hm
    · intro hm
      rcases List.mem_append.1 hm with hm | hm
      · exact absurd hm (by decide)
      · rcases List.mem_cons.1 hm with hm | hm
        · cases hm
        · exact (params_colon value hv).2 hm

/-- The value of a placement parameter. -/
def staffValue (i : Nat) : Str := if 0 < i then natStr (i + 1) else "true".toList

theorem nameValue_pos (c : Char) (hc : c ≠ '=') (i : Nat) : nameValue (c :: staffSuffix i) = ([c], staffValue i) := by
  unfold staffSuffix staffValue
  split
  · exact nameValue_eq [c] (natStr (i + 1)) (by simpa using hc.symm)
  · unfold nameValue splitFirst
    simp [hc, splitFirst]

theorem paramAdj_staff (i : Nat) (adj : Int) : paramAdj (staffValue i) adj = -(i : Int) := by
  unfold staffValue
  split
  · rename_i hi
    have hd : ∀ c ∈ natStr (i + 1), isDig c = true := fun c hc => natStr_isDig _ c hc
    have hne := natStr_ne_nil (i + 1)
    have hnt : natStr (i + 1) ≠ "true".toList := by
      intro h
      have := hd 't' (by rw [h]; decide)
      exact absurd this (by decide)
    unfold paramAdj
    rw [if_neg hnt]
    have hn : noteNumber (natStr (i + 1)) = .ok ((i + 1 : Nat) : Int) := by
      unfold noteNumber
      rw [if_pos ⟨hne, by simpa using hd⟩, parse_natStr]
    cases hs : natStr (i + 1) with
    | nil => exact absurd hs hne
    | cons c r =>
      simp only
      rw [if_pos (hd c (by rw [hs]; simp)), ← hs, hn]
      simp only
      rw [if_neg (by omega)]
      omega
  · rename_i hi
    have : i = 0 := by omega
    subst this
    rfl

/-! ### Reading the parameters -/

theorem posInSet_quiet (key alt : Str) (adj : Int) (ps : List (Str × Str)) (h : ∀ p ∈ ps, p.1 ≠ key ∧ p.1 ≠ alt) : posInSet key alt adj ps = none := by
  induction ps with
  | nil => rfl
  | cons p ps ih =>
    rw [posInSet, if_neg (h p (by simp)).1, if_neg (h p (by simp)).2]
    exact ih (fun q hq => h q (List.mem_cons_of_mem _ hq))

/-- Names that have nothing to do with the place. -/
def quietNames : List Str := ["rj".toList, "cj".toList, "ed".toList, "t".toList]

theorem quiet_names (value : Str) (just : DynJust) : ∀ p ∈ (justPieces just ++ textPieces value).map nameValue, p.1 ∈ quietNames := by
  intro p hp
  obtain ⟨q, hq, rfl⟩ := List.mem_map.1 hp
  rcases List.mem_append.1 hq with hq | hq
  · cases just <;> simp [justPieces] at hq <;> subst hq <;> decide
  · rcases mem_textPieces value q hq with ⟨_, rfl⟩ | ⟨_, _, rfl⟩
    · rw [nameValue_eq _ _ (by decide)]
      show "ed".toList ∈ quietNames
      decide
    · rw [nameValue_eq _ _ (by decide)]
      show "t".toList ∈ quietNames
      decide

/-- What the parameters of a written comment say. -/
def posSaid (pos : Option DynPos) (i : Nat) (c : Bool × Int) (center0 : Bool) : Bool × Bool × Bool × Int :=
  match pos with
  | some .above => (true, false, center0, -(i : Int))
  | some .below => (false, true, center0, -(i : Int))
  | _ => (false, false, c.1 || center0, c.2)

theorem posParam_one (cat key alt : Str) (ps : List (Str × Str)) (adj : Int) :
    posParam cat key alt [⟨"LO".toList, cat, ps⟩] adj = (match posInSet key alt adj ps with | some a => (true, a) | none => (false, adj)) := by
  unfold posParam
  rw [if_neg (by simp)]
  cases posInSet key alt adj ps <;> rfl

theorem posFlags_comment (cat : Str) (hcat : ':' ∉ cat) (pos : Option DynPos) (i : Nat) (rest : List Str) (hq : ∀ p ∈ rest.map nameValue, p.1 ∈ quietNames)
    (hcol : ∀ q ∈ posPieces pos i ++ rest, ':' ∉ q) (centerSets : List HumParamSet) (center0 : Bool) (adj : Int) :
    posFlags cat ((dynComment cat (posPieces pos i ++ rest)).map (({} : HumParamSet).readString ·)) centerSets center0 adj =
      posSaid pos i (posParam cat "c".toList "Y".toList centerSets adj) center0 := by
  have quiet : ∀ key alt, key ∉ quietNames → alt ∉ quietNames → posInSet key alt adj (rest.map nameValue) = none := by
    intro key alt h1 h2
    apply posInSet_quiet
    intro p hp
    exact ⟨fun e => h1 (e ▸ hq p hp), fun e => h2 (e ▸ hq p hp)⟩
  have bare : posPieces pos i = [] → pos ≠ some .above → pos ≠ some .below →
      posFlags cat ((dynComment cat (posPieces pos i ++ rest)).map (({} : HumParamSet).readString ·)) centerSets center0 adj =
      posSaid pos i (posParam cat "c".toList "Y".toList centerSets adj) center0 := by
    intro h0 ha hb
    have hs : posSaid pos i (posParam cat "c".toList "Y".toList centerSets adj) center0 =
        (false, false, (posParam cat "c".toList "Y".toList centerSets adj).1 || center0, (posParam cat "c".toList "Y".toList centerSets adj).2) := by
      cases pos with
      | none => rfl
      | some x => cases x <;> first | rfl | exact absurd rfl ha | exact absurd rfl hb
    rw [hs, h0, List.nil_append]
    cases rest with
    | nil => rfl
    | cons p ps =>
      rw [h0, List.nil_append] at hcol
      rw [comment_set cat p ps hcat hcol]
      unfold posFlags
      simp only [posParam_one, quiet _ _ (by decide : "a".toList ∉ quietNames) (by decide : "Z".toList ∉ quietNames),
        quiet _ _ (by decide : "b".toList ∉ quietNames) (by decide : "Y".toList ∉ quietNames)]
      rfl
  cases pos with
  | none => exact bare rfl (by simp) (by simp)
  | some x =>
    cases x with
    | above =>
      rw [show posPieces (some .above) i ++ rest = ('a' :: staffSuffix i) :: rest from rfl] at hcol ⊢
      rw [comment_set cat _ rest hcat hcol, List.map_cons, nameValue_pos 'a' (by decide)]
      unfold posFlags
      simp only [posParam_one]
      rw [posInSet, if_pos (by rfl)]
      simp only [paramAdj_staff]
      rfl
    | below =>
      rw [show posPieces (some .below) i ++ rest = ('b' :: staffSuffix i) :: rest from rfl] at hcol ⊢
      rw [comment_set cat _ rest hcat hcol, List.map_cons, nameValue_pos 'b' (by decide)]
      unfold posFlags
      simp only [posParam_one]
      have e1 : posInSet "a".toList "Z".toList adj ((['b'], staffValue i) :: rest.map nameValue) = none := by
        rw [posInSet, if_neg (by decide : ¬ (['b'] : Str) = "a".toList), if_neg (by decide : ¬ (['b'] : Str) = "Z".toList)]
        exact quiet _ _ (by decide) (by decide)
      have e2 : posInSet "b".toList "Y".toList adj ((['b'], staffValue i) :: rest.map nameValue) = some (-(i : Int)) := by
        rw [posInSet, if_pos (by rfl), paramAdj_staff]
      simp only [e1, e2]
      rfl
    | middle =>
      by_cases hi : i = 0
      · exact bare (by simp [posPieces, hi]) (by simp) (by simp)
      · have hp : posPieces (some .middle) i = ['c' :: staffSuffix i] := by simp [posPieces, hi]
        rw [hp] at hcol ⊢
        rw [show ['c' :: staffSuffix i] ++ rest = ('c' :: staffSuffix i) :: rest from rfl] at hcol ⊢
        rw [comment_set cat _ rest hcat hcol, List.map_cons, nameValue_pos 'c' (by decide)]
        have e1 : posInSet "a".toList "Z".toList adj ((['c'], staffValue i) :: rest.map nameValue) = none := by
          rw [posInSet, if_neg (by decide : ¬ (['c'] : Str) = "a".toList), if_neg (by decide : ¬ (['c'] : Str) = "Z".toList)]
          exact quiet _ _ (by decide) (by decide)
        have e2 : posInSet "b".toList "Y".toList adj ((['c'], staffValue i) :: rest.map nameValue) = none := by
          rw [posInSet, if_neg (by decide : ¬ (['c'] : Str) = "b".toList), if_neg (by decide : ¬ (['c'] : Str) = "Y".toList)]
          exact quiet _ _ (by decide) (by decide)
        unfold posFlags
        simp only [posParam_one, e1, e2]
        rfl

/-- The first value of a parameter, empty if there is none. -/
def valueIn (key : Str) (pieces : List Str) : Str := (((pieces.map nameValue).find? (fun p => p.1 = key)).map (·.2)).getD []

theorem layoutValue_comment (cat key : Str) (hcat : ':' ∉ cat) (pieces : List Str) (h : ∀ q ∈ pieces, ':' ∉ q) :
    layoutValue cat key [] ((dynComment cat pieces).map (({} : HumParamSet).readString ·)) = valueIn key pieces := by
  cases pieces with
  | nil => rfl
  | cons p ps =>
    rw [comment_set cat p ps hcat h, layoutValue]
    unfold valueIn
    rw [if_neg (by simp [setHasN])]
    cases ((p :: ps).map nameValue).find? (fun q => q.1 = key) <;> rfl

theorem lpScan_first (key : Str) (ps : List (Str × Str)) : ∀ n, ∃ n', lpScan key (-1) [] n ps =
    (match ps.find? (fun p => p.1 = key) with | some p => .inl p.2 | none => .inr ([], n')) := by
  induction ps with
  | nil => intro n; exact ⟨n, rfl⟩
  | cons p ps ih =>
    intro n
    by_cases h : p.1 = key
    · exact ⟨n, by rw [lpScan, if_pos ⟨h, by decide⟩, List.find?_cons_of_pos (by simpa using h)]⟩
    · obtain ⟨n', e⟩ := ih (if p.1 = "n".toList then p.2 else n)
      refine ⟨n', ?_⟩
      rw [lpScan, if_neg (fun x => h x.1), if_neg h, e, List.find?_cons_of_neg (by simpa using h)]

theorem layoutParameter_comment (cat key : Str) (hcat : ':' ∉ cat) (pieces : List Str) (h : ∀ q ∈ pieces, ':' ∉ q) :
    layoutParameter cat key (-1) [] ((dynComment cat pieces).map (({} : HumParamSet).readString ·)) = .ok (valueIn key pieces) := by
  cases pieces with
  | nil => rfl
  | cons p ps =>
    rw [comment_set cat p ps hcat h, layoutParameter, if_neg (by simp)]
    unfold valueIn
    obtain ⟨n', e⟩ := lpScan_first key ((p :: ps).map nameValue) []
    simp only [e]
    cases ((p :: ps).map nameValue).find? (fun q => q.1 = key) with
    | some x => rfl
    | none =>
      simp only
      rw [if_pos (Or.inr (by decide)), if_neg (by simp), layoutParameter]
      rfl

theorem valueIn_skip (key : Str) (a b : List Str) (h : ∀ q ∈ a, (nameValue q).1 ≠ key) : valueIn key (a ++ b) = valueIn key b := by
  unfold valueIn
  rw [List.map_append, List.find?_append]
  have : (a.map nameValue).find? (fun p => p.1 = key) = none := by
    rw [List.find?_eq_none]
    intro p hp
    obtain ⟨q, hq, rfl⟩ := List.mem_map.1 hp
    simpa using h q hq
  rw [this, Option.none_or]

theorem valueIn_keep (key : Str) (a b : List Str) (h : ∀ q ∈ b, (nameValue q).1 ≠ key) : valueIn key (a ++ b) = valueIn key a := by
  unfold valueIn
  rw [List.map_append, List.find?_append]
  have : (b.map nameValue).find? (fun p => p.1 = key) = none := by
    rw [List.find?_eq_none]
    intro p hp
    obtain ⟨q, hq, rfl⟩ := List.mem_map.1 hp
    simpa using h q hq
  rw [this, Option.or_none]

theorem pos_name (pos : Option DynPos) (i : Nat) (key : Str) (hk : key ∈ quietNames) : ∀ q ∈ posPieces pos i, (nameValue q).1 ≠ key := by
  intro q hq
  obtain ⟨c, hc, rfl⟩ := mem_posPieces pos i q hq
  have h3 : c = 'a' ∨ c = 'b' ∨ c = 'c' := by simpa using hc
  have : ∀ k ∈ quietNames, ['a'] ≠ k ∧ ['b'] ≠ k ∧ ['c'] ≠ k := by decide
  rcases h3 with rfl | rfl | rfl <;> rw [nameValue_pos _ (by decide)]
  · exact (this key hk).1
  · exact (this key hk).2.1
  · exact (this key hk).2.2

theorem text_name (value key : Str) (h1 : key ≠ "ed".toList) (h2 : key ≠ "t".toList) : ∀ q ∈ textPieces value, (nameValue q).1 ≠ key := by
  intro q hq
  rcases mem_textPieces value q hq with ⟨_, rfl⟩ | ⟨_, _, rfl⟩ <;> rw [nameValue_eq _ _ (by decide)]
  · exact h1.symm
  · exact h2.symm

theorem readJust_comment (value : Str) (hv : ':' ∉ value) (pos : Option DynPos) (just : DynJust) (i : Nat) :
    readJust ((dynComments value pos just i).map (({} : HumParamSet).readString ·)) = just := by
  unfold readJust justParam dynComments
  have hc := pieces_colon value hv pos just i
  rw [layoutParameter_comment _ _ (by decide) _ hc, layoutParameter_comment _ _ (by decide) _ hc]
  rw [valueIn_keep _ _ _ (text_name value "rj".toList (by decide) (by decide)), valueIn_skip _ _ _ (pos_name pos i "rj".toList (by decide)),
    valueIn_keep _ _ _ (text_name value "cj".toList (by decide) (by decide)), valueIn_skip _ _ _ (pos_name pos i "cj".toList (by decide))]
  cases just <;> decide

theorem dynParamOf_text (value key : Str) (hv : ':' ∉ value) : dynParamOf key (dynLayout value) = valueIn key (textPieces value) := by
  have hc : ∀ q ∈ textPieces value, ':' ∉ q := fun q hq => pieces_colon value hv none .none 0 q (by simpa [posPieces, justPieces] using hq)
  have hl : dynLayout value = (dynComment "DY".toList (textPieces value)).head? := by
    unfold dynLayout textPieces dynComment
    simp only
    by_cases h1 : (dynParams value).1 = []
    · by_cases h2 : (dynParams value).2 = []
      · simp [h1, h2]
      · simp [h1, h2]
    · simp [h1]
  cases ht : textPieces value with
  | nil => rw [hl, ht]; rfl
  | cons p ps =>
    rw [ht] at hl hc
    have hset := comment_set "DY".toList p ps (by decide) hc
    unfold dynComment at hset hl
    rw [if_neg (by simp)] at hset hl
    rw [hl]
    simp only [List.map_cons, List.map_nil, List.cons.injEq, and_true] at hset
    unfold dynParamOf
    simp only [List.head?_cons]
    rw [show (⟨[], [], []⟩ : HumParamSet) = {} from rfl, hset]
    simp only
    rw [if_pos ⟨trivial, trivial⟩]
    rfl

/-- The text read with the other parameters is that read without them (C102). -/
theorem dynOut_value (c : DynCtx) (value d : Str) (hv : ':' ∉ value) (pos : Option DynPos) (just : DynJust) (i : Nat) (center : Bool)
    (hd : dynLetters ((dynString value).filter c.alpha) = some d) :
    dynReadBack c.alpha value = some (dynOutOf c d center (dynComments value pos just i)).1.value := by
  unfold dynReadBack readDynam dynOutOf
  rw [hd]
  simp only
  have hc := pieces_colon value hv pos just i
  unfold dynComments
  rw [layoutValue_comment _ _ (by decide) _ hc, layoutValue_comment _ _ (by decide) _ hc]
  have hj : ∀ k, k ≠ "rj".toList → k ≠ "cj".toList → ∀ q ∈ justPieces just, (nameValue q).1 ≠ k := by
    intro k h1 h2 q hq
    cases just <;> simp [justPieces] at hq <;> subst hq
    · exact fun e => h1 e.symm
    · exact fun e => h2 e.symm
  have hpj : ∀ k ∈ quietNames, k ≠ "rj".toList → k ≠ "cj".toList → valueIn k (posPieces pos i ++ justPieces just ++ textPieces value) = valueIn k (textPieces value) := by
    intro k hk h1 h2
    rw [List.append_assoc, valueIn_skip _ _ _ (pos_name pos i k hk), valueIn_skip _ _ _ (hj k h1 h2)]
  rw [hpj _ (by decide) (by decide) (by decide), hpj _ (by decide) (by decide) (by decide), dynParamOf_text value _ hv, dynParamOf_text value _ hv]
  unfold dynDecorate
  simp only
  split
  · rfl
  split
  · rfl
  split
  · rfl
  split <;> rfl

theorem letters_ne_nil (l d : Str) (h : dynLetters l = some d) : d ≠ [] := by
  rintro rfl
  have hl : l = [] := by
    unfold dynLetters at h
    split at h
    · simpa using h
    · split at h
      · simpa using h
      · split at h
        · simpa using h
        · split at h
          · simpa using h
          · cases h
  subst hl
  exact absurd h (by decide)

/-! ### The search -/

theorem scan_others (c : DynCtx) (active : Bool) (d : Str) (cen : Bool) (n : Nat) (fs : List DynField) :
    dynScan c active d cen (List.replicate n .other ++ fs) = dynScan c active d cen fs := by
  induction n with
  | zero => rfl
  | succ n ih => rw [List.replicate_succ, List.cons_append, dynScan]; exact ih

/-- C118. A note, unless it is a grace note, only sees the **dynam tokens before the next staff. -/
theorem next_staff_untouched (c : DynCtx) (h : c.grace = false) (active : Bool) (d : Str) (cen : Bool) (pre post : List DynField) :
    dynScan c active d cen (pre ++ .kern :: post) = dynScan c active d cen pre := by
  induction pre generalizing active d cen with
  | nil => simp [dynScan, h]
  | cons f fs ih =>
    rw [List.cons_append]
    cases f with
    | kern => simp [dynScan, h]
    | kernLike => simp only [dynScan]; exact ih _ _ _
    | other => simp only [dynScan]; exact ih _ _ _
    | dynam t l done =>
      simp only [dynScan, ih]

/-- C118. A **dynam token that was processed from another note gives nothing again. -/
theorem processed_once (c : DynCtx) (t : Str) (l : List Str) (fs : List DynField) : readDynamics c (.dynam t l true :: fs) = [] := by
  simp [readDynamics, dynScan]

/-- The one dynamic read from an exported token. -/
theorem dynamic_read (c : DynCtx) (hg : c.grace = false) (hn : ∀ h ∈ c.noteSets, h.ns2 ≠ "DY".toList) (value : Str) (hv : ':' ∉ value) (pos : Option DynPos)
    (just : DynJust) (i m n : Nat) (next : Option (List DynField)) :
    readDynamics c (aroundDynam m n (dynString value) (dynComments value pos just i) next) =
      ((dynReadBack c.alpha value).map (fun v =>
        (⟨v, staffFor c.staff c.count (posSaid pos i (false, c.st.adj) false).2.2.2,
          dynamicPos c.st (posSaid pos i (false, c.st.adj) false).1 (posSaid pos i (false, c.st.adj) false).2.1 (posSaid pos i (false, c.st.adj) false).2.2.1, just⟩ : DynOut))).toList := by
  unfold readDynamics aroundDynam
  rw [scan_others, dynScan]
  have tail : ∀ d cen, dynScan c true d cen (List.replicate n .other ++ (match next with | none => [] | some fs => DynField.kern :: fs)) = [] := by
    intro d cen
    rw [scan_others]
    cases next with
    | none => rfl
    | some fs => simp [dynScan, hg]
  have hcen : ∀ (hs : List HumParamSet) (adj : Int), (∀ h ∈ hs, h.ns2 ≠ "DY".toList) → posParam "DY".toList "c".toList "Y".toList hs adj = (false, adj) := by
    intro hs adj hhs
    induction hs with
    | nil => rfl
    | cons h t ih => rw [posParam, if_pos (Or.inr (hhs h (by simp)))]; exact ih (fun x hx => hhs x (List.mem_cons_of_mem _ hx))
  simp only [Bool.not_true, Bool.false_eq_true, if_false]
  cases hd : dynLetters ((dynString value).filter c.alpha) with
  | none =>
    have : dynReadBack c.alpha value = none := by
      unfold dynReadBack readDynam
      rw [hd]
    rw [this, Option.getD_none, if_pos rfl, tail]
    rfl
  | some d =>
    rw [dynOut_value c value d hv pos just i false hd, Option.getD_some, if_neg (letters_ne_nil _ d hd), tail]
    simp only [Option.map_some, Option.toList_some, List.cons.injEq, and_true]
    have hf := posFlags_comment "DY".toList (by decide) pos i (justPieces just ++ textPieces value) (quiet_names value just)
      (by rw [← List.append_assoc]; exact pieces_colon value hv pos just i) c.noteSets false c.st.adj
    rw [hcen _ _ hn, ← List.append_assoc] at hf
    have hj := readJust_comment value hv pos just i
    unfold dynOutOf
    unfold dynComments at hj ⊢
    simp only [hf, hj]

theorem staffFor_in (staff count i : Nat) (h : staff + i < count) : staffFor staff count (-(i : Int)) = staff + i := by
  unfold staffFor
  omega

/-- C118. A dynamic above or below a staff of its part comes back on that staff, in its place, with its justification and, as C102 says, its text. -/
theorem dynamic_place_round_trip_partial (c : DynCtx) (hg : c.grace = false) (hn : ∀ h ∈ c.noteSets, h.ns2 ≠ "DY".toList) (hst : NoForce c.st)
    (value : Str) (hv : ':' ∉ value) (pos : DynPos) (hpos : pos ≠ .middle) (just : DynJust) (i : Nat) (hi : c.staff + i < c.count)
    (m n : Nat) (next : Option (List DynField)) :
    readDynamics c (aroundDynam m n (dynString value) (dynComments value (some pos) just i) next) =
      ((dynReadBack c.alpha value).map (fun v => (⟨v, c.staff + i, some pos, just⟩ : DynOut))).toList := by
  rw [dynamic_read c hg hn value hv (some pos) just i m n next]
  unfold NoForce at hst
  congr 2
  funext v
  cases pos with
  | middle => exact absurd rfl hpos
  | above => simp [posSaid, staffFor_in _ _ _ hi, dynamicPos]
  | below =>
    simp only [posSaid, staffFor_in _ _ _ hi, DynOut.mk.injEq, true_and, and_true]
    unfold dynamicPos dynForce
    rw [hst]
    cases c.st.defined <;> cases c.st.lyrics <;> decide

/-- C118. A dynamic that says nothing about its place, or stands in the middle under the top staff, is read on the top staff of its part, in the place
that is default there. -/
theorem unplaced_dynamic_default (c : DynCtx) (hg : c.grace = false) (hn : ∀ h ∈ c.noteSets, h.ns2 ≠ "DY".toList) (hst : NoForce c.st) (ha : c.st.adj = 0)
    (value : Str) (hv : ':' ∉ value) (pos : Option DynPos) (hpos : pos = none ∨ pos = some .middle) (just : DynJust) (i : Nat) (hi : c.staff < c.count)
    (m n : Nat) (next : Option (List DynField)) :
    readDynamics c (aroundDynam m n (dynString value) (dynComments value pos just i) next) =
      ((dynReadBack c.alpha value).map (fun v => (⟨v, c.staff, defaultPos c.st, just⟩ : DynOut))).toList := by
  rw [dynamic_read c hg hn value hv pos just i m n next]
  unfold NoForce at hst
  congr 2
  funext v
  have h0 : posSaid pos i (false, c.st.adj) false = (false, false, false, 0) := by
    rcases hpos with rfl | rfl <;> simp [posSaid, ha]
  have hs : staffFor c.staff c.count 0 = c.staff := by
    have := staffFor_in c.staff c.count 0 (by omega)
    simpa using this
  simp only [h0, hs, DynOut.mk.injEq, true_and, and_true]
  unfold dynamicPos dynForce defaultPos
  rw [hst]
  cases c.st.defined <;> cases c.st.lyrics <;> decide

/-- C118 fails: a dynamic on a lower staff of its part that says nothing about its place moves to the top staff. -/
theorem unplaced_dynamic_moves (c : DynCtx) (hg : c.grace = false) (hn : ∀ h ∈ c.noteSets, h.ns2 ≠ "DY".toList) (hst : NoForce c.st) (ha : c.st.adj = 0)
    (value : Str) (hv : ':' ∉ value) (just : DynJust) (i : Nat) (h0 : 0 < i) (hi : c.staff < c.count)
    (m n : Nat) (next : Option (List DynField)) :
    ∀ o ∈ readDynamics c (aroundDynam m n (dynString value) (dynComments value none just i) next), o.staff ≠ c.staff + i := by
  rw [unplaced_dynamic_default c hg hn hst ha value hv none (.inl rfl) just i hi m n next]
  intro o ho
  simp only [Option.mem_toList, Option.map_eq_some_iff, Option.mem_def] at ho
  obtain ⟨v, _, rfl⟩ := ho
  show c.staff ≠ c.staff + i
  omega

/-- C118 fails: a dynamic in the middle under a lower staff moves to the top staff, although it was written with its staff: the parameter is looked for
at the note instead of the **dynam token. -/
theorem middle_dynamic_moves (c : DynCtx) (hg : c.grace = false) (hn : ∀ h ∈ c.noteSets, h.ns2 ≠ "DY".toList) (hst : NoForce c.st) (ha : c.st.adj = 0)
    (value : Str) (hv : ':' ∉ value) (just : DynJust) (i : Nat) (h0 : 0 < i) (hi : c.staff < c.count)
    (m n : Nat) (next : Option (List DynField)) :
    posPieces (some .middle) i = ['c' :: '=' :: natStr (i + 1)] ∧
    ∀ o ∈ readDynamics c (aroundDynam m n (dynString value) (dynComments value (some .middle) just i) next), o.staff ≠ c.staff + i := by
  refine ⟨by simp [posPieces, staffSuffix, h0, Nat.pos_iff_ne_zero.1 h0], ?_⟩
  rw [unplaced_dynamic_default c hg hn hst ha value hv (some .middle) (.inr rfl) just i hi m n next]
  intro o ho
  simp only [Option.mem_toList, Option.map_eq_some_iff, Option.mem_def] at ho
  obtain ⟨v, _, rfl⟩ := ho
  show c.staff ≠ c.staff + i
  omega

/-! ### Hairpins -/

theorem hairpin_said (st : DynState) (staff count : Nat) (pos : Option DynPos) (i : Nat) :
    readHairpinPos st staff count (hairpinComments pos i) =
      (staffFor staff count (posSaid pos i (posParam "HP".toList "c".toList "Y".toList ((hairpinComments pos i).map (({} : HumParamSet).readString ·)) st.adj) false).2.2.2,
       hairpinPos st (posSaid pos i (posParam "HP".toList "c".toList "Y".toList ((hairpinComments pos i).map (({} : HumParamSet).readString ·)) st.adj) false).1
        (posSaid pos i (posParam "HP".toList "c".toList "Y".toList ((hairpinComments pos i).map (({} : HumParamSet).readString ·)) st.adj) false).2.1
        (posSaid pos i (posParam "HP".toList "c".toList "Y".toList ((hairpinComments pos i).map (({} : HumParamSet).readString ·)) st.adj) false).2.2.1) := by
  have hcol : ∀ q ∈ posPieces pos i ++ [], ':' ∉ q := by
    intro q hq
    rw [List.append_nil] at hq
    obtain ⟨c, hc, rfl⟩ := mem_posPieces pos i q hq
    intro hm
    rcases List.mem_cons.1 hm with rfl | hm
    · exact absurd hc (by decide)
    · exact suffix_colon i hm
  have hf := posFlags_comment "HP".toList (by decide) pos i [] (by simp) hcol ((hairpinComments pos i).map (({} : HumParamSet).readString ·)) false st.adj
  rw [List.append_nil] at hf
  unfold readHairpinPos
  rw [show (hairpinComments pos i) = dynComment "HP".toList (posPieces pos i) from rfl] at hf ⊢
  simp only [hf]

/-- C118. A hairpin above or below a staff of its part, or in the middle under a lower one, comes back on that staff and in that place. -/
theorem hairpin_place_round_trip_partial (st : DynState) (hst : NoForce st) (staff count : Nat) (pos : DynPos) (i : Nat)
    (hpos : pos = .middle → 0 < i) (hi : staff + i < count) :
    readHairpinPos st staff count (hairpinComments (some pos) i) = (staff + i, some pos) := by
  rw [hairpin_said]
  unfold NoForce at hst
  cases pos with
  | above =>
    simp only [posSaid, staffFor_in _ _ _ hi, Prod.mk.injEq, true_and]
    unfold hairpinPos dynForce
    rw [hst]
    cases st.defined <;> cases st.lyrics <;> decide
  | below =>
    simp only [posSaid, staffFor_in _ _ _ hi, Prod.mk.injEq, true_and]
    unfold hairpinPos dynForce
    rw [hst]
    cases st.defined <;> cases st.lyrics <;> decide
  | middle =>
    have h0 : i ≠ 0 := Nat.pos_iff_ne_zero.1 (hpos rfl)
    have hp : posPieces (some .middle) i = ['c' :: staffSuffix i] := by simp [posPieces, h0]
    have hc : posParam "HP".toList "c".toList "Y".toList ((hairpinComments (some .middle) i).map (({} : HumParamSet).readString ·)) st.adj = (true, -(i : Int)) := by
      unfold hairpinComments
      rw [hp, comment_set "HP".toList _ [] (by decide) (by
        intro q hq
        simp only [List.mem_cons, List.not_mem_nil, or_false] at hq
        subst hq
        intro hm
        rcases List.mem_cons.1 hm with hm | hm
        · exact absurd hm (by decide)
        · exact suffix_colon i hm), List.map_cons, nameValue_pos 'c' (by decide), posParam_one, posInSet, if_pos (by rfl)]
      simp only [paramAdj_staff]
    rw [hc]
    simp only [posSaid, staffFor_in _ _ _ hi, Prod.mk.injEq, true_and]
    unfold hairpinPos
    simp

/-- C118 fails: a hairpin in the middle under the top staff of its part is written like one without a place. -/
theorem middle_hairpin_lost (st : DynState) (staff count : Nat) :
    readHairpinPos st staff count (hairpinComments (some .middle) 0) = readHairpinPos st staff count (hairpinComments none 0) := rfl

/-! ### Interpretations -/

/-- The interpretations that set a place: what each sets. -/
def posInterps : List (Str × DynPos × Int) :=
  [("*above".toList, .above, 0), ("*above:2".toList, .above, -1), ("*below".toList, .below, 0), ("*below:2".toList, .below, -1),
   ("*center".toList, .middle, 0), ("*center:2".toList, .middle, -1)]

/-- C118. The place of the dynamics of a staff that say nothing themselves is set by the last interpretation for it, whatever came before. -/
theorem last_interpretation (st : DynState) (before after : List Str) (t : Str) (pos : DynPos) (adj : Int) (ht : (t, pos, adj) ∈ posInterps)
    (hafter : ∀ x ∈ after, x ∉ posInterps.map (·.1)) :
    ((before ++ t :: after).foldl dynInterp st).adj = adj ∧ dynamicPos ((before ++ t :: after).foldl dynInterp st) false false false = some pos ∧
    hairpinPos ((before ++ t :: after).foldl dynInterp st) false false false = some pos := by
  have skip : ∀ (l : List Str) (s : DynState), (∀ x ∈ l, x ∉ posInterps.map (·.1)) → l.foldl dynInterp s = s := by
    intro l
    induction l with
    | nil => intro s _; rfl
    | cons x l ih =>
      intro s h
      have hx := h x (by simp)
      simp only [posInterps, List.map_cons, List.map_nil, List.mem_cons, List.not_mem_nil, or_false, not_or] at hx
      obtain ⟨h1, h2, h3, h4, h5, h6⟩ := hx
      rw [List.foldl_cons, dynInterp, if_neg h1, if_neg h2, if_neg h4, if_neg h3, if_neg h5, if_neg h6]
      exact ih s (fun y hy => h y (List.mem_cons_of_mem _ hy))
  rw [List.foldl_append, List.foldl_cons, skip after _ hafter]
  generalize before.foldl dynInterp st = s
  simp only [posInterps, List.mem_cons, Prod.mk.injEq, List.not_mem_nil, or_false] at ht
  rcases ht with ⟨rfl, rfl, rfl⟩ | ⟨rfl, rfl, rfl⟩ | ⟨rfl, rfl, rfl⟩ | ⟨rfl, rfl, rfl⟩ | ⟨rfl, rfl, rfl⟩ | ⟨rfl, rfl, rfl⟩ <;>
    exact ⟨rfl, rfl, rfl⟩

/-- C118 fails: after `*above` a dynamic is above, even one that says it is below. -/
theorem interpretation_overrides (st : DynState) (h : 0 < st.pos) (below center : Bool) : dynamicPos st false below center = some .above := by
  unfold dynamicPos dynForce
  simp [h]

/-! ### Cases -/

/-- A grace note takes the dynamics of the staves above. -/
theorem grace_takes_other_dynamics :
    readDynamics { grace := true, staff := 1, count := 2, alpha := alphaEx } [.kern, .dynam "f".toList [] false] = [⟨"f".toList, 1, none, .none⟩] := by
  decide +kernel

/-- Two **dynam spines for one staff: the dynamic of the first is read again from an empty token of the second. -/
theorem dynamic_doubled :
    readDynamics { staff := 0, count := 1, alpha := alphaEx } [.dynam "f".toList [] false, .dynam ".".toList [] false] =
      [⟨"f".toList, 0, none, .none⟩, ⟨"f".toList, 0, none, .none⟩] := by
  decide +kernel

example : dynComments "sempre ff".toList (some .below) .right 1 = ["!LO:DY:b=2:rj:t=sempre %s".toList] := by decide +kernel

example : readDynamics { staff := 3, count := 6, alpha := alphaEx, st := { lyrics := true } }
    (aroundDynam 1 2 (dynString "sempre ff".toList) (dynComments "sempre ff".toList (some .below) .right 1) (some [.dynam "p".toList [] false])) =
      [⟨"sempre ff".toList, 4, some .below, .right⟩] := by decide +kernel

example : readDynamics { staff := 3, count := 6, alpha := alphaEx } (aroundDynam 0 0 "f".toList (dynComments "f".toList (some .middle) .none 1) none) =
      [⟨"f".toList, 3, none, .none⟩] := by decide +kernel

example : readHairpinPos {} 3 6 (hairpinComments (some .middle) 1) = (4, some .middle) := by decide +kernel

end C21
