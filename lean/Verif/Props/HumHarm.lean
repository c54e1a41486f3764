import Verif.Model.HumHarm
import Verif.Model.Harte
import Verif.Props.HumReh
import Verif.Props.HumLyrics
import Verif.Props.Signifier
import Verif.Lemmas.PyNum
import Mathlib.Data.List.Forall2
import Verif.Lemmas.Tac
/-
C115: chord symbols in Humdrum.
-/
namespace C21
open HumParamSet

/-! ### Specification -/

/-- A symbol that can be written and read: its text is one the reader knows and has no blank; full and kind texts can stand in a layout
comment as they are. -/
structure GoodHarm {α : Type} (parse : Str → Except PyErr (Option α)) (h : HarmIn) (a : α) : Prop where
  parsed : parse h.text = .ok (some a)
  oneWord : ' ' ∉ h.text
  placed : h.atEnd = false
  full : ∀ t, h.full = some t → t ≠ [] ∧ ':' ∉ t
  kind : ':' ∉ h.kind

/-- What comes back: the chord and its full text, and without a full text the text of the kind. -/
def HarmBack {α : Type} (parse : Str → Except PyErr (Option α)) (h : HarmIn) (o : HarmOut α) : Prop :=
  parse h.text = .ok (some o.chord) ∧ o.full = h.full ∧
  o.kind = if h.full = none ∧ h.kind ≠ [] then some h.kind else none

/-! ### The cell of a place -/

/-- The layout comments of symbols numbered from `i`. -/
def layoutsFrom (many : Bool) : Nat → List HarmIn → List Str
  | _, [] => []
  | i, h :: hs => harmLayout many i h ++ layoutsFrom many (i + 1) hs

theorem harmGo_other (many : Nat × Rat → Bool) (k : Nat × Rat) (hs : List HarmIn) (he : ∀ h ∈ hs, h.atEnd = false) :
    ∀ s : HarmState, (harmGo many s hs).cell k = (harmGo many s (hs.filter (fun h => (h.part, h.offset) = k))).cell k := by
  have key : ∀ (l : List HarmIn), (∀ h ∈ l, h.atEnd = false ∧ (h.part, h.offset) = k) → ∀ s s' : HarmState, s.cell k = s'.cell k → s.idx k = s'.idx k →
      (harmGo many s l).cell k = (harmGo many s' l).cell k := by
    intro l
    induction l with
    | nil => intro _ s s' h1 _; exact h1
    | cons h l ih =>
      intro hl s s' h1 h2
      obtain ⟨h3, h4⟩ := hl h (by simp)
      simp only [harmGo, h3]
      apply ih (fun x hx => hl x (List.mem_cons_of_mem _ hx))
      · simp only [harmStep, h4, if_true, h1, h2]
      · simp only [harmStep, h4, if_true, h2]
  induction hs with
  | nil => intro s; rfl
  | cons h hs ih =>
    intro s
    have h0 := he h (by simp)
    have hrest : ∀ x ∈ hs, x.atEnd = false := fun x hx => he x (List.mem_cons_of_mem _ hx)
    by_cases hk : (h.part, h.offset) = k
    · rw [List.filter_cons_of_pos (by simp [hk])]
      simp only [harmGo, h0]
      exact ih hrest _
    · rw [List.filter_cons_of_neg (by simp [hk])]
      simp only [harmGo, h0]
      rw [if_neg (by simp), ih hrest]
      apply key
      · intro x hx
        have := List.mem_filter.1 hx
        exact ⟨hrest x this.1, by simpa using this.2⟩
      · simp only [harmStep]
        rw [if_neg (fun e => hk e.symm)]
      · simp only [harmStep]
        rw [if_neg (fun e => hk e.symm)]

theorem harmGo_same (many : Nat × Rat → Bool) (k : Nat × Rat) (hs : List HarmIn) (he : ∀ h ∈ hs, h.atEnd = false ∧ (h.part, h.offset) = k) :
    ∀ (s : HarmState) (c : HarmCell), s.cell k = some c →
      (harmGo many s hs).cell k = some ⟨c.text ++ hs.flatMap (fun h => ' ' :: h.text),
        c.layouts ++ (if many k then layoutsFrom true (s.idx k) hs else hs.flatMap (harmLayout false (s.idx k)))⟩ := by
  induction hs with
  | nil =>
    intro s c hc
    simp only [harmGo, hc, List.flatMap_nil, List.append_nil, layoutsFrom]
    cases many k <;> simp
  | cons h hs ih =>
    intro s c hc
    obtain ⟨h0, hk⟩ := he h (by simp)
    simp only [harmGo, h0]
    rw [if_neg (by simp), ih (fun x hx => he x (List.mem_cons_of_mem _ hx)) (harmStep many s h)
      ⟨c.text ++ ' ' :: h.text, c.layouts ++ harmLayout (many k) (s.idx k) h⟩ (by
        simp only [harmStep, hk, if_true, hc, harmToken])]
    simp only [harmStep, hk, if_true]
    cases hm : many k
    · simp
    · simp [layoutsFrom]

theorem joinWith_flat (c : Char) (x : Str) (xs : List Str) : joinWith c (x :: xs) = x ++ xs.flatMap (fun y => c :: y) := by
  induction xs generalizing x with
  | nil => simp [joinWith]
  | cons y ys ih => rw [joinWith, ih y]; simp

/-- The cell of a place holds the texts of its symbols with blanks between, and their layout comments. -/
theorem writeHarm_cell (hs : List HarmIn) (k : Nat × Rat) (he : ∀ h ∈ hs, h.atEnd = false) :
    writeHarm hs k = match hs.filter (fun h => (h.part, h.offset) = k) with
      | [] => none
      | h :: l => some ⟨joinWith ' ' ((h :: l).map (·.text)), layoutsFrom (manyAt hs k) 1 (h :: l)⟩ := by
  unfold writeHarm
  rw [harmGo_other _ _ _ he]
  cases hf : hs.filter (fun h => (h.part, h.offset) = k) with
  | nil => rfl
  | cons h l =>
    have hmem : ∀ x ∈ h :: l, x.atEnd = false ∧ (x.part, x.offset) = k := by
      intro x hx
      rw [← hf] at hx
      have := List.mem_filter.1 hx
      exact ⟨he x this.1, by simpa using this.2⟩
    obtain ⟨h0, hk⟩ := hmem h (by simp)
    simp only [harmGo, h0]
    rw [if_neg (by simp), harmGo_same _ k l (fun x hx => hmem x (List.mem_cons_of_mem _ hx)) _ ⟨h.text, harmLayout (manyAt hs k) 1 h⟩ (by
      simp only [harmStep, hk, if_true, harmToken, List.nil_append])]
    simp only [harmStep, hk, if_true]
    rw [List.map_cons, joinWith_flat]
    congr 2
    · rw [List.flatMap_map]
    · cases hm : manyAt hs k
      · have hl : l = [] := by
          unfold manyAt at hm
          rw [hf] at hm
          simp only [List.length_cons, decide_eq_false_iff_not] at hm
          cases l with
          | nil => rfl
          | cons a b => simp at hm
        subst hl
        simp [layoutsFrom]
      · simp [layoutsFrom]

/-! ### The layout comments of a symbol -/

/-- The pieces of the comment. -/
def harmPieces (many : Bool) (i : Nat) (h : HarmIn) : List Str :=
  (if many then ["n=".toList ++ natStr i] else []) ++
  (match h.full with | some t => ["t=".toList ++ t] | none => []) ++
  (if h.kind = [] then [] else ["kt=".toList ++ h.kind])

theorem harmLayout_pieces (many : Bool) (i : Nat) (h : HarmIn) (hp : harmParams h ≠ []) :
    harmLayout many i h = ["!LO".toList ++ ("H".toList :: harmPieces many i h).flatMap (fun q => ':' :: q)] := by
  unfold harmLayout
  rw [if_neg hp]
  unfold harmPieces harmParams
  cases many <;> cases h.full <;> by_cases hk : h.kind = [] <;> simp [hk]

theorem read_pieces_one (ns2 p : Str) (ps : List Str) (h2 : ':' ∉ ns2) (h : ∀ q ∈ p :: ps, ':' ∉ q) :
    ({} : HumParamSet).readString ("!LO".toList ++ (ns2 :: p :: ps).flatMap (fun q => ':' :: q)) =
      ⟨"LO".toList, ns2, (p :: ps).map nameValue⟩ := by
  have hsk : skipBangs ("!LO".toList ++ (ns2 :: p :: ps).flatMap (fun q => ':' :: q)) =
      "LO".toList ++ (ns2 :: p :: ps).flatMap (fun q => ':' :: q) :=
    skipBangs_layout 1 _ ⟨'L', _, rfl, by decide⟩
  unfold HumParamSet.readString
  rw [hsk, splitOn_pieces _ _ _ (by decide) (by
    intro q hq
    rcases List.mem_cons.1 hq with rfl | hq
    · exact h2
    · exact h q hq)]
  rfl

/-- The set read from the comment. -/
def harmSet (many : Bool) (i : Nat) (h : HarmIn) : HumParamSet :=
  ⟨"LO".toList, "H".toList, (if many then [("n".toList, natStr i)] else []) ++
    (match h.full with | some t => [("t".toList, t)] | none => []) ++
    (if h.kind = [] then [] else [("kt".toList, h.kind)])⟩

theorem harmLayout_read (many : Bool) (i : Nat) (h : HarmIn) (hf : ∀ t, h.full = some t → t ≠ [] ∧ ':' ∉ t) (hk : ':' ∉ h.kind) :
    (harmLayout many i h).map (({} : HumParamSet).readString ·) = if harmParams h = [] then [] else [harmSet many i h] := by
  by_cases hp : harmParams h = []
  · rw [if_pos hp]
    unfold harmLayout
    rw [if_pos hp]
    rfl
  · rw [if_neg hp, harmLayout_pieces many i h hp]
    have hsafe : ∀ q ∈ harmPieces many i h, ':' ∉ q := by
      intro q hq
      unfold harmPieces at hq
      simp only [List.mem_append] at hq
      rcases hq with (hq | hq) | hq
      · cases many with
        | false => simp at hq
        | true =>
          simp only [if_true, List.mem_cons, List.not_mem_nil, or_false] at hq
          subst hq
          intro hm
          rcases List.mem_append.1 hm with hm | hm
          · exact absurd hm (by decide)
          · exact natStr_not_mem i ':' (by decide) hm
      · cases e : h.full with
        | none => rw [e] at hq; simp at hq
        | some t =>
          rw [e] at hq
          simp only [List.mem_cons, List.not_mem_nil, or_false] at hq
          subst hq
          intro hm
          rcases List.mem_append.1 hm with hm | hm
          · exact absurd hm (by decide)
          · exact (hf t e).2 hm
      · split at hq
        · simp at hq
        · simp only [List.mem_cons, List.not_mem_nil, or_false] at hq
          subst hq
          intro hm
          rcases List.mem_append.1 hm with hm | hm
          · exact absurd hm (by decide)
          · exact hk hm
    have hn : ∀ v, nameValue ("n=".toList ++ v) = ("n".toList, v) := fun v => nameValue_eq "n".toList v (by decide)
    have ht : ∀ v, nameValue ("t=".toList ++ v) = ("t".toList, v) := fun v => nameValue_eq "t".toList v (by decide)
    have hkt : ∀ v, nameValue ("kt=".toList ++ v) = ("kt".toList, v) := fun v => nameValue_eq "kt".toList v (by decide)
    have hne : harmPieces many i h ≠ [] := by
      intro e
      apply hp
      unfold harmPieces at e
      simp only [List.append_eq_nil_iff] at e
      obtain ⟨⟨_, e2⟩, e3⟩ := e
      unfold harmParams
      cases ef : h.full with
      | some t => rw [ef] at e2; simp at e2
      | none =>
        by_cases hk' : h.kind = []
        · simp [hk']
        · rw [if_neg hk'] at e3; simp at e3
    have hmap : (harmPieces many i h).map nameValue = (harmSet many i h).params := by
      unfold harmPieces harmSet
      cases many <;> cases h.full <;> by_cases hk' : h.kind = [] <;>
        simp only [hk', if_true, if_false, List.map_append, List.map_cons, List.map_nil, List.nil_append, List.append_nil, hn, ht, hkt, Bool.false_eq_true]
    cases hpc : harmPieces many i h with
    | nil => exact absurd hpc hne
    | cons p ps =>
      rw [hpc] at hsafe hmap
      rw [List.map_cons, List.map_nil, read_pieces_one _ _ _ (by decide) hsafe, hmap]
      rfl

/-- The value a symbol gives to a key. -/
def harmSays (key : Str) (h : HarmIn) : Str :=
  if key = "t".toList then h.full.getD [] else if key = "kt".toList then h.kind else []

theorem find_harmSet (many : Bool) (i : Nat) (h : HarmIn) (key : Str) (hkey : key = "t".toList ∨ key = "kt".toList) :
    (((harmSet many i h).params.find? (fun p => p.1 = key)).map (·.2)).getD [] = harmSays key h := by
  unfold harmSet harmSays
  rcases hkey with rfl | rfl <;> cases many <;> cases h.full <;> by_cases hk : h.kind = [] <;> simp [hk]

theorem setHasN_set (i : Nat) (j : Nat) (h : HarmIn) : setHasN (natStr j) (harmSet true i h) = decide (i = j) := by
  unfold setHasN harmSet
  have h0 : natStr j ≠ [] := natStr_ne_nil j
  have hx : ∀ l : List (Str × Str), (∀ p ∈ l, p.1 ≠ "n".toList) → (l.any fun p => p.1 = "n".toList && p.2 = natStr j) = false := by
    intro l hl
    rw [List.any_eq_false]
    intro p hp
    rw [decide_eq_false (hl p hp)]
    simp
  simp only [decide_eq_false h0, Bool.false_or, if_true, List.append_assoc, List.any_append, List.any_cons, List.any_nil, Bool.or_false]
  rw [hx (match h.full with | some t => [("t".toList, t)] | none => []) (by
    intro p hp
    cases e : h.full with
    | none => rw [e] at hp; simp at hp
    | some t => rw [e] at hp; simp only [List.mem_cons, List.not_mem_nil, or_false] at hp; subst hp; exact (by decide : "t".toList ≠ "n".toList)),
    hx (if h.kind = [] then [] else [("kt".toList, h.kind)]) (by
      intro p hp
      split at hp
      · simp at hp
      · simp only [List.mem_cons, List.not_mem_nil, or_false] at hp; subst hp; exact (by decide : "kt".toList ≠ "n".toList))]
  by_cases e : i = j
  · subst e; simp
  · have : natStr i ≠ natStr j := fun h => e (natStr_inj _ _ h)
    simp [e, this]

/-- Within numbered comments a number finds the texts of its own symbol only. -/
theorem layoutValue_numbered (key : Str) (hkey : key = "t".toList ∨ key = "kt".toList) (l : List HarmIn)
    (hok : ∀ h ∈ l, (∀ t, h.full = some t → t ≠ [] ∧ ':' ∉ t) ∧ ':' ∉ h.kind) (i j : Nat) :
    layoutValue "H".toList key (natStr j) ((layoutsFrom true i l).map (({} : HumParamSet).readString ·)) =
      if i ≤ j then ((l[j - i]?).map (harmSays key)).getD [] else [] := by
  induction l generalizing i with
  | nil => simp [layoutsFrom, layoutValue]
  | cons h l ih =>
    obtain ⟨hf, hk⟩ := hok h (by simp)
    have ih' := ih (fun x hx => hok x (List.mem_cons_of_mem _ hx)) (i + 1)
    rw [layoutsFrom, List.map_append, harmLayout_read true i h hf hk]
    have hrest : (if i + 1 ≤ j then ((l[j - (i + 1)]?).map (harmSays key)).getD [] else []) =
        if i ≤ j then (if i = j then [] else (((h :: l)[j - i]?).map (harmSays key)).getD []) else [] := by
      by_cases h1 : i ≤ j
      · by_cases h2 : i = j
        · rw [if_neg (by omega), if_pos h1, if_pos h2]
        · rw [if_pos (by omega), if_pos h1, if_neg h2]
          have : j - i = (j - (i + 1)) + 1 := by omega
          rw [this, List.getElem?_cons_succ]
      · rw [if_neg (by omega), if_neg h1]
    by_cases hp : harmParams h = []
    · rw [if_pos hp, List.nil_append, ih', hrest]
      by_cases h1 : i ≤ j
      · rw [if_pos h1, if_pos h1]
        by_cases h2 : i = j
        · rw [if_pos h2]
          subst h2
          have hs : harmSays key h = [] := by
            unfold harmParams at hp
            simp only [List.append_eq_nil_iff] at hp
            obtain ⟨p1, p2⟩ := hp
            have e1 : h.full = none := by
              cases e : h.full with
              | none => rfl
              | some t => rw [e] at p1; simp at p1
            have e2 : h.kind = [] := by
              by_contra hc
              rw [if_neg hc] at p2; simp at p2
            unfold harmSays
            rw [e1, e2]
            split <;> simp
          simp [hs]
        · rw [if_neg h2]
      · rw [if_neg h1, if_neg h1]
    · rw [if_neg hp]
      rw [List.singleton_append]
      rw [layoutValue, setHasN_set]
      by_cases h2 : i = j
      · subst h2
        rw [if_neg (by simp [harmSet])]
        rw [if_pos (le_refl i)]
        have hfind := find_harmSet true i h key hkey
        cases hfd : (harmSet true i h).params.find? (fun p => p.1 = key) with
        | some p => rw [hfd] at hfind; simpa using hfind
        | none =>
          rw [hfd] at hfind
          simp only
          rw [ih', if_neg (by omega)]
          simpa using hfind
      · rw [if_pos (by simp [h2]), ih', hrest]
        by_cases h1 : i ≤ j
        · rw [if_pos h1, if_neg h2, if_pos h1]
        · rw [if_neg h1, if_neg h1]

theorem layoutValue_single (key : Str) (hkey : key = "t".toList ∨ key = "kt".toList) (h : HarmIn)
    (hf : ∀ t, h.full = some t → t ≠ [] ∧ ':' ∉ t) (hk : ':' ∉ h.kind) :
    layoutValue "H".toList key [] ((layoutsFrom false 1 [h]).map (({} : HumParamSet).readString ·)) = harmSays key h := by
  have e : layoutsFrom false 1 [h] = harmLayout false 1 h := by simp [layoutsFrom]
  rw [e, harmLayout_read false 1 h hf hk]
  by_cases hp : harmParams h = []
  · rw [if_pos hp]
    unfold harmParams at hp
    simp only [List.append_eq_nil_iff] at hp
    obtain ⟨p1, p2⟩ := hp
    have e1 : h.full = none := by
      cases e : h.full with
      | none => rfl
      | some t => rw [e] at p1; simp at p1
    have e2 : h.kind = [] := by
      by_contra hc
      rw [if_neg hc] at p2; simp at p2
    unfold harmSays
    rw [e1, e2]
    simp [layoutValue]
  · rw [if_neg hp, layoutValue, if_neg (by simp [harmSet, setHasN])]
    have hfind := find_harmSet false 1 h key hkey
    cases hfd : (harmSet false 1 h).params.find? (fun p => p.1 = key) with
    | some p => rw [hfd] at hfind; simpa using hfind
    | none => rw [hfd] at hfind; simpa [layoutValue] using hfind

/-! ### The round trip -/

theorem harmTexts_back {α : Type} (parse : Str → Except PyErr (Option α)) (h : HarmIn) (a : α) (hg : GoodHarm parse h a)
    (sets : List HumParamSet) (n : Str) (ht : layoutValue "H".toList "t".toList n sets = harmSays "t".toList h)
    (hk : layoutValue "H".toList "kt".toList n sets = harmSays "kt".toList h) : HarmBack parse h (harmTexts sets n a) := by
  have e1 : harmSays "t".toList h = h.full.getD [] := if_pos rfl
  have e2 : harmSays "kt".toList h = h.kind := by
    unfold harmSays
    rw [if_neg (by decide), if_pos rfl]
  unfold HarmBack harmTexts
  rw [ht, hk, e1, e2]
  cases ef : h.full with
  | some t => simp [(hg.full t ef).1, hg.parsed]
  | none => by_cases hk' : h.kind = [] <;> simp [hk', hg.parsed]

theorem harmLoop_numbered {α : Type} (parse : Str → Except PyErr (Option α)) (all : List HarmIn)
    (hok : ∀ h ∈ all, ∃ a, GoodHarm parse h a) : ∀ (l pre : List HarmIn), all = pre ++ l →
    ∃ outs, harmLoop parse ((layoutsFrom true 1 all).map (({} : HumParamSet).readString ·)) true pre.length (l.map (·.text)) = .ok outs ∧
      List.Forall₂ (HarmBack parse) l outs := by
  intro l
  induction l with
  | nil => intro pre _; exact ⟨[], rfl, List.Forall₂.nil⟩
  | cons h l ih =>
    intro pre e
    obtain ⟨outs, ho, hf⟩ := ih (pre ++ [h]) (by simp [e])
    obtain ⟨a, ha⟩ := hok h (by simp [e])
    have hall : ∀ x ∈ all, (∀ t, x.full = some t → t ≠ [] ∧ ':' ∉ t) ∧ ':' ∉ x.kind := by
      intro x hx
      obtain ⟨b, hb⟩ := hok x hx
      exact ⟨hb.full, hb.kind⟩
    have hval : ∀ key, key = "t".toList ∨ key = "kt".toList →
        layoutValue "H".toList key (natStr (pre.length + 1)) ((layoutsFrom true 1 all).map (({} : HumParamSet).readString ·)) = harmSays key h := by
      intro key hkey
      rw [layoutValue_numbered key hkey all hall 1 (pre.length + 1), if_pos (by omega)]
      have : all[pre.length + 1 - 1]? = some h := by rw [e]; simp
      rw [this]
      rfl
    refine ⟨harmTexts _ (natStr (pre.length + 1)) a :: outs, ?_, List.Forall₂.cons (harmTexts_back parse h a ha _ _ (hval _ (Or.inl rfl)) (hval _ (Or.inr rfl))) hf⟩
    rw [List.length_append, List.length_singleton] at ho
    rw [List.map_cons, harmLoop, ha.parsed]
    simp only [if_true]
    rw [ho]

theorem infix_join (w : Str) (c : Char) (hc : c ∉ w) (hw : w ≠ []) (l : List Str) (hl : ∀ x ∈ l, isInfix w x = false) : isInfix w (joinWith c l) = false := by
  induction l with
  | nil => cases w with
    | nil => exact absurd rfl hw
    | cons a b => rfl
  | cons x xs ih =>
    cases xs with
    | nil => exact hl x (by simp)
    | cons y ys =>
      rw [joinWith, isInfix_split w _ _ c hc hw, hl x (by simp), ih (fun z hz => hl z (List.mem_cons_of_mem _ hz))]
      rfl

/-- C115. The chord symbols of a measure: at every place of every part the spine holds exactly the symbols put there, and reading them back
gives them in order, each with its own full text, or the text of its kind where there is no full text. -/
theorem harmony_round_trip_partial {α : Type} (parse : Str → Except PyErr (Option α)) (hs : List HarmIn)
    (hg : ∀ h ∈ hs, ∃ a, GoodHarm parse h a) (hdot : ∀ h ∈ hs, h.text ≠ ['.']) (hyy : ∀ h ∈ hs, isInfix "yy".toList h.text = false)
    (part : Nat) (offset : Rat) (here : List HarmIn) (hh : here = hs.filter (fun h => h.part = part ∧ h.offset = offset)) :
    (here = [] → writeHarm hs (part, offset) = none) ∧
    (here ≠ [] → ∃ c outs, writeHarm hs (part, offset) = some c ∧ readHarm parse false c = .ok outs ∧ List.Forall₂ (HarmBack parse) here outs) := by
  have he : ∀ h ∈ hs, h.atEnd = false := fun h hx => (hg h hx).choose_spec.placed
  have hfil : hs.filter (fun h => (h.part, h.offset) = (part, offset)) = here := by
    rw [hh]
    apply List.filter_congr
    intro x _
    simp
  rw [writeHarm_cell hs (part, offset) he, hfil]
  have hmem : ∀ x ∈ here, x ∈ hs := by
    intro x hx
    rw [hh] at hx
    exact (List.mem_filter.1 hx).1
  have hmany : manyAt hs (part, offset) = decide (1 < here.length) := by
    unfold manyAt
    rw [hfil]
  clear hh hfil
  constructor
  · intro e
    rw [e]
  · intro hne
    cases here with
    | nil => exact absurd rfl hne
    | cons h l =>
      refine ⟨⟨joinWith ' ' ((h :: l).map (·.text)), layoutsFrom (manyAt hs (part, offset)) 1 (h :: l)⟩, ?_⟩
      have hsplit : splitOn ' ' (joinWith ' ' ((h :: l).map (·.text))) = (h :: l).map (·.text) := by
        apply splitOn_joinWith
        · simp
        · intro p hp
          obtain ⟨x, hx, rfl⟩ := List.mem_map.1 hp
          obtain ⟨a, ha⟩ := hg x (hmem x hx)
          exact ha.oneWord
      have h1 : joinWith ' ' ((h :: l).map (·.text)) ≠ ['.'] := by
        intro e
        rw [e] at hsplit
        have e2 : splitOn ' ' ['.'] = [['.']] := by decide
        rw [e2] at hsplit
        simp only [List.map_cons, List.cons.injEq] at hsplit
        exact hdot h (hmem h (by simp)) hsplit.1.symm
      have h2 : isInfix "yy".toList (joinWith ' ' ((h :: l).map (·.text))) = false := by
        apply infix_join _ _ (by decide) (by decide)
        intro x hx
        obtain ⟨y, hy, rfl⟩ := List.mem_map.1 hx
        exact hyy y (hmem y hy)
      suffices hs : ∃ outs, harmLoop parse ((layoutsFrom (manyAt hs (part, offset)) 1 (h :: l)).map (({} : HumParamSet).readString ·))
          (decide (1 < (h :: l).length)) 0 ((h :: l).map (·.text)) = .ok outs ∧ List.Forall₂ (HarmBack parse) (h :: l) outs by
        obtain ⟨outs, ho, hf⟩ := hs
        refine ⟨outs, rfl, ?_, hf⟩
        unfold readHarm
        simp only
        rw [if_neg h1, h2, if_neg (by simp), hsplit, List.length_map]
        exact ho
      rw [hmany]
      cases l with
      | nil =>
        obtain ⟨a, ha⟩ := hg h (hmem h (by simp))
        refine ⟨[harmTexts ((layoutsFrom false 1 [h]).map (({} : HumParamSet).readString ·)) [] a], ?_,
          List.Forall₂.cons (harmTexts_back parse h a ha _ _ (layoutValue_single _ (Or.inl rfl) h ha.full ha.kind)
            (layoutValue_single _ (Or.inr rfl) h ha.full ha.kind)) List.Forall₂.nil⟩
        rw [decide_eq_false (by simp)]
        simp only [List.map_cons, List.map_nil, harmLoop, ha.parsed, Bool.false_eq_true, if_false]
      | cons h' l =>
        rw [decide_eq_true (by simp)]
        exact harmLoop_numbered parse (h :: h' :: l) (fun x hx => hg x (hmem x hx)) (h :: h' :: l) [] rfl

/-- Two symbols at one place of part 0, the second with a full text, and one symbol of part 1 with a text for its kind. -/
def harmSample : List HarmIn :=
  [⟨0, 0, false, "C:maj".toList, none, "M".toList⟩, ⟨1, 1, false, "G:7".toList, none, "7".toList⟩,
   ⟨0, 0, false, "D:min".toList, some "Dm or so".toList, []⟩]

example : (∀ h ∈ harmSample, ∃ a, GoodHarm (fun t => .ok (some t)) h a) ∧ (∀ h ∈ harmSample, h.text ≠ ['.']) ∧
    ∀ h ∈ harmSample, isInfix "yy".toList h.text = false := by
  refine ⟨?_, by decide, by decide⟩
  intro h hh
  refine ⟨h.text, rfl, ?_, ?_, ?_, ?_⟩ <;> revert h <;> simp only [harmSample, List.forall_mem_cons] <;> simp

example : writeHarm harmSample (0, 0) = some ⟨"C:maj D:min".toList, ["!LO:H:n=1:kt=M".toList, "!LO:H:n=2:t=Dm or so".toList]⟩ ∧
    writeHarm harmSample (1, 1) = some ⟨"G:7".toList, ["!LO:H:kt=7".toList]⟩ ∧ writeHarm harmSample (1, 0) = none := by decide +kernel

theorem layoutValue_skip (ns2 key n : Str) (s : HumParamSet) (hs : s.ns1 ≠ "LO".toList ∨ s.ns2 ≠ ns2) (a b : List HumParamSet) :
    layoutValue ns2 key n (a ++ s :: b) = layoutValue ns2 key n (a ++ b) := by
  induction a with
  | nil =>
    rw [List.nil_append, List.nil_append, layoutValue, if_pos]
    rcases hs with h | h
    · rw [decide_eq_true h]
      simp
    · simp [h]
  | cons x a ih => simp only [List.cons_append, layoutValue, ih]

theorem harmLoop_congr {α : Type} (parse : Str → Except PyErr (Option α)) (s s' : List HumParamSet) (many : Bool)
    (h : ∀ key n, layoutValue "H".toList key n s = layoutValue "H".toList key n s') (ts : List Str) : ∀ n : Nat,
    harmLoop parse s many n ts = harmLoop parse s' many n ts := by
  have ht : ∀ n (a : α), harmTexts s n a = harmTexts s' n a := by
    intro n a
    unfold harmTexts
    rw [h, h]
  induction ts with
  | nil => intro n; rfl
  | cons t ts ih => intro n; simp only [harmLoop, ih, ht]

/-- C115. Layout comments of other things at the same token have no influence. -/
theorem other_comments_ignored {α : Type} (parse : Str → Except PyErr (Option α)) (hidden : Bool) (t x : Str) (l1 l2 : List Str)
    (hx : (({} : HumParamSet).readString x).ns1 ≠ "LO".toList ∨ (({} : HumParamSet).readString x).ns2 ≠ "H".toList) :
    readHarm parse hidden ⟨t, l1 ++ x :: l2⟩ = readHarm parse hidden ⟨t, l1 ++ l2⟩ := by
  unfold readHarm
  simp only
  congr 2
  apply harmLoop_congr
  intro key n
  rw [List.map_append, List.map_append, List.map_cons]
  exact layoutValue_skip _ _ _ _ hx _ _

example : (({} : HumParamSet).readString "!LO:DY:t=x".toList).ns2 ≠ "H".toList := by decide

/-- C115. Symbols of a hidden spine, and tokens marked as hidden by `yy`, are not read. -/
theorem hidden_symbols_not_read {α : Type} (parse : Str → Except PyErr (Option α)) (hidden : Bool) (c : HarmCell)
    (h : hidden = true ∨ "yy".toList <:+: c.text) : readHarm parse hidden c = .ok [] := by
  unfold readHarm
  split
  · rfl
  · rw [if_pos]
    rcases h with h | h
    · simp [h]
    · rw [(isInfix_iff _ _).2 h]
      simp

/-! ### What goes wrong -/

/-- C115 (negated part). A symbol at the very end of a measure cannot be written, and every symbol after it in the list, at whatever place and
in whatever part, is lost with it. -/
theorem end_symbol_drops_rest (hs rest : List HarmIn) (h : HarmIn) (hend : h.atEnd = true) (k : Nat × Rat)
    (hk : ∀ x ∈ hs, (x.part, x.offset) ≠ k) : writeHarm (hs ++ h :: rest) k = none := by
  unfold writeHarm
  generalize manyAt _ = many
  have : ∀ s : HarmState, s.cell k = none → (harmGo many s (hs ++ h :: rest)).cell k = none := by
    induction hs with
    | nil => intro s e; simp [harmGo, hend, e]
    | cons x xs ih =>
      intro s e
      rw [List.cons_append, harmGo]
      split
      · exact e
      · apply ih (fun y hy => hk y (List.mem_cons_of_mem _ hy))
        simp only [harmStep]
        rw [if_neg (fun e' => hk x (by simp) e'.symm), e]
  exact this _ rfl

/-- A symbol at the end of part 0's measure loses the symbol at the start of part 1's. -/
example : writeHarm [⟨0, 0, false, ['C'], none, []⟩, ⟨0, 4, true, ['D'], none, []⟩, ⟨1, 0, false, ['E'], none, []⟩] (1, 0) = none ∧
    writeHarm [⟨0, 0, false, ['C'], none, []⟩, ⟨0, 4, true, ['D'], none, []⟩, ⟨1, 0, false, ['E'], none, []⟩] (0, 0) = some ⟨['C'], []⟩ := by
  decide +kernel

/-- C115 (negated part). Where a symbol has both texts, the text of the kind is written but not read. -/
theorem kind_text_lost {α : Type} (sets : List HumParamSet) (n : Str) (a : α) (h : layoutValue "H".toList "t".toList n sets ≠ []) :
    (harmTexts sets n a).kind = none := by
  unfold harmTexts
  simp only
  rw [if_pos h]

example : (readHarm (fun t => .ok (some t)) false ⟨"C:maj".toList, ["!LO:H:t=Do:kt=M".toList]⟩).toOption =
    some [⟨"C:maj".toList, some "Do".toList, none⟩] ∧
    writeHarm [⟨0, 0, false, "C:maj".toList, some "Do".toList, "M".toList⟩] (0, 0) = some ⟨"C:maj".toList, ["!LO:H:t=Do:kt=M".toList]⟩ := by
  decide +kernel

/-- The chord texts of `**harte` that this example needs: `.` is no chord. -/
def dotParse (t : Str) : Except PyErr (Option Str) := if t = ['.'] then .ok none else .ok (some t)

/-- Harte's reader, too, takes `.` for no chord. -/
example (kinds : List (Str × Str)) : readHarte kinds ['.'] = .ok none := rfl

/-- C115 (negated part). A chord that has no text in Harte's notation is written as `.`, counted by the writer and not by the reader, so that
the next symbol at its place gets its texts. -/
theorem unnamed_chord_shifts_texts :
    writeHarm [⟨0, 0, false, ['.'], none, "odd".toList⟩, ⟨0, 0, false, "C:maj".toList, none, "M".toList⟩] (0, 0) =
      some ⟨". C:maj".toList, ["!LO:H:n=1:kt=odd".toList, "!LO:H:n=2:kt=M".toList]⟩ ∧
    (readHarm dotParse false ⟨". C:maj".toList, ["!LO:H:n=1:kt=odd".toList, "!LO:H:n=2:kt=M".toList]⟩).toOption =
      some [⟨"C:maj".toList, none, some "odd".toList⟩] := by
  decide +kernel

/-- C115 (negated part). Texts are not escaped: a colon cuts a text short. -/
theorem harmony_text_cut :
    writeHarm [⟨0, 0, false, "C:maj".toList, some "Do: major".toList, []⟩] (0, 0) = some ⟨"C:maj".toList, ["!LO:H:t=Do: major".toList]⟩ ∧
    (readHarm (fun t => .ok (some t)) false ⟨"C:maj".toList, ["!LO:H:t=Do: major".toList]⟩).toOption =
      some [⟨"C:maj".toList, some "Do".toList, none⟩] := by
  decide +kernel

/-! ### The staff of a symbol -/

/-- Neither `**kern` nor `**mens`. -/
def NotStaff {β : Type} : HarmTok β → Prop
  | .kern _ => False
  | .mens => False
  | _ => True

/-- The symbols of a line, in order. -/
def harmsOf {β : Type} (l : List (HarmTok β)) : List β := l.filterMap fun | .harm c => some c | _ => none

theorem harmLine_run {β : Type} (active : Bool) (tr : Nat) (l : List (HarmTok β)) (h : ∀ x ∈ l, NotStaff x) :
    harmLine active tr l = if active then (harmsOf l).map (fun c => (tr, c)) else [] := by
  induction l with
  | nil => cases active <;> rfl
  | cons x l ih =>
    have hx := h x (by simp)
    have ih' := ih (fun y hy => h y (List.mem_cons_of_mem _ hy))
    cases x with
    | kern t => exact absurd hx id
    | mens => exact absurd hx id
    | harm c => cases active <;> simp_all [harmLine, harmsOf]
    | other => cases active <;> simp_all [harmLine, harmsOf]

theorem harmLine_append {β : Type} (pre l : List (HarmTok β)) (s : HarmTok β) (hs : ¬ NotStaff s) (active : Bool) (tr : Nat) :
    harmLine active tr (pre ++ s :: l) = harmLine active tr pre ++ harmLine true 0 (s :: l) := by
  induction pre generalizing active tr with
  | nil =>
    cases s with
    | kern t => rfl
    | mens =>
      have hm : ∀ (l : List (HarmTok β)) (a b : Nat), harmLine false a l = harmLine false b l := by
        intro l
        induction l with
        | nil => intro a b; rfl
        | cons x l ih =>
          intro a b
          cases x with
          | kern t => rfl
          | mens => exact ih a b
          | harm c => simpa [harmLine] using ih a b
          | other => exact ih a b
      simpa [harmLine] using hm l tr 0
    | harm c => exact absurd trivial hs
    | other => exact absurd trivial hs
  | cons x pre ih =>
    cases x with
    | kern t => simp only [List.cons_append, harmLine, ih]
    | mens => simp only [List.cons_append, harmLine, ih]
    | other => simp only [List.cons_append, harmLine, ih]
    | harm c => cases active <;> simp [List.cons_append, harmLine, ih]

/-- C115. A symbol goes to the staff of the nearest `**kern` spine to its left. -/
theorem symbol_follows_kern {β : Type} (pre run : List (HarmTok β)) (t : Nat) (hr : ∀ x ∈ run, NotStaff x) :
    harmLine true 0 (pre ++ .kern t :: run) = harmLine true 0 pre ++ (harmsOf run).map (fun c => (t, c)) := by
  rw [harmLine_append pre run (.kern t) id, harmLine, harmLine_run true t run hr, if_pos rfl]

/-- C115. Symbols after a `**mens` spine are left out. -/
theorem symbol_after_mens_dropped {β : Type} (pre run : List (HarmTok β)) (hr : ∀ x ∈ run, NotStaff x) :
    harmLine true 0 (pre ++ .mens :: run) = harmLine true 0 pre := by
  rw [harmLine_append pre run .mens id, harmLine, harmLine_run false 0 run hr, if_neg (by simp), List.append_nil]

/-- C115 (negated part). A symbol with no staff to its left is kept, with track 0, for which the reader knows no staff: its table has -1 there,
which Python takes for the last, that is the bottom, staff. -/
theorem symbol_before_staves {β : Type} (run : List (HarmTok β)) (hr : ∀ x ∈ run, NotStaff x) :
    harmLine true 0 run = (harmsOf run).map (fun c => (0, c)) := by
  rw [harmLine_run true 0 run hr, if_pos rfl]

example : harmLine true 0 [.harm 'a', .kern 2, .other, .harm 'b', .mens, .harm 'c', .kern 5, .harm 'd', .harm 'e'] =
    [(0, 'a'), (2, 'b'), (5, 'd'), (5, 'e')] := by decide

/-! ### `**mxhm` -/

/-- A word: no blank, no slash. -/
def MxWord (w : Str) : Prop := ∀ c ∈ w, isPySpace c = false ∧ c ≠ '/'

/-- A table of aliases as music21 has it: each alias once, an alias of a kind that is no alias itself. -/
structure AliasTable (aliases : List (Str × Str)) : Prop where
  once : (aliases.map (·.1)).Nodup
  noChain : ∀ p ∈ aliases, ∀ q ∈ aliases, p.2 ≠ q.1
  words : ∀ p ∈ aliases, p.1 ≠ [] ∧ MxWord p.1

theorem lookup_of_mem (l : List (Str × Str)) (hn : (l.map (·.1)).Nodup) (p : Str × Str) (hp : p ∈ l) : l.lookup p.1 = some p.2 := by
  induction l with
  | nil => simp at hp
  | cons q l ih =>
    simp only [List.map_cons, List.nodup_cons] at hn
    rcases List.mem_cons.1 hp with rfl | hp
    · rw [List.lookup_cons_self]
    · have : p.1 ≠ q.1 := fun e => hn.1 (by rw [← e]; exact List.mem_map.2 ⟨p, hp, rfl⟩)
      rw [List.lookup_cons, beq_false_of_ne this]
      exact ih hn.2 hp

theorem lookup_none_keys (l : List (Str × Str)) (k : Str) (h : ∀ p ∈ l, p.1 ≠ k) : l.lookup k = none := by
  induction l with
  | nil => rfl
  | cons q l ih =>
    rw [List.lookup_cons, beq_false_of_ne (fun e => h q (by simp) e.symm)]
    exact ih (fun p hp => h p (List.mem_cons_of_mem _ hp))

theorem mxAlias_spec (aliases : List (Str × Str)) (kind : Str) (hc : ∀ p ∈ aliases, ∀ q ∈ aliases, p.2 ≠ q.1) :
    ((∃ p ∈ aliases, p.2 = kind) → ∃ p ∈ aliases, p.2 = kind ∧ mxAlias aliases kind = p.1) ∧
    ((¬ ∃ p ∈ aliases, p.2 = kind) → mxAlias aliases kind = kind) := by
  have stay : ∀ (l : List (Str × Str)) (k : Str), (∀ p ∈ l, p.2 ≠ k) → l.foldl (fun k p => if p.2 = k then p.1 else k) k = k := by
    intro l
    induction l with
    | nil => intro k _; rfl
    | cons q l ih =>
      intro k h
      rw [List.foldl_cons, if_neg (h q (by simp))]
      exact ih k (fun p hp => h p (List.mem_cons_of_mem _ hp))
  refine ⟨?_, fun h => stay _ _ (fun p hp e => h ⟨p, hp, e⟩)⟩
  have key : ∀ (l : List (Str × Str)), (∀ p ∈ l, p ∈ aliases) → (∃ p ∈ l, p.2 = kind) →
      ∃ p ∈ aliases, p.2 = kind ∧ l.foldl (fun k p => if p.2 = k then p.1 else k) kind = p.1 := by
    intro l
    induction l with
    | nil => rintro _ ⟨p, hp, _⟩; simp at hp
    | cons q l ih =>
      intro hl hex
      rw [List.foldl_cons]
      by_cases hq : q.2 = kind
      · rw [if_pos hq]
        exact ⟨q, hl q (by simp), hq, stay l q.1 (fun p hp => hc p (hl p (List.mem_cons_of_mem _ hp)) q (hl q (by simp)))⟩
      · rw [if_neg hq]
        apply ih (fun p hp => hl p (List.mem_cons_of_mem _ hp))
        obtain ⟨p, hp, e⟩ := hex
        rcases List.mem_cons.1 hp with rfl | hp
        · exact absurd e hq
        · exact ⟨p, hp, e⟩
  exact key aliases (fun p hp => hp)

/-- C115. The older `**mxhm` texts: root, kind and a bass other than the root are read back from what is written. -/
theorem mxhm_round_trip (aliases : List (Str × Str)) (ha : AliasTable aliases) (types : List Str) (root kind bass noResult : Str)
    (hr : root ≠ [] ∧ MxWord root) (hk : kind ≠ [] ∧ MxWord kind) (hb : MxWord bass) (ht : kind ∈ types) (hka : ∀ p ∈ aliases, p.1 ≠ kind) :
    (readMxhm aliases types (writeMxhm aliases root kind bass noResult)).toOption =
      some (.chord root kind (if bass = root then [] else bass)) := by
  obtain ⟨k, hkdef⟩ : ∃ k, k = mxAlias aliases kind := ⟨_, rfl⟩
  have hword : k ≠ [] ∧ MxWord k ∧ mxKind aliases k = kind := by
    obtain ⟨s1, s2⟩ := mxAlias_spec aliases kind ha.noChain
    by_cases hex : ∃ p ∈ aliases, p.2 = kind
    · obtain ⟨p, hp, e1, e2⟩ := s1 hex
      rw [hkdef, e2]
      refine ⟨(ha.words p hp).1, (ha.words p hp).2, ?_⟩
      unfold mxKind
      rw [lookup_of_mem aliases ha.once p hp]
      exact e1
    · rw [hkdef, s2 hex]
      refine ⟨hk.1, hk.2, ?_⟩
      unfold mxKind
      rw [lookup_none_keys aliases kind hka]
      rfl
  obtain ⟨hk1, hk2, hk3⟩ := hword
  have hws : ∀ w, MxWord w → ∀ c ∈ w, isPySpace c = false := fun w hw c hc => (hw c hc).1
  have hns : ∀ w, MxWord w → '/' ∉ w := fun w hw hc => (hw '/' hc).2 rfl
  have htc : types.contains kind = true := by simpa using ht
  obtain ⟨w, hw⟩ : ∃ w, w = k ++ (if bass ≠ [] ∧ bass ≠ root then '/' :: bass else []) := ⟨_, rfl⟩
  have hwne : w ≠ [] := by rw [hw]; simp [hk1]
  have hout : writeMxhm aliases root kind bass noResult = root ++ ' ' :: w := by
    unfold writeMxhm
    simp only
    rw [← hkdef, if_pos (⟨hr.1, hk1⟩ : root ≠ [] ∧ k ≠ [])]
    generalize (if bass ≠ [] ∧ bass ≠ root then '/' :: bass else []) = tail at hw ⊢
    rw [if_neg (by simp [hr.1]), hw]
    simp
  have hwsp : ∀ c ∈ w, isPySpace c = false := by
    intro c hc
    rw [hw] at hc
    rcases List.mem_append.1 hc with hc | hc
    · exact (hk2 c hc).1
    · split at hc
      · rcases List.mem_cons.1 hc with rfl | hc
        · decide
        · exact (hb c hc).1
      · simp at hc
  have hsplit : (splitBlanks (root ++ ' ' :: w)).filter (fun w => !w.isEmpty) = [root, w] := by
    rw [(splitBlanks_word root (hws root hr.2) w).1, (splitBlanks_word w hwsp []).2, List.filter_eq_self.2]
    intro x hx
    simp only [List.mem_cons, List.not_mem_nil, or_false] at hx
    rcases hx with rfl | rfl
    · cases x with
      | nil => exact absurd rfl hr.1
      | cons => rfl
    · cases x with
      | nil => exact absurd rfl hwne
      | cons => rfl
  have hnone : root ++ ' ' :: w ≠ "none".toList := by
    intro e
    have : ' ' ∈ "none".toList := by rw [← e]; simp
    exact absurd this (by decide)
  rw [hout]
  unfold readMxhm
  rw [if_neg hnone, hsplit]
  by_cases hbr : bass ≠ [] ∧ bass ≠ root
  · rw [if_pos hbr] at hw
    have hcont : ([w].head?.getD []).contains '/' = true := by show w.contains '/' = true; rw [hw]; simp
    have hsl : splitOn '/' ([w].head?.getD []) = [k, bass] := by
      show splitOn '/' w = _
      rw [hw, splitOn_append_sep _ _ _ (hns k hk2), splitOn_of_not_mem _ _ (hns bass hb)]
    simp only
    rw [if_pos hcont, hsl]
    simp only [hk3, htc, if_true]
    rw [if_neg hbr.2]
    rfl
  · rw [if_neg hbr, List.append_nil] at hw
    have hcont : ¬ ([w].head?.getD []).contains '/' = true := by
      show ¬ w.contains '/' = true
      rw [hw]
      simpa using hns k hk2
    have hkw : mxKind aliases ([w].head?.getD []) = kind := by
      show mxKind aliases w = kind
      rw [hw, hk3]
    have : (if bass = root then [] else bass) = [] := by
      by_cases e : bass = root
      · rw [if_pos e]
      · rw [if_neg e]
        by_contra hc
        exact hbr ⟨hc, e⟩
    simp only
    rw [if_neg hcont, hkw, if_pos htc, this]
    rfl

/-- Part of music21's table. -/
def sampleAliases : List (Str × Str) := [("dominant".toList, "dominant-seventh".toList), ("maj".toList, "major".toList)]

example : AliasTable sampleAliases where
  once := by decide
  noChain := by decide
  words := by
    intro p hp
    simp only [sampleAliases, List.mem_cons, List.not_mem_nil, or_false] at hp
    unfold MxWord
    rcases hp with rfl | rfl <;> decide

example : writeMxhm sampleAliases "C".toList "dominant-seventh".toList "E".toList [] = "C dominant/E".toList := by decide

/-- C115 (negated part). A chord without a kind is written as its root alone, which is read as nothing; with another bass, root and bass
together are taken for the root. -/
theorem kindless_mxhm_lost :
    writeMxhm sampleAliases "C".toList [] "C".toList [] = "C".toList ∧
    (readMxhm sampleAliases ["major".toList] "C".toList).toOption = some .skip ∧
    writeMxhm sampleAliases "C".toList [] "D".toList [] = "C/D".toList ∧
    (readMxhm sampleAliases ["major".toList, []] "C/D".toList).toOption = some (.chord "C/D".toList [] []) := by
  decide

/-- C115 (negated part). A `**mxhm` token of nothing but blanks stops the import. -/
theorem blank_mxhm_crashes (aliases : List (Str × Str)) (types : List Str) (s : Str) (h : ∀ c ∈ s, isPySpace c = true) :
    readMxhm aliases types s = .error .indexError := by
  have hsp : ∀ s : Str, (∀ c ∈ s, isPySpace c = true) → ∀ w ∈ splitBlanks s, w = [] := by
    intro s
    induction s with
    | nil => intro _ w hw; simpa [splitBlanks] using hw
    | cons c s ih =>
      intro h w hw
      rw [splitBlanks, if_pos (h c (by simp))] at hw
      rcases List.mem_cons.1 hw with e | hw
      · exact e
      · exact ih (fun x hx => h x (List.mem_cons_of_mem _ hx)) w hw
  have hf : (splitBlanks s).filter (fun w => !w.isEmpty) = [] := by
    rw [List.filter_eq_nil_iff]
    intro w hw
    simp [hsp s h w hw]
  unfold readMxhm
  rw [hf, if_neg]
  intro e
  have := h 'n' (by rw [e]; decide)
  exact absurd this (by decide)

end C21
