import Verif.Model.HumSlurs
import Verif.Props.SlurRecord
import Verif.Props.Slur
import Verif.Props.KernPitch
import Mathlib.Data.List.Perm.Basic
import Mathlib.Data.List.Pairwise
import Mathlib.Data.List.Range
/-
C111: slurs written to Humdrum and read back.
-/
namespace C21

/-! ### The texts -/

/-- The rest of a token: no slur or elision marks, not empty, and its first character belongs to neither a placement, a hidden slur,
nor a token that is not data. -/
structure SlurBody (b : Str) : Prop where
  marks : ∀ c ∈ b, c ∉ ['(', ')', '&']
  first : ∃ c t, b = c :: t ∧ c ∉ ['<', '>', 'y', '*', '!', '=', '.']

theorem markLevels_plain (c : Char) : ∀ (t : Str), '&' ∉ t → markLevels c 0 t = List.replicate (countChar c t) 0
  | [], _ => rfl
  | ch :: t, h => by
    have h1 : ch ≠ '&' := fun e => h (by simp [e])
    have h2 : '&' ∉ t := fun e => h (by simp [e])
    have ih := markLevels_plain c t h2
    unfold markLevels
    by_cases hc : ch = c
    · subst hc
      rw [if_pos rfl, ih]
      simp [countChar, List.replicate_succ]
    · rw [if_neg hc, if_neg h1, ih]
      simp [countChar, hc]

/-- The text of the slur starts. -/
def startsText (L : List HSlur) : Str := L.flatMap (fun s => slurStartText s.place)

theorem startsText_count (L : List HSlur) : countChar '(' (startsText L) = L.length ∧ countChar ')' (startsText L) = 0 ∧
    '&' ∉ startsText L := by
  induction L with
  | nil => exact ⟨rfl, rfl, by simp [startsText]⟩
  | cons s L ih =>
    have e : startsText (s :: L) = slurStartText s.place ++ startsText L := by simp [startsText]
    rw [e, countChar_app, countChar_app, ih.1, ih.2.1]
    cases s.place
    · exact ⟨by show 1 + _ = _; simp; omega, rfl, by simp [slurStartText, ih.2.2]⟩
    · exact ⟨by show 1 + _ = _; simp; omega, rfl, by simp [slurStartText, ih.2.2]⟩
    · exact ⟨by show 1 + _ = _; simp; omega, rfl, by simp [slurStartText, ih.2.2]⟩

theorem slurNoteText_eq (i : Nat) (n : SlurNoteOut) :
    slurNoteText i n = startsText (slurStartsAt i n.sites) ++ (n.body ++ List.replicate (slurStopsAt i n.sites) ')') := by
  simp [slurNoteText, startsText, List.append_assoc]

theorem slurNoteText_facts (i : Nat) (n : SlurNoteOut) (hb : SlurBody n.body) :
    countChar '(' (slurNoteText i n) = (slurStartsAt i n.sites).length ∧
    countChar ')' (slurNoteText i n) = slurStopsAt i n.sites ∧ '&' ∉ slurNoteText i n ∧
    (tokIsInterpretation (slurNoteText i n) || tokIsComment (slurNoteText i n) || tokIsBarline (slurNoteText i n)) = false ∧
    tokIsNull (slurNoteText i n) = false := by
  obtain ⟨s1, s2, s3⟩ := startsText_count (slurStartsAt i n.sites)
  have b1 : '(' ∉ n.body := fun h => hb.marks _ h (by simp)
  have b2 : ')' ∉ n.body := fun h => hb.marks _ h (by simp)
  have b3 : '&' ∉ n.body := fun h => hb.marks _ h (by simp)
  have r1 : countChar '(' (List.replicate (slurStopsAt i n.sites) ')') = 0 := countChar_absent _ _ (by simp)
  have r2 : countChar ')' (List.replicate (slurStopsAt i n.sites) ')') = slurStopsAt i n.sites := by
    simp [countChar]
  rw [slurNoteText_eq]
  refine ⟨?_, ?_, ?_, ?_⟩
  · rw [countChar_app, countChar_app, s1, r1, countChar_absent _ _ b1]; rfl
  · rw [countChar_app, countChar_app, s2, r2, countChar_absent _ _ b2]; simp
  · simp [s3, b3]
  · obtain ⟨c, t, hc, hn⟩ := hb.first
    have hd : ∃ d u, startsText (slurStartsAt i n.sites) ++ (n.body ++ List.replicate (slurStopsAt i n.sites) ')') = d :: u ∧
        d ∉ ['*', '!', '=', '.'] := by
      cases hs : slurStartsAt i n.sites with
      | nil =>
        refine ⟨c, t ++ List.replicate (slurStopsAt i n.sites) ')', by simp [startsText, hc], ?_⟩
        intro h; apply hn; simp at h ⊢; tauto
      | cons s L =>
        refine ⟨'(', (slurStartText s.place).tail ++ startsText L ++ (n.body ++ List.replicate (slurStopsAt i n.sites) ')'), ?_, by decide⟩
        have e : startsText (s :: L) = slurStartText s.place ++ startsText L := by simp [startsText]
        rw [e]
        cases s.place <;> simp [slurStartText]
    obtain ⟨d, u, hd, hdn⟩ := hd
    rw [hd]
    have e1 : d ≠ '*' := fun e => hdn (by simp [e])
    have e2 : d ≠ '!' := fun e => hdn (by simp [e])
    have e3 : d ≠ '=' := fun e => hdn (by simp [e])
    have e4 : d ≠ '.' := fun e => hdn (by simp [e])
    constructor
    · have k1 : tokIsInterpretation (d :: u) = false := by
        show startsWith (d :: u) ['*'] = false
        simp [startsWith, List.isPrefixOf, e1.symm]
      have k2 : tokIsComment (d :: u) = false := by
        show startsWith (d :: u) ['!'] = false
        simp [startsWith, List.isPrefixOf, e2.symm]
      have k3 : tokIsBarline (d :: u) = false := by
        show startsWith (d :: u) ['='] = false
        simp [startsWith, List.isPrefixOf, e3.symm]
      rw [k1, k2, k3]; rfl
    · simp [tokIsNull, e1, e2, e4]

/-- The character after an opening mark of the text. -/
theorem afterOpen_starts : ∀ (L : List HSlur) (i : Nat) (s : HSlur) (rest : Str) (c0 : Int) (d : Char) (u : Str), L[i]? = some s → rest = d :: u →
    afterOpen (c0 + i + 1) c0 (startsText L ++ rest) = some (match s.place with
      | .above => '>' | .below => '<' | .unset => match L[i + 1]? with | some _ => '(' | none => d)
  | [], i, s, rest, c0, d, u, h, hr => by simp at h
  | a :: L, 0, s, rest, c0, d, u, h, hr => by
    simp at h; subst h
    have e : startsText (a :: L) = slurStartText a.place ++ startsText L := by simp [startsText]
    rw [e]
    cases hp : a.place with
    | unset =>
      cases L with
      | nil => subst hr; simp [slurStartText, startsText, afterOpen]
      | cons b L =>
        have e' : ∃ v, startsText (b :: L) ++ rest = '(' :: v := by
          have : startsText (b :: L) = slurStartText b.place ++ startsText L := by simp [startsText]
          rw [this]
          cases b.place <;> exact ⟨_, rfl⟩
        obtain ⟨v, hv⟩ := e'
        rw [List.append_assoc, hv]
        simp [slurStartText, afterOpen]
    | above => simp [slurStartText, afterOpen]
    | below => simp [slurStartText, afterOpen]
  | a :: L, i + 1, s, rest, c0, d, u, h, hr => by
    have h' : L[i]? = some s := by simpa using h
    have ih := afterOpen_starts L i s rest (c0 + 1) d u h' hr
    have e : startsText (a :: L) = slurStartText a.place ++ startsText L := by simp [startsText]
    rw [e]
    have hL : ∃ v, startsText L ++ rest = '(' :: v := by
      cases L with
      | nil => simp at h'
      | cons b L =>
        have : startsText (b :: L) = slurStartText b.place ++ startsText L := by simp [startsText]
        rw [this]
        cases b.place <;> exact ⟨_, rfl⟩
    obtain ⟨v, hv⟩ := hL
    have n1 : c0 + 1 ≠ c0 + ((i + 1 : Nat) : Int) + 1 := by omega
    have n2 : c0 + 1 + (i : Int) + 1 = c0 + ((i + 1 : Nat) : Int) + 1 := by push_cast; omega
    rw [n2] at ih
    have g : (a :: L)[i + 1 + 1]? = L[i + 1]? := by simp
    rw [g, ← ih, List.append_assoc, hv]
    cases a.place with
    | unset =>
      show afterOpen _ _ ('(' :: '(' :: v) = _
      rw [afterOpen]
      simp only [if_true]
      rw [if_neg n1]
    | above =>
      show afterOpen _ _ ('(' :: '>' :: '(' :: v) = _
      rw [afterOpen]
      simp only [if_true]
      rw [if_neg n1, afterOpen]
      simp only [show ('>' : Char) ≠ '(' by decide, if_false]
      rw [if_neg n1]
    | below =>
      show afterOpen _ _ ('(' :: '<' :: '(' :: v) = _
      rw [afterOpen]
      simp only [if_true]
      rw [if_neg n1, afterOpen]
      simp only [show ('<' : Char) ≠ '(' by decide, if_false]
      rw [if_neg n1]

/-! ### The machine on one layer without elisions -/

/-- A state of one layer. -/
def layerSt (stk : List SlurItem) (links : List (SlurItem × SlurItem)) : SlurSt :=
  ⟨fun a b => if a = 0 ∧ b = 0 then stk else [], links, [], [], []⟩

theorem layerSt_set (stk stk' : List SlurItem) (links : List (SlurItem × SlurItem)) :
    (layerSt stk links).setOpens 0 0 stk' = layerSt stk' links := by
  unfold SlurSt.setOpens layerSt
  congr 1
  funext a b
  by_cases h : a = 0 ∧ b = 0
  · simp [h]
  · simp [h]

theorem slurCloses_layer (text : Str) (tok : TokId) (hl : ∀ i < countChar ')' text, elisionLevel ')' text i = some 0) :
    ∀ (is : List Nat) (stk : List SlurItem) (links : List (SlurItem × SlurItem)), (∀ i ∈ is, i < countChar ')' text) → is.length ≤ stk.length →
    slurCloses .slur [] text 0 tok is (layerSt stk links) =
      .ok (layerSt (stk.drop is.length) (links ++ List.zipWith (fun x i => (x, (tok, i))) stk is))
  | [], stk, links, _, _ => by simp [slurCloses]
  | i :: is, [], links, _, h => by simp at h
  | i :: is, x :: stk, links, hi, h => by
    have e1 : isLinkedEnd .slur text i ([] ++ [SlurKind.slur.endChar]) = false := rfl
    have e2 := hl i (hi i (by simp))
    unfold slurCloses
    rw [if_neg (by rw [e1]; simp)]
    simp only [SlurKind.endChar, e2]
    have ec : (layerSt (x :: stk) links).close 0 0 (tok, i) = .ok (layerSt stk (links ++ [(x, (tok, i))])) := by
      unfold SlurSt.close
      rw [if_neg (by simp)]
      have : (layerSt (x :: stk) links).opens 0 0 = x :: stk := by simp [layerSt]
      rw [this]
      simp only [layerSt_set]
      rfl
    rw [ec]
    simp only
    rw [slurCloses_layer text tok hl is stk _ (fun j hj => hi j (by simp [hj])) (by simpa using h)]
    simp

theorem slurOpens_layer (text : Str) (tok : TokId) (hl : ∀ i < countChar '(' text, elisionLevel '(' text i = some 0) :
    ∀ (is : List Nat) (stk : List SlurItem) (links : List (SlurItem × SlurItem)), (∀ i ∈ is, i < countChar '(' text) →
    slurOpens .slur [] text 0 tok is (layerSt stk links) = .ok (layerSt ((is.map (fun i => (tok, i))).reverse ++ stk) links)
  | [], stk, links, _ => by simp [slurOpens]
  | i :: is, stk, links, hi => by
    have e1 : isLinkedBegin .slur text i ([] ++ [SlurKind.slur.beginChar]) = false := rfl
    have e2 := hl i (hi i (by simp))
    unfold slurOpens
    rw [if_neg (by rw [e1]; simp)]
    simp only [SlurKind.beginChar, e2]
    have eo : (layerSt stk links).open 0 0 (tok, i) = .ok (layerSt ((tok, i) :: stk) links) := by
      unfold SlurSt.open
      rw [if_neg (by simp)]
      have : (layerSt stk links).opens 0 0 = stk := by simp [layerSt]
      rw [this, layerSt_set]
    rw [eo]
    simp only
    rw [slurOpens_layer text tok hl is _ _ (fun j hj => hi j (by simp [hj]))]
    simp

theorem slurTok_layer (text : Str) (tok : TokId) (stk : List SlurItem) (links : List (SlurItem × SlurItem))
    (ha : '&' ∉ text) (hd : (tokIsInterpretation text || tokIsComment text || tokIsBarline text) = false)
    (hn : tokIsNull text = false) (hc : countChar ')' text ≤ stk.length) :
    slurTok .slur [] ⟨tok, text, 0⟩ (layerSt stk links) =
      .ok (layerSt (((List.range (countChar '(' text)).map (fun i => (tok, i))).reverse ++ stk.drop (countChar ')' text))
        (links ++ List.zipWith (fun x i => (x, (tok, i))) stk (List.range (countChar ')' text)))) := by
  have lv : ∀ c, c ≠ '&' → ∀ i < countChar c text, elisionLevel c text i = some 0 := by
    intro c hc i hi
    rw [elisionLevel_spec c hc, markLevels_plain c text ha]
    simp [hi]
  unfold slurTok
  rw [if_neg (by rw [hd]; simp), if_neg (by rw [hn]; simp)]
  rw [slurCloses_layer text tok (lv ')' (by decide)) _ stk links (by simp) (by simpa using hc)]
  simp only [List.length_range]
  rw [slurOpens_layer text tok (lv '(' (by decide)) _ _ _ (by simp)]

/-! ### Which mark is linked -/

/-- The numbering of the marks on the stack and of the links made. -/
structure SlurNum (starts : Nat → List HSlur) (k : Nat) (stk : List SlurItem) (links : List (SlurItem × SlurItem)) : Prop where
  items : ∀ x ∈ stk, x.1.2 = 0 ∧ x.1.1 < k
  count : ∀ m : Nat, ∃ r, (stk.filter (fun x => x.1 == (m, 0))).map (·.2) = (List.range r).reverse ∧
    (m < k → r + (links.map (·.1.1)).count (m, 0) = (starts m).length) ∧ (k ≤ m → r = 0 ∧ (links.map (·.1.1)).count (m, 0) = 0)
  links : ∀ pre x y post, links = pre ++ (x, y) :: post →
    (pre.map (·.1.1)).count x.1 + x.2 + 1 = (starts x.1.1).length ∧ x.1.2 = 0 ∧ x.1.1 < k

theorem slurNum_pop (starts : Nat → List HSlur) (k : Nat) (x : SlurItem) (y : SlurItem) (stk : List SlurItem)
    (links : List (SlurItem × SlurItem)) (h : SlurNum starts k (x :: stk) links) : SlurNum starts k stk (links ++ [(x, y)]) := by
  obtain ⟨x1, x2⟩ := h.items x (by simp)
  have hx : x.1 = (x.1.1, 0) := by rw [← x1]
  obtain ⟨r, r1, r2, _⟩ := h.count x.1.1
  have e1 : (x :: stk).filter (fun z => z.1 == (x.1.1, 0)) = x :: stk.filter (fun z => z.1 == (x.1.1, 0)) := by
    rw [List.filter_cons, if_pos (by simp [← hx])]
  rw [e1] at r1
  have hr : r = x.2 + 1 ∧ (stk.filter (fun z => z.1 == (x.1.1, 0))).map (·.2) = (List.range x.2).reverse := by
    cases r with
    | zero => simp at r1
    | succ r =>
      rw [List.range_succ, List.reverse_append] at r1
      simp at r1
      exact ⟨by omega, by rw [r1.1]; simpa using r1.2⟩
  refine ⟨fun z hz => h.items z (by simp [hz]), ?_, ?_⟩
  · intro m
    by_cases hm : m = x.1.1
    · subst hm
      refine ⟨x.2, hr.2, ?_, ?_⟩
      · intro _
        have := r2 x2
        rw [List.map_append, List.count_append, List.map_cons, List.map_nil]
        have : List.count ((x.1.1, 0) : TokId) [(x, y).1.1] = 1 := by
          show List.count ((x.1.1, 0) : TokId) [x.1] = 1
          rw [hx]; simp
        omega
      · intro hk; omega
    · obtain ⟨q, q1, q2, q3⟩ := h.count m
      have ne : x.1 ≠ (m, 0) := by rw [hx]; intro e; apply hm; exact (congrArg Prod.fst e).symm
      rw [List.filter_cons, if_neg (by simpa using ne)] at q1
      have c0 : List.count ((m, 0) : TokId) [x.1] = 0 := by simp [List.count_cons, ne]
      refine ⟨q, q1, ?_, ?_⟩
      · intro hk
        have := q2 hk
        rw [List.map_append, List.count_append, List.map_cons, List.map_nil]
        simp only [c0]; omega
      · intro hk
        have := q3 hk
        rw [List.map_append, List.count_append, List.map_cons, List.map_nil]
        simp only [c0]; omega
  · intro pre a b post e
    rcases List.append_eq_append_iff.mp e with ⟨u, hu, hv⟩ | ⟨u, hu, hv⟩
    · cases u with
      | nil =>
        simp at hv hu
        obtain ⟨⟨rfl, rfl⟩, _⟩ := hv
        subst hu
        have := r2 x2
        rw [← hx] at this
        exact ⟨by omega, x1, x2⟩
      | cons z u => simp at hv
    · cases u with
      | nil =>
        simp at hv hu
        obtain ⟨⟨rfl, rfl⟩, _⟩ := hv
        subst hu
        have := r2 x2
        rw [← hx] at this
        exact ⟨by omega, x1, x2⟩
      | cons z u =>
        simp at hv
        obtain ⟨rfl, hv⟩ := hv
        exact h.links pre a b u hu

theorem slurNum_pops (starts : Nat → List HSlur) (k : Nat) (tok : TokId) : ∀ (is : List Nat) (stk : List SlurItem)
    (links : List (SlurItem × SlurItem)), is.length ≤ stk.length → SlurNum starts k stk links →
    SlurNum starts k (stk.drop is.length) (links ++ List.zipWith (fun x i => (x, (tok, i))) stk is)
  | [], stk, links, _, h => by simpa using h
  | i :: is, [], links, hl, _ => by simp at hl
  | i :: is, x :: stk, links, hl, h => by
    have := slurNum_pops starts k tok is stk _ (by simpa using hl) (slurNum_pop starts k x (tok, i) stk links h)
    simpa using this

theorem slurNum_push (starts : Nat → List HSlur) (k : Nat) (stk : List SlurItem) (links : List (SlurItem × SlurItem))
    (h : SlurNum starts k stk links) :
    SlurNum starts (k + 1) (((List.range (starts k).length).map (fun i => (((k, 0) : TokId), i))).reverse ++ stk) links := by
  refine ⟨?_, ?_, ?_⟩
  · intro x hx
    rcases List.mem_append.mp hx with hx | hx
    · simp at hx
      obtain ⟨i, _, rfl⟩ := hx
      exact ⟨rfl, by simp⟩
    · obtain ⟨a, b⟩ := h.items x hx
      exact ⟨a, by omega⟩
  · intro m
    obtain ⟨r, r1, r2, r3⟩ := h.count m
    by_cases hm : m = k
    · subst hm
      obtain ⟨a, b⟩ := r3 (le_refl _)
      subst a
      refine ⟨(starts m).length, ?_, fun _ => by omega, fun hk => by omega⟩
      rw [List.filter_append, List.map_append, r1]
      rw [List.filter_eq_self.mpr]
      · rw [List.map_reverse, List.map_map]
        simp [Function.comp_def]
      · intro x hx
        simp at hx
        obtain ⟨i, _, rfl⟩ := hx
        simp
    · refine ⟨r, ?_, fun hk => r2 (by omega), fun hk => r3 (by omega)⟩
      rw [List.filter_append, List.filter_eq_nil_iff.mpr, List.nil_append, r1]
      intro x hx
      simp at hx
      obtain ⟨i, _, rfl⟩ := hx
      simp
      exact fun e => hm e.symm
  · intro pre x y post e
    obtain ⟨a, b, c⟩ := h.links pre x y post e
    exact ⟨a, b, by omega⟩

/-! ### Nested slurs -/

/-- The slur whose start the mark is. -/
def slurOf (starts : Nat → List HSlur) (x : SlurItem) : HSlur := ((starts x.1.1)[x.2]?).getD ⟨0, 0, .unset⟩

/-- The slurs and how the notes list them: each note starts the slurs that begin there, in an order in which none ends later than the
one before it, and stops as many as end there; no two slurs cross. -/
structure NestedSlurs (n : Nat) (slurs : List HSlur) (starts : Nat → List HSlur) (stops : Nat → Nat) : Prop where
  inside : ∀ s ∈ slurs, s.first < s.last ∧ s.last < n
  begins : ∀ i < n, (starts i).Perm (slurs.filter (fun s => s.first == i))
  ends : ∀ i < n, stops i = (slurs.filter (fun s => s.last == i)).length
  cross : ∀ a ∈ slurs, ∀ b ∈ slurs, a.first < b.first → b.first < a.last → b.last ≤ a.last
  order : ∀ i < n, (starts i).Pairwise (fun a b => b.last ≤ a.last)

/-- A sorted list of numbers that are at least `k`: those equal to `k` come first. -/
theorem sorted_take {α : Type} (f : α → Nat) (k : Nat) : ∀ (l : List α), l.Pairwise (fun a b => f a ≤ f b) → (∀ a ∈ l, k ≤ f a) →
    l.take (l.filter (fun a => f a == k)).length = l.filter (fun a => f a == k) ∧
    l.drop (l.filter (fun a => f a == k)).length = l.filter (fun a => !(f a == k))
  | [], _, _ => by simp
  | a :: l, hp, hk => by
    obtain ⟨h1, h2⟩ := List.pairwise_cons.mp hp
    obtain ⟨i1, i2⟩ := sorted_take f k l h2 (fun b hb => hk b (by simp [hb]))
    by_cases ha : f a = k
    · rw [List.filter_cons, if_pos (by simpa using ha), List.filter_cons, if_neg (by simpa using ha)]
      simp [i1, i2]
    · have hgt : k < f a := by have := hk a (by simp); omega
      have hnone : ∀ b ∈ l, f b ≠ k := fun b hb e => by have := h1 b hb; omega
      have e0 : l.filter (fun a => f a == k) = [] := by
        rw [List.filter_eq_nil_iff]; intro b hb; simpa using hnone b hb
      have e1 : l.filter (fun a => !(f a == k)) = l := by
        rw [List.filter_eq_self]; intro b hb; simpa using hnone b hb
      rw [List.filter_cons, if_neg (by simpa using ha), List.filter_cons, if_pos (by simpa using ha), e0, e1]
      simp

theorem filter_disjoint_perm {α : Type} (p q r : α → Bool) (l : List α) (h : ∀ a ∈ l, r a = (p a || q a) ∧ (p a && q a) = false) :
    (l.filter p ++ l.filter q).Perm (l.filter r) := by
  induction l with
  | nil => exact List.Perm.refl _
  | cons a l ih =>
    have ih' := ih (fun b hb => h b (by simp [hb]))
    obtain ⟨h1, h2⟩ := h a (by simp)
    cases hp : p a <;> cases hq : q a <;> simp [hp, hq] at h1 h2 <;> simp [List.filter_cons, hp, hq, h1]
    · exact ih'
    · exact List.perm_middle.trans (ih'.cons a)
    · exact ih'

/-- The state before note `k`. -/
structure SlurWalk (n : Nat) (slurs : List HSlur) (starts : Nat → List HSlur) (k : Nat) (stk : List SlurItem) (links : List (SlurItem × SlurItem)) : Prop where
  num : SlurNum starts k stk links
  known : ∀ x ∈ stk, x.2 < (starts x.1.1).length
  stack : (stk.map (slurOf starts)).Perm (slurs.filter (fun s => decide (s.first < k) && decide (k ≤ s.last)))
  sorted : stk.Pairwise (fun a b => (slurOf starts a).last ≤ (slurOf starts b).last)
  ended : ∀ e < k, ((links.filter (fun l => l.2.1 == (e, 0))).map (fun l => slurOf starts l.1)).Perm (slurs.filter (fun s => s.last == e))
  later : ∀ l ∈ links, l.2.1.1 < k ∧ l.1.2 < (starts l.1.1.1).length

theorem slurWalk_step {n : Nat} {slurs : List HSlur} {starts : Nat → List HSlur} {stops : Nat → Nat} (N : NestedSlurs n slurs starts stops)
    (k : Nat) (hk : k < n) (stk : List SlurItem) (links : List (SlurItem × SlurItem)) (W : SlurWalk n slurs starts k stk links) :
    stops k ≤ stk.length ∧
    SlurWalk n slurs starts (k + 1)
      (((List.range (starts k).length).map (fun i => (((k, 0) : TokId), i))).reverse ++ stk.drop (stops k))
      (links ++ List.zipWith (fun x i => (x, (((k, 0) : TokId), i))) stk (List.range (stops k))) := by
  have hge : ∀ x ∈ stk, k ≤ (slurOf starts x).last := by
    intro x hx
    have := W.stack.mem_iff.mp (List.mem_map_of_mem (f := slurOf starts) hx)
    simp at this
    exact this.2.2
  obtain ⟨t1, t2⟩ := sorted_take (fun x => (slurOf starts x).last) k stk W.sorted hge
  -- the number of stops
  have hperm : ((stk.filter (fun x => (slurOf starts x).last == k)).map (slurOf starts)).Perm (slurs.filter (fun s => s.last == k)) := by
    have h1 : (stk.filter (fun x => (slurOf starts x).last == k)).map (slurOf starts) = (stk.map (slurOf starts)).filter (fun s => s.last == k) := by
      rw [List.filter_map]; rfl
    rw [h1]
    refine (W.stack.filter _).trans ?_
    rw [List.filter_filter]
    apply List.Perm.of_eq
    apply List.filter_congr
    intro s hs
    obtain ⟨a, b⟩ := N.inside s hs
    by_cases h : s.last = k
    · simp [h]; omega
    · simp [h]
  have hcount : stops k = (stk.filter (fun x => (slurOf starts x).last == k)).length := by
    rw [N.ends k hk, ← hperm.length_eq, List.length_map]
  have hle : stops k ≤ stk.length := by rw [hcount]; exact List.length_filter_le _ _
  rw [← hcount] at t1 t2
  refine ⟨hle, ?_⟩
  have hzip : ∀ (l : List SlurItem), List.zipWith (fun x i => (x, (((k, 0) : TokId), i))) l (List.range (stops k)) =
      List.zipWith (fun x i => (x, (((k, 0) : TokId), i))) (l.take (stops k)) (List.range (stops k)) := by
    intro l
    conv_lhs => rw [← List.take_append_drop (stops k) l]
    by_cases hl : stops k ≤ l.length
    · have : List.range (stops k) = List.range (stops k) ++ [] := by simp
      conv_lhs => rw [this]
      rw [List.zipWith_append (by simp [hl])]
      simp
    · rw [List.drop_eq_nil_of_le (by omega), List.append_nil]
  have hmapz : ∀ (l : List SlurItem) (is : List Nat), l.length = is.length →
      (List.zipWith (fun x i => (x, (((k, 0) : TokId), i))) l is).map (·.1) = l := by
    intro l
    induction l with
    | nil => intro is h; simp
    | cons a l ih =>
      intro is h
      cases is with
      | nil => simp at h
      | cons i is => simp [ih is (by simpa using h)]
  have hzk : (List.zipWith (fun x i => (x, (((k, 0) : TokId), i))) stk (List.range (stops k))).map (·.1) = stk.filter (fun x => (slurOf starts x).last == k) := by
    rw [hzip, hmapz _ _ (by simp [hle]), t1]
  have hzmem : ∀ l ∈ List.zipWith (fun x i => (x, (((k, 0) : TokId), i))) stk (List.range (stops k)), l.2.1 = (k, 0) ∧ l.1 ∈ stk := by
    intro l hl
    constructor
    · rw [List.mem_iff_getElem] at hl
      obtain ⟨i, hi, rfl⟩ := hl
      simp
    · have := List.mem_map_of_mem (f := (·.1)) hl
      rw [hzk] at this
      exact (List.mem_filter.mp this).1
  have hsl : ∀ i < (starts k).length, slurOf starts (((k, 0) : TokId), i) ∈ starts k := by
    intro i hi
    have : slurOf starts (((k, 0) : TokId), i) = (starts k)[i] := by simp [slurOf, hi]
    rw [this]
    exact List.getElem_mem hi
  have hmap : ((List.range (starts k).length).map (fun i => (((k, 0) : TokId), i))).map (slurOf starts) = starts k := by
    rw [List.map_map]
    apply List.ext_getElem
    · simp
    · intro i h1 h2
      simp [slurOf] at *
      simp [h2]
  have hmem : ∀ s ∈ starts k, s ∈ slurs ∧ s.first = k := by
    intro s hs
    have := (N.begins k hk).mem_iff.mp hs
    simpa using this
  refine ⟨?_, ?_, ?_, ?_, ?_, ?_⟩
  · have := slurNum_pops starts k (k, 0) (List.range (stops k)) stk links (by simpa using hle) W.num
    rw [List.length_range] at this
    exact slurNum_push starts k _ _ this
  · intro x hx
    rcases List.mem_append.mp hx with hx | hx
    · simp at hx
      obtain ⟨i, hi, rfl⟩ := hx
      exact hi
    · exact W.known x (List.mem_of_mem_drop hx)
  · rw [List.map_append, List.map_reverse, hmap, t2]
    have h1 : (stk.filter (fun x => !((slurOf starts x).last == k))).map (slurOf starts) = (stk.map (slurOf starts)).filter (fun s => !(s.last == k)) := by
      rw [List.filter_map]; rfl
    rw [h1]
    refine (((List.reverse_perm _).trans (N.begins k hk)).append (W.stack.filter _)).trans ?_
    rw [List.filter_filter]
    apply filter_disjoint_perm
    intro s hs
    obtain ⟨a, b⟩ := N.inside s hs
    by_cases h1 : s.first = k
    · subst h1; simp; omega
    · by_cases h2 : s.first < k
      · by_cases h3 : s.last = k
        · simp [h1, h2, h3]
        · have : s.first < k + 1 := by omega
          by_cases h4 : k ≤ s.last
          · have : k + 1 ≤ s.last := by omega
            simp [*]
          · have : ¬ k + 1 ≤ s.last := by omega
            simp [*]
      · have : ¬ s.first < k + 1 := by omega
        simp [*]
  · rw [List.pairwise_append]
    refine ⟨?_, W.sorted.drop, ?_⟩
    · rw [List.pairwise_reverse]
      have := N.order k hk
      rw [← hmap, List.pairwise_map] at this
      exact this
    · intro a ha b hb
      rw [t2] at hb
      obtain ⟨hb1, hb2⟩ := List.mem_filter.mp hb
      have hbs := W.stack.mem_iff.mp (List.mem_map_of_mem (f := slurOf starts) hb1)
      simp at hbs
      simp at ha
      obtain ⟨i, hi, rfl⟩ := ha
      obtain ⟨c1, c2⟩ := hmem _ (hsl i hi)
      apply N.cross _ hbs.1 _ c1
      · rw [c2]; exact hbs.2.1
      · rw [c2]
        simp at hb2
        have := hbs.2.2
        omega
  · intro e he
    rw [List.filter_append, List.map_append]
    by_cases hek : e = k
    · subst hek
      have h1 : links.filter (fun l => l.2.1 == (e, 0)) = [] := by
        rw [List.filter_eq_nil_iff]
        intro l hl
        have := (W.later l hl).1
        simp
        intro h
        rw [h] at this
        exact absurd this (by simp)
      have h2 : (List.zipWith (fun x i => (x, (((e, 0) : TokId), i))) stk (List.range (stops e))).filter (fun l => l.2.1 == (e, 0)) =
          List.zipWith (fun x i => (x, (((e, 0) : TokId), i))) stk (List.range (stops e)) := by
        rw [List.filter_eq_self]
        intro l hl
        simp [(hzmem l hl).1]
      rw [h1, h2, List.map_nil, List.nil_append]
      have h3 : (List.zipWith (fun x i => (x, (((e, 0) : TokId), i))) stk (List.range (stops e))).map (fun l => slurOf starts l.1) =
          ((List.zipWith (fun x i => (x, (((e, 0) : TokId), i))) stk (List.range (stops e))).map (·.1)).map (slurOf starts) := by
        rw [List.map_map]; rfl
      rw [h3, hzk]
      exact hperm
    · have h2 : (List.zipWith (fun x i => (x, (((k, 0) : TokId), i))) stk (List.range (stops k))).filter (fun l => l.2.1 == (e, 0)) = [] := by
        rw [List.filter_eq_nil_iff]
        intro l hl
        rw [(hzmem l hl).1]
        simp
        exact fun h => hek h.symm
      rw [h2, List.map_nil, List.append_nil]
      exact W.ended e (by omega)
  · intro l hl
    rcases List.mem_append.mp hl with hl | hl
    · obtain ⟨a, b⟩ := W.later l hl
      exact ⟨by omega, b⟩
    · obtain ⟨a, b⟩ := hzmem l hl
      rw [a]
      exact ⟨by simp, W.known _ b⟩

/-! ### Reading the slurs of a spine -/

/-- What the notes start and stop. -/
def noteStarts (ns : List SlurNoteOut) (i : Nat) : List HSlur := (ns[i]?.map (fun n => slurStartsAt i n.sites)).getD []
def noteStops (ns : List SlurNoteOut) (i : Nat) : Nat := (ns[i]?.map (fun n => slurStopsAt i n.sites)).getD 0

theorem slurToks_walk {slurs : List HSlur} (ns : List SlurNoteOut) (N : NestedSlurs ns.length slurs (noteStarts ns) (noteStops ns))
    (hb : ∀ n ∈ ns, SlurBody n.body) : ∀ (rest done : List SlurNoteOut), ns = done ++ rest → ∀ (stk : List SlurItem)
    (links : List (SlurItem × SlurItem)), SlurWalk ns.length slurs (noteStarts ns) done.length stk links →
    ∃ stk' links', slurToks .slur [] ((rest.zipIdx done.length).map (fun p => ⟨(p.2, 0), slurNoteText p.2 p.1, 0⟩)) (layerSt stk links) =
      .ok (layerSt stk' links') ∧ SlurWalk ns.length slurs (noteStarts ns) ns.length stk' links'
  | [], done, h, stk, links, W => by
    have : ns.length = done.length := by simp [h]
    refine ⟨stk, links, by simp [slurToks], ?_⟩
    have e : SlurWalk ns.length slurs (noteStarts ns) ns.length stk links = SlurWalk ns.length slurs (noteStarts ns) done.length stk links := by
      rw [this]
    rw [e]; exact W
  | n :: rest, done, h, stk, links, W => by
    have hk : done.length < ns.length := by simp [h]
    have hget : ns[done.length]? = some n := by simp [h]
    obtain ⟨s1, s2⟩ := slurWalk_step N done.length hk stk links W
    obtain ⟨f1, f2, f3, f4, f5⟩ := slurNoteText_facts done.length n (hb n (by simp [h]))
    have g1 : noteStarts ns done.length = slurStartsAt done.length n.sites := by simp [noteStarts, hget]
    have g2 : noteStops ns done.length = slurStopsAt done.length n.sites := by simp [noteStops, hget]
    have ht := slurTok_layer (slurNoteText done.length n) (done.length, 0) stk links f3 f4 f5 (by rw [f2, ← g2]; exact s1)
    rw [f1, f2, ← g1, ← g2] at ht
    have := slurToks_walk ns N hb rest (done ++ [n]) (by simp [h]) _ _ (by simpa using s2)
    obtain ⟨stk', links', r1, r2⟩ := this
    refine ⟨stk', links', ?_, r2⟩
    rw [List.zipIdx_cons, List.map_cons]
    unfold slurToks
    rw [ht]
    simpa using r1

/-- Numbering the elements with a given key. -/
theorem range_occurrences {α β γ : Type} [BEq β] [LawfulBEq β] [DecidableEq β] (f : α → β) (e : β) (g : Nat → γ) (h : α → γ) : ∀ (rest done : List α),
    (∀ pre l post, done ++ rest = pre ++ l :: post → f l = e → g ((pre.map f).count e) = h l) →
    (List.range' ((done.map f).count e) ((rest.map f).count e)).map g = (rest.filter (fun l => f l == e)).map h
  | [], done, _ => by simp
  | l :: rest, done, H => by
    have ih := range_occurrences f e g h rest (done ++ [l]) (by intro pre x post hx; exact H pre x post (by simpa using hx))
    by_cases hl : f l = e
    · have h0 := H done l rest rfl hl
      have c1 : ((done ++ [l]).map f).count e = (done.map f).count e + 1 := by simp [List.count_append, hl]
      have c2 : ((l :: rest).map f).count e = (rest.map f).count e + 1 := by simp [List.count_cons, hl]
      rw [c1] at ih
      rw [c2, List.range'_succ, List.map_cons, List.filter_cons, if_pos (by simpa using hl), List.map_cons, ih, h0]
    · have c1 : ((done ++ [l]).map f).count e = (done.map f).count e := by simp [List.count_append, List.count_cons, hl]
      have c2 : ((l :: rest).map f).count e = (rest.map f).count e := by simp [List.count_cons, hl]
      rw [c1] at ih
      rw [c2, List.filter_cons, if_neg (by simpa using hl), ih]

theorem two_places {α : Type} (q : α → Bool) (p : List α) (i j : Nat) (a b : α) (hij : i < j) (hi : p[i]? = some a) (hj : p[j]? = some b)
    (ha : q a = true) (hb : q b = true) : 2 ≤ (p.filter q).length := by
  have e : p = p.take j ++ p.drop j := (List.take_append_drop j p).symm
  rw [e, List.filter_append, List.length_append]
  have h1 : a ∈ (p.take j).filter q := by
    rw [List.mem_filter]
    refine ⟨?_, ha⟩
    apply List.mem_of_getElem? (i := i)
    rw [List.getElem?_take]
    simp [hij, hi]
  have h2 : b ∈ (p.drop j).filter q := by
    rw [List.mem_filter]
    refine ⟨?_, hb⟩
    apply List.mem_of_getElem? (i := 0)
    simp [hj]
  have := List.length_pos_of_mem h1
  have := List.length_pos_of_mem h2
  omega

/-- C111's conditions, in terms of the slurs and of what the notes list. -/
structure SlursNest (slurs : List HSlur) (ns : List SlurNoteOut) : Prop where
  /-- every note lists the slurs that begin or end at it -/
  sites : ∀ (i : Nat) (n : SlurNoteOut), ns[i]? = some n → n.sites.Perm (slurs.filter (fun s => s.first == i || s.last == i))
  /-- slurs join two different notes -/
  inside : ∀ s ∈ slurs, s.first < s.last ∧ s.last < ns.length
  /-- no two slurs cross -/
  cross : ∀ a ∈ slurs, ∀ b ∈ slurs, a.first < b.first → b.first < a.last → b.last ≤ a.last
  /-- of the slurs that begin at a note, longer ones are listed first -/
  order : ∀ (i : Nat) (n : SlurNoteOut), ns[i]? = some n → (n.sites.filter (fun s => s.first == i)).Pairwise (fun a b => b.last ≤ a.last)
  /-- slurs that join the same two notes have placements -/
  placed : ∀ s ∈ slurs, s.place = .unset → (slurs.filter (fun t => t.first == s.first && t.last == s.last)).length = 1

theorem slursNest_nested {slurs : List HSlur} {ns : List SlurNoteOut} (H : SlursNest slurs ns) :
    NestedSlurs ns.length slurs (noteStarts ns) (noteStops ns) := by
  refine ⟨H.inside, ?_, ?_, H.cross, ?_⟩
  · intro i hi
    have hg : ns[i]? = some ns[i] := List.getElem?_eq_getElem hi
    have e : noteStarts ns i = slurStartsAt i ns[i].sites := by simp [noteStarts, hg]
    rw [e]
    refine ((H.sites i _ hg).filter _).trans ?_
    rw [List.filter_filter]
    apply List.Perm.of_eq
    apply List.filter_congr
    intro s _
    cases h : (s.first == i) <;> simp
  · intro i hi
    have hg : ns[i]? = some ns[i] := List.getElem?_eq_getElem hi
    have e : noteStops ns i = slurStopsAt i ns[i].sites := by simp [noteStops, hg]
    rw [e]
    unfold slurStopsAt
    rw [((H.sites i _ hg).filter _).length_eq, List.filter_filter]
    congr 1
    apply List.filter_congr
    intro s hs
    have := (H.inside s hs).1
    by_cases h : s.last = i
    · have h2 : s.first ≠ i := by omega
      simp [h, h2]
    · have h3 : (s.last == i) = false := beq_false_of_ne h
      rw [h3]
      cases (s.first == i) <;> rfl
  · intro i hi
    have hg : ns[i]? = some ns[i] := List.getElem?_eq_getElem hi
    have e : noteStarts ns i = slurStartsAt i ns[i].sites := by simp [noteStarts, hg]
    rw [e]
    exact H.order i _ hg

theorem filterMap_range_some {α β : Type} (g : Nat → Option β) (f : α → β) : ∀ (p : List α) (k : Nat), (∀ i x, p[i]? = some x → g (k + i) = some (f x)) →
    (List.range' k p.length).filterMap g = p.map f
  | [], k, _ => by simp
  | a :: p, k, h => by
    have h0 := h 0 a rfl
    rw [Nat.add_zero] at h0
    have ih := filterMap_range_some g f p (k + 1) (fun i x hx => by
      have := h (i + 1) x (by simpa using hx)
      rw [show k + (i + 1) = k + 1 + i by omega] at this
      exact this)
    rw [List.length_cons, List.range'_succ, List.filterMap_cons, h0, ih, List.map_cons]

theorem flatMap_last_perm (slurs : List HSlur) : ∀ n : Nat,
    ((List.range n).flatMap (fun e => slurs.filter (fun s => s.last == e))).Perm (slurs.filter (fun s => decide (s.last < n)))
  | 0 => by simp
  | n + 1 => by
    rw [List.range_succ, List.flatMap_append]
    refine ((flatMap_last_perm slurs n).append_right _).trans ?_
    simp only [List.flatMap_cons, List.flatMap_nil, List.append_nil]
    apply filter_disjoint_perm
    intro s _
    by_cases h1 : s.last < n
    · have h2 : s.last ≠ n := by omega
      have h3 : s.last < n + 1 := by omega
      simp [h1, h2, h3]
    · by_cases h2 : s.last = n
      · simp [h2]
      · have h3 : ¬ s.last < n + 1 := by omega
        simp [h1, h2, h3]

theorem flatMap_perm_congr {α β : Type} (l : List α) (f g : α → List β) (h : ∀ a ∈ l, (f a).Perm (g a)) : (l.flatMap f).Perm (l.flatMap g) := by
  induction l with
  | nil => exact List.Perm.refl _
  | cons a l ih =>
    rw [List.flatMap_cons, List.flatMap_cons]
    exact (h a (by simp)).append (ih (fun b hb => h b (by simp [hb])))

/-- The entries the reader finds at the note `e`. -/
theorem slurStartList_links (op : TokId → Nat) (time : TokId → Rat) (links : List (SlurItem × SlurItem)) (e : TokId)
    (num : ∀ pre x y post, links = pre ++ (x, y) :: post → (pre.map (·.1.1)).count x.1 + x.2 + 1 = op x.1) :
    slurStartList (recordLinks .slur op time (links.map (fun l => (l.1.1, l.2.1))) noParams) e =
      (links.filter (fun l => l.2.1 == e)).map (fun l => (((l.1.2 + 1 : Nat) : Int), some l.1.1)) := by
  unfold slurStartList
  have c := (record_counts .slur op time (links.map (fun l => (l.1.1, l.2.1))) e).1
  rw [show "slurEndCount".toList = SlurKind.slur.prefix ++ "EndCount".toList from rfl, c]
  have hm : (links.map (fun l => (l.1.1, l.2.1))).map (·.2) = links.map (fun l => l.2.1) := by rw [List.map_map]; rfl
  have hm1 : ∀ L : List (SlurItem × SlurItem), (L.map (fun l => (l.1.1, l.2.1))).map (·.1) = L.map (·.1.1) := by
    intro L; rw [List.map_map]; rfl
  have hm2 : ∀ L : List (SlurItem × SlurItem), (L.map (fun l => (l.1.1, l.2.1))).map (·.2) = L.map (fun l => l.2.1) := by
    intro L; rw [List.map_map]; rfl
  rw [hm, Int.toNat_natCast]
  have := range_occurrences (fun l : SlurItem × SlurItem => l.2.1) e (fun i =>
    (getSlurStartNumber (recordLinks .slur op time (links.map (fun l => (l.1.1, l.2.1))) noParams) e (i + 1 : Nat),
     getSlurStartToken (recordLinks .slur op time (links.map (fun l => (l.1.1, l.2.1))) noParams) e (i + 1 : Nat)))
    (fun l => (((l.1.2 + 1 : Nat) : Int), some l.1.1)) links [] (by
      intro pre l post hl he
      obtain ⟨x, y⟩ := l
      simp only at he
      subst he
      rw [List.nil_append] at hl
      have hn := num pre x y post hl
      obtain ⟨a, b, _⟩ := slur_recorded op time (pre.map (fun l => (l.1.1, l.2.1))) (post.map (fun l => (l.1.1, l.2.1))) x.1 y.1
      have hsplit : links.map (fun l => (l.1.1, l.2.1)) = pre.map (fun l => (l.1.1, l.2.1)) ++ (x.1, y.1) :: post.map (fun l => (l.1.1, l.2.1)) := by
        rw [hl]; simp
      rw [hm2] at a b
      rw [hm1] at b
      simp only [hsplit]
      rw [a, b]
      congr 1
      omega)
  rw [List.map_nil, List.count_nil, ← List.range_eq_range'] at this
  exact this

/-- C111: slurs that nest come back as they were. Missing: slurs that cross, slurs on one note, notes that list shorter slurs first, and
slurs without placement that join the same two notes (see below), and slurs between layers, staves or parts. -/
theorem slurs_round_trip_partial (slurs : List HSlur) (ns : List SlurNoteOut) (H : SlursNest slurs ns) (hb : ∀ n ∈ ns, SlurBody n.body)
    (time : TokId → Rat) :
    ∃ R, readHumSlurs ['>'] ['<'] time (slurTexts ns) = .ok R ∧ R.Perm (slurs.map (fun s => ((s.first, 0), (s.last, 0), s.place))) := by
  have N := slursNest_nested H
  have W0 : SlurWalk ns.length slurs (noteStarts ns) ([] : List SlurNoteOut).length [] [] := by
    refine ⟨⟨by simp, fun m => ⟨0, by simp, by simp, by simp⟩, by simp⟩, by simp, ?_, List.Pairwise.nil, by simp, by simp⟩
    simp
  obtain ⟨stk, links, r1, W⟩ := slurToks_walk ns N hb ns [] rfl [] [] W0
  have hlen : (slurTexts ns).length = ns.length := by simp [slurTexts]
  have htext : ∀ m n, ns[m]? = some n → textAt (slurTexts ns) (m, 0) = slurNoteText m n := by
    intro m n hm
    simp [textAt, slurTexts, hm]
  have htrack : trackToks ((slurTexts ns).zipIdx.map (fun p => [((p.2, 0), p.1)])) =
      (ns.zipIdx 0).map (fun p => ⟨(p.2, 0), slurNoteText p.2 p.1, 0⟩) := by
    unfold trackToks slurTexts
    rw [List.flatMap_map, List.zipIdx_map, List.flatMap_map]
    have : ∀ l : List (SlurNoteOut × Nat), (l.zipIdx).length = l.length := by simp
    have gen : ∀ (l : List SlurNoteOut) (k : Nat), (List.zipIdx (l.zipIdx k) k).flatMap (fun p => [(⟨(p.2, 0), slurNoteText p.1.2 p.1.1, 0⟩ : SlurTok)]) =
        (l.zipIdx k).map (fun p => ⟨(p.2, 0), slurNoteText p.2 p.1, 0⟩) := by
      intro l
      induction l with
      | nil => intro k; rfl
      | cons a l ih => intro k; simp [List.zipIdx_cons, ih (k + 1)]
    exact gen ns 0
  have hs : spineSlurs .slur [] ((slurTexts ns).zipIdx.map (fun p => [((p.2, 0), p.1)])) [] [] = .ok (layerSt stk links) := by
    unfold spineSlurs
    rw [htrack]
    have : (⟨fun _ _ => [], [], [], [], []⟩ : SlurSt) = layerSt [] [] := by
      unfold layerSt; congr 1; funext a b; simp
    rw [this]
    exact r1
  have hop : ∀ m < ns.length, countChar '(' (textAt (slurTexts ns) (m, 0)) = (noteStarts ns m).length := by
    intro m hm
    have hg : ns[m]? = some ns[m] := List.getElem?_eq_getElem hm
    rw [htext m _ hg, (slurNoteText_facts m _ (hb _ (List.getElem_mem hm))).1]
    simp [noteStarts, hg]
  have num : ∀ pre x y post, links = pre ++ (x, y) :: post → (pre.map (·.1.1)).count x.1 + x.2 + 1 = countChar '(' (textAt (slurTexts ns) x.1) := by
    intro pre x y post hl
    obtain ⟨a, b, c⟩ := W.num.links pre x y post hl
    have hx : x.1 = (x.1.1, 0) := by rw [← b]
    rw [a, hx]
    exact (hop _ c).symm
  -- what is found at each note
  have found : ∀ e < ns.length, processSlurs ['>'] ['<'] (textAt (slurTexts ns))
      (recordLinks .slur (fun t => countChar '(' (textAt (slurTexts ns) t)) time (links.map (fun l => (l.1.1, l.2.1))) noParams) (e, 0) =
      (links.filter (fun l => l.2.1 == (e, 0))).map (fun l => (l.1.1, (e, 0), (slurOf (noteStarts ns) l.1).place)) := by
    intro e he
    unfold processSlurs
    rw [slurStartList_links _ time links (e, 0) num]
    set q := links.filter (fun l => l.2.1 == (e, 0)) with hq
    rw [List.length_map, List.range_eq_range']
    apply filterMap_range_some
    intro i l hl
    rw [Nat.zero_add]
    have hlq : l ∈ q := List.mem_of_getElem? hl
    have hll : l ∈ links := (List.mem_filter.mp hlq).1
    obtain ⟨pre, post, hsplit⟩ := List.append_of_mem hll
    obtain ⟨n1, n2, n3⟩ := W.num.links pre l.1 l.2 post hsplit
    have hl1 : l.1.1 = (l.1.1.1, 0) := by rw [← n2]
    have hm := (W.later l hll).2
    have hg : ns[l.1.1.1]? = some ns[l.1.1.1] := List.getElem?_eq_getElem n3
    have hslur : (noteStarts ns l.1.1.1)[l.1.2]? = some (slurOf (noteStarts ns) l.1) := by
      simp [slurOf, hm]
    obtain ⟨c, t, hc, hcn⟩ := (hb _ (List.getElem_mem n3)).first
    have hafter := afterOpen_starts (noteStarts ns l.1.1.1) l.1.2 (slurOf (noteStarts ns) l.1)
      (ns[l.1.1.1].body ++ List.replicate (slurStopsAt l.1.1.1 ns[l.1.1.1].sites) ')') 0 c (t ++ List.replicate (slurStopsAt l.1.1.1 ns[l.1.1.1].sites) ')')
      hslur (by rw [hc]; rfl)
    have htx : textAt (slurTexts ns) l.1.1 = startsText (noteStarts ns l.1.1.1) ++ (ns[l.1.1.1].body ++ List.replicate (slurStopsAt l.1.1.1 ns[l.1.1.1].sites) ')') := by
      refine (congrArg (textAt (slurTexts ns)) hl1).trans ?_
      rw [htext _ _ hg, slurNoteText_eq]
      simp [noteStarts, hg]
    unfold readSlur
    rw [List.getElem?_map, hl]
    simp only [Option.map_some]
    have hnum : (((l.1.2 + 1 : Nat) : Int)) = 0 + (l.1.2 : Int) + 1 := by push_cast; omega
    rw [htx, hnum, hafter]
    have cy : c ≠ 'y' := fun h => hcn (by simp [h])
    have ca : c ≠ '>' := fun h => hcn (by simp [h])
    have cb : c ≠ '<' := fun h => hcn (by simp [h])
    -- the placement
    cases hp : (slurOf (noteStarts ns) l.1).place with
    | above => simp [ownPlace]
    | below => simp [ownPlace]
    | unset =>
      have hforced : forcedPlace (q.map (fun l => (0 + (l.1.2 : Int) + 1, some l.1.1))) i = .unset := by
        unfold forcedPlace
        have hnone : (List.range (q.map (fun l => (0 + (l.1.2 : Int) + 1, some l.1.1))).length).find? (fun j => !(j == i) &&
            ((q.map (fun l => (0 + (l.1.2 : Int) + 1, some l.1.1)))[j]?.map (·.2)) == ((q.map (fun l => (0 + (l.1.2 : Int) + 1, some l.1.1)))[i]?.map (·.2))) = none := by
          rw [List.find?_eq_none]
          intro j hj hcond
          rw [List.mem_range, List.length_map] at hj
          have hqj : q[j]? = some q[j] := List.getElem?_eq_getElem hj
          simp only [List.getElem?_map, hqj, hl, Option.map_some, Bool.and_eq_true, Bool.not_eq_true', beq_iff_eq, beq_eq_false_iff_ne, ne_eq, Option.some.injEq] at hcond
          obtain ⟨hji, hsame⟩ := hcond
          -- two slurs between the same notes
          have hfirst : ∀ z ∈ q, (slurOf (noteStarts ns) z.1) ∈ slurs ∧ (slurOf (noteStarts ns) z.1).first = z.1.1.1 ∧ (slurOf (noteStarts ns) z.1).last = e := by
            intro z hz
            have h1 := (W.ended e he).mem_iff.mp (List.mem_map_of_mem (f := fun l => slurOf (noteStarts ns) l.1) hz)
            obtain ⟨h2, h3⟩ := List.mem_filter.mp h1
            have hzl : z ∈ links := (List.mem_filter.mp hz).1
            have hz2 := (W.later z hzl).2
            obtain ⟨pre', post', hsp⟩ := List.append_of_mem hzl
            obtain ⟨_, _, m3⟩ := W.num.links pre' z.1 z.2 post' hsp
            have h4 : slurOf (noteStarts ns) z.1 ∈ noteStarts ns z.1.1.1 := by
              have : slurOf (noteStarts ns) z.1 = (noteStarts ns z.1.1.1)[z.1.2] := by simp [slurOf, hz2]
              rw [this]; exact List.getElem_mem hz2
            have h5 := (N.begins _ m3).mem_iff.mp h4
            exact ⟨h2, by simpa using (List.mem_filter.mp h5).2, by simpa using h3⟩
          obtain ⟨a1, a2, a3⟩ := hfirst l hlq
          obtain ⟨b1, b2, b3⟩ := hfirst q[j] (List.getElem_mem hj)
          have hone := H.placed _ a1 hp
          have htwo : 2 ≤ ((q.map (fun l => slurOf (noteStarts ns) l.1)).filter (fun t => t.first == (slurOf (noteStarts ns) l.1).first && t.last == (slurOf (noteStarts ns) l.1).last)).length := by
            have gi : (q.map (fun l => slurOf (noteStarts ns) l.1))[i]? = some (slurOf (noteStarts ns) l.1) := by rw [List.getElem?_map, hl]; rfl
            have gj : (q.map (fun l => slurOf (noteStarts ns) l.1))[j]? = some (slurOf (noteStarts ns) q[j].1) := by rw [List.getElem?_map, hqj]; rfl
            have pi : ((slurOf (noteStarts ns) l.1).first == (slurOf (noteStarts ns) l.1).first && (slurOf (noteStarts ns) l.1).last == (slurOf (noteStarts ns) l.1).last) = true := by simp
            have pj : ((slurOf (noteStarts ns) q[j].1).first == (slurOf (noteStarts ns) l.1).first && (slurOf (noteStarts ns) q[j].1).last == (slurOf (noteStarts ns) l.1).last) = true := by
              rw [a2, a3, b2, b3, hsame]; simp
            rcases Nat.lt_or_gt_of_ne hji with h | h
            · exact two_places _ _ j i _ _ h gj gi pj pi
            · exact two_places _ _ i j _ _ h gi gj pi pj
          have hle : ((q.map (fun l => slurOf (noteStarts ns) l.1)).filter (fun t => t.first == (slurOf (noteStarts ns) l.1).first && t.last == (slurOf (noteStarts ns) l.1).last)).length ≤
              (slurs.filter (fun t => t.first == (slurOf (noteStarts ns) l.1).first && t.last == (slurOf (noteStarts ns) l.1).last)).length := by
            rw [((W.ended e he).filter _).length_eq, List.filter_filter]
            exact (List.Sublist.length_le (by
              rw [show (fun a : HSlur => (a.first == (slurOf (noteStarts ns) l.1).first && a.last == (slurOf (noteStarts ns) l.1).last) && a.last == e) =
                (fun a => a.last == e && (a.first == (slurOf (noteStarts ns) l.1).first && a.last == (slurOf (noteStarts ns) l.1).last)) by
                  funext a; rw [Bool.and_comm]]
              rw [← List.filter_filter]
              exact List.filter_sublist))
          omega
        rw [hnone]
      have hforced' : forcedPlace (q.map (fun l => (((l.1.2 + 1 : Nat) : Int), some l.1.1))) i = .unset := by
        rw [← hforced]
        congr 1
        apply List.map_congr_left
        intro z _
        congr 1
        push_cast; omega
      rw [hforced']
      cases (noteStarts ns l.1.1.1)[l.1.2 + 1]? with
      | some _ => simp [ownPlace]
      | none => simp [ownPlace, cy, ca, cb]
  refine ⟨(List.range (slurTexts ns).length).flatMap (fun e => processSlurs ['>'] ['<'] (textAt (slurTexts ns))
        (recordLinks .slur (fun t => countChar '(' (textAt (slurTexts ns) t)) time ((layerSt stk links).links.map (fun l => (l.1.1, l.2.1))) (fun _ _ => none)) (e, 0)), ?_, ?_⟩
  · unfold readHumSlurs
    rw [hs]
  · rw [hlen]
    have e1 : (List.range ns.length).flatMap (fun e => processSlurs ['>'] ['<'] (textAt (slurTexts ns))
        (recordLinks .slur (fun t => countChar '(' (textAt (slurTexts ns) t)) time ((layerSt stk links).links.map (fun l => (l.1.1, l.2.1))) (fun _ _ => none)) (e, 0)) =
        (List.range ns.length).flatMap (fun e => (links.filter (fun l => l.2.1 == (e, 0))).map (fun l => (l.1.1, (e, 0), (slurOf (noteStarts ns) l.1).place))) := by
      apply List.flatMap_congr
      intro e he
      exact found e (List.mem_range.mp he)
    rw [e1]
    have e2 : ∀ e ∈ List.range ns.length, ((links.filter (fun l => l.2.1 == (e, 0))).map (fun l => (l.1.1, ((e, 0) : TokId), (slurOf (noteStarts ns) l.1).place))).Perm
        ((slurs.filter (fun s => s.last == e)).map (fun s => (((s.first, 0) : TokId), ((s.last, 0) : TokId), s.place))) := by
      intro e he
      rw [List.mem_range] at he
      have h1 := (W.ended e he).map (fun s => (((s.first, 0) : TokId), ((s.last, 0) : TokId), s.place))
      rw [List.map_map] at h1
      refine List.Perm.trans (List.Perm.of_eq ?_) h1
      apply List.map_congr_left
      intro z hz
      have h2 := (W.ended e he).mem_iff.mp (List.mem_map_of_mem (f := fun l => slurOf (noteStarts ns) l.1) hz)
      obtain ⟨h2, h3⟩ := List.mem_filter.mp h2
      have hzl : z ∈ links := (List.mem_filter.mp hz).1
      have hz2 := (W.later z hzl).2
      obtain ⟨pre', post', hsp⟩ := List.append_of_mem hzl
      obtain ⟨_, m2, m3⟩ := W.num.links pre' z.1 z.2 post' hsp
      have h4 : slurOf (noteStarts ns) z.1 ∈ noteStarts ns z.1.1.1 := by
        have : slurOf (noteStarts ns) z.1 = (noteStarts ns z.1.1.1)[z.1.2] := by simp [slurOf, hz2]
        rw [this]; exact List.getElem_mem hz2
      have h5 : (slurOf (noteStarts ns) z.1).first = z.1.1.1 := by
        simpa using (List.mem_filter.mp ((N.begins _ m3).mem_iff.mp h4)).2
      have h6 : (slurOf (noteStarts ns) z.1).last = e := by simpa using h3
      simp only [Function.comp_apply]
      rw [h5, h6, show z.1.1 = (z.1.1.1, 0) by rw [← m2]]
    refine (flatMap_perm_congr _ _ _ e2).trans ?_
    rw [← List.map_flatMap]
    refine ((flatMap_last_perm slurs ns.length).map _).trans ?_
    rw [List.filter_eq_self.mpr]
    intro s hs
    simpa using (H.inside s hs).2

/-! ### A case that meets the conditions -/

def shownSlurs : List HSlur := [⟨0, 3, .above⟩, ⟨0, 2, .unset⟩, ⟨1, 2, .below⟩, ⟨3, 4, .unset⟩]

def shownSlurNotes : List SlurNoteOut :=
  [⟨[⟨0, 3, .above⟩, ⟨0, 2, .unset⟩], "4c".toList⟩, ⟨[⟨1, 2, .below⟩], "8d".toList⟩, ⟨[⟨0, 2, .unset⟩, ⟨1, 2, .below⟩], "8e".toList⟩,
   ⟨[⟨0, 3, .above⟩, ⟨3, 4, .unset⟩], "4f".toList⟩, ⟨[⟨3, 4, .unset⟩], "4g".toList⟩]

example : slurTexts shownSlurNotes = ["(>(4c".toList, "(<8d".toList, "8e))".toList, "(4f)".toList, "4g)".toList] := by decide

theorem shownSlurs_nest : SlursNest shownSlurs shownSlurNotes := by
  refine ⟨?_, by decide, by decide, ?_, by decide⟩
  · intro i n h
    rcases i with _ | _ | _ | _ | _ | i
    all_goals first
      | (simp [shownSlurNotes] at h; done)
      | (simp only [shownSlurNotes, List.getElem?_cons_zero, List.getElem?_cons_succ, Option.some.injEq] at h; subst h; decide)
  · intro i n h
    rcases i with _ | _ | _ | _ | _ | i
    all_goals first
      | (simp [shownSlurNotes] at h; done)
      | (simp only [shownSlurNotes, List.getElem?_cons_zero, List.getElem?_cons_succ, Option.some.injEq] at h; subst h; decide)

example : ∀ n ∈ shownSlurNotes, SlurBody n.body := by
  intro n h
  simp only [shownSlurNotes, List.mem_cons, List.not_mem_nil, or_false] at h
  rcases h with rfl | rfl | rfl | rfl | rfl <;> exact ⟨by decide, _, _, rfl, by decide⟩

/-- The other conditions fail: what the code does then. -/
def readBackSlurs (ns : List SlurNoteOut) : Option (List (Nat × Nat × KTiePlace)) :=
  match readHumSlurs ['>'] ['<'] (fun _ => 0) (slurTexts ns) with
  | .ok R => some (R.map (fun r => (r.1.1, r.2.1.1, r.2.2)))
  | .error _ => none

/-- C111 fails for slurs that cross: they change their last notes. -/
theorem crossing_slurs_repaired :
    readBackSlurs [⟨[⟨0, 2, .above⟩], "4c".toList⟩, ⟨[⟨1, 3, .below⟩], "4d".toList⟩, ⟨[⟨0, 2, .above⟩], "4e".toList⟩, ⟨[⟨1, 3, .below⟩], "4f".toList⟩] =
      some [(1, 2, .below), (0, 3, .above)] := by decide +kernel

/-- C111 fails where a note lists the shorter of two slurs first: the slurs exchange their placements. -/
theorem shorter_slur_first :
    readBackSlurs [⟨[⟨0, 1, .above⟩, ⟨0, 2, .below⟩], "4c".toList⟩, ⟨[⟨0, 1, .above⟩], "4d".toList⟩, ⟨[⟨0, 2, .below⟩], "4e".toList⟩] =
      some [(0, 1, .below), (0, 2, .above)] := by decide +kernel

/-- C111 fails for two slurs without placement between the same notes: one comes back below, the other above. -/
theorem double_slurs_get_places :
    readBackSlurs [⟨[⟨0, 1, .unset⟩, ⟨0, 1, .unset⟩], "4c".toList⟩, ⟨[⟨0, 1, .unset⟩, ⟨0, 1, .unset⟩], "4d".toList⟩] =
      some [(0, 1, .below), (0, 1, .above)] := by decide +kernel

/-- C111 fails for a slur on one note: it takes the end of another slur. -/
theorem one_note_slur_takes_an_end :
    readBackSlurs [⟨[⟨0, 2, .above⟩], "4c".toList⟩, ⟨[⟨1, 1, .below⟩], "4d".toList⟩, ⟨[⟨0, 2, .above⟩], "4e".toList⟩] =
      some [(1, 2, .below)] := by decide +kernel

end C21
