import Verif.Model.HumParts
import Verif.Props.Pitch
import Verif.Props.Signifier
import Verif.Lemmas.PyNum
import Mathlib.Data.List.Induction
/-
C113: the start of a staff: instruments, clef and signatures.
-/
namespace C21

/-! ### Specification -/

/-- What stands at the start of a staff's spine. -/
inductive HeadItem
  | clef (sign : Str)
  | part (n : Nat)
  | staff (n : Nat)
  | stria (n : Nat)
  | keySig (accs : Str)
  | key (letter : Char) (accs mode : Str)
  | time (top : Nat) (bottom : Str)
  | met (symbol : Str)
  | trans (dia chroma : Int)
  | name (n : Str)
  | abbr (a : Str)
  | plain (s : Str)

/-- As it is written. -/
def HeadItem.text : HeadItem → Str
  | .clef c => "*clef".toList ++ c
  | .part n => "*part".toList ++ natStr n
  | .staff n => "*staff".toList ++ natStr n
  | .stria n => "*stria".toList ++ natStr n
  | .keySig k => "*k[".toList ++ k ++ [']']
  | .key l a m => '*' :: l :: a ++ ':' :: m
  | .time t b => "*M".toList ++ natStr t ++ '/' :: b
  | .met s => "*met(".toList ++ s ++ [')']
  | .trans d c => "*ITr".toList ++ ('d' :: intStr d ++ 'c' :: intStr c)
  | .name n => "*I\"".toList ++ n
  | .abbr a => "*I'".toList ++ a
  | .plain s => s

/-- Clefs have a line or are percussion clefs; names do not begin with a quote; plain tokens are null interpretations, tempos, exclusive
interpretations, barlines, and comments. -/
def HeadItem.Valid : HeadItem → Prop
  | .clef c => c.getLast?.any isDig ∨ c.head? = some 'X'
  | .key l a _ => l ∈ "abcdefgABCDEFG".toList ∧ ∀ c ∈ a, c = '#' ∨ c = '-'
  | .name n => n ≠ [] ∧ n.head? ≠ some '"'
  | .abbr a => a ≠ [] ∧ a.head? ≠ some '\''
  | .plain s => s = ['*'] ∨ (∃ r, s = '*' :: '*' :: r) ∨ (∃ r, s = "*MM".toList ++ r) ∨ s.head? ≠ some '*'
  | _ => True

/-- The last of the items that have a value under `f`. -/
def lastItem {α : Type} (f : HeadItem → Option α) (l : List HeadItem) : Option α := (l.filterMap f).getLast?

def HeadItem.clef? : HeadItem → Option Str | .clef c => some c | _ => none
def HeadItem.part? : HeadItem → Option Nat | .part c => some c | _ => none
def HeadItem.staff? : HeadItem → Option Nat | .staff c => some c | _ => none
def HeadItem.stria? : HeadItem → Option Nat | .stria c => some c | _ => none
def HeadItem.keySig? : HeadItem → Option Str | .keySig c => some c | _ => none
def HeadItem.key? : HeadItem → Option (Char × Str × Str) | .key l a m => some (l, a, m) | _ => none
def HeadItem.time? : HeadItem → Option (Nat × Str) | .time c b => some (c, b) | _ => none
def HeadItem.met? : HeadItem → Option Str | .met c => some c | _ => none
def HeadItem.trans? : HeadItem → Option (Int × Int) | .trans d c => some (d, c) | _ => none
def HeadItem.name? : HeadItem → Option Str | .name c => some c | _ => none
def HeadItem.abbr? : HeadItem → Option Str | .abbr c => some c | _ => none

/-! ### The scan -/

theorem endsInChar_append (s : Str) (c : Char) : endsInChar (s ++ [c]) c = true := by simp [endsInChar]

theorem headKind_text (x : HeadItem) (h : x.Valid) : headKind x.text =
    match x with
    | .clef c => .clef c
    | .part _ => .part
    | .staff _ => .staff
    | .stria _ => .stria
    | .keySig _ => .keySig
    | .key _ _ _ => .key
    | .time _ _ => .time
    | .met _ => .met
    | .trans d c => .itrans ('d' :: intStr d ++ 'c' :: intStr c)
    | .name n => .name n
    | .abbr a => .abbr a
    | .plain _ => .other := by
  cases x with
  | clef c => rfl
  | part n => rfl
  | staff n => rfl
  | stria n => rfl
  | keySig k =>
    have e : endsInChar ('*' :: 'k' :: '[' :: (k ++ [']'])) ']' = true := endsInChar_append ('*' :: 'k' :: '[' :: k) ']'
    show headKind ('*' :: 'k' :: '[' :: (k ++ [']'])) = .keySig
    simp [headKind, startsWith, List.isPrefixOf, e]
  | key l a m =>
    obtain ⟨hl, ha⟩ := h
    have e : isKeyDesigText ('*' :: l :: (a ++ ':' :: m)) = true := by
      have : (a ++ ':' :: m).dropWhile (fun c => c == '#' || c == '-') = ':' :: m := by
        clear hl
        induction a with
        | nil => rfl
        | cons x a ih =>
          have hx : (x == '#' || x == '-') = true := by
            rcases ha x (by simp) with rfl | rfl <;> rfl
          rw [List.cons_append, List.dropWhile_cons_of_pos (by simpa using hx)]
          exact ih (fun c hc => ha c (by simp [hc]))
      show ("abcdefgABCDEFG".toList.contains l && ((a ++ ':' :: m).dropWhile (fun c => c == '#' || c == '-')).head? == some ':') = true
      rw [this]
      have : "abcdefgABCDEFG".toList.contains l = true := List.contains_iff_mem.mpr hl
      rw [this]
      rfl
    show headKind ('*' :: l :: (a ++ ':' :: m)) = .key
    have hh : ∀ c, (a ++ ':' :: m).head? = some c → c = '#' ∨ c = '-' ∨ c = ':' := by
      intro c hc
      cases a with
      | nil => simp at hc; tauto
      | cons x a =>
        simp at hc; subst hc
        rcases ha x (by simp) with h | h <;> tauto
    cases hr : a ++ ':' :: m with
    | nil => simp at hr
    | cons d r =>
      rw [hr] at hh e
      have hd := hh d rfl
      have hd' : 'l' ≠ d ∧ '[' ≠ d := by rcases hd with rfl | rfl | rfl <;> decide
      have hl' : 'o' ≠ l ∧ 'p' ≠ l ∧ 's' ≠ l ∧ 'k' ≠ l := by
        simp only [String.toList, List.mem_cons, List.not_mem_nil, or_false] at hl
        refine ⟨?_, ?_, ?_, ?_⟩ <;> (rintro rfl; exact absurd hl (by decide))
      simp [headKind, startsWith, List.isPrefixOf, e, hd', hl']
  | time t b =>
    cases hn : natStr t with
    | nil => exact absurd hn (natStr_ne_nil t)
    | cons d ds =>
      have hd : isDig d = true := natStr_isDig t d (by rw [hn]; simp)
      have e : isTimeSigText ('*' :: 'M' :: d :: (ds ++ '/' :: b)) = true := by
        simp [isTimeSigText, startsWith, List.isPrefixOf, hd]
      have e2 : isKeyDesigText ('*' :: 'M' :: d :: (ds ++ '/' :: b)) = false := by
        simp [isKeyDesigText]
      show headKind (('*' :: 'M' :: natStr t) ++ '/' :: b) = .time
      rw [hn]
      show headKind ('*' :: 'M' :: d :: (ds ++ '/' :: b)) = .time
      simp [headKind, startsWith, List.isPrefixOf, e, e2]
  | met s =>
    have e : endsInChar ('*' :: 'm' :: 'e' :: 't' :: '(' :: (s ++ [')'])) ')' = true := endsInChar_append ('*' :: 'm' :: 'e' :: 't' :: '(' :: s) ')'
    have e2 : isKeyDesigText ('*' :: 'm' :: 'e' :: 't' :: '(' :: (s ++ [')'])) = false := by simp [isKeyDesigText]
    show headKind ('*' :: 'm' :: 'e' :: 't' :: '(' :: (s ++ [')'])) = .met
    simp [headKind, startsWith, List.isPrefixOf, e, e2]
  | trans d c => rfl
  | name n =>
    obtain ⟨h1, h2⟩ := h
    cases n with
    | nil => exact absurd rfl h1
    | cons x r =>
      have hx : '"' ≠ x := fun e => h2 (by rw [e]; rfl)
      have hx' : (some x == some '"') = false := by
        simp only [beq_eq_false_iff_ne, ne_eq, Option.some.injEq]
        exact fun e => hx e.symm
      show headKind ('*' :: 'I' :: '"' :: x :: r) = _
      simp [headKind, startsWith, List.isPrefixOf, isKeyDesigText, hx, hx']
  | abbr n =>
    obtain ⟨h1, h2⟩ := h
    cases n with
    | nil => exact absurd rfl h1
    | cons x r =>
      have hx : '\'' ≠ x := fun e => h2 (by rw [e]; rfl)
      have hx' : (some x == some '\'') = false := by
        simp only [beq_eq_false_iff_ne, ne_eq, Option.some.injEq]
        exact fun e => hx e.symm
      show headKind ('*' :: 'I' :: '\'' :: x :: r) = _
      simp [headKind, startsWith, List.isPrefixOf, isKeyDesigText, hx, hx']
  | plain s =>
    rcases h with h | ⟨r, h⟩ | ⟨r, h⟩ | h
    · subst h; rfl
    · subst h
      show headKind ('*' :: '*' :: r) = .other
      simp [headKind, startsWith, List.isPrefixOf, isKeyDesigText, isTimeSigText]
    · subst h
      show headKind ('*' :: 'M' :: 'M' :: r) = .other
      have : isDig 'M' = false := rfl
      simp [headKind, startsWith, List.isPrefixOf, isKeyDesigText, isTimeSigText, this]
    · show headKind s = .other
      cases s with
      | nil => rfl
      | cons x r =>
        have hx : '*' ≠ x := fun e => h (by rw [e]; rfl)
        have e : isKeyDesigText (x :: r) = false := by
          unfold isKeyDesigText
          split
          · next e => simp at e; exact absurd e.1.symm hx
          · rfl
        simp [headKind, startsWith, List.isPrefixOf, isTimeSigText, hx, e]

theorem headScan_append (p : Nat) (g : Int) (a b : List Str) (st : HeadSt) :
    headScan p g (a ++ b) st = match headScan p g a st with | .error e => .error e | .ok st' => headScan p g b st' := by
  induction a generalizing st with
  | nil => rfl
  | cons x a ih =>
    simp only [List.cons_append, headScan]
    cases headStep p g st x with
    | error e => rfl
    | ok st' => exact ih st'

/-- The clefs after the first one that are different from it. -/
def laterClefs : List Str → List Str
  | [] => []
  | c :: r => r.filter (fun d => d ≠ c)

theorem laterClefs_snoc (l : List Str) (c : Str) : laterClefs (l ++ [c]) =
    match l with | [] => [] | d :: _ => laterClefs l ++ (if d = c then [] else [c]) := by
  cases l with
  | nil => rfl
  | cons d r =>
    simp only [List.cons_append, laterClefs, List.filter_append]
    congr 1
    by_cases h : d = c
    · subst h; simp
    · have : c ≠ d := fun e => h e.symm
      simp [h, this]

/-- C113, first part. The scan finds, whatever the order of the tokens, the first clef and the last of everything else; clefs that are
not like the first one are changes. Abbreviations are left out if there is one staff only. -/
theorem head_scan (p : Nat) (g : Int) (l : List HeadItem) (hv : ∀ x ∈ l, x.Valid) :
    headScan p g (l.map HeadItem.text) .init = .ok {
      clef := (l.filterMap HeadItem.clef?).head?.map (fun c => "*clef".toList ++ c)
      clefChanges := (laterClefs (l.filterMap HeadItem.clef?)).map (fun c => "*clef".toList ++ c)
      part := (lastItem HeadItem.part? l).map (fun n => "*part".toList ++ natStr n)
      staff := (lastItem HeadItem.staff? l).map (fun n => "*staff".toList ++ natStr n)
      stria := (lastItem HeadItem.stria? l).map (fun n => "*stria".toList ++ natStr n)
      keySig := (lastItem HeadItem.keySig? l).map (fun k => "*k[".toList ++ k ++ [']'])
      key := (lastItem HeadItem.key? l).map (fun k => '*' :: k.1 :: k.2.1 ++ ':' :: k.2.2)
      scale := none
      met := (lastItem HeadItem.met? l).map (fun s => "*met(".toList ++ s ++ [')'])
      time := (lastItem HeadItem.time? l).map (fun t => "*M".toList ++ natStr t.1 ++ '/' :: t.2)
      itrans := (lastItem HeadItem.trans? l).map (fun t => 'd' :: intStr t.1 ++ 'c' :: intStr t.2)
      groupAbbrev := none
      abbr := if 1 < p then lastItem HeadItem.abbr? l else none
      groupName := none
      name := lastItem HeadItem.name? l
      code := none
      classCode := none } := by
  induction l using List.reverseRecOn with
  | nil => cases hp : decide (1 < p) <;> simp [headScan, HeadSt.init, lastItem, laterClefs]
  | append_singleton l x ih =>
    rw [List.map_append, headScan_append, ih (fun y hy => hv y (by simp [hy]))]
    have hx : x.Valid := hv x (by simp)
    simp only [List.map_cons, List.map_nil, headScan, headStep]
    rw [headKind_text x hx]
    have none_snoc : ∀ {α : Type} (f : HeadItem → Option α), f x = none → lastItem f (l ++ [x]) = lastItem f l := by
      intro α f h
      simp [lastItem, List.filterMap_append, List.filterMap_cons, h]
    have some_snoc : ∀ {α : Type} (f : HeadItem → Option α) (v : α), f x = some v → lastItem f (l ++ [x]) = some v := by
      intro α f v h
      simp [lastItem, List.filterMap_append, List.filterMap_cons, h]
    have clef_snoc : x.clef? = none → (l ++ [x]).filterMap HeadItem.clef? = l.filterMap HeadItem.clef? := by
      intro h
      simp [List.filterMap_append, List.filterMap_cons, h]
    cases x with
    | clef c =>
      have e : (l ++ [HeadItem.clef c]).filterMap HeadItem.clef? = l.filterMap HeadItem.clef? ++ [c] := by
        simp [List.filterMap_append, List.filterMap_cons, HeadItem.clef?]
      rw [e, none_snoc _ rfl, none_snoc _ rfl, none_snoc _ rfl, none_snoc _ rfl, none_snoc _ rfl, none_snoc _ rfl, none_snoc _ rfl,
        none_snoc _ rfl, none_snoc _ rfl, none_snoc _ rfl, laterClefs_snoc]
      cases hc : l.filterMap HeadItem.clef? with
      | nil =>
        have hvv : c.getLast?.any isDig ∨ c.head? = some 'X' := hx
        cases hl : c.getLast? with
        | none =>
          exfalso
          have : c = [] := by simpa using hl
          subst this
          rcases hvv with h | h <;> exact absurd h (by decide)
        | some d =>
          have : (isDig d || c.head? == some 'X') = true := by
            rw [hl] at hvv
            rcases hvv with h | h
            · have : isDig d = true := h
              rw [this]; rfl
            · rw [h]; simp
          simp only [List.head?_nil, Option.map_none, hl, this, if_true, laterClefs, List.map_nil, HeadItem.text, List.nil_append,
            List.head?_cons, Option.map_some]
      | cons d r =>
        by_cases hdc : d = c
        · subst hdc
          simp [HeadItem.text]
        · simp [HeadItem.text, hdc]
    | part n => rw [clef_snoc rfl, some_snoc HeadItem.part? n rfl, none_snoc HeadItem.staff? rfl, none_snoc HeadItem.stria? rfl, none_snoc HeadItem.keySig? rfl, none_snoc HeadItem.key? rfl, none_snoc HeadItem.met? rfl, none_snoc HeadItem.time? rfl, none_snoc HeadItem.trans? rfl, none_snoc HeadItem.abbr? rfl, none_snoc HeadItem.name? rfl]; rfl
    | staff n => rw [clef_snoc rfl, none_snoc HeadItem.part? rfl, some_snoc HeadItem.staff? n rfl, none_snoc HeadItem.stria? rfl, none_snoc HeadItem.keySig? rfl, none_snoc HeadItem.key? rfl, none_snoc HeadItem.met? rfl, none_snoc HeadItem.time? rfl, none_snoc HeadItem.trans? rfl, none_snoc HeadItem.abbr? rfl, none_snoc HeadItem.name? rfl]; rfl
    | stria n => rw [clef_snoc rfl, none_snoc HeadItem.part? rfl, none_snoc HeadItem.staff? rfl, some_snoc HeadItem.stria? n rfl, none_snoc HeadItem.keySig? rfl, none_snoc HeadItem.key? rfl, none_snoc HeadItem.met? rfl, none_snoc HeadItem.time? rfl, none_snoc HeadItem.trans? rfl, none_snoc HeadItem.abbr? rfl, none_snoc HeadItem.name? rfl]; rfl
    | keySig k => rw [clef_snoc rfl, none_snoc HeadItem.part? rfl, none_snoc HeadItem.staff? rfl, none_snoc HeadItem.stria? rfl, some_snoc HeadItem.keySig? k rfl, none_snoc HeadItem.key? rfl, none_snoc HeadItem.met? rfl, none_snoc HeadItem.time? rfl, none_snoc HeadItem.trans? rfl, none_snoc HeadItem.abbr? rfl, none_snoc HeadItem.name? rfl]; rfl
    | key k a m => rw [clef_snoc rfl, none_snoc HeadItem.part? rfl, none_snoc HeadItem.staff? rfl, none_snoc HeadItem.stria? rfl, none_snoc HeadItem.keySig? rfl, some_snoc HeadItem.key? (k, a, m) rfl, none_snoc HeadItem.met? rfl, none_snoc HeadItem.time? rfl, none_snoc HeadItem.trans? rfl, none_snoc HeadItem.abbr? rfl, none_snoc HeadItem.name? rfl]; rfl
    | time t b => rw [clef_snoc rfl, none_snoc HeadItem.part? rfl, none_snoc HeadItem.staff? rfl, none_snoc HeadItem.stria? rfl, none_snoc HeadItem.keySig? rfl, none_snoc HeadItem.key? rfl, none_snoc HeadItem.met? rfl, some_snoc HeadItem.time? (t, b) rfl, none_snoc HeadItem.trans? rfl, none_snoc HeadItem.abbr? rfl, none_snoc HeadItem.name? rfl]; rfl
    | met s => rw [clef_snoc rfl, none_snoc HeadItem.part? rfl, none_snoc HeadItem.staff? rfl, none_snoc HeadItem.stria? rfl, none_snoc HeadItem.keySig? rfl, none_snoc HeadItem.key? rfl, some_snoc HeadItem.met? s rfl, none_snoc HeadItem.time? rfl, none_snoc HeadItem.trans? rfl, none_snoc HeadItem.abbr? rfl, none_snoc HeadItem.name? rfl]; rfl
    | trans d c => rw [clef_snoc rfl, none_snoc HeadItem.part? rfl, none_snoc HeadItem.staff? rfl, none_snoc HeadItem.stria? rfl, none_snoc HeadItem.keySig? rfl, none_snoc HeadItem.key? rfl, none_snoc HeadItem.met? rfl, none_snoc HeadItem.time? rfl, some_snoc HeadItem.trans? (d, c) rfl, none_snoc HeadItem.abbr? rfl, none_snoc HeadItem.name? rfl]; rfl
    | name n => rw [clef_snoc rfl, none_snoc HeadItem.part? rfl, none_snoc HeadItem.staff? rfl, none_snoc HeadItem.stria? rfl, none_snoc HeadItem.keySig? rfl, none_snoc HeadItem.key? rfl, none_snoc HeadItem.met? rfl, none_snoc HeadItem.time? rfl, none_snoc HeadItem.trans? rfl, none_snoc HeadItem.abbr? rfl, some_snoc HeadItem.name? n rfl]
    | abbr a =>
      rw [clef_snoc rfl, none_snoc HeadItem.part? rfl, none_snoc HeadItem.staff? rfl, none_snoc HeadItem.stria? rfl, none_snoc HeadItem.keySig? rfl, none_snoc HeadItem.key? rfl, none_snoc HeadItem.met? rfl, none_snoc HeadItem.time? rfl, none_snoc HeadItem.trans? rfl, some_snoc HeadItem.abbr? a rfl, none_snoc HeadItem.name? rfl]
      by_cases hp : 1 < p
      · simp [hp]
      · simp [hp]
    | plain s => rw [clef_snoc rfl, none_snoc HeadItem.part? rfl, none_snoc HeadItem.staff? rfl, none_snoc HeadItem.stria? rfl, none_snoc HeadItem.keySig? rfl, none_snoc HeadItem.key? rfl, none_snoc HeadItem.met? rfl, none_snoc HeadItem.time? rfl, none_snoc HeadItem.trans? rfl, none_snoc HeadItem.abbr? rfl, none_snoc HeadItem.name? rfl]

/-! A staff with everything. -/
example : ∀ x ∈ ([.plain "**kern".toList, .part 1, .staff 1, .name "Clarinet".toList, .abbr "Cl.".toList, .stria 5, .clef "G2".toList, .trans 1 2,
    .keySig "b-".toList, .key 'F' [] [], .time 4 "4".toList, .met "c".toList, .plain "*MM120".toList, .plain "=1".toList] : List HeadItem), x.Valid := by
  intro x hx
  simp only [List.mem_cons, List.not_mem_nil, or_false] at hx
  rcases hx with rfl | rfl | rfl | rfl | rfl | rfl | rfl | rfl | rfl | rfl | rfl | rfl | rfl | rfl
  · exact Or.inr (Or.inl ⟨_, rfl⟩)
  · trivial
  · trivial
  · exact ⟨by decide, by decide⟩
  · exact ⟨by decide, by decide⟩
  · trivial
  · exact Or.inl (by decide)
  · trivial
  · trivial
  · exact ⟨by decide, by simp⟩
  · trivial
  · trivial
  · exact Or.inr (Or.inr (Or.inl ⟨_, rfl⟩))
  · exact Or.inr (Or.inr (Or.inr (by decide)))

/-! ### Instruments -/

/-- The items that tell the instrument. -/
def HeadItem.isInst : HeadItem → Bool
  | .trans _ _ => true
  | .name _ => true
  | .abbr _ => true
  | _ => false

/-- A transposition that moves nothing is no transposition. Unisons have no direction. -/
def transAfter : Option Ivl → Option Ivl
  | none => none
  | some i => if i.semis = 0 ∧ (i.generic = 1 ∨ i.generic = -1) then none else some ⟨if i.generic = -1 then 1 else i.generic, i.semis⟩

/-- What the importer can tell from a name: it is not empty, not one of the dummy names of some programs, and has no quote at the start. -/
structure RealName (n : Str) : Prop where
  ne : n ≠ []
  noXml : ¬ "MusicXML".toList <:+: n
  noPart : ¬ "Part_".toList <:+: n
  noUnnamed : ¬ "Unnamed".toList <:+: n
  quote : n.head? ≠ some '"'

def kindName (s : Str) : Option Str := match headKind s with | .name n => some n | _ => none
def kindAbbr (s : Str) : Option Str := match headKind s with | .abbr n => some n | _ => none
def kindTrans (s : Str) : Option Str := match headKind s with | .itrans n => some n | _ => none

theorem lastItem_kinds (l : List HeadItem) (hv : ∀ x ∈ l, x.Valid) :
    lastItem HeadItem.name? l = (((l.filter HeadItem.isInst).map HeadItem.text).filterMap kindName).getLast? ∧
    lastItem HeadItem.abbr? l = (((l.filter HeadItem.isInst).map HeadItem.text).filterMap kindAbbr).getLast? ∧
    (lastItem HeadItem.trans? l).map (fun t => 'd' :: intStr t.1 ++ 'c' :: intStr t.2) =
      (((l.filter HeadItem.isInst).map HeadItem.text).filterMap kindTrans).getLast? := by
  have key : l.filterMap HeadItem.name? = ((l.filter HeadItem.isInst).map HeadItem.text).filterMap kindName ∧
      l.filterMap HeadItem.abbr? = ((l.filter HeadItem.isInst).map HeadItem.text).filterMap kindAbbr ∧
      (l.filterMap HeadItem.trans?).map (fun t => 'd' :: intStr t.1 ++ 'c' :: intStr t.2) =
        ((l.filter HeadItem.isInst).map HeadItem.text).filterMap kindTrans := by
    induction l with
    | nil => exact ⟨rfl, rfl, rfl⟩
    | cons x l ih =>
      obtain ⟨i1, i2, i3⟩ := ih (fun y hy => hv y (by simp [hy]))
      have hx := headKind_text x (hv x (by simp))
      cases x with
      | trans d c =>
        rw [List.filter_cons_of_pos (by rfl), List.map_cons, List.filterMap_cons, List.filterMap_cons, List.filterMap_cons, List.filterMap_cons, List.filterMap_cons, List.filterMap_cons]
        simp only [kindName, kindAbbr, kindTrans, hx, HeadItem.name?, HeadItem.abbr?, HeadItem.trans?, List.map_cons]
        exact ⟨i1, i2, by rw [i3]⟩
      | name n =>
        rw [List.filter_cons_of_pos (by rfl), List.map_cons, List.filterMap_cons, List.filterMap_cons, List.filterMap_cons, List.filterMap_cons, List.filterMap_cons, List.filterMap_cons]
        simp only [kindName, kindAbbr, kindTrans, hx, HeadItem.name?, HeadItem.abbr?, HeadItem.trans?]
        exact ⟨by rw [i1], i2, i3⟩
      | abbr n =>
        rw [List.filter_cons_of_pos (by rfl), List.map_cons, List.filterMap_cons, List.filterMap_cons, List.filterMap_cons, List.filterMap_cons, List.filterMap_cons, List.filterMap_cons]
        simp only [kindName, kindAbbr, kindTrans, hx, HeadItem.name?, HeadItem.abbr?, HeadItem.trans?]
        exact ⟨i1, by rw [i2], i3⟩
      | _ => rw [List.filter_cons_of_neg (by simp [HeadItem.isInst])]; exact ⟨i1, i2, i3⟩
  refine ⟨?_, ?_, ?_⟩
  · unfold lastItem; rw [key.1]
  · unfold lastItem; rw [key.2.1]
  · unfold lastItem; rw [← List.getLast?_map, key.2.2]

theorem trans_text_roundtrip (i : Ivl) (h0 : i.generic ≠ 0) (ht : ¬ (i.semis = 0 ∧ (i.generic = 1 ∨ i.generic = -1))) :
    (ivlOfTransText (transTextOf i.rev)).map Ivl.rev = transAfter (some i) := by
  have e := trans_roundtrip (if i.rev.generic < 0 then i.rev.generic + 1 else i.rev.generic - 1) i.rev.semis [] [] (by simp) (by simp)
  rw [List.nil_append, List.append_nil] at e
  have : transToDiatonicChromatic (transTextOf i.rev) = some (if i.rev.generic < 0 then i.rev.generic + 1 else i.rev.generic - 1, i.rev.semis) := e
  unfold ivlOfTransText
  rw [this]
  dsimp only
  obtain ⟨g, s⟩ := i
  simp only [Ivl.rev, transAfter] at *
  rw [if_neg ht]
  by_cases h1 : g = 1 ∨ g = -1
  · have hs : s ≠ 0 := fun e => ht ⟨e, h1⟩
    simp only [if_pos h1]
    rw [if_neg (by omega)]
    rcases h1 with rfl | rfl <;> simp [Ivl.rev]
  · simp only [if_neg h1]
    have h2 : g ≠ 1 := fun e => h1 (Or.inl e)
    have h3 : g ≠ -1 := fun e => h1 (Or.inr e)
    rw [if_neg (by split <;> omega)]
    simp only [Option.map_some, Option.some.injEq, Ivl.rev, Ivl.mk.injEq, Int.neg_neg, and_true, if_neg h3]
    by_cases hg : -g < 0
    · rw [if_pos hg, if_neg (by split <;> omega)]
      split <;> omega
    · rw [if_neg hg, if_neg (by split <;> omega)]
      split <;> omega

/-- The instrument of a staff whose spine begins with any tokens among which are the ones written for it. -/
theorem staff_instrument (codes classes : Str → Option Str) (p : Nat) (g : Int) (name : Str) (abbr : Option Str) (count s : Nat) (t : Option Ivl)
    (l : List HeadItem) (hv : ∀ x ∈ l, x.Valid) (hw : (l.filter HeadItem.isInst).map HeadItem.text = instTokens (some name) abbr count s t)
    (hn : RealName name) (ha : ∀ a, abbr = some a → a ≠ [] ∧ a.head? ≠ some '\'' ∧ a ≠ name) (hp : abbr ≠ none → 1 < p)
    (ht : ∀ i, t = some i → i.generic ≠ 0) :
    ∃ st, headScan p g (l.map HeadItem.text) .init = .ok st ∧ headInst codes classes st =
      if s = count - 1 then some ⟨name, abbr, transAfter t⟩
      else if transAfter t = none then none else some ⟨"UnknownTransposingInstrument".toList, none, transAfter t⟩ := by
  refine ⟨_, head_scan p g l hv, ?_⟩
  obtain ⟨k1, k2, k3⟩ := lastItem_kinds l hv
  rw [hw] at k1 k2 k3
  rw [k1, k2, k3]
  have hnt : nameToken (some name) = some (HeadItem.name name).text := by
    unfold nameToken
    have i1 : isInfix "MusicXML".toList name = false := by
      rw [Bool.eq_false_iff]; intro h; obtain ⟨a, b, e⟩ := (isInfix_iff _ _).mp h; exact hn.noXml ⟨a, b, by rw [e]⟩
    have i2 : isInfix "Part_".toList name = false := by
      rw [Bool.eq_false_iff]; intro h; obtain ⟨a, b, e⟩ := (isInfix_iff _ _).mp h; exact hn.noPart ⟨a, b, by rw [e]⟩
    have i3 : isInfix "Unnamed".toList name = false := by
      rw [Bool.eq_false_iff]; intro h; obtain ⟨a, b, e⟩ := (isInfix_iff _ _).mp h; exact hn.noUnnamed ⟨a, b, by rw [e]⟩
    simp only [if_neg hn.ne, i1, i2, i3]
    rfl
  have kn := headKind_text (.name name) ⟨hn.ne, hn.quote⟩
  -- the transposition token
  have kt : ∃ u : List Str, (transToken t).toList = u ∧ u.filterMap kindName = [] ∧ u.filterMap kindAbbr = [] ∧
      (match (u.filterMap kindTrans).getLast? with
        | some x => if x = [] then none else (ivlOfTransText x).map Ivl.rev
        | none => none) = transAfter t ∧ ((u.filterMap kindTrans).getLast? = none ↔ transAfter t = none) := by
    refine ⟨_, rfl, ?_⟩
    cases t with
    | none => exact ⟨rfl, rfl, rfl, by simp [transToken, transAfter]⟩
    | some i =>
      by_cases h : i.semis = 0 ∧ (i.generic = 1 ∨ i.generic = -1)
      · have e : transToken (some i) = none := by simp [transToken, isTransposing, h]
        rw [e]
        simp [transAfter, h]
      · have e : transToken (some i) = some ("*ITr".toList ++ transTextOf i.rev) := by simp [transToken, isTransposing, h]
        have hk : headKind ("*ITr".toList ++ transTextOf i.rev) = .itrans (transTextOf i.rev) := rfl
        have ne : transTextOf i.rev ≠ [] := by simp [transTextOf, diatonicChromaticToTrans]
        have hs : (ivlOfTransText (transTextOf i.rev)).map Ivl.rev = transAfter (some i) := trans_text_roundtrip i (ht i rfl) h
        have hne : transAfter (some i) ≠ none := by simp [transAfter, h]
        rw [e]
        simp only [Option.toList_some, List.filterMap_cons, List.filterMap_nil, kindName, kindAbbr, kindTrans, hk, List.getLast?_singleton, if_neg ne]
        exact ⟨trivial, trivial, hs, by simp [hne]⟩
  obtain ⟨u, hu, u1, u2, u3, u4⟩ := kt
  unfold instTokens
  rw [hu]
  by_cases hs : s = count - 1
  · rw [if_pos hs, if_pos hs, hnt]
    have fa : ∀ a, abbr = some a → headKind ("*I'".toList ++ a) = .abbr a := by
      intro a e
      exact headKind_text (.abbr a) ⟨(ha a e).1, (ha a e).2.1⟩
    have e1 : (((some (HeadItem.name name).text).toList ++ (abbrevToken abbr).toList ++ u).filterMap kindName) = [name] := by
      rw [List.filterMap_append, List.filterMap_append, u1]
      cases hab : abbr with
      | none => simp [kindName, kn, abbrevToken]
      | some a =>
        have := fa a hab
        have h2 := (ha a hab).1
        simp only [Option.toList_some, List.filterMap_cons, List.filterMap_nil, kindName, kn, abbrevToken, if_neg h2, this]
        rfl
    have e2 : (((some (HeadItem.name name).text).toList ++ (abbrevToken abbr).toList ++ u).filterMap kindAbbr) = abbr.toList := by
      rw [List.filterMap_append, List.filterMap_append, u2]
      cases hab : abbr with
      | none => simp [kindAbbr, kn, abbrevToken]
      | some a =>
        have := fa a hab
        have h2 := (ha a hab).1
        simp only [Option.toList_some, List.filterMap_cons, List.filterMap_nil, kindAbbr, kn, abbrevToken, if_neg h2, this]
        rfl
    have e3 : (((some (HeadItem.name name).text).toList ++ (abbrevToken abbr).toList ++ u).filterMap kindTrans) = u.filterMap kindTrans := by
      rw [List.filterMap_append, List.filterMap_append]
      cases hab : abbr with
      | none => simp [kindTrans, kn, abbrevToken]
      | some a =>
        have := fa a hab
        have h2 := (ha a hab).1
        simp only [Option.toList_some, List.filterMap_cons, List.filterMap_nil, kindTrans, kn, abbrevToken, if_neg h2, this]
        rfl
    rw [e1, e2, e3]
    have e4 : (if 1 < p then abbr.toList.getLast? else none) = abbr := by
      cases hab : abbr with
      | none => simp
      | some a => rw [if_pos (hp (by rw [hab]; simp))]; rfl
    simp only [headInst, instName, List.getLast?_singleton, if_neg hn.ne, e4]
    congr 2
    cases hab : abbr with
    | none => rfl
    | some a => simp [(ha a hab).1, (ha a hab).2.2]
  · rw [if_neg hs, if_neg hs, List.nil_append, u1, u2]
    simp only [headInst, instName, List.getLast?_nil, ite_self]
    cases hl : (u.filterMap kindTrans).getLast? with
    | none =>
      rw [if_pos (u4.mp hl)]
      rfl
    | some x =>
      have hne : transAfter t ≠ none := fun e => by rw [u4.mpr e] at hl; cases hl
      rw [if_neg hne]
      rw [hl] at u3
      simp only [Option.isSome_some, if_true]
      rw [if_neg (by decide)]
      simp only [Option.some.injEq, Inst.mk.injEq, true_and]
      exact u3

/-- C113, second part. A part of one staff gets back its instrument: name, abbreviation and transposition. The staff is not the only one
if it has an abbreviation. Missing: names that are left out or read otherwise (below). -/
theorem instrument_round_trip_partial (codes classes : Str → Option Str) (p : Nat) (g : Int) (name : Str) (abbr : Option Str) (t : Option Ivl)
    (l : List HeadItem) (hv : ∀ x ∈ l, x.Valid) (hw : (l.filter HeadItem.isInst).map HeadItem.text = instTokens (some name) abbr 1 0 t)
    (hn : RealName name) (ha : ∀ a, abbr = some a → a ≠ [] ∧ a.head? ≠ some '\'' ∧ a ≠ name) (hp : abbr ≠ none → 1 < p)
    (ht : ∀ i, t = some i → i.generic ≠ 0) :
    ∃ st, headScan p g (l.map HeadItem.text) .init = .ok st ∧ headInst codes classes st = some ⟨name, abbr, transAfter t⟩ := by
  have := staff_instrument codes classes p g name abbr 1 0 t l hv hw hn ha hp ht
  rwa [if_pos rfl] at this

/-- C113, third part. A part with any number of staves gets back its name, if its instrument does not transpose; the name is that of the
first of its staves that has one. -/
theorem part_name_kept (codes classes : Str → Option Str) (p : Nat) (g : Int) (name : Str) (abbr : Option Str)
    (staves : List (List HeadItem)) (h0 : staves ≠ []) (hv : ∀ l ∈ staves, ∀ x ∈ l, x.Valid)
    (hw : ∀ (s : Nat) (l : List HeadItem), staves[s]? = some l → (l.filter HeadItem.isInst).map HeadItem.text = instTokens (some name) abbr staves.length s none)
    (hn : RealName name) (ha : ∀ a, abbr = some a → a ≠ [] ∧ a.head? ≠ some '\'' ∧ a ≠ name) (hp : abbr ≠ none → 1 < p) :
    findPartText (staves.map (fun l => match headScan p g (l.map HeadItem.text) .init with
      | .ok st => (headInst codes classes st).map Inst.name
      | .error _ => none)) = some name := by
  have key : staves.map (fun l => match headScan p g (l.map HeadItem.text) .init with
      | .ok st => (headInst codes classes st).map Inst.name
      | .error _ => none) = List.replicate (staves.length - 1) none ++ [some name] := by
    have hlen : 0 < staves.length := List.length_pos_iff.mpr h0
    apply List.ext_getElem?
    intro i
    rw [List.getElem?_map]
    cases hi : staves[i]? with
    | none =>
      have := List.getElem?_eq_none_iff.mp hi
      rw [Option.map_none]
      symm
      rw [List.getElem?_eq_none_iff]
      simp only [List.length_append, List.length_replicate, List.length_singleton]
      omega
    | some l =>
      obtain ⟨hlt, _⟩ := List.getElem?_eq_some_iff.mp hi
      obtain ⟨st, h1, h2⟩ := staff_instrument codes classes p g name abbr staves.length i none l (hv l (List.mem_of_getElem? hi)) (hw i l hi) hn ha hp (by simp)
      rw [Option.map_some, h1]
      dsimp only
      rw [h2]
      by_cases hs : i = staves.length - 1
      · rw [if_pos hs, List.getElem?_append_right (by simp [hs])]
        simp [hs]
      · rw [if_neg hs, if_pos (show transAfter none = none from rfl), List.getElem?_append_left (by simp; omega), List.getElem?_replicate_of_lt (by omega)]
        rfl
  rw [key]
  cases hr : staves.length - 1 with
  | zero => rfl
  | succ n =>
    have : findPartText (List.replicate (n + 1) none ++ [some name]) =
        some ((((List.replicate (n + 1) none ++ [some name]).filterMap id).find? (fun n => n ≠ [])).getD []) := by
      cases n <;> rfl
    rw [this]
    have e : (List.replicate (n + 1) (none : Option Str) ++ [some name]).filterMap id = [name] := by
      rw [List.filterMap_append]
      have : (List.replicate (n + 1) (none : Option Str)).filterMap id = [] := by
        rw [List.filterMap_eq_nil_iff]
        intro a h
        rw [List.eq_of_mem_replicate h]; rfl
      rw [this]; rfl
    rw [e]
    simp [hn.ne]

/-! A clarinet in B flat among other parts, and the tokens between. -/
example : RealName "Clarinet in B-flat".toList where
  ne := by decide
  noXml := fun h => absurd ((isInfix_iff _ _).mpr h) (by decide)
  noPart := fun h => absurd ((isInfix_iff _ _).mpr h) (by decide)
  noUnnamed := fun h => absurd ((isInfix_iff _ _).mpr h) (by decide)
  quote := by decide
example : (([.plain "**kern".toList, .part 1, .name "Clarinet in B-flat".toList, .abbr "Cl.".toList, .clef "G2".toList, .trans 1 2,
    .time 4 "4".toList] : List HeadItem).filter HeadItem.isInst).map HeadItem.text =
    instTokens (some "Clarinet in B-flat".toList) (some "Cl.".toList) 1 0 (some ⟨-2, -2⟩) := by decide +kernel
example : transAfter (some ⟨-2, -2⟩) = some ⟨-2, -2⟩ := rfl

/-! ### What is lost -/

/-- If there is only one staff its abbreviation is not read. -/
theorem lone_staff_loses_abbreviation (p : Nat) (g : Int) (l : List HeadItem) (hv : ∀ x ∈ l, x.Valid) (hp : p ≤ 1) :
    ∃ st, headScan p g (l.map HeadItem.text) .init = .ok st ∧ st.abbr = none := by
  refine ⟨_, head_scan p g l hv, ?_⟩
  dsimp only
  rw [if_neg (by omega)]

/-- A transposing instrument on two staves loses its name: the upper staff is given one of its own, which comes first. -/
theorem transposing_part_loses_name (codes classes : Str → Option Str) (p : Nat) (g : Int) (name : Str) (t : Ivl)
    (up down : List HeadItem) (hv : ∀ x ∈ up, x.Valid) (hv' : ∀ x ∈ down, x.Valid)
    (hw : (up.filter HeadItem.isInst).map HeadItem.text = instTokens (some name) none 2 0 (some t))
    (hw' : (down.filter HeadItem.isInst).map HeadItem.text = instTokens (some name) none 2 1 (some t))
    (hn : RealName name) (ht : t.generic ≠ 0) (hs : t.semis ≠ 0) :
    findPartText ([up, down].map (fun l => match headScan p g (l.map HeadItem.text) .init with
      | .ok st => (headInst codes classes st).map Inst.name
      | .error _ => none)) = some "UnknownTransposingInstrument".toList := by
  obtain ⟨st, h1, h2⟩ := staff_instrument codes classes p g name none 2 0 (some t) up hv hw hn (by simp) (by simp) (by simpa using ht)
  obtain ⟨st', h1', h2'⟩ := staff_instrument codes classes p g name none 2 1 (some t) down hv' hw' hn (by simp) (by simp) (by simpa using ht)
  have hne : transAfter (some t) ≠ none := by simp [transAfter, hs]
  rw [if_neg (by decide), if_neg hne] at h2
  rw [if_pos (by decide)] at h2'
  rw [List.map_cons, List.map_cons, List.map_nil, h1, h1']
  dsimp only
  rw [h2, h2']
  rfl

/-- Names with certain words in them are not written. -/
theorem dummy_names_lost (n : Str) (h : "MusicXML".toList <:+: n ∨ "Part_".toList <:+: n ∨ "Unnamed".toList <:+: n) : nameToken (some n) = none := by
  unfold nameToken
  have inf : ∀ a : Str, a <:+: n → isInfix a n = true := by
    intro a h
    exact (isInfix_iff _ _).mpr h
  dsimp only
  by_cases h0 : n = []
  · rw [if_pos h0]
  · rw [if_neg h0]
    by_cases h1 : isInfix "MusicXML".toList n = true
    · rw [if_pos h1]
    · rw [if_neg h1]
      by_cases h2 : isInfix "Part_".toList n = true
      · rw [if_pos h2]
      · rw [if_neg h2]
        by_cases h3 : isInfix "Unnamed".toList n = true
        · rw [if_pos h3]
        · rcases h with h | h | h
          · exact absurd (inf _ h) h1
          · exact absurd (inf _ h) h2
          · exact absurd (inf _ h) h3

/-- A name with a quote at the start is not read as a name. -/
theorem quoted_name_lost (n : Str) : ∀ m, headKind ("*I\"".toList ++ '"' :: n) ≠ .name m := by
  intro m
  show headKind ('*' :: 'I' :: '"' :: '"' :: n) ≠ _
  cases n with
  | nil =>
    have : headKind "*I\"\"".toList = .other := by decide
    intro e
    rw [show ['*', 'I', '"', '"'] = "*I\"\"".toList from rfl, this] at e
    cases e
  | cons x n => simp [headKind, startsWith, isKeyDesigText, List.isPrefixOf]

/-- A part that has only an abbreviation gets it as its name. -/
theorem abbreviation_becomes_name : (match headScan 2 0 (instTokens none (some "Cl.".toList) 1 0 none) .init with
    | .ok st => headInst (fun _ => none) (fun _ => none) st | .error _ => none) = some ⟨"Cl.".toList, none, none⟩ := by decide +kernel

theorem itrans_head (p : Nat) (g : Int) (toks : List Str) : ∀ (st st' : HeadSt), (∀ t, st.itrans = some t → t.head? = some 'd') →
    headScan p g toks st = .ok st' → ∀ t, st'.itrans = some t → t.head? = some 'd' := by
  induction toks with
  | nil =>
    intro st st' h e
    simp only [headScan, Except.ok.injEq] at e
    subst e; exact h
  | cons s r ih =>
    intro st st' h e
    simp only [headScan] at e
    cases hs : headStep p g st s with
    | error x => rw [hs] at e; cases e
    | ok st1 =>
      rw [hs] at e
      refine ih st1 st' ?_ e
      unfold headStep at hs
      have hk : ∀ t, headKind s = .itrans t → t.head? = some 'd' := by
        intro t ht
        unfold headKind at ht
        by_cases hd : startsWith s "*ITrd".toList = true
        · unfold startsWith at hd
          rw [List.isPrefixOf_iff_prefix] at hd
          obtain ⟨u, rfl⟩ := hd
          have : headKind ("*ITrd".toList ++ u) = .itrans ('d' :: u) := rfl
          unfold headKind at this
          rw [this] at ht
          cases ht; rfl
        · rw [if_neg hd] at ht
          exfalso
          revert ht
          have aux : ∀ (c : Prop) [Decidable c] (a b : HeadKind), a ≠ .itrans t → b ≠ .itrans t → (if c then a else b) ≠ .itrans t := by
            intro c _ a b ha hb
            split
            · exact ha
            · exact hb
          repeat (refine aux _ _ _ (by nofun) ?_)
          nofun
      cases hkind : headKind s with
      | itrans t =>
        rw [hkind] at hs
        cases hs
        intro u hu
        cases hu
        exact hk t hkind
      | clef c =>
        rw [hkind] at hs
        dsimp only at hs
        split at hs
        · cases hs; split <;> exact h
        · split at hs
          · cases hs
          · cases hs; split <;> exact h
      | oclef c => rw [hkind] at hs; dsimp only at hs; split at hs <;> cases hs; exact h
      | groupAbbrev c => rw [hkind] at hs; cases hs; split <;> exact h
      | abbr c => rw [hkind] at hs; cases hs; split <;> exact h
      | groupName c => rw [hkind] at hs; cases hs; split <;> exact h
      | _ => rw [hkind] at hs; cases hs; exact h

/-- The key of an instrument is never added to its name, whatever a file has at the start of a staff: the transposition is compared with
a whole token, but it is kept without the beginning. -/
theorem instrument_key_never_named (codes : Str → Option Str) (p : Nat) (g : Int) (toks : List Str) (st : HeadSt) (code : Str)
    (h : headScan p g toks .init = .ok st) : nameFromCode codes code st.itrans = (codes code).getD code := by
  have hd := itrans_head p g toks .init st (by simp [HeadSt.init]) h
  have ne : ∀ x : Str, x.head? = some '*' → st.itrans ≠ some x := by
    intro x hx e
    have := hd x e
    rw [hx] at this
    exact absurd this (by decide)
  unfold nameFromCode
  cases codes code with
  | none => rfl
  | some n =>
    dsimp only
    rw [if_neg (ne "*ITrd1c2".toList rfl), if_neg (ne "*ITrd2c3".toList rfl), if_neg (ne "*ITrd5c9".toList rfl), if_neg (ne "*ITrd-2c-3".toList rfl)]
    simp

/-- A clef token without a clef stops the import. -/
theorem bare_clef_crashes : headScan 1 0 ["**kern".toList, "*clef".toList] .init = .error .indexError := by rfl

end C21
