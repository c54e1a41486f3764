import Verif.Model.Slur
import Verif.Spec.Slur
import Verif.Lemmas.PyNum
import Verif.Lemmas.Tac
import Mathlib.Data.List.Induction
/-
C26: slur marks are matched like brackets. C27: phrase marks.
-/
namespace C21

/-! ### One stack -/

section
variable {α : Type}

/-- The matching machine with one stack: stack, links, closing marks left over. -/
def step1 (s : List α × List (α × α) × List α) (e : Bool × α) : List α × List (α × α) × List α :=
  match e with
  | (true, x) => (x :: s.1, s.2.1, s.2.2)
  | (false, y) =>
    match s.1 with
    | x :: xs => (xs, s.2.1 ++ [(x, y)], s.2.2)
    | [] => ([], s.2.1, s.2.2 ++ [y])

def run1 (s : List α × List (α × α) × List α) (evs : List (Bool × α)) : List α × List (α × α) × List α := evs.foldl step1 s

theorem run1_append (s : List α × List (α × α) × List α) (a b : List (Bool × α)) : run1 s (a ++ b) = run1 (run1 s a) b := by
  unfold run1; exact List.foldl_append

theorem run1_balanced (evs : List (Bool × α)) (h : BalancedMarks evs) : ∀ s : List α × List (α × α) × List α,
    (run1 s evs).1 = s.1 ∧ (run1 s evs).2.2 = s.2.2 := by
  induction h with
  | nil => intro s; exact ⟨rfl, rfl⟩
  | @wrap x y a b _ _ iha ihb =>
    intro s
    have e : run1 s ((true, x) :: a ++ (false, y) :: b) = run1 (step1 (run1 (step1 s (true, x)) a) (false, y)) b := by
      rw [List.cons_append]
      show run1 (step1 s (true, x)) (a ++ (false, y) :: b) = _
      rw [run1_append]; rfl
    rw [e]
    obtain ⟨h1, h2⟩ := iha (step1 s (true, x))
    have h3 : (run1 (step1 s (true, x)) a).1 = x :: s.1 := h1
    have h4 : (run1 (step1 s (true, x)) a).2.2 = s.2.2 := h2
    obtain ⟨k1, k2⟩ := ihb (step1 (run1 (step1 s (true, x)) a) (false, y))
    rw [k1, k2]
    generalize run1 (step1 s (true, x)) a = r at h3 h4 ⊢
    unfold step1
    simp only [h3, h4, and_self]

/-- What is on the stack: `evs` is a part with nothing open, then the marks of the stack, oldest first, each followed by
a balanced part. -/
inductive StackOf : List (Bool × α) → List α → Prop where
  | base {a} : StackOf a []
  | push {a x b st} : StackOf a st → BalancedMarks b → StackOf (a ++ (true, x) :: b) (x :: st)

theorem BalancedMarks.append {a b : List (Bool × α)} (ha : BalancedMarks a) (hb : BalancedMarks b) : BalancedMarks (a ++ b) := by
  induction ha with
  | nil => simpa using hb
  | @wrap x y a' b' h1 h2 _ ih2 =>
    have : (true, x) :: a' ++ (false, y) :: b' ++ b = (true, x) :: a' ++ (false, y) :: (b' ++ b) := by simp
    rw [this]
    exact .wrap h1 ih2

theorem BalancedMarks.pair {a : List (Bool × α)} {x y : α} (ha : BalancedMarks a) : BalancedMarks ((true, x) :: a ++ [(false, y)]) :=
  .wrap ha .nil

theorem stackOf_balanced {a : List (Bool × α)} {st : List α} (h : StackOf a st) {c : List (Bool × α)} (hc : BalancedMarks c) :
    StackOf (a ++ c) st := by
  cases h with
  | base => exact .base
  | push h1 h2 =>
    rw [List.append_assoc, List.cons_append]
    exact .push h1 (h2.append hc)

theorem run1_stack (evs : List (Bool × α)) : StackOf evs (run1 ([], [], []) evs).1 := by
  induction evs using List.reverseRecOn with
  | nil => exact .base
  | append_singleton evs e ih =>
    rw [run1_append]
    show StackOf (evs ++ [e]) (step1 (run1 ([], [], []) evs) e).1
    obtain ⟨b, x⟩ := e
    cases b with
    | true => exact .push ih .nil
    | false =>
      generalize hst : (run1 ([], [], []) evs).1 = st at ih
      unfold step1
      simp only [hst]
      cases ih with
      | base => exact .base
      | @push a x' b st h1 h2 =>
        simp only
        have : a ++ (true, x') :: b ++ [(false, x)] = a ++ ((true, x') :: b ++ [(false, x)]) := by simp
        rw [this]
        exact stackOf_balanced h1 (h2.pair)

theorem stackOf_top {evs : List (Bool × α)} {x : α} {st : List α} (h : StackOf evs (x :: st)) :
    ∃ a b, evs = a ++ (true, x) :: b ∧ BalancedMarks b := by
  cases h with
  | push h1 h2 => exact ⟨_, _, rfl, h2⟩

/-- The pairs linked are exactly the matched pairs. -/
theorem run1_links (evs : List (Bool × α)) (x y : α) :
    (x, y) ∈ (run1 ([], [], []) evs).2.1 ↔ MatchedMarks evs x y := by
  induction evs using List.reverseRecOn with
  | nil =>
    constructor
    · intro h; simp [run1] at h
    · rintro ⟨pre, mid, post, h, _⟩; simp at h
  | append_singleton evs e ih =>
    rw [run1_append]
    show (x, y) ∈ (step1 (run1 ([], [], []) evs) e).2.1 ↔ _
    have old : (x, y) ∈ (run1 ([], [], []) evs).2.1 → (x, y) ∈ (step1 (run1 ([], [], []) evs) e).2.1 := by
      intro h
      unfold step1
      split
      · exact h
      · split
        · simp [h]
        · exact h
    constructor
    · intro h
      have lift : MatchedMarks evs x y → MatchedMarks (evs ++ [e]) x y := by
        rintro ⟨pre, mid, post, h1, h2⟩
        exact ⟨pre, mid, post ++ [e], by rw [h1]; simp, h2⟩
      unfold step1 at h
      split at h
      · exact lift (ih.1 h)
      · rename_i y'
        split at h
        · rename_i x' xs hst
          simp only [List.mem_append, List.mem_singleton] at h
          rcases h with h | h
          · exact lift (ih.1 h)
          · cases h
            have hs := run1_stack evs
            rw [hst] at hs
            obtain ⟨a, b, h1, h2⟩ := stackOf_top hs
            exact ⟨a, b, [], by rw [h1], h2⟩
        · exact lift (ih.1 h)
    · rintro ⟨pre, mid, post, h1, h2⟩
      rcases List.eq_nil_or_concat post with rfl | ⟨post', e', rfl⟩
      · have h3 : evs ++ [e] = (pre ++ (true, x) :: mid) ++ [(false, y)] := by rw [h1]
        obtain ⟨h4, h5⟩ := List.append_inj' h3 rfl
        cases h5
        have h6 : (run1 ([], [], []) evs).1 = x :: (run1 ([], [], []) pre).1 := by
          rw [h4, run1_append]
          show (run1 (step1 _ (true, x)) mid).1 = _
          rw [(run1_balanced mid h2 _).1]; rfl
        unfold step1
        simp only [h6]
        simp
      · have h3 : evs ++ [e] = (pre ++ (true, x) :: mid ++ (false, y) :: post') ++ [e'] := by rw [h1]; simp
        obtain ⟨h4, _⟩ := List.append_inj' h3 rfl
        exact old (ih.2 ⟨pre, mid, post', h4, h2⟩)

theorem openMarks_append (a b : List (Bool × α)) : openMarks (a ++ b) = openMarks a ++ openMarks b := by
  simp [openMarks]
theorem closeMarks_append (a b : List (Bool × α)) : closeMarks (a ++ b) = closeMarks a ++ closeMarks b := by
  simp [closeMarks]

theorem run1_counts (evs : List (Bool × α)) :
    (openMarks evs).length = (run1 ([], [], []) evs).1.length + (run1 ([], [], []) evs).2.1.length ∧
    (closeMarks evs).length = (run1 ([], [], []) evs).2.1.length + (run1 ([], [], []) evs).2.2.length := by
  induction evs using List.reverseRecOn with
  | nil => simp [run1, openMarks, closeMarks]
  | append_singleton evs e ih =>
    rw [run1_append, openMarks_append, closeMarks_append]
    show _ = (step1 (run1 ([], [], []) evs) e).1.length + (step1 (run1 ([], [], []) evs) e).2.1.length ∧
      _ = (step1 (run1 ([], [], []) evs) e).2.1.length + (step1 (run1 ([], [], []) evs) e).2.2.length
    obtain ⟨b, x⟩ := e
    cases b with
    | true =>
      simp only [step1, List.length_append, List.length_cons]
      simp only [openMarks, closeMarks, List.filter_cons, List.filter_nil] at ih ⊢
      simp only [if_true, List.map_cons, List.map_nil, List.length_cons, List.length_nil, Bool.not_true, Bool.false_eq_true, if_false]
      omega
    | false =>
      unfold step1
      simp only [List.length_append]
      split
      · rename_i x' xs hst
        rw [hst] at ih
        simp only [openMarks, closeMarks, List.filter_cons, List.filter_nil, List.length_cons, List.length_append] at ih ⊢
        simp only [Bool.false_eq_true, if_false, Bool.not_false, if_true, List.map_cons, List.map_nil, List.length_cons, List.length_nil] at ih ⊢
        omega
      · rename_i hst
        rw [hst] at ih
        simp only [openMarks, closeMarks, List.filter_cons, List.filter_nil, List.length_cons, List.length_append] at ih ⊢
        simp only [Bool.false_eq_true, if_false, Bool.not_false, if_true, List.map_cons, List.map_nil, List.length_cons, List.length_nil] at ih ⊢
        omega

theorem neverShort_prefix {a b : List (Bool × α)} (h : NeverShort (a ++ b)) : NeverShort a := by
  intro n
  have := h (min n a.length)
  rw [List.take_append_of_le_length (by omega)] at this
  have e : a.take (min n a.length) = a.take n := by
    rcases Nat.le_total n a.length with hn | hn
    · rw [min_eq_left hn]
    · rw [min_eq_right hn, List.take_of_length_le (Nat.le_refl _), List.take_of_length_le hn]
  rwa [e] at this

theorem run1_neverShort (evs : List (Bool × α)) (h : NeverShort evs) : (run1 ([], [], []) evs).2.2 = [] := by
  induction evs using List.reverseRecOn with
  | nil => rfl
  | append_singleton evs e ih =>
    have ih' := ih (neverShort_prefix h)
    rw [run1_append]
    show (step1 (run1 ([], [], []) evs) e).2.2 = []
    unfold step1
    split
    · exact ih'
    · rename_i y
      split
      · exact ih'
      · rename_i hst
        exfalso
        have c := run1_counts evs
        rw [hst, ih'] at c
        have := h (evs ++ [(false, y)]).length
        rw [List.take_length, openMarks_append, closeMarks_append] at this
        simp [openMarks, closeMarks] at this c
        omega

end

/-! ### Many stacks -/

/-- A mark that is to be matched, with its elision level and layer. -/
structure SlurEv where
  level : Nat
  layer : Nat
  isOpen : Bool
  item : SlurItem

/-- The marks of one token that are not linked ones: closing marks first. -/
def tokEvents (k : SlurKind) (linkSig : Str) (t : SlurTok) : List SlurEv :=
  if tokIsInterpretation t.text || tokIsComment t.text || tokIsBarline t.text || tokIsNull t.text then []
  else
    (List.range (countChar ')' t.text)).filterMap (fun i =>
      if isLinkedEnd k t.text i (linkSig ++ [k.endChar]) then none
      else ((markLevels k.endChar 0 t.text)[i]?).map (fun lv => ⟨lv, t.layer, false, (t.id, i)⟩)) ++
    (List.range (countChar '(' t.text)).filterMap (fun i =>
      if isLinkedBegin k t.text i (linkSig ++ [k.beginChar]) then none
      else ((markLevels k.beginChar 0 t.text)[i]?).map (fun lv => ⟨lv, t.layer, true, (t.id, i)⟩))

def trackEvents (k : SlurKind) (linkSig : Str) (ts : List SlurTok) : List SlurEv := ts.flatMap (tokEvents k linkSig)

/-- The marks of one elision level and layer. -/
def marksAt (evs : List SlurEv) (level layer : Nat) : List (Bool × SlurItem) :=
  (evs.filter (fun e => e.level == level && e.layer == layer)).map (fun e => (e.isOpen, e.item))

theorem marksAt_append (a b : List SlurEv) (lv ly : Nat) : marksAt (a ++ b) lv ly = marksAt a lv ly ++ marksAt b lv ly := by
  simp [marksAt]

/-- One event of the code's machine. -/
def SlurSt.ev (S : SlurSt) (e : SlurEv) : Except PyErr SlurSt :=
  if e.isOpen then S.open e.level e.layer e.item else S.close e.level e.layer e.item

def SlurSt.evs : List SlurEv → SlurSt → Except PyErr SlurSt
  | [], S => .ok S
  | e :: es, S =>
    match S.ev e with
    | .error x => .error x
    | .ok S => SlurSt.evs es S

theorem elisionLoop_spec (c : Char) (hc : c ≠ '&') (t : Str) : ∀ (rev : Str) (i : Nat),
    elisionLoop c rev (i + 1) t = (markLevels c (rev.takeWhile (· == '&')).length t)[i]? := by
  induction t with
  | nil => intro rev i; simp [elisionLoop, markLevels]
  | cons ch t ih =>
    intro rev i
    unfold elisionLoop markLevels
    simp only
    by_cases h : ch = c
    · rw [if_pos h, if_pos h]
      cases i with
      | zero => simp
      | succ i =>
        rw [if_neg (by omega)]
        have := ih (ch :: rev) i
        rw [List.takeWhile_cons, if_neg (by rw [h]; simpa using hc)] at this
        simpa using this
    · rw [if_neg h, if_neg h, if_neg (by omega), ih]
      by_cases ha : ch = '&'
      · rw [if_pos ha, List.takeWhile_cons, if_pos (by simpa using ha)]
        simp
      · rw [if_neg ha, List.takeWhile_cons, if_neg (by simpa using ha)]
        simp

/-- The elision level of mark `i` is the number of `&` directly before it. -/
theorem elisionLevel_spec (c : Char) (hc : c ≠ '&') (t : Str) (i : Nat) : elisionLevel c t i = (markLevels c 0 t)[i]? :=
  elisionLoop_spec c hc t [] i

theorem markLevels_length (c : Char) (hc : c ≠ '&') (t : Str) : ∀ n, (markLevels c n t).length = countChar c t := by
  induction t with
  | nil => intro n; rfl
  | cons ch t ih =>
    intro n
    unfold markLevels countChar
    by_cases h : ch = c
    · rw [if_pos h]
      simp only [List.length_cons, ih, List.filter_cons, h, beq_self_eq_true, if_true]; rfl
    · rw [if_neg h]
      have : (ch == c) = false := by simpa using h
      split <;> simp only [ih, List.filter_cons, this, Bool.false_eq_true, if_false] <;> rfl

theorem endChar_ne (k : SlurKind) : k.endChar ≠ '&' := by cases k <;> decide
theorem beginChar_ne (k : SlurKind) : k.beginChar ≠ '&' := by cases k <;> decide

/-- Same stacks, links and hanging marks. -/
def SlurSt.Same (S T : SlurSt) : Prop := S.opens = T.opens ∧ S.links = T.links ∧ S.hanging = T.hanging

theorem same_close {S T : SlurSt} (h : S.Same T) (lv ly : Nat) (y : SlurItem) (S' : SlurSt) (hs : S.close lv ly y = .ok S') :
    ∃ T', T.close lv ly y = .ok T' ∧ S'.Same T' := by
  obtain ⟨o, l, g, a, b⟩ := S
  obtain ⟨o', l', g', a', b'⟩ := T
  obtain ⟨h1, h2, h3⟩ := h
  simp only at h1 h2 h3
  subst h1 h2 h3
  unfold SlurSt.close at hs ⊢
  split at hs
  · cases hs
  · rename_i hr
    rw [if_neg hr]
    simp only at hs ⊢
    cases hc : o lv ly with
    | cons x xs => rw [hc] at hs; cases hs; exact ⟨_, rfl, rfl, rfl, rfl⟩
    | nil =>
      rw [hc] at hs
      simp only at hs ⊢
      cases hf : (List.range 8).find? (fun k => !(o lv k).isEmpty) with
      | none => rw [hf] at hs; cases hs; exact ⟨_, rfl, rfl, rfl, rfl⟩
      | some k => rw [hf] at hs; cases hs; exact ⟨_, rfl, rfl, rfl, rfl⟩

theorem same_open {S T : SlurSt} (h : S.Same T) (lv ly : Nat) (y : SlurItem) (S' : SlurSt) (hs : S.open lv ly y = .ok S') :
    ∃ T', T.open lv ly y = .ok T' ∧ S'.Same T' := by
  obtain ⟨o, l, g, a, b⟩ := S
  obtain ⟨o', l', g', a', b'⟩ := T
  obtain ⟨h1, h2, h3⟩ := h
  simp only at h1 h2 h3
  subst h1 h2 h3
  unfold SlurSt.open at hs ⊢
  split at hs
  · cases hs
  · rename_i hr
    rw [if_neg hr]
    cases hs; exact ⟨_, rfl, rfl, rfl, rfl⟩

theorem evs_append (a b : List SlurEv) : ∀ S : SlurSt, SlurSt.evs (a ++ b) S =
    (match SlurSt.evs a S with | .error e => .error e | .ok S => SlurSt.evs b S) := by
  induction a with
  | nil => intro S; rfl
  | cons e a ih =>
    intro S
    rw [List.cons_append]
    simp only [SlurSt.evs]
    cases S.ev e with
    | error x => rfl
    | ok S' => simp only; rw [ih]

theorem slurCloses_evs (k : SlurKind) (ls text : Str) (ly : Nat) (tok : TokId) (is : List Nat) :
    ∀ (S S' T : SlurSt), slurCloses k ls text ly tok is S = .ok S' → S.Same T →
    ∃ T', SlurSt.evs (is.filterMap (fun i =>
      if isLinkedEnd k text i (ls ++ [k.endChar]) then none
      else ((markLevels k.endChar 0 text)[i]?).map (fun lv => (⟨lv, ly, false, (tok, i)⟩ : SlurEv)))) T = .ok T' ∧ S'.Same T' := by
  induction is with
  | nil => intro S S' T h hs; cases h; exact ⟨T, rfl, hs⟩
  | cons i is ih =>
    intro S S' T h hs
    unfold slurCloses at h
    rw [List.filterMap_cons]
    by_cases hl : isLinkedEnd k text i (ls ++ [k.endChar]) = true
    · rw [if_pos hl] at h
      simp only [hl, if_true]
      exact ih _ S' T h hs
    · rw [if_neg hl, elisionLevel_spec _ (endChar_ne k)] at h
      simp only [hl, Bool.false_eq_true, if_false]
      cases hm : (markLevels k.endChar 0 text)[i]? with
      | none =>
        rw [hm] at h
        exact ih _ S' T h hs
      | some lv =>
        rw [hm] at h
        simp only at h ⊢
        cases hc : S.close lv ly (tok, i) with
        | error e => rw [hc] at h; cases h
        | ok S1 =>
          rw [hc] at h
          obtain ⟨T1, h1, h2⟩ := same_close hs lv ly (tok, i) S1 hc
          obtain ⟨T2, h3, h4⟩ := ih S1 S' T1 h h2
          refine ⟨T2, ?_, h4⟩
          simp only [Option.map_some, SlurSt.evs, SlurSt.ev, Bool.false_eq_true, if_false, h1]
          exact h3

theorem slurOpens_evs (k : SlurKind) (ls text : Str) (ly : Nat) (tok : TokId) (is : List Nat) :
    ∀ (S S' T : SlurSt), slurOpens k ls text ly tok is S = .ok S' → S.Same T →
    ∃ T', SlurSt.evs (is.filterMap (fun i =>
      if isLinkedBegin k text i (ls ++ [k.beginChar]) then none
      else ((markLevels k.beginChar 0 text)[i]?).map (fun lv => (⟨lv, ly, true, (tok, i)⟩ : SlurEv)))) T = .ok T' ∧ S'.Same T' := by
  induction is with
  | nil => intro S S' T h hs; cases h; exact ⟨T, rfl, hs⟩
  | cons i is ih =>
    intro S S' T h hs
    unfold slurOpens at h
    rw [List.filterMap_cons]
    by_cases hl : isLinkedBegin k text i (ls ++ [k.beginChar]) = true
    · rw [if_pos hl] at h
      simp only [hl, if_true]
      exact ih _ S' T h hs
    · rw [if_neg hl, elisionLevel_spec _ (beginChar_ne k)] at h
      simp only [hl, Bool.false_eq_true, if_false]
      cases hm : (markLevels k.beginChar 0 text)[i]? with
      | none =>
        rw [hm] at h
        exact ih _ S' T h hs
      | some lv =>
        rw [hm] at h
        simp only at h ⊢
        cases hc : S.open lv ly (tok, i) with
        | error e => rw [hc] at h; cases h
        | ok S1 =>
          rw [hc] at h
          obtain ⟨T1, h1, h2⟩ := same_open hs lv ly (tok, i) S1 hc
          obtain ⟨T2, h3, h4⟩ := ih S1 S' T1 h h2
          refine ⟨T2, ?_, h4⟩
          simp only [Option.map_some, SlurSt.evs, SlurSt.ev, if_true, h1]
          exact h3

theorem slurToks_evs (k : SlurKind) (ls : Str) (ts : List SlurTok) : ∀ (S S' T : SlurSt), slurToks k ls ts S = .ok S' → S.Same T →
    ∃ T', SlurSt.evs (trackEvents k ls ts) T = .ok T' ∧ S'.Same T' := by
  induction ts with
  | nil => intro S S' T h hs; cases h; exact ⟨T, rfl, hs⟩
  | cons t ts ih =>
    intro S S' T h hs
    unfold slurToks at h
    have tok : ∀ S1, slurTok k ls t S = .ok S1 → ∃ T1, SlurSt.evs (tokEvents k ls t) T = .ok T1 ∧ S1.Same T1 := by
      intro S1 h1
      unfold slurTok at h1
      unfold tokEvents
      split at h1
      · rename_i hc
        cases h1
        rw [if_pos (by simp [hc])]
        exact ⟨T, rfl, hs⟩
      · rename_i hc
        split at h1
        · rename_i hn
          cases h1
          rw [if_pos (by simp [hn])]
          exact ⟨T, rfl, hs⟩
        · rename_i hn
          rw [if_neg (by
            simp only [Bool.or_eq_true] at hc ⊢
            tauto)]
          rw [evs_append]
          cases h2 : slurCloses k ls t.text t.layer t.id (List.range (countChar ')' t.text)) S with
          | error e => rw [h2] at h1; cases h1
          | ok S2 =>
            rw [h2] at h1
            obtain ⟨T2, h3, h4⟩ := slurCloses_evs k ls t.text t.layer t.id _ S S2 T h2 hs
            obtain ⟨T3, h5, h6⟩ := slurOpens_evs k ls t.text t.layer t.id _ S2 S1 T2 h1 h4
            refine ⟨T3, ?_, h6⟩
            simp only [h3]
            exact h5
    cases h1 : slurTok k ls t S with
    | error e => rw [h1] at h; cases h
    | ok S1 =>
      rw [h1] at h
      obtain ⟨T1, h2, h3⟩ := tok S1 h1
      obtain ⟨T2, h4, h5⟩ := ih S1 S' T1 h h3
      refine ⟨T2, ?_, h5⟩
      unfold trackEvents
      rw [List.flatMap_cons, evs_append, h2]
      exact h4

/-- The machine agrees with a separate stack for every elision level and layer. -/
def Separate (done : List SlurEv) (S : SlurSt) : Prop :=
  (∀ lv ly, S.opens lv ly = (run1 ([], [], []) (marksAt done lv ly)).1) ∧
  (∀ x y, (x, y) ∈ S.links ↔ ∃ lv ly, (x, y) ∈ (run1 ([], [], []) (marksAt done lv ly)).2.1) ∧
  (∀ y, y ∈ S.hanging ↔ ∃ lv ly, y ∈ (run1 ([], [], []) (marksAt done lv ly)).2.2)

/-- Layers do not interfere: all marks are in one layer, or in every layer no closing mark lacks an opening one. -/
def LayersApart (evs : List SlurEv) : Prop :=
  (∃ ly, ∀ e ∈ evs, e.layer = ly) ∨ ∀ lv ly, NeverShort (marksAt evs lv ly)

theorem layersApart_prefix {a b : List SlurEv} (h : LayersApart (a ++ b)) : LayersApart a := by
  rcases h with ⟨ly, h⟩ | h
  · exact .inl ⟨ly, fun e he => h e (by simp [he])⟩
  · refine .inr (fun lv ly => ?_)
    have := h lv ly
    rw [marksAt_append] at this
    exact neverShort_prefix this

theorem marksAt_single (e : SlurEv) (lv ly : Nat) :
    marksAt [e] lv ly = if e.level = lv ∧ e.layer = ly then [(e.isOpen, e.item)] else [] := by
  unfold marksAt
  by_cases h : e.level = lv ∧ e.layer = ly
  · rw [if_pos h]; simp [h]
  · rw [if_neg h]
    rw [List.filter_cons, if_neg (by simpa using h)]; rfl

theorem separate_step (done : List SlurEv) (e : SlurEv) (S S' : SlurSt) (hL : LayersApart (done ++ [e])) (hS : Separate done S)
    (h : S.ev e = .ok S') : Separate (done ++ [e]) S' := by
  obtain ⟨h1, h2, h3⟩ := hS
  have here : ∀ lv ly, run1 ([], [], []) (marksAt (done ++ [e]) lv ly) =
      if e.level = lv ∧ e.layer = ly then step1 (run1 ([], [], []) (marksAt done lv ly)) (e.isOpen, e.item)
      else run1 ([], [], []) (marksAt done lv ly) := by
    intro lv ly
    rw [marksAt_append, marksAt_single, run1_append]
    split <;> rfl
  obtain ⟨lv, ly, isOpen, item⟩ := e
  -- reduction of the goal to one stack
  have fin : ∀ (st' : List SlurItem) (lk hg : List _), step1 (run1 ([], [], []) (marksAt done lv ly)) (isOpen, item) =
        (st', (run1 ([], [], []) (marksAt done lv ly)).2.1 ++ lk, (run1 ([], [], []) (marksAt done lv ly)).2.2 ++ hg) →
      S'.opens = (S.setOpens lv ly st').opens → S'.links = S.links ++ lk → S'.hanging = S.hanging ++ hg →
      Separate (done ++ [⟨lv, ly, isOpen, item⟩]) S' := by
    intro st' lk hg hst ho hl hh
    refine ⟨?_, ?_, ?_⟩
    · intro a b
      rw [here a b, ho]
      simp only [SlurSt.setOpens]
      by_cases hab : lv = a ∧ ly = b
      · obtain ⟨rfl, rfl⟩ := hab
        simp [hst]
      · rw [if_neg (by tauto), if_neg hab]
        exact h1 a b
    · intro x y
      rw [hl, List.mem_append, h2]
      constructor
      · rintro (⟨a, b, hm⟩ | hm)
        · refine ⟨a, b, ?_⟩
          rw [here a b]
          split
          · rename_i hab
            obtain ⟨rfl, rfl⟩ := hab
            simp only at hm ⊢
            rw [hst]; simp [hm]
          · exact hm
        · refine ⟨lv, ly, ?_⟩
          rw [here lv ly, if_pos ⟨rfl, rfl⟩]
          simp only
          rw [hst]; simp [hm]
      · rintro ⟨a, b, hm⟩
        rw [here a b] at hm
        split at hm
        · rename_i hab
          obtain ⟨rfl, rfl⟩ := hab
          simp only at hm
          rw [hst] at hm
          simp only [List.mem_append] at hm
          rcases hm with hm | hm
          · exact .inl ⟨lv, ly, hm⟩
          · exact .inr hm
        · exact .inl ⟨a, b, hm⟩
    · intro y
      rw [hh, List.mem_append, h3]
      constructor
      · rintro (⟨a, b, hm⟩ | hm)
        · refine ⟨a, b, ?_⟩
          rw [here a b]
          split
          · rename_i hab
            obtain ⟨rfl, rfl⟩ := hab
            simp only at hm ⊢
            rw [hst]; simp [hm]
          · exact hm
        · refine ⟨lv, ly, ?_⟩
          rw [here lv ly, if_pos ⟨rfl, rfl⟩]
          simp only
          rw [hst]; simp [hm]
      · rintro ⟨a, b, hm⟩
        rw [here a b] at hm
        split at hm
        · rename_i hab
          obtain ⟨rfl, rfl⟩ := hab
          simp only at hm
          rw [hst] at hm
          simp only [List.mem_append] at hm
          rcases hm with hm | hm
          · exact .inl ⟨lv, ly, hm⟩
          · exact .inr hm
        · exact .inl ⟨a, b, hm⟩
  unfold SlurSt.ev at h
  cases isOpen with
  | true =>
    simp only [if_true] at h
    unfold SlurSt.open at h
    split at h
    · cases h
    · cases h
      refine fin (item :: S.opens lv ly) [] [] ?_ rfl (by simp [SlurSt.setOpens]) (by simp [SlurSt.setOpens])
      simp [step1, h1]
  | false =>
    simp only [Bool.false_eq_true, if_false] at h
    unfold SlurSt.close at h
    split at h
    · cases h
    · cases hc : S.opens lv ly with
      | cons x xs =>
        rw [hc] at h
        cases h
        refine fin xs [(x, item)] [] ?_ rfl rfl (by simp [SlurSt.setOpens])
        have := h1 lv ly
        rw [hc] at this
        unfold step1
        simp only [← this]
        simp
      | nil =>
        rw [hc] at h
        simp only at h
        have hst := h1 lv ly
        rw [hc] at hst
        rcases hL with ⟨l0, hL⟩ | hL
        · -- one layer: the others are empty
          have hly : ly = l0 := hL ⟨lv, ly, false, item⟩ (by simp)
          have hempty : ∀ b, S.opens lv b = [] := by
            intro b
            by_cases hb : b = ly
            · rw [hb]; exact hc
            · rw [h1]
              have : marksAt done lv b = [] := by
                unfold marksAt
                rw [List.map_eq_nil_iff, List.filter_eq_nil_iff]
                intro e he
                have := hL e (by simp [he])
                simp only [Bool.and_eq_true, beq_iff_eq, not_and]
                intro _ hx
                exact hb (by rw [← hx, this, hly])
              rw [this]; rfl
          have hf : (List.range 8).find? (fun k => !(S.opens lv k).isEmpty) = none := by
            rw [List.find?_eq_none]
            intro b _
            simp [hempty b]
          rw [hf] at h
          cases h
          refine fin [] [] [item] ?_ ?_ (by simp) rfl
          · unfold step1
            simp only [← hst]
            simp
          · simp only [SlurSt.setOpens]
            funext a b
            split
            · rename_i hab; rw [hab.1, hab.2]; exact hc
            · rfl
        · -- nothing is missing
          exfalso
          have hn := hL lv ly
          have := run1_neverShort _ hn
          rw [here lv ly, if_pos ⟨rfl, rfl⟩] at this
          unfold step1 at this
          simp only [← hst] at this
          simp at this

theorem separate_evs (evs : List SlurEv) : ∀ (done : List SlurEv) (S S' : SlurSt), LayersApart (done ++ evs) → Separate done S →
    SlurSt.evs evs S = .ok S' → Separate (done ++ evs) S' := by
  induction evs with
  | nil => intro done S S' _ hS h; cases h; simpa using hS
  | cons e evs ih =>
    intro done S S' hL hS h
    unfold SlurSt.evs at h
    cases he : S.ev e with
    | error x => rw [he] at h; cases h
    | ok S1 =>
      rw [he] at h
      have e1 : done ++ e :: evs = (done ++ [e]) ++ evs := by simp
      rw [e1] at hL ⊢
      exact ih _ S1 S' hL (separate_step done e S S1 (layersApart_prefix hL) hS he) h

/-- C26. The pairs of slur (or phrase) marks linked are exactly the matched pairs of some elision level and layer, and
the marks left on the stacks and those reported hanging are the rest, when the layers do not interfere. Missing: when
a layer closes more than it opens, the code also looks for open marks in other layers
(`slur_other_layer`); see `slur_marks_once` for what holds then. -/
theorem slur_matching_partial (k : SlurKind) (linkSig : Str) (rows : List (List (TokId × Str))) (ls le : List TokId) (S : SlurSt)
    (h : spineSlurs k linkSig rows ls le = .ok S) (hL : LayersApart (trackEvents k linkSig (trackToks rows))) (x y : SlurItem) :
    (x, y) ∈ S.links ↔ ∃ lv ly, MatchedMarks (marksAt (trackEvents k linkSig (trackToks rows)) lv ly) x y := by
  obtain ⟨T, h1, h2⟩ := slurToks_evs k linkSig (trackToks rows) _ S SlurSt.empty h ⟨rfl, rfl, rfl⟩
  have hsep := separate_evs _ [] SlurSt.empty T (by simpa using hL)
    ⟨fun _ _ => rfl, fun _ _ => by simp [SlurSt.empty, marksAt, run1], fun _ => by simp [SlurSt.empty, marksAt, run1]⟩ h1
  rw [h2.2.1, hsep.2.1 x y]
  simp only [List.nil_append, run1_links]


/-! ### Any layers -/

theorem flatMap_push {β γ : Type} [DecidableEq β] (l : List β) (hl : l.Nodup) (k : β) (hk : k ∈ l) (f g : β → List γ) (x : γ)
    (h1 : List.Perm (f k) (x :: g k)) (h2 : ∀ j, j ≠ k → f j = g j) : List.Perm (l.flatMap f) (x :: l.flatMap g) := by
  induction l with
  | nil => simp at hk
  | cons a l ih =>
    rw [List.nodup_cons] at hl
    rw [List.flatMap_cons, List.flatMap_cons]
    by_cases ha : a = k
    · subst ha
      have : l.flatMap f = l.flatMap g := by
        refine List.flatMap_congr ?_
        intro b hb
        exact h2 b (fun e => hl.1 (e ▸ hb))
      rw [this]
      exact h1.append_right _
    · rw [h2 a ha]
      have hk' : k ∈ l := by
        rcases List.mem_cons.1 hk with h | h
        · exact absurd h.symm ha
        · exact h
      exact ((ih hl.2 hk').append_left (g a)).trans List.perm_middle

theorem unclosed_push (S T : SlurSt) (lv ly : Nat) (h4 : lv < 4) (h8 : ly < 8) (x : SlurItem)
    (h1 : S.opens lv ly = x :: T.opens lv ly) (h2 : ∀ a b, ¬ (a = lv ∧ b = ly) → S.opens a b = T.opens a b) :
    List.Perm S.unclosed (x :: T.unclosed) := by
  unfold SlurSt.unclosed
  refine flatMap_push _ List.nodup_range lv (by simpa using h4) _ _ x ?_ ?_
  · refine flatMap_push _ List.nodup_range ly (by simpa using h8) _ _ x ?_ ?_
    · rw [h1]
      simpa using List.perm_append_singleton x (T.opens lv ly).reverse
    · intro j hj
      rw [h2 lv j (by tauto)]
  · intro j hj
    refine List.flatMap_congr ?_
    intro b _
    rw [h2 j b (by tauto)]

def allOpens (evs : List SlurEv) : List SlurItem := (evs.filter (·.isOpen)).map (·.item)
def allCloses (evs : List SlurEv) : List SlurItem := (evs.filter (fun e => !e.isOpen)).map (·.item)

/-- What holds whatever the layers do. -/
structure AnyLayers (done : List SlurEv) (S : SlurSt) : Prop where
  stacked : ∀ lv ly x, x ∈ S.opens lv ly → ⟨lv, ly, true, x⟩ ∈ done
  opens : List.Perm (S.links.map (·.1) ++ S.unclosed) (allOpens done)
  closes : List.Perm (S.links.map (·.2) ++ S.hanging) (allCloses done)
  order : ∀ x y, (x, y) ∈ S.links → ∃ pre mid post lv ly ly',
    done = pre ++ ⟨lv, ly, true, x⟩ :: mid ++ ⟨lv, ly', false, y⟩ :: post
  closed : ∀ e ∈ done, e.isOpen = true → e.item ∈ S.opens e.level e.layer ∨
    ∃ e' ∈ done, e'.isOpen = false ∧ (e.item, e'.item) ∈ S.links
  hang : ∀ y ∈ S.hanging, ∃ pre post lv ly, done = pre ++ ⟨lv, ly, false, y⟩ :: post ∧
    ∀ e ∈ pre, e.level = lv → e.isOpen = true → ∃ e' ∈ pre, e'.isOpen = false ∧ (e.item, e'.item) ∈ S.links
  range : ∀ lv ly, 4 ≤ lv ∨ 8 ≤ ly → S.opens lv ly = []

theorem allOpens_append (a b : List SlurEv) : allOpens (a ++ b) = allOpens a ++ allOpens b := by simp [allOpens]
theorem allCloses_append (a b : List SlurEv) : allCloses (a ++ b) = allCloses a ++ allCloses b := by simp [allCloses]

theorem anyLayers_pop (done : List SlurEv) (S : SlurSt) (hS : AnyLayers done S) (lv ly l' : Nat) (x y : SlurItem) (xs : List SlurItem)
    (h4 : lv < 4) (h8 : l' < 8) (hx : S.opens lv l' = x :: xs) :
    AnyLayers (done ++ [⟨lv, ly, false, y⟩]) { S.setOpens lv l' xs with links := S.links ++ [(x, y)] } := by
  have hset : ∀ a b, ({ S.setOpens lv l' xs with links := S.links ++ [(x, y)] } : SlurSt).opens a b =
      if a = lv ∧ b = l' then xs else S.opens a b := fun a b => rfl
  have hu : List.Perm S.unclosed (x :: ({ S.setOpens lv l' xs with links := S.links ++ [(x, y)] } : SlurSt).unclosed) := by
    refine unclosed_push _ _ lv l' h4 h8 x ?_ ?_
    · rw [hset, if_pos ⟨rfl, rfl⟩]; exact hx
    · intro a b hab; rw [hset, if_neg hab]
  refine ⟨?_, ?_, ?_, ?_, ?_, ?_, ?_⟩
  · intro a b z hz
    rw [hset] at hz
    have : z ∈ S.opens a b := by
      split at hz
      · rename_i hab; rw [hab.1, hab.2, hx]; simp [hz]
      · exact hz
    simp [hS.stacked a b z this]
  · rw [allOpens_append]
    have : allOpens [(⟨lv, ly, false, y⟩ : SlurEv)] = [] := rfl
    rw [this, List.append_nil]
    refine List.Perm.trans ?_ hS.opens
    simp only [List.map_append, List.map_cons, List.map_nil, List.append_assoc, List.singleton_append]
    exact (hu.symm.append_left _)
  · rw [allCloses_append]
    have : allCloses [(⟨lv, ly, false, y⟩ : SlurEv)] = [y] := rfl
    rw [this]
    simp only [List.map_append, List.map_cons, List.map_nil, List.append_assoc, List.singleton_append]
    refine List.Perm.trans List.perm_middle ?_
    refine List.Perm.trans (List.Perm.cons y hS.closes) ?_
    exact (List.perm_append_singleton y _).symm
  · intro a b hab
    simp only [List.mem_append, List.mem_singleton] at hab
    rcases hab with hab | hab
    · obtain ⟨pre, mid, post, c, d, e, h⟩ := hS.order a b hab
      exact ⟨pre, mid, post ++ [⟨lv, ly, false, y⟩], c, d, e, by rw [h]; simp⟩
    · cases hab
      have := hS.stacked lv l' x (by rw [hx]; simp)
      obtain ⟨pre, mid, h⟩ := List.append_of_mem this
      exact ⟨pre, mid, [], lv, l', ly, by rw [h]⟩
  · intro e he ho
    simp only [List.mem_append, List.mem_singleton] at he
    rcases he with he | he
    · rcases hS.closed e he ho with h | ⟨e', h1, h2, h3⟩
      · by_cases hl : e.level = lv ∧ e.layer = l'
        · rw [hl.1, hl.2, hx] at h
          rcases List.mem_cons.1 h with h | h
          · exact .inr ⟨⟨lv, ly, false, y⟩, by simp, rfl, by simp [h]⟩
          · left; rw [hset, if_pos hl]; exact h
        · left; rw [hset, if_neg hl]; exact h
      · exact .inr ⟨e', by simp [h1], h2, by simp [h3]⟩
    · subst he; cases ho
  · intro z hz
    obtain ⟨pre, post, a, b, h1, h2⟩ := hS.hang z hz
    refine ⟨pre, post ++ [⟨lv, ly, false, y⟩], a, b, by rw [h1]; simp, ?_⟩
    intro e he hl ho
    obtain ⟨e', h3, h4, h5⟩ := h2 e he hl ho
    exact ⟨e', h3, h4, by simp [h5]⟩
  · intro a b hab
    rw [hset]
    split
    · omega
    · exact hS.range a b hab

theorem anyLayers_step (done : List SlurEv) (e : SlurEv) (S S' : SlurSt) (hS : AnyLayers done S) (h : S.ev e = .ok S') :
    AnyLayers (done ++ [e]) S' := by
  obtain ⟨lv, ly, isOpen, item⟩ := e
  unfold SlurSt.ev at h
  cases isOpen with
  | true =>
    simp only [if_true] at h
    unfold SlurSt.open at h
    split at h
    · cases h
    · rename_i hr
      cases h
      have hset : ∀ a b, (S.setOpens lv ly (item :: S.opens lv ly)).opens a b =
          if a = lv ∧ b = ly then item :: S.opens lv ly else S.opens a b := fun a b => rfl
      refine ⟨?_, ?_, ?_, ?_, ?_, ?_, ?_⟩
      · intro a b z hz
        rw [hset] at hz
        split at hz
        · rename_i hab
          rcases List.mem_cons.1 hz with hz | hz
          · rw [hab.1, hab.2, hz]; simp
          · rw [hab.1, hab.2]; simp [hS.stacked lv ly z hz]
        · simp [hS.stacked a b z hz]
      · rw [allOpens_append]
        have : allOpens [(⟨lv, ly, true, item⟩ : SlurEv)] = [item] := rfl
        rw [this]
        have hu : List.Perm (S.setOpens lv ly (item :: S.opens lv ly)).unclosed (item :: S.unclosed) := by
          refine unclosed_push _ _ lv ly (by omega) (by omega) item ?_ ?_
          · rw [hset, if_pos ⟨rfl, rfl⟩]
          · intro a b hab; rw [hset, if_neg hab]
        refine List.Perm.trans (hu.append_left _) ?_
        refine List.Perm.trans List.perm_middle ?_
        refine List.Perm.trans (List.Perm.cons item hS.opens) ?_
        exact (List.perm_append_singleton item _).symm
      · rw [allCloses_append]
        have : allCloses [(⟨lv, ly, true, item⟩ : SlurEv)] = [] := rfl
        rw [this, List.append_nil]
        exact hS.closes
      · intro a b hab
        obtain ⟨pre, mid, post, c, d, e, h⟩ := hS.order a b hab
        exact ⟨pre, mid, post ++ [⟨lv, ly, true, item⟩], c, d, e, by rw [h]; simp⟩
      · intro e he ho
        simp only [List.mem_append, List.mem_singleton] at he
        rcases he with he | he
        · rcases hS.closed e he ho with h | ⟨e', h1, h2, h3⟩
          · left; rw [hset]
            split
            · rename_i hl
              rw [hl.1, hl.2] at h
              simp [h]
            · exact h
          · exact .inr ⟨e', by simp [h1], h2, h3⟩
        · subst he
          left; rw [hset, if_pos ⟨rfl, rfl⟩]; simp
      · intro z hz
        obtain ⟨pre, post, a, b, h1, h2⟩ := hS.hang z hz
        exact ⟨pre, post ++ [⟨lv, ly, true, item⟩], a, b, by rw [h1]; simp, h2⟩
      · intro a b hab
        rw [hset]
        split
        · omega
        · exact hS.range a b hab
  | false =>
    simp only [Bool.false_eq_true, if_false] at h
    unfold SlurSt.close at h
    split at h
    · cases h
    · rename_i hr
      cases hc : S.opens lv ly with
      | cons x xs =>
        rw [hc] at h
        cases h
        exact anyLayers_pop done S hS lv ly ly x item xs (by omega) (by omega) hc
      | nil =>
        rw [hc] at h
        simp only at h
        cases hf : (List.range 8).find? (fun k => !(S.opens lv k).isEmpty) with
        | some k =>
          rw [hf] at h
          have hk := List.find?_some hf
          have hk8 := List.mem_of_find?_eq_some hf
          simp only [List.mem_range] at hk8
          cases hck : S.opens lv k with
          | nil => rw [hck] at hk; simp at hk
          | cons x xs =>
            simp only [hck, List.tail_cons, List.head?_cons, Option.toList_some, List.map_cons, List.map_nil] at h
            cases h
            exact anyLayers_pop done S hS lv ly k x item xs (by omega) hk8 hck
        | none =>
          rw [hf] at h
          cases h
          rw [List.find?_eq_none] at hf
          have hempty : ∀ b, S.opens lv b = [] := by
            intro b
            by_cases hb : b < 8
            · have := hf b (by simpa using hb)
              simpa using this
            · exact hS.range lv b (by omega)
          refine ⟨?_, ?_, ?_, ?_, ?_, ?_, ?_⟩
          · intro a b z hz
            simp [hS.stacked a b z hz]
          · rw [allOpens_append]
            have : allOpens [(⟨lv, ly, false, item⟩ : SlurEv)] = [] := rfl
            rw [this, List.append_nil]
            exact hS.opens
          · rw [allCloses_append]
            have : allCloses [(⟨lv, ly, false, item⟩ : SlurEv)] = [item] := rfl
            rw [this]
            simp only
            rw [← List.append_assoc]
            exact hS.closes.append_right _
          · intro a b hab
            obtain ⟨pre, mid, post, c, d, e, h⟩ := hS.order a b hab
            exact ⟨pre, mid, post ++ [⟨lv, ly, false, item⟩], c, d, e, by rw [h]; simp⟩
          · intro e he ho
            simp only [List.mem_append, List.mem_singleton] at he
            rcases he with he | he
            · rcases hS.closed e he ho with h | ⟨e', h1, h2, h3⟩
              · exact .inl h
              · exact .inr ⟨e', by simp [h1], h2, h3⟩
            · subst he; cases ho
          · intro z hz
            simp only [List.mem_append, List.mem_singleton] at hz
            rcases hz with hz | hz
            · obtain ⟨pre, post, a, b, h1, h2⟩ := hS.hang z hz
              exact ⟨pre, post ++ [⟨lv, ly, false, item⟩], a, b, by rw [h1]; simp, h2⟩
            · subst hz
              refine ⟨done, [], lv, ly, rfl, ?_⟩
              intro e he hl ho
              rcases hS.closed e he ho with h | h
              · rw [hl, hempty] at h; simp at h
              · exact h
          · intro a b hab
            exact hS.range a b hab

theorem anyLayers_evs (evs : List SlurEv) : ∀ (done : List SlurEv) (S S' : SlurSt), AnyLayers done S →
    SlurSt.evs evs S = .ok S' → AnyLayers (done ++ evs) S' := by
  induction evs with
  | nil => intro done S S' hS h; cases h; simpa using hS
  | cons e evs ih =>
    intro done S S' hS h
    unfold SlurSt.evs at h
    cases he : S.ev e with
    | error x => rw [he] at h; cases h
    | ok S1 =>
      rw [he] at h
      have e1 : done ++ e :: evs = (done ++ [e]) ++ evs := by simp
      rw [e1]
      exact ih _ S1 S' (anyLayers_step done e S S1 hS he) h

/-- C26, whatever the layers. Every opening mark is linked once or left unclosed; every closing mark is linked once
or reported hanging; a mark is linked to a later mark of the same elision level; a closing mark is reported hanging
only if every mark of its level opened before it was closed before it. -/
theorem slur_marks_once (k : SlurKind) (linkSig : Str) (rows : List (List (TokId × Str))) (ls le : List TokId) (S : SlurSt)
    (h : spineSlurs k linkSig rows ls le = .ok S) :
    List.Perm (S.links.map (·.1) ++ S.unclosed) (allOpens (trackEvents k linkSig (trackToks rows))) ∧
    List.Perm (S.links.map (·.2) ++ S.hanging) (allCloses (trackEvents k linkSig (trackToks rows))) ∧
    (∀ x y, (x, y) ∈ S.links → ∃ pre mid post lv ly ly',
      trackEvents k linkSig (trackToks rows) = pre ++ ⟨lv, ly, true, x⟩ :: mid ++ ⟨lv, ly', false, y⟩ :: post) ∧
    (∀ y ∈ S.hanging, ∃ pre post lv ly, trackEvents k linkSig (trackToks rows) = pre ++ ⟨lv, ly, false, y⟩ :: post ∧
      ∀ e ∈ pre, e.level = lv → e.isOpen = true → ∃ e' ∈ pre, e'.isOpen = false ∧ (e.item, e'.item) ∈ S.links) := by
  obtain ⟨T, h1, h2, h3, h4⟩ := slurToks_evs k linkSig (trackToks rows) _ S SlurSt.empty h ⟨rfl, rfl, rfl⟩
  have hI : AnyLayers [] SlurSt.empty := by
    refine ⟨?_, ?_, ?_, ?_, ?_, ?_, ?_⟩
    · intro lv ly x hx; simp [SlurSt.empty] at hx
    · exact List.Perm.refl _
    · exact List.Perm.refl _
    · intro x y hxy; simp [SlurSt.empty] at hxy
    · intro e he; simp at he
    · intro y hy; simp [SlurSt.empty] at hy
    · intro _ _ _; rfl
  have hA := anyLayers_evs _ [] SlurSt.empty T hI h1
  rw [List.nil_append] at hA
  have hu : S.unclosed = T.unclosed := by unfold SlurSt.unclosed; rw [h2]
  rw [h3, h4, hu]
  exact ⟨hA.opens, hA.closes, hA.order, hA.hang⟩

/-! ### Which marks a token has -/

/-- Without a linking signifier the marks of a data token are all its parentheses: the closing ones first, each with the
number of `&` directly before it. -/
theorem tokEvents_slur (t : SlurTok) (hd : (tokIsInterpretation t.text || tokIsComment t.text || tokIsBarline t.text || tokIsNull t.text) = false) :
    tokEvents .slur [] t =
      ((markLevels ')' 0 t.text).zipIdx.map (fun p => ⟨p.1, t.layer, false, (t.id, p.2)⟩)) ++
      ((markLevels '(' 0 t.text).zipIdx.map (fun p => ⟨p.1, t.layer, true, (t.id, p.2)⟩)) := by
  have gen : ∀ (l : List Nat) (f : Nat → Nat → SlurEv), (List.range l.length).filterMap (fun i => (l[i]?).map (fun lv => f lv i)) =
      l.zipIdx.map (fun p => f p.1 p.2) := by
    intro l f
    induction l using List.reverseRecOn with
    | nil => rfl
    | append_singleton l a ih =>
      rw [List.length_append, List.length_singleton, List.range_succ, List.filterMap_append, List.zipIdx_append, List.map_append, ← ih]
      congr 1
      · refine List.filterMap_congr ?_
        intro i hi
        rw [List.getElem?_append_left (by simpa using hi)]
      · simp
  unfold tokEvents
  rw [if_neg (by simp [hd])]
  have e1 : ∀ i, isLinkedEnd .slur t.text i ([] ++ [SlurKind.slur.endChar]) = false := fun i => rfl
  have e2 : ∀ i, isLinkedBegin .slur t.text i ([] ++ [SlurKind.slur.beginChar]) = false := fun i => rfl
  simp only [e1, e2, Bool.false_eq_true, if_false]
  simp only [SlurKind.endChar, SlurKind.beginChar]
  rw [← markLevels_length ')' (by decide) t.text 0, ← markLevels_length '(' (by decide) t.text 0]
  rw [gen _ (fun lv i => ⟨lv, t.layer, false, (t.id, i)⟩), gen _ (fun lv i => ⟨lv, t.layer, true, (t.id, i)⟩)]

/-- C27 is false: phrase marks are counted by their parentheses, so in a file without slurs every phrase is ignored. -/
theorem phrase_without_slurs_ignored (linkSig : Str) (rows : List (List (TokId × Str))) (ls le : List TokId)
    (h : ∀ t ∈ trackToks rows, '(' ∉ t.text ∧ ')' ∉ t.text) :
    spineSlurs .phrase linkSig rows ls le = .ok ⟨fun _ _ => [], [], [], ls, le⟩ := by
  unfold spineSlurs
  generalize trackToks rows = ts at h
  generalize (⟨fun _ _ => [], [], [], ls, le⟩ : SlurSt) = S
  induction ts with
  | nil => rfl
  | cons t ts ih =>
    unfold slurToks
    have h1 := h t (by simp)
    have c0 : ∀ c, c ∉ t.text → countChar c t.text = 0 := by
      intro c hc
      unfold countChar
      rw [List.length_eq_zero_iff, List.filter_eq_nil_iff]
      intro a ha
      simp only [beq_iff_eq]
      intro e; exact hc (e ▸ ha)
    have : slurTok .phrase linkSig t S = .ok S := by
      unfold slurTok
      split
      · rfl
      · split
        · rfl
        · rw [c0 _ h1.1, c0 _ h1.2]; rfl
    rw [this]
    exact ih (fun t ht => h t (by simp [ht]))

/-- The marks a phrase analysis should see. -/
def phraseEvents (t : SlurTok) : List SlurEv :=
  ((markLevels '}' 0 t.text).zipIdx.map (fun p => ⟨p.1, t.layer, false, (t.id, p.2)⟩)) ++
  ((markLevels '{' 0 t.text).zipIdx.map (fun p => ⟨p.1, t.layer, true, (t.id, p.2)⟩))

/-- C27. Phrase marks are analysed by the same matching (`slur_matching_partial`, `slur_marks_once` hold of both kinds), but the
marks seen are right only in tokens with at least as many parentheses as braces. -/
theorem phrase_events_partial (t : SlurTok)
    (hd : (tokIsInterpretation t.text || tokIsComment t.text || tokIsBarline t.text || tokIsNull t.text) = false)
    (hc : countChar '}' t.text ≤ countChar ')' t.text) (ho : countChar '{' t.text ≤ countChar '(' t.text) :
    tokEvents .phrase [] t = phraseEvents t := by
  have gen : ∀ (l : List Nat) (n : Nat) (f : Nat → Nat → SlurEv), l.length ≤ n →
      (List.range n).filterMap (fun i => (l[i]?).map (fun lv => f lv i)) = l.zipIdx.map (fun p => f p.1 p.2) := by
    intro l n f hn
    obtain ⟨m, rfl⟩ := Nat.exists_eq_add_of_le hn
    clear hn
    induction m with
    | zero =>
      rw [Nat.add_zero]
      induction l using List.reverseRecOn with
      | nil => rfl
      | append_singleton l a ih =>
        rw [List.length_append, List.length_singleton, List.range_succ, List.filterMap_append, List.zipIdx_append, List.map_append, ← ih]
        congr 1
        · refine List.filterMap_congr ?_
          intro i hi
          rw [List.getElem?_append_left (by simpa using hi)]
        · simp
    | succ m ih =>
      rw [← Nat.add_assoc, List.range_succ, List.filterMap_append, ih]
      simp [List.filterMap_cons]
  unfold tokEvents phraseEvents
  rw [if_neg (by simp [hd])]
  have e1 : ∀ i, isLinkedEnd .phrase t.text i ([] ++ [SlurKind.phrase.endChar]) = false := fun i => rfl
  have e2 : ∀ i, isLinkedBegin .phrase t.text i ([] ++ [SlurKind.phrase.beginChar]) = false := fun i => rfl
  simp only [e1, e2, Bool.false_eq_true, if_false]
  simp only [SlurKind.endChar, SlurKind.beginChar]
  rw [gen _ _ (fun lv i => ⟨lv, t.layer, false, (t.id, i)⟩) (by rw [markLevels_length _ (by decide)]; exact hc),
    gen _ _ (fun lv i => ⟨lv, t.layer, true, (t.id, i)⟩) (by rw [markLevels_length _ (by decide)]; exact ho)]

/-! ### Cases -/

def slurRows (l : List (List String)) : List (List (TokId × Str)) :=
  l.zipIdx.map (fun r => r.1.zipIdx.map (fun p => ((r.2, p.2), p.1.toList)))

/-- Nested slurs, an elided one, and a hanging end and start. -/
example : (spineSlurs .slur [] (slurRows [["((4c"], ["4d)"], ["&(4e)"], ["4f&)"], ["4g)"], ["(4a"]]) [] []).toOption.map
    (fun S => (S.links, S.hanging, S.unclosed)) =
    some ([(((0, 0), 1), ((1, 0), 0)), (((0, 0), 0), ((2, 0), 0)), (((2, 0), 0), ((3, 0), 0))], [((4, 0), 0)], [((5, 0), 0)]) := by
  rfl

/-- The layers of a two-voice spine are kept apart. -/
example : (spineSlurs .slur [] (slurRows [["(4c", "(4a"], ["4d)", "4b"], [".", "4b)"]]) [] []).toOption.map (fun S => S.links) =
    some [(((0, 0), 0), ((1, 0), 0)), (((0, 1), 0), ((2, 1), 0))] := by decide +kernel

example : LayersApart (trackEvents .slur [] (trackToks (slurRows [["(4c"], ["4d)"]]))) := by
  refine .inl ⟨0, ?_⟩
  have : trackEvents .slur [] (trackToks (slurRows [["(4c"], ["4d)"]])) =
      [⟨0, 0, true, ((0, 0), 0)⟩, ⟨0, 0, false, ((1, 0), 0)⟩] := rfl
  rw [this]
  intro e he
  simp only [List.mem_cons, List.not_mem_nil, or_false] at he
  rcases he with rfl | rfl <;> rfl

/-- A layer that closes more than it opens takes the open mark of another layer. -/
theorem slur_other_layer : (spineSlurs .slur [] (slurRows [["(4c", "4a"], ["4d", "4b)"]]) [] []).toOption.map (fun S => S.links) =
    some [(((0, 0), 0), ((1, 1), 0))] := by decide +kernel

/-- Five elision levels, or nine layers, are an internal error. -/
theorem slur_deep_elision_fails : (spineSlurs .slur [] (slurRows [["&&&&(4c"]]) [] []) = .error .indexError := by
  rfl

/-- A phrase is found only where the tokens happen to have slurs. -/
theorem phrase_needs_slurs :
    (spineSlurs .phrase [] (slurRows [["{4c"], ["4d}"]]) [] []).toOption.map (fun S => (S.links, S.hanging)) = some ([], []) ∧
    (spineSlurs .phrase [] (slurRows [["({4c"], ["4d)}"]]) [] []).toOption.map (fun S => S.links) = some [(((0, 0), 0), ((1, 0), 0))] := by
  exact ⟨rfl, rfl⟩

/-- A linked slur end is recognised only at the very beginning of its token. -/
theorem linked_end_missed :
    (spineSlurs .slur "L".toList (slurRows [["4cL("], ["4dL)"]]) [] []).toOption.map (fun S => (S.linkStarts, S.linkEnds, S.hanging)) =
      some ([(0, 0)], [], [((1, 0), 0)]) ∧
    (spineSlurs .slur "L".toList (slurRows [["4cL("], ["L)4d"]]) [] []).toOption.map (fun S => (S.linkStarts, S.linkEnds, S.hanging)) =
      some ([(0, 0)], [(1, 0)], []) := by
  exact ⟨rfl, rfl⟩

end C21
