import Verif.Model.KernOrn
import Verif.Props.Accidental
import Verif.Props.Signifier
import Verif.Lemmas.Tac
import Mathlib.Tactic.NormNum
/-
C101: ornaments in the tokens of notes.
-/
namespace C21

/-! ## Specification -/

/-- The second above or below a note. -/
inductive OrnSecond
  | minor | major
deriving DecidableEq

/-- Its size in semitones. -/
def OrnSecond.semitones : OrnSecond → Rat
  | .minor => 1 | .major => 2

/-- Its size in the base-40 numbering of spelled pitches. -/
def OrnSecond.size : OrnSecond → Int
  | .minor => 5 | .major => 6

/-- What kind of ornament music21 has. -/
inductive OrnKind
  | trill | invertedTrill | mordent | invertedMordent | turn (inverted delayed : Bool)
deriving DecidableEq, Repr

/-- The kind of an ornament of the imported score. -/
def ReadOrn.kind : ReadOrn → OrnKind
  | .trill _ _ => .trill
  | .mordent lower _ _ => if lower then .mordent else .invertedMordent
  | .turn i d _ _ _ => .turn i d

/-- The trills among the ornaments of a note (on a pitched note, with the ornamental pitch above). -/
def trillKind : ExpOrn → Option OrnKind
  | .trill s _ => if 0 < s then some .trill else some .invertedTrill
  | _ => none

/-- The mordents among them. -/
def mordentKind : ExpOrn → Option OrnKind
  | .mordent s _ => if 0 < s then some .invertedMordent else some .mordent
  | _ => none

/-- The turns among them. -/
def turnKind : ExpOrn → Option OrnKind
  | .turn i d _ _ _ _ => some (.turn i d)
  | _ => none

/-- An ornament of a pitched note that Humdrum can write: trills go up, no trill lines. -/
def OrnPlain : ExpOrn → Prop
  | .trill s _ => 0 < s
  | .mordent s _ => s ≠ 0
  | .turn _ _ _ _ _ _ => True
  | .trillLineStart => False
  | .trillLineMore => False

/-- The other text of the token has no ornament letters, no rest letter, no mark for hidden things and no
placement mark right after the ornaments. -/
structure OrnAround (pre post : Str) : Prop where
  before : ∀ c ∈ pre, c ∉ "tTmMwWsS$r".toList
  after : ∀ c ∈ post, c ∉ "tTmMwWsS$ry".toList
  next : post.head? ≠ some '<' ∧ post.head? ≠ some '>'

/-- The text of an accidental: so many sharps or flats. -/
def modifierText (n : Int) : Str :=
  if 0 < n then List.replicate n.toNat '#' else List.replicate (-n).toNat '-'

/-- The accidental displayed on the exported ornamental pitch: none, or that of its alteration (naturals
have the empty modifier, and music21 knows up to four sharps or flats). -/
def Displayed (a : Option Str) (alter : Int) : Prop :=
  a = none ∨ (a = some (modifierText alter) ∧ -3 ≤ alter ∧ alter ≤ 3 ∧ alter ≠ 0)

/-- The layout parameters of a token to which these layout comments belong. -/
def loOf (ls : List (Str × Str × Str)) : OrnLo := fun c p =>
  match ls.find? fun l => l.1 == c && l.2.1 == p with
  | some l => l.2.2
  | none => []

/-! ## Lemmas -/

theorem dropWhile_to (f : Char → Bool) (p r : Str) (c : Char) (hp : ∀ x ∈ p, f x = false) (hc : f c = true) :
    (p ++ c :: r).dropWhile (fun x => !f x) = c :: r := by
  induction p with
  | nil => simp [hc]
  | cons a t ih =>
    have := hp a (by simp)
    simp only [List.cons_append, List.dropWhile_cons, this, Bool.not_false, if_true]
    exact ih fun x hx => hp x (by simp [hx])

theorem dropWhile_never (f : Char → Bool) (p : Str) (hp : ∀ x ∈ p, f x = false) :
    p.dropWhile (fun x => !f x) = [] := by
  induction p with
  | nil => rfl
  | cons a t ih =>
    have := hp a (by simp)
    simp only [List.dropWhile_cons, this, Bool.not_false, if_true]
    exact ih fun x hx => hp x (by simp [hx])

theorem any_mid (f : Char → Bool) (p r : Str) (c : Char) (hc : f c = true) : (p ++ c :: r).any f = true := by
  simp [hc]

theorem filterMap_one {α β : Type} (f : α → Option β) (es : List α) (h : (es.filterMap f).length ≤ 1) :
    (es.filterMap f = [] ∧ ∀ e ∈ es, f e = none) ∨
    ∃ a e b k, es = a ++ e :: b ∧ f e = some k ∧ es.filterMap f = [k] ∧
      (∀ x ∈ a, f x = none) ∧ (∀ x ∈ b, f x = none) := by
  induction es with
  | nil => exact .inl ⟨rfl, by simp⟩
  | cons x t ih =>
    cases hx : f x with
    | none =>
      simp only [List.filterMap_cons, hx] at h ⊢
      rcases ih h with ⟨h1, h2⟩ | ⟨a, e, b, k, h1, h2, h3, h4, h5⟩
      · refine .inl ⟨h1, ?_⟩
        intro e he
        rcases List.mem_cons.1 he with rfl | he
        · exact hx
        · exact h2 e he
      · refine .inr ⟨x :: a, e, b, k, by rw [h1]; rfl, h2, h3, ?_, h5⟩
        intro y hy
        rcases List.mem_cons.1 hy with rfl | hy
        · exact hx
        · exact h4 y hy
    | some k =>
      simp only [List.filterMap_cons, hx, List.length_cons] at h ⊢
      have h0 : t.filterMap f = [] := List.eq_nil_of_length_eq_zero (by omega)
      refine .inr ⟨[], x, t, k, rfl, hx, by rw [h0], by simp, ?_⟩
      intro y hy
      cases hy' : f y with
      | none => rfl
      | some z =>
        have : z ∈ t.filterMap f := List.mem_filterMap.2 ⟨y, hy, hy'⟩
        rw [h0] at this; cases this

/-- The text of a trill upwards is one letter. -/
theorem trillText_up (s : Rat) (h : 0 < s) : trillText s = ['t'] ∨ trillText s = ['T'] := by
  unfold trillText
  rw [if_neg (ne_of_gt h)]
  by_cases h1 : -1 ≤ s ∧ s ≤ 1
  · rw [if_pos h1, if_pos h]; exact .inl rfl
  · rw [if_neg h1, if_pos h]; exact .inr rfl

/-- The text of a mordent is one letter that tells which kind it is. -/
theorem mordentText_cases (s : Rat) (h : s ≠ 0) :
    (0 < s ∧ (mordentText s = ['m'] ∨ mordentText s = ['M'])) ∨
    (¬ 0 < s ∧ (mordentText s = ['w'] ∨ mordentText s = ['W'])) := by
  unfold mordentText
  rw [if_neg h]
  by_cases h1 : -1 ≤ s ∧ s ≤ 1
  · rw [if_pos h1]
    by_cases h2 : s > 0
    · rw [if_pos h2]; exact .inl ⟨h2, .inl rfl⟩
    · rw [if_neg h2]; exact .inr ⟨h2, .inl rfl⟩
  · rw [if_neg h1]
    by_cases h2 : s > 0
    · rw [if_pos h2]; exact .inl ⟨h2, .inr rfl⟩
    · rw [if_neg h2]; exact .inr ⟨h2, .inr rfl⟩

theorem turnChar_cases (s : Rat) : turnChar s = 's' ∨ turnChar s = 'S' := by
  unfold turnChar
  split
  · exact .inl rfl
  · split
    · exact .inl rfl
    · exact .inr rfl

theorem turnText_mem (i d : Bool) (u l : Rat) : ∀ c ∈ turnPrefix i d ++ [turnChar u, turnChar l],
    c = 's' ∨ c = 'S' ∨ c = '$' := by
  intro c hc
  rw [List.mem_append] at hc
  rcases hc with hc | hc
  · cases i <;> cases d <;> simp [turnPrefix] at hc <;> tauto
  · simp only [List.mem_cons, List.not_mem_nil, or_false] at hc
    rcases hc with rfl | rfl
    · rcases turnChar_cases u with h | h <;> rw [h] <;> tauto
    · rcases turnChar_cases l with h | h <;> rw [h] <;> tauto

/-- The letters of a plain ornament. -/
theorem ornText_mem (e : ExpOrn) (h : OrnPlain e) : ∀ c ∈ ornText e, c ∈ "tTmMwWsS$".toList := by
  intro c hc
  cases e with
  | trill s a =>
    rcases trillText_up s h with h1 | h1 <;> simp only [ornText, h1, List.mem_cons, List.not_mem_nil, or_false] at hc <;>
      subst hc <;> decide
  | mordent s a =>
    rcases mordentText_cases s h with ⟨_, h1 | h1⟩ | ⟨_, h1 | h1⟩ <;>
      simp only [ornText, h1, List.mem_cons, List.not_mem_nil, or_false] at hc <;> subst hc <;> decide
  | turn i d u l a b =>
    rcases turnText_mem i d u l c hc with rfl | rfl | rfl <;> decide
  | trillLineStart => exact h.elim
  | trillLineMore => exact h.elim

/-- A plain ornament of no trill kind has no trill letters; likewise for the others. -/
theorem ornText_classes (e : ExpOrn) (h : OrnPlain e) :
    ((match e with | .trill _ _ => False | _ => True) → ∀ c ∈ ornText e, isTrillChar c = false) ∧
    ((match e with | .mordent _ _ => False | _ => True) → ∀ c ∈ ornText e, isMordentChar c = false) ∧
    ((match e with | .turn _ _ _ _ _ _ => False | _ => True) → ∀ c ∈ ornText e, isTurnChar c = false) := by
  cases e with
  | trill s a =>
    rcases trillText_up s h with h1 | h1 <;>
      refine ⟨fun x => x.elim, fun _ c hc => ?_, fun _ c hc => ?_⟩ <;>
      simp only [ornText, h1, List.mem_cons, List.not_mem_nil, or_false] at hc <;> subst hc <;> decide
  | mordent s a =>
    rcases mordentText_cases s h with ⟨_, h1 | h1⟩ | ⟨_, h1 | h1⟩ <;>
      refine ⟨fun _ c hc => ?_, fun x => x.elim, fun _ c hc => ?_⟩ <;>
      simp only [ornText, h1, List.mem_cons, List.not_mem_nil, or_false] at hc <;> subst hc <;> decide
  | turn i d u l a b =>
    refine ⟨fun _ c hc => ?_, fun _ c hc => ?_, fun x => x.elim⟩ <;>
      rcases turnText_mem i d u l c hc with rfl | rfl | rfl <;> decide
  | trillLineStart => exact h.elim
  | trillLineMore => exact h.elim

theorem infix3_count (c : Char) (s : Str) (h : isInfix [c, c] s = false) : isInfix [c, c, c] s = false := by
  induction s with
  | nil => rfl
  | cons a t ih =>
    simp only [isInfix, Bool.or_eq_false_iff] at h ⊢
    refine ⟨?_, ih h.2⟩
    have h1 := h.1
    cases t with
    | nil => simp [List.isPrefixOf]
    | cons b t =>
      simp only [List.isPrefixOf, Bool.and_eq_false_iff] at h1 ⊢
      tauto

theorem infix2_absent (c : Char) (s : Str) (h : ∀ x ∈ s, c ≠ x) : isInfix [c, c] s = false := by
  induction s with
  | nil => rfl
  | cons a t ih =>
    have ha := h a (by simp)
    simp only [isInfix, Bool.or_eq_false_iff]
    refine ⟨?_, ih fun x hx => h x (by simp [hx])⟩
    simp [List.isPrefixOf, ha]

theorem infix2_once (c d : Char) (p r : Str) (hp : ∀ x ∈ p, c ≠ x) (hr : ∀ x ∈ r, c ≠ x) :
    isInfix [c, c] (p ++ d :: r) = false := by
  induction p with
  | nil =>
    simp only [List.nil_append, isInfix, Bool.or_eq_false_iff]
    refine ⟨?_, infix2_absent c r hr⟩
    cases r with
    | nil => simp [List.isPrefixOf]
    | cons b t =>
      have := hr b (by simp)
      simp [List.isPrefixOf, this]
  | cons a t ih =>
    have ha := hp a (by simp)
    simp only [List.cons_append, isInfix, Bool.or_eq_false_iff]
    refine ⟨?_, ih fun x hx => hp x (by simp [hx])⟩
    simp [List.isPrefixOf, ha]

/-! ## Reading one ornament of a kind -/

theorem readTrill_one (p r : Str) (c : Char) (out : OrnOut) (lo : Str) (hc : c = 't' ∨ c = 'T')
    (hp : ∀ x ∈ p, isTrillChar x = false) (hr : ∀ x ∈ r, isTrillChar x = false) :
    readTrill (p ++ c :: r) out lo = [.trill (placeMark r) (forceAcc lo (autoAcc out "trill".toList))] ∧
    readTrillLine (p ++ c :: r) = false := by
  have hc' : isTrillChar c = true := by rcases hc with rfl | rfl <;> rfl
  have ha : afterTrill (p ++ c :: r) = some r := by
    unfold afterTrill
    rw [dropWhile_to _ _ _ _ hp hc']
    cases r with
    | nil => rfl
    | cons b t =>
      have := hr b (by simp)
      simp [this]
  have ne : ∀ (d : Char), isTrillChar d = true → ∀ l : Str, (∀ x ∈ l, isTrillChar x = false) → ∀ x ∈ l, d ≠ x := by
    rintro d hd l hl x hx rfl
    rw [hl d hx] at hd; cases hd
  have T2 : isInfix ['T', 'T'] (p ++ c :: r) = false := infix2_once _ _ _ _ (ne 'T' rfl p hp) (ne 'T' rfl r hr)
  have t2 : isInfix ['t', 't'] (p ++ c :: r) = false := infix2_once _ _ _ _ (ne 't' rfl p hp) (ne 't' rfl r hr)
  have T3 : isInfix "TTT".toList (p ++ c :: r) = false := infix3_count _ _ T2
  have t3 : isInfix "ttt".toList (p ++ c :: r) = false := infix3_count _ _ t2
  have T2' : isInfix "TT".toList (p ++ c :: r) = false := T2
  have t2' : isInfix "tt".toList (p ++ c :: r) = false := t2
  refine ⟨?_, ?_⟩
  · unfold readTrill
    rw [ha, T3, t3]
    rfl
  · unfold readTrillLine
    rw [T2', t2']
    simp

theorem readMordent_one (p r : Str) (c : Char) (n : Nat) (out : OrnOut) (lo : Str) (hc : isMordentChar c = true)
    (hp : ∀ x ∈ p, isMordentChar x = false) (hr : ∀ x ∈ r, isMordentChar x = false)
    (hh : ∀ x, r.head? = some x → isMordentMark x = false) (hn : (p ++ c :: r).contains 'r' = false) :
    readMordent (p ++ c :: r) n out lo =
      [.mordent (c == 'w' || c == 'W') (mordentDefault n) (forceAcc' lo (autoAcc out "mordent".toList))] := by
  have hm : mordentMatch (p ++ c :: r) = [c] := by
    unfold mordentMatch
    rw [dropWhile_to _ _ _ _ hp hc]
    cases r with
    | nil => simp [hc]
    | cons b t =>
      have := hr b (by simp)
      have h2 := hh b rfl
      simp [hc, this, h2]
  have h3 : ([c].contains 'y') = false ∧ ([c].contains '>') = false ∧ ([c].contains '<') = false := by
    refine ⟨?_, ?_, ?_⟩ <;>
    · rw [Bool.eq_false_iff]
      intro h
      simp only [List.contains_cons, List.contains_nil, Bool.or_false, beq_iff_eq] at h
      subst h
      revert hc; decide
  unfold readMordent
  rw [hn, hm]
  simp only [h3.1, h3.2.1, h3.2.2]
  rfl

theorem takeWhile_turn (t r : Str) (ht : ∀ x ∈ t, isTurnChar x = true) (hr : ∀ x ∈ r, isTurnChar x = false) :
    (t ++ r).takeWhile isTurnChar = t ∧ (t ++ r).dropWhile isTurnChar = r := by
  induction t with
  | nil =>
    cases r with
    | nil => exact ⟨rfl, rfl⟩
    | cons b u =>
      have := hr b (by simp)
      simp [this]
  | cons a u ih =>
    have := ht a (by simp)
    have ih := ih fun x hx => ht x (by simp [hx])
    simp [this, ih.1, ih.2]

theorem readTurn_one (p r : Str) (i d : Bool) (u l : Rat) (out : OrnOut) (llo ulo : Str)
    (hp : ∀ x ∈ p, isTurnChar x = false) (hr : ∀ x ∈ r, isTurnChar x = false) :
    readTurn (p ++ ((turnPrefix i d ++ [turnChar u, turnChar l]) ++ r)) out llo ulo [] =
      [.turn i d (placeMark r) (forceAcc' ulo (autoAcc out "turnUpper".toList))
        (forceAcc' llo (autoAcc out "turnLower".toList))] := by
  have ht : ∀ x ∈ turnPrefix i d ++ [turnChar u, turnChar l], isTurnChar x = true := by
    intro x hx
    rcases turnText_mem i d u l x hx with rfl | rfl | rfl <;> rfl
  obtain ⟨a, w, haw⟩ : ∃ a w, turnPrefix i d ++ [turnChar u, turnChar l] = a :: w := by
    cases i <;> cases d <;> exact ⟨_, _, rfl⟩
  have hd : (p ++ ((turnPrefix i d ++ [turnChar u, turnChar l]) ++ r)).dropWhile (fun x => !isTurnChar x) =
      (turnPrefix i d ++ [turnChar u, turnChar l]) ++ r := by
    rw [haw] at ht ⊢
    rw [List.cons_append, dropWhile_to _ _ _ _ hp (ht a (by simp))]
  have h2 := takeWhile_turn _ r ht hr
  unfold readTurn
  rw [hd]
  simp only [h2.1, h2.2]
  cases i <;> cases d <;> rcases turnChar_cases u with hu | hu <;> rcases turnChar_cases l with hl | hl <;>
    rw [hu, hl] <;> rfl

/-! ## All ornaments of a note -/

theorem ornsText_avoid (f : Char → Bool) (k : ExpOrn → Option OrnKind) (es : List ExpOrn)
    (hk : ∀ e, OrnPlain e → k e = none → ∀ c ∈ ornText e, f c = false)
    (hp : ∀ e ∈ es, OrnPlain e) (hn : ∀ e ∈ es, k e = none) : ∀ c ∈ ornsText es, f c = false := by
  intro c hc
  obtain ⟨e, he, hce⟩ := List.mem_flatMap.1 hc
  exact hk e (hp e he) (hn e he) c hce

theorem trillKind_none (e : ExpOrn) (h : OrnPlain e) (hn : trillKind e = none) : ∀ c ∈ ornText e, isTrillChar c = false := by
  apply (ornText_classes e h).1
  cases e <;> first | trivial | (simp only [trillKind] at hn; split at hn <;> cases hn)

theorem mordentKind_none (e : ExpOrn) (h : OrnPlain e) (hn : mordentKind e = none) :
    ∀ c ∈ ornText e, isMordentChar c = false := by
  apply (ornText_classes e h).2.1
  cases e <;> first | trivial | (simp only [mordentKind] at hn; split at hn <;> cases hn)

theorem turnKind_none (e : ExpOrn) (h : OrnPlain e) (hn : turnKind e = none) : ∀ c ∈ ornText e, isTurnChar c = false := by
  apply (ornText_classes e h).2.2
  cases e <;> first | trivial | cases hn

theorem around_class (f : Char → Bool) (pre post : Str) (h : OrnAround pre post)
    (hf : ∀ c, f c = true → c ∈ "tTmMwWsS$".toList) : (∀ c ∈ pre, f c = false) ∧ (∀ c ∈ post, f c = false) := by
  refine ⟨fun c hc => ?_, fun c hc => ?_⟩
  · cases hx : f c with
    | false => rfl
    | true => exact (h.before c hc (by have := hf c hx; simp at this ⊢; tauto)).elim
  · cases hx : f c with
    | false => rfl
    | true => exact (h.after c hc (by have := hf c hx; simp at this ⊢; tauto)).elim

theorem trillChar_mem (c : Char) (h : isTrillChar c = true) : c ∈ "tTmMwWsS$".toList := by
  simp [isTrillChar] at h
  rcases h with rfl | rfl <;> decide

theorem mordentChar_mem (c : Char) (h : isMordentChar c = true) : c ∈ "tTmMwWsS$".toList := by
  simp [isMordentChar] at h
  rcases h with ((rfl | rfl) | rfl) | rfl <;> decide

theorem turnChar_mem (c : Char) (h : isTurnChar c = true) : c ∈ "tTmMwWsS$".toList := by
  simp [isTurnChar] at h
  rcases h with (rfl | rfl) | rfl <;> decide

theorem append_avoid (f : Char → Bool) (a b : Str) (ha : ∀ c ∈ a, f c = false) (hb : ∀ c ∈ b, f c = false) :
    ∀ c ∈ a ++ b, f c = false := by
  intro c hc
  rcases List.mem_append.1 hc with h | h
  · exact ha c h
  · exact hb c h

theorem any_avoid (f : Char → Bool) (a : Str) (ha : ∀ c ∈ a, f c = false) : a.any f = false := by
  rw [List.any_eq_false]
  intro c hc; rw [ha c hc]; simp

theorem ornsText_split (a b : List ExpOrn) (e : ExpOrn) (pre post : Str) :
    pre ++ ornsText (a ++ e :: b) ++ post = (pre ++ ornsText a) ++ (ornText e ++ (ornsText b ++ post)) := by
  simp [ornsText, List.append_assoc]

/-- Every ornament of a note is read back as the same kind of ornament: for any trills upwards, mordents
and turns on a pitched note, in any order, at most one of each, between any other text. -/
theorem ornament_kinds_partial (es : List ExpOrn) (pre post : Str) (n : Nat) (out : OrnOut) (lo : OrnLo)
    (ha : OrnAround pre post) (hp : ∀ e ∈ es, OrnPlain e) (h1 : (es.filterMap trillKind).length ≤ 1)
    (h2 : (es.filterMap mordentKind).length ≤ 1) (h3 : (es.filterMap turnKind).length ≤ 1)
    (hf : lo "TURN".toList "facc".toList = []) :
    (readOrns (pre ++ ornsText es ++ post) n out lo).map ReadOrn.kind =
      es.filterMap trillKind ++ es.filterMap mordentKind ++ es.filterMap turnKind := by
  have A1 := around_class isTrillChar pre post ha trillChar_mem
  have A2 := around_class isMordentChar pre post ha mordentChar_mem
  have A3 := around_class isTurnChar pre post ha turnChar_mem
  unfold readOrns
  rw [List.map_append, List.map_append]
  congr 1
  congr 1
  · rcases filterMap_one _ es h1 with ⟨e0, hn⟩ | ⟨a, e, b, k, he, hk, hfk, hna, hnb⟩
    · rw [e0, any_avoid isTrillChar _ (append_avoid _ _ _ (append_avoid _ _ _ A1.1
        (ornsText_avoid _ _ es trillKind_none hp hn)) A1.2)]
      rfl
    · rw [hfk]
      have hpe : OrnPlain e := hp e (by rw [he]; simp)
      rw [he, ornsText_split]
      cases e with
      | trill s ac =>
        have hs : 0 < s := hpe
        have hb := append_avoid isTrillChar _ _ (ornsText_avoid _ _ b trillKind_none
          (fun x hx => hp x (by rw [he]; simp [hx])) hnb) A1.2
        have haa := append_avoid isTrillChar _ _ A1.1 (ornsText_avoid _ _ a trillKind_none
          (fun x hx => hp x (by rw [he]; simp [hx])) hna)
        simp only [trillKind, if_pos hs, Option.some.injEq] at hk
        rw [← hk]
        rcases trillText_up s hs with ht | ht <;> simp only [ornText, ht, List.singleton_append]
        · rw [any_mid _ _ _ _ rfl, if_pos rfl, (readTrill_one _ _ _ _ _ (.inl rfl) haa hb).1]; rfl
        · rw [any_mid _ _ _ _ rfl, if_pos rfl, (readTrill_one _ _ _ _ _ (.inr rfl) haa hb).1]; rfl
      | mordent s ac => cases hk
      | turn i d u l ua la => cases hk
      | trillLineStart => cases hk
      | trillLineMore => cases hk
  · rcases filterMap_one _ es h2 with ⟨e0, hn⟩ | ⟨a, e, b, k, he, hk, hfk, hna, hnb⟩
    · rw [e0, any_avoid isMordentChar _ (append_avoid _ _ _ (append_avoid _ _ _ A2.1
        (ornsText_avoid _ _ es mordentKind_none hp hn)) A2.2)]
      rfl
    · rw [hfk]
      have hpe : OrnPlain e := hp e (by rw [he]; simp)
      have hall : (pre ++ ornsText es ++ post).contains 'r' = false := by
        rw [Bool.eq_false_iff]
        intro hc
        rw [List.contains_iff_mem] at hc
        rcases List.mem_append.1 hc with hc | hc
        · rcases List.mem_append.1 hc with hc | hc
          · exact ha.before 'r' hc (by decide)
          · obtain ⟨x, hx, hxc⟩ := List.mem_flatMap.1 hc
            exact absurd (ornText_mem x (hp x hx) _ hxc) (by decide)
        · exact ha.after 'r' hc (by decide)
      have hhead : ∀ x, (ornsText b ++ post).head? = some x → isMordentMark x = false := by
        intro x hx
        cases hob : ornsText b with
        | nil =>
          rw [hob, List.nil_append] at hx
          have hne := ha.next
          have hy := ha.after x (List.mem_of_mem_head? hx)
          rw [hx] at hne
          cases hm : isMordentMark x with
          | false => rfl
          | true =>
            simp [isMordentMark] at hm
            rcases hm with (rfl | rfl) | rfl
            · exact (hy (by decide)).elim
            · exact (hne.2 rfl).elim
            · exact (hne.1 rfl).elim
        | cons z w =>
          rw [hob] at hx
          simp only [List.cons_append, List.head?_cons, Option.some.injEq] at hx
          have hz : z ∈ ornsText b := by rw [hob]; simp
          obtain ⟨y, hy, hyc⟩ := List.mem_flatMap.1 hz
          have := ornText_mem y (hp y (by rw [he]; simp [hy])) _ hyc
          rw [← hx]
          simp only [String.toList] at this
          cases hm : isMordentMark z with
          | false => rfl
          | true =>
            simp [isMordentMark] at hm
            rcases hm with (rfl | rfl) | rfl <;> exact absurd this (by decide)
      have hb := append_avoid isMordentChar _ _ (ornsText_avoid _ _ b mordentKind_none
          (fun x hx => hp x (by rw [he]; simp [hx])) hnb) A2.2
      have haa := append_avoid isMordentChar _ _ A2.1 (ornsText_avoid _ _ a mordentKind_none
          (fun x hx => hp x (by rw [he]; simp [hx])) hna)
      rw [he, ornsText_split] at hall ⊢
      cases e with
      | mordent s ac =>
        have hs : s ≠ 0 := hpe
        rcases mordentText_cases s hs with ⟨hpos, hm⟩ | ⟨hpos, hm⟩
        · simp only [mordentKind, if_pos hpos, Option.some.injEq] at hk
          rw [← hk]
          rcases hm with ht | ht <;> simp only [ornText, ht, List.singleton_append] at hall ⊢ <;>
            rw [any_mid _ _ _ _ rfl, if_pos rfl, readMordent_one _ _ _ _ _ _ rfl haa hb hhead hall] <;> rfl
        · simp only [mordentKind, if_neg hpos, Option.some.injEq] at hk
          rw [← hk]
          rcases hm with ht | ht <;> simp only [ornText, ht, List.singleton_append] at hall ⊢ <;>
            rw [any_mid _ _ _ _ rfl, if_pos rfl, readMordent_one _ _ _ _ _ _ rfl haa hb hhead hall] <;> rfl
      | trill s ac => cases hk
      | turn i d u l ua la => cases hk
      | trillLineStart => cases hk
      | trillLineMore => cases hk
  · rcases filterMap_one _ es h3 with ⟨e0, hn⟩ | ⟨a, e, b, k, he, hk, hfk, hna, hnb⟩
    · rw [e0, any_avoid isTurnChar _ (append_avoid _ _ _ (append_avoid _ _ _ A3.1
        (ornsText_avoid _ _ es turnKind_none hp hn)) A3.2)]
      rfl
    · rw [hfk]
      have hb := append_avoid isTurnChar _ _ (ornsText_avoid _ _ b turnKind_none
          (fun x hx => hp x (by rw [he]; simp [hx])) hnb) A3.2
      have haa := append_avoid isTurnChar _ _ A3.1 (ornsText_avoid _ _ a turnKind_none
          (fun x hx => hp x (by rw [he]; simp [hx])) hna)
      rw [he, ornsText_split]
      cases e with
      | turn i d u l ua la =>
        simp only [turnKind, Option.some.injEq] at hk
        rw [← hk, hf]
        have hany : ((pre ++ ornsText a) ++ (ornText (.turn i d u l ua la) ++ (ornsText b ++ post))).any isTurnChar = true := by
          rw [List.any_eq_true]
          refine ⟨turnChar u, by simp [ornText], ?_⟩
          rcases turnChar_cases u with h | h <;> rw [h] <;> rfl
        rw [hany, if_pos rfl]
        simp only [ornText]
        rw [readTurn_one _ _ _ _ _ _ _ _ _ haa hb]
        rfl
      | trill s ac => cases hk
      | mordent s ac => cases hk
      | trillLineStart => cases hk
      | trillLineMore => cases hk

example : OrnAround "(4cc#".toList "L'>".toList ∧
    (readOrns ("(4cc#".toList ++ ornsText [.turn false true 2 (-1) none none, .trill 2 none, .mordent (-1) none] ++ "L'>".toList)
      1 [] fun _ _ => []).map ReadOrn.kind = [.trill, .mordent, .turn false true] := by
  refine ⟨⟨by decide, by decide, by decide⟩, by decide +kernel⟩

/-! ## The ornamental pitches -/

theorem replaceGo_no_y (s : Str) (h : 'y' ∉ s) : replaceAll "ny".toList [] s = s := by
  unfold replaceAll
  induction s with
  | nil => rfl
  | cons a t ih =>
    have hp : ¬ "ny".toList.isPrefixOf (a :: t) = true := by
      intro hp
      cases t with
      | nil => simp [List.isPrefixOf] at hp
      | cons b t =>
        simp [List.isPrefixOf] at hp
        exact h (by simp [← hp.2])
    rw [replaceGo, if_neg hp, ih (fun hh => h (by simp [hh]))]

theorem contains_one (pre post : Str) (c x : Char) (ha : OrnAround pre post) (hx : x ∈ "tTmMwWsS$".toList) :
    (pre ++ c :: post).contains x = (x == c) := by
  rw [Bool.eq_iff_iff, List.contains_iff_mem, beq_iff_eq, List.mem_append, List.mem_cons]
  constructor
  · rintro (h | h | h)
    · exact (ha.before x h (by simp at hx ⊢; tauto)).elim
    · exact h
    · exact (ha.after x h (by simp at hx ⊢; tauto)).elim
  · intro h; exact .inr (.inl h)

theorem no_y_text (pre post w : Str) (ha : OrnAround pre post) (hy : 'y' ∉ pre) (hw : 'y' ∉ w) : 'y' ∉ pre ++ w ++ post := by
  simp only [List.mem_append, not_or]
  exact ⟨⟨hy, hw⟩, fun h => ha.after 'y' h (by decide)⟩

theorem forceAcc_displayed (a : Option Str) (n : Int) (v : Bool) (h : Displayed a n) :
    ∃ v', forceAcc (a.getD []) (some (v, n)) = some (v', n) ∧ forceAcc' (a.getD []) (some (v, n)) = some (v', n) ∧
      (a ≠ none → v' = true) ∧ (a = none → v' = v) := by
  rcases h with rfl | ⟨rfl, h1, h2, h3⟩
  · exact ⟨v, rfl, rfl, fun h => (h rfl).elim, fun _ => rfl⟩
  · have : n = -3 ∨ n = -2 ∨ n = -1 ∨ n = 1 ∨ n = 2 ∨ n = 3 := by omega
    refine ⟨true, ?_, ?_, fun _ => rfl, fun h => by cases h⟩ <;>
      rcases this with rfl | rfl | rfl | rfl | rfl | rfl <;> rfl

theorem ornament_one (t : Str) (b i : Int) (nm : Str) (d d' : Nat → Int) (out : OrnOut) (hs : ornStep t = some (nm, i))
    (h : ornament t b d = .ok (out, d')) : ∃ v, autoAcc out nm = some (v, base40ToAccidental (b + i)) := by
  unfold ornament at h
  rw [hs] at h
  simp only at h
  cases hp : pyIndex 70 (base40ToDiatonic (b + i)) with
  | none => rw [hp] at h; cases h
  | some x =>
    rw [hp] at h
    simp only at h
    by_cases hd : d x ≠ base40ToAccidental (b + i)
    · rw [if_pos hd] at h; cases h; exact ⟨true, by simp [autoAcc]⟩
    · rw [if_neg hd] at h; cases h; exact ⟨false, by simp [autoAcc]⟩

theorem trillText_second (q : OrnSecond) : ∃ c, trillText q.semitones = [c] ∧
    ((c = 't' ∧ q.size = 5) ∨ (c = 'T' ∧ q.size = 6)) := by
  cases q
  · exact ⟨'t', by decide +kernel, .inl ⟨rfl, rfl⟩⟩
  · exact ⟨'T', by decide +kernel, .inr ⟨rfl, rfl⟩⟩

theorem place_unset (pre post : Str) (ha : OrnAround pre post) : placeMark post = .unset := by
  have := ha.next
  unfold placeMark
  split
  · exact (this.2 rfl).elim
  · exact (this.1 rfl).elim
  · rfl

/-- A trill with the minor or major second above a note is read back as a trill with the same second note:
the accidental found for it is that of the spelled pitch a second above, and it is shown if it was shown. -/
theorem trill_pitch_round_trip_partial (q : OrnSecond) (a : Option Str) (pre post : Str) (n : Nat) (b : Int)
    (d d' : Nat → Int) (out : OrnOut) (ha : OrnAround pre post) (hy : 'y' ∉ pre)
    (hd : Displayed a (base40ToAccidental (b + q.size)))
    (h : ornament (replaceAll "ny".toList [] (pre ++ ornsText [.trill q.semitones a] ++ post)) b d = .ok (out, d')) :
    ∃ shown, readOrns (pre ++ ornsText [.trill q.semitones a] ++ post) n out
        (loOf (ornLayouts (.trill q.semitones a))) =
      [.trill .unset (some (shown, base40ToAccidental (b + q.size)))] ∧ (a ≠ none → shown = true) := by
  obtain ⟨c, hc, hcq⟩ := trillText_second q
  have ht : pre ++ ornsText [.trill q.semitones a] ++ post = pre ++ c :: post := by
    simp [ornsText, ornText, hc]
  have hcy : c ∈ "tT".toList := by rcases hcq with ⟨rfl, _⟩ | ⟨rfl, _⟩ <;> decide
  rw [ht] at h ⊢
  have hny : 'y' ∉ pre ++ c :: post := by
    have := no_y_text pre post [c] ha hy (by rcases hcq with ⟨rfl, _⟩ | ⟨rfl, _⟩ <;> decide)
    simpa using this
  rw [replaceGo_no_y _ hny] at h
  have A1 := around_class isTrillChar pre post ha trillChar_mem
  have A2 := around_class isMordentChar pre post ha mordentChar_mem
  have A3 := around_class isTurnChar pre post ha turnChar_mem
  have hs : ornStep (pre ++ c :: post) = some ("trill".toList, q.size) := by
    unfold ornStep
    rw [contains_one pre post c 't' ha (by decide), contains_one pre post c 'T' ha (by decide)]
    rcases hcq with ⟨rfl, h6⟩ | ⟨rfl, h6⟩ <;> rw [h6] <;> rfl
  obtain ⟨v, hv⟩ := ornament_one _ _ _ _ _ _ _ hs h
  obtain ⟨v', hf, _, hv', _⟩ := forceAcc_displayed a _ v hd
  have hlo : loOf (ornLayouts (.trill q.semitones a)) "TR".toList "acc".toList = a.getD [] := by cases a <;> rfl
  have m0 : (pre ++ c :: post).any isMordentChar = false := any_avoid _ _ (append_avoid _ _ _ A2.1 (by
    intro x hx; rcases List.mem_cons.1 hx with rfl | hx
    · rcases hcq with ⟨rfl, _⟩ | ⟨rfl, _⟩ <;> rfl
    · exact A2.2 x hx))
  have s0 : (pre ++ c :: post).any isTurnChar = false := any_avoid _ _ (append_avoid _ _ _ A3.1 (by
    intro x hx; rcases List.mem_cons.1 hx with rfl | hx
    · rcases hcq with ⟨rfl, _⟩ | ⟨rfl, _⟩ <;> rfl
    · exact A3.2 x hx))
  refine ⟨v', ?_, hv'⟩
  unfold readOrns
  rw [any_mid _ _ _ _ (by rcases hcq with ⟨rfl, _⟩ | ⟨rfl, _⟩ <;> rfl), m0, s0, if_pos rfl,
    (readTrill_one pre post c out _ (by rcases hcq with ⟨rfl, _⟩ | ⟨rfl, _⟩; exact .inl rfl; exact .inr rfl) A1.1 A1.2).1,
    place_unset pre post ha, hlo, hv, hf]
  rfl

theorem mordentText_second (q : OrnSecond) (up : Bool) :
    ∃ c, mordentText (if up then q.semitones else -q.semitones) = [c] ∧ c ∈ "mMwW".toList ∧
      (c == 'w' || c == 'W') = !up ∧
      (∀ pre post, OrnAround pre post → ornStep (pre ++ c :: post) =
        some ("mordent".toList, if up then q.size else -q.size)) := by
  have key : ∀ c ∈ "mMwW".toList, ∀ pre post, OrnAround pre post → ornStep (pre ++ c :: post) = ornStep [c] := by
    intro c hc pre post ha
    unfold ornStep
    rw [contains_one pre post c 't' ha (by decide), contains_one pre post c 'T' ha (by decide),
      contains_one pre post c 'M' ha (by decide), contains_one pre post c 'm' ha (by decide),
      contains_one pre post c 'W' ha (by decide), contains_one pre post c 'w' ha (by decide)]
    simp only [List.mem_cons, List.not_mem_nil, or_false, String.toList] at hc
    simp only [List.contains_cons, List.contains_nil, Bool.or_false]
  cases q <;> cases up
  · exact ⟨'w', by decide +kernel, by decide, rfl, fun pre post h => by rw [key _ (by decide) _ _ h]; rfl⟩
  · exact ⟨'m', by decide +kernel, by decide, rfl, fun pre post h => by rw [key _ (by decide) _ _ h]; rfl⟩
  · exact ⟨'W', by decide +kernel, by decide, rfl, fun pre post h => by rw [key _ (by decide) _ _ h]; rfl⟩
  · exact ⟨'M', by decide +kernel, by decide, rfl, fun pre post h => by rw [key _ (by decide) _ _ h]; rfl⟩

/-- A mordent with the minor or major second above or below a note is read back as the same kind of mordent
with the same second note. Its placement is made up from the number of the layer, whatever it was. -/
theorem mordent_pitch_round_trip_partial (q : OrnSecond) (up : Bool) (a : Option Str) (pre post : Str) (n : Nat) (b : Int)
    (d d' : Nat → Int) (out : OrnOut) (ha : OrnAround pre post) (hy : 'y' ∉ pre)
    (hd : Displayed a (base40ToAccidental (b + if up then q.size else -q.size)))
    (h : ornament (replaceAll "ny".toList []
      (pre ++ ornsText [.mordent (if up then q.semitones else -q.semitones) a] ++ post)) b d = .ok (out, d')) :
    ∃ shown, readOrns (pre ++ ornsText [.mordent (if up then q.semitones else -q.semitones) a] ++ post) n out
        (loOf (ornLayouts (.mordent (if up then q.semitones else -q.semitones) a))) =
      [.mordent (!up) (if n = 0 ∨ n % 2 = 1 then .above else .below)
        (some (shown, base40ToAccidental (b + if up then q.size else -q.size)))] ∧ (a ≠ none → shown = true) := by
  obtain ⟨c, hc, hcm, hcl, hstep⟩ := mordentText_second q up
  have ht : pre ++ ornsText [.mordent (if up then q.semitones else -q.semitones) a] ++ post = pre ++ c :: post := by
    simp [ornsText, ornText, hc]
  rw [ht] at h ⊢
  have hcc : c = 'm' ∨ c = 'M' ∨ c = 'w' ∨ c = 'W' := by simpa using hcm
  have hny : 'y' ∉ pre ++ c :: post := by
    have := no_y_text pre post [c] ha hy (by rcases hcc with rfl | rfl | rfl | rfl <;> decide)
    simpa using this
  rw [replaceGo_no_y _ hny] at h
  have A1 := around_class isTrillChar pre post ha trillChar_mem
  have A2 := around_class isMordentChar pre post ha mordentChar_mem
  have A3 := around_class isTurnChar pre post ha turnChar_mem
  obtain ⟨v, hv⟩ := ornament_one _ _ _ _ _ _ _ (hstep pre post ha) h
  obtain ⟨v', _, hf, hv', _⟩ := forceAcc_displayed a _ v hd
  have hlo : loOf (ornLayouts (.mordent (if up then q.semitones else -q.semitones) a)) "MOR".toList "acc".toList = a.getD [] := by
    cases a <;> rfl
  have t0 : (pre ++ c :: post).any isTrillChar = false := any_avoid _ _ (append_avoid _ _ _ A1.1 (by
    intro x hx; rcases List.mem_cons.1 hx with rfl | hx
    · rcases hcc with rfl | rfl | rfl | rfl <;> rfl
    · exact A1.2 x hx))
  have s0 : (pre ++ c :: post).any isTurnChar = false := any_avoid _ _ (append_avoid _ _ _ A3.1 (by
    intro x hx; rcases List.mem_cons.1 hx with rfl | hx
    · rcases hcc with rfl | rfl | rfl | rfl <;> rfl
    · exact A3.2 x hx))
  have hcm' : isMordentChar c = true := by rcases hcc with rfl | rfl | rfl | rfl <;> rfl
  have hhead : ∀ x, post.head? = some x → isMordentMark x = false := by
    intro x hx
    have hne := ha.next
    have hyy := ha.after x (List.mem_of_mem_head? hx)
    rw [hx] at hne
    cases hm : isMordentMark x with
    | false => rfl
    | true =>
      simp [isMordentMark] at hm
      rcases hm with (rfl | rfl) | rfl
      · exact (hyy (by decide)).elim
      · exact (hne.2 rfl).elim
      · exact (hne.1 rfl).elim
  have hr : (pre ++ c :: post).contains 'r' = false := by
    rw [Bool.eq_false_iff]
    intro hx
    rw [List.contains_iff_mem] at hx
    rcases List.mem_append.1 hx with hx | hx
    · exact ha.before 'r' hx (by decide)
    · rcases List.mem_cons.1 hx with hx | hx
      · rcases hcc with rfl | rfl | rfl | rfl <;> cases hx
      · exact ha.after 'r' hx (by decide)
  have hpl : mordentDefault n = (if n = 0 ∨ n % 2 = 1 then .above else .below) := by
    unfold mordentDefault
    by_cases h0 : n = 0
    · rw [if_pos h0, if_pos (.inl h0)]
    · rw [if_neg h0]
      by_cases h1 : n % 2 = 1
      · rw [if_pos (by omega), if_pos (.inr h1)]
      · rw [if_neg (by omega), if_neg (by omega)]
  refine ⟨v', ?_, hv'⟩
  unfold readOrns
  rw [t0, any_mid _ _ _ _ hcm', s0, if_pos rfl, readMordent_one pre post c n out _ hcm' A2.1 A2.2 hhead hr,
    hlo, hv, hf, hcl, hpl]
  rfl

theorem turnChar_second (q : OrnSecond) :
    turnChar q.semitones = (if q.size = 5 then 's' else 'S') ∧ turnChar (-q.semitones) = (if q.size = 5 then 's' else 'S') := by
  cases q <;> exact ⟨by decide +kernel, by decide +kernel⟩

theorem turnInt_char (q : OrnSecond) (sgn : Int) :
    turnInt (some (if q.size = 5 then 's' else 'S')) sgn = sgn * q.size := by
  cases q <;> simp [turnInt, OrnSecond.size]

theorem turn_accs (b l u : Int) (d d' : Nat → Int) (out : OrnOut) (hl : l ≠ 0) (hu : u ≠ 0)
    (h : turn b l u d = .ok (out, d')) :
    ∃ v w, autoAcc out "turnUpper".toList = some (v, base40ToAccidental (b + u)) ∧
      autoAcc out "turnLower".toList = some (w, base40ToAccidental (b + l)) := by
  unfold turn at h
  simp only [hl, hu, if_false] at h
  split at h
  · cases h
  · split at h
    · cases h
    · simp only [Except.ok.injEq, Prod.mk.injEq] at h
      rw [← h.1]
      exact ⟨_, _, rfl, rfl⟩

theorem turn_text_facts (i dl : Bool) (u l : Rat) (pre post : Str) (ha : OrnAround pre post) :
    let s := pre ++ ((turnPrefix i dl ++ [turnChar u, turnChar l]) ++ post)
    s.any isTrillChar = false ∧ s.any isMordentChar = false ∧ s.any isTurnChar = true ∧ ornStep s = none ∧
    (i = true → s.contains '$' = true ∧ (s.dropWhile (· != '$')).drop 1 = turnChar u :: turnChar l :: post) ∧
    (i = false → s.contains '$' = false ∧ s.contains 'S' = true ∧
      (s.dropWhile (· != 'S')).drop 1 = turnChar u :: turnChar l :: post) := by
  intro s
  have hm := turnText_mem i dl u l
  have A1 := around_class isTrillChar pre post ha trillChar_mem
  have A2 := around_class isMordentChar pre post ha mordentChar_mem
  have h1 : s.any isTrillChar = false := any_avoid _ _ (append_avoid _ _ _ A1.1 (append_avoid _ _ _
    (fun c hc => by rcases hm c hc with rfl | rfl | rfl <;> rfl) A1.2))
  have h2 : s.any isMordentChar = false := any_avoid _ _ (append_avoid _ _ _ A2.1 (append_avoid _ _ _
    (fun c hc => by rcases hm c hc with rfl | rfl | rfl <;> rfl) A2.2))
  have h3 : s.any isTurnChar = true := by
    rw [List.any_eq_true]
    refine ⟨turnChar u, by simp [s], ?_⟩
    rcases turnChar_cases u with h | h <;> rw [h] <;> rfl
  have nc : ∀ x ∈ "tTMmWw".toList, s.contains x = false := by
    intro x hx
    rw [Bool.eq_false_iff]
    intro hc
    rw [List.contains_iff_mem] at hc
    rw [List.any_eq_false] at h1 h2
    have := h1 x hc
    have := h2 x hc
    simp at hx
    rcases hx with rfl | rfl | rfl | rfl | rfl | rfl <;> simp_all [isTrillChar, isMordentChar]
  have h4 : ornStep s = none := by
    unfold ornStep
    rw [nc 't' (by decide), nc 'T' (by decide), nc 'M' (by decide), nc 'm' (by decide), nc 'W' (by decide), nc 'w' (by decide)]
    rfl
  have dw : ∀ (x : Char) (p r : Str), x ∉ p → (p ++ x :: r).dropWhile (· != x) = x :: r := by
    intro x p r hp
    induction p with
    | nil => simp
    | cons y t ih =>
      have hy : y ≠ x := fun h => hp (by simp [h])
      have := ih fun h => hp (by simp [h])
      simp [hy, this]
  refine ⟨h1, h2, h3, h4, ?_, ?_⟩
  · rintro rfl
    have np : '$' ∉ pre := fun h => ha.before _ h (by decide)
    cases dl
    · have e : s = (pre ++ ['s']) ++ '$' :: (turnChar u :: turnChar l :: post) := by simp [s, turnPrefix]
      rw [e]
      refine ⟨by simp, ?_⟩
      rw [dw _ _ _ (by simp [np])]; rfl
    · have e : s = pre ++ '$' :: (turnChar u :: turnChar l :: post) := by simp [s, turnPrefix]
      rw [e]
      refine ⟨by simp, ?_⟩
      rw [dw _ _ _ np]; rfl
  · rintro rfl
    have np : 'S' ∉ pre := fun h => ha.before _ h (by decide)
    have n1 : '$' ∉ pre := fun h => ha.before _ h (by decide)
    have n2 : '$' ∉ post := fun h => ha.after _ h (by decide)
    have n3 : '$' ≠ turnChar u := by rcases turnChar_cases u with h | h <;> rw [h] <;> decide
    have n4 : '$' ≠ turnChar l := by rcases turnChar_cases l with h | h <;> rw [h] <;> decide
    cases dl
    · have e : s = (pre ++ ['s']) ++ 'S' :: (turnChar u :: turnChar l :: post) := by simp [s, turnPrefix]
      rw [e]
      refine ⟨by simp [n1, n2, n3, n4], by simp, ?_⟩
      rw [dw _ _ _ (by simp [np])]; rfl
    · have e : s = pre ++ 'S' :: (turnChar u :: turnChar l :: post) := by simp [s, turnPrefix]
      rw [e]
      refine ⟨by simp [n1, n2, n3, n4], by simp, ?_⟩
      rw [dw _ _ _ np]; rfl

theorem turn_read (i dl : Bool) (qu ql : OrnSecond) (ua la : Option Str) (pre post : Str) (n : Nat) (b : Int)
    (d d' : Nat → Int) (out : OrnOut) (ha : OrnAround pre post) (hy : 'y' ∉ pre)
    (h : ornament (replaceAll "ny".toList []
      (pre ++ ornsText [.turn i dl qu.semitones (-ql.semitones) ua la] ++ post)) b d = .ok (out, d')) :
    ∃ v w, readOrns (pre ++ ornsText [.turn i dl qu.semitones (-ql.semitones) ua la] ++ post) n out
        (loOf (ornLayouts (.turn i dl qu.semitones (-ql.semitones) ua la))) =
      [.turn i dl .unset
        (forceAcc' (ua.getD []) (some (v, base40ToAccidental (b + if i then ql.size else qu.size))))
        (forceAcc' (la.getD []) (some (w, base40ToAccidental (b - if i then qu.size else ql.size))))] := by
  have ht : pre ++ ornsText [.turn i dl qu.semitones (-ql.semitones) ua la] ++ post =
      pre ++ ((turnPrefix i dl ++ [turnChar qu.semitones, turnChar (-ql.semitones)]) ++ post) := by
    simp [ornsText, ornText]
  have hny : 'y' ∉ pre ++ ((turnPrefix i dl ++ [turnChar qu.semitones, turnChar (-ql.semitones)]) ++ post) := by
    rw [← List.append_assoc]
    apply no_y_text pre post _ ha hy
    intro hc
    rcases turnText_mem i dl _ _ _ hc with hc | hc | hc <;> cases hc
  rw [ht] at h ⊢
  rw [replaceGo_no_y _ hny] at h
  have A3 := around_class isTurnChar pre post ha turnChar_mem
  have F := turn_text_facts i dl qu.semitones (-ql.semitones) pre post ha
  simp only at F
  obtain ⟨f1, f2, f3, f4, f5, f6⟩ := F
  have c1 := (turnChar_second qu).1
  have c2 := (turnChar_second ql).2
  have hz : ∀ q : OrnSecond, q.size ≠ 0 := by intro q; cases q <;> decide
  have hacc : ∃ v w, autoAcc out "turnUpper".toList = some (v, base40ToAccidental (b + if i then ql.size else qu.size)) ∧
      autoAcc out "turnLower".toList = some (w, base40ToAccidental (b - if i then qu.size else ql.size)) := by
    unfold ornament at h
    rw [f4] at h
    simp only at h
    cases i
    · obtain ⟨g1, g2, g3⟩ := f6 rfl
      rw [g1, g2, g3] at h
      simp only [Bool.false_eq_true, if_false, if_true] at h ⊢
      have e0 : (turnChar qu.semitones :: turnChar (-ql.semitones) :: post)[0]? = some (turnChar qu.semitones) := rfl
      have e1 : (turnChar qu.semitones :: turnChar (-ql.semitones) :: post)[1]? = some (turnChar (-ql.semitones)) := rfl
      rw [e0, e1, c1, c2, turnInt_char, turnInt_char] at h
      obtain ⟨v, w, hv, hw⟩ := turn_accs _ _ _ _ _ _ (by have := hz ql; omega) (by have := hz qu; omega) h
      refine ⟨v, w, ?_, ?_⟩
      · rw [hv]; congr 3; omega
      · rw [hw]; congr 3; omega
    · obtain ⟨g1, g2⟩ := f5 rfl
      rw [g1, g2] at h
      simp only [if_true] at h ⊢
      have e0 : (turnChar qu.semitones :: turnChar (-ql.semitones) :: post)[0]? = some (turnChar qu.semitones) := rfl
      have e1 : (turnChar qu.semitones :: turnChar (-ql.semitones) :: post)[1]? = some (turnChar (-ql.semitones)) := rfl
      rw [e0, e1, c1, c2, turnInt_char, turnInt_char] at h
      obtain ⟨v, w, hv, hw⟩ := turn_accs _ _ _ _ _ _ (by have := hz qu; omega) (by have := hz ql; omega) h
      refine ⟨v, w, ?_, ?_⟩
      · rw [hv]; congr 3; omega
      · rw [hw]; congr 3; omega
  obtain ⟨v, w, hv, hw⟩ := hacc
  refine ⟨v, w, ?_⟩
  have l1 : loOf (ornLayouts (.turn i dl qu.semitones (-ql.semitones) ua la)) "TURN".toList "lacc".toList = la.getD [] := by
    cases ua <;> cases la <;> rfl
  have l2 : loOf (ornLayouts (.turn i dl qu.semitones (-ql.semitones) ua la)) "TURN".toList "uacc".toList = ua.getD [] := by
    cases ua <;> cases la <;> rfl
  have l3 : loOf (ornLayouts (.turn i dl qu.semitones (-ql.semitones) ua la)) "TURN".toList "facc".toList = [] := by
    cases ua <;> cases la <;> rfl
  unfold readOrns
  rw [f1, f2, f3, if_pos rfl, l1, l2, l3, readTurn_one pre post i dl _ _ out _ _ A3.1 A3.2, hv, hw, place_unset pre post ha]
  rfl

/-- A turn is read back as the same turn (delayed or not) with the same two neighbouring notes. -/
theorem turn_pitch_round_trip_partial (dl : Bool) (qu ql : OrnSecond) (ua la : Option Str) (pre post : Str) (n : Nat)
    (b : Int) (d d' : Nat → Int) (out : OrnOut) (ha : OrnAround pre post) (hy : 'y' ∉ pre)
    (hu : Displayed ua (base40ToAccidental (b + qu.size))) (hl : Displayed la (base40ToAccidental (b - ql.size)))
    (h : ornament (replaceAll "ny".toList []
      (pre ++ ornsText [.turn false dl qu.semitones (-ql.semitones) ua la] ++ post)) b d = .ok (out, d')) :
    ∃ v w, readOrns (pre ++ ornsText [.turn false dl qu.semitones (-ql.semitones) ua la] ++ post) n out
        (loOf (ornLayouts (.turn false dl qu.semitones (-ql.semitones) ua la))) =
      [.turn false dl .unset (some (v, base40ToAccidental (b + qu.size))) (some (w, base40ToAccidental (b - ql.size)))] ∧
      (ua ≠ none → v = true) ∧ (la ≠ none → w = true) := by
  obtain ⟨v, w, hr⟩ := turn_read false dl qu ql ua la pre post n b d d' out ha hy h
  simp only [Bool.false_eq_true, if_false] at hr
  obtain ⟨v', _, hf, hv', _⟩ := forceAcc_displayed ua _ v hu
  obtain ⟨w', _, hg, hw', _⟩ := forceAcc_displayed la _ w hl
  exact ⟨v', w', by rw [hr, hf, hg], hv', hw'⟩

/-- The two neighbouring notes of an inverted turn are read back with each other's interval: the note above
gets the interval of the note below and the other way round, unless an accidental was shown. -/
theorem inverted_turn_swapped (dl : Bool) (qu ql : OrnSecond) (pre post : Str) (n : Nat)
    (b : Int) (d d' : Nat → Int) (out : OrnOut) (ha : OrnAround pre post) (hy : 'y' ∉ pre)
    (h : ornament (replaceAll "ny".toList []
      (pre ++ ornsText [.turn true dl qu.semitones (-ql.semitones) none none] ++ post)) b d = .ok (out, d')) :
    ∃ v w, readOrns (pre ++ ornsText [.turn true dl qu.semitones (-ql.semitones) none none] ++ post) n out
        (loOf (ornLayouts (.turn true dl qu.semitones (-ql.semitones) none none))) =
      [.turn true dl .unset (some (v, base40ToAccidental (b + ql.size))) (some (w, base40ToAccidental (b - qu.size)))] := by
  obtain ⟨v, w, hr⟩ := turn_read true dl qu ql none none pre post n b d d' out ha hy h
  exact ⟨v, w, hr⟩

/-- An inverted turn on C4 between D and B in C major comes back as one between D flat and B flat. -/
theorem inverted_turn_on_c_wrong :
    ∃ out d', ornament ("4c".toList ++ ornsText [.turn true true 2 (-1) none none]) (kernToBase40 "4c".toList)
        (fun _ => 0) = .ok (out, d') ∧
      readOrns ("4c".toList ++ ornsText [.turn true true 2 (-1) none none]) 1 out (fun _ _ => []) =
        [.turn true true .unset (some (true, -1)) (some (true, -1))] ∧
      base40ToAccidental (kernToBase40 "4c".toList + 6) = 0 ∧ base40ToAccidental (kernToBase40 "4c".toList - 5) = 0 := by
  have e : ornsText [.turn true true 2 (-1) none none] = "$Ss".toList := by decide +kernel
  rw [e]
  exact ⟨_, _, rfl, by decide +kernel, by decide +kernel, by decide +kernel⟩

example : OrnAround "(4c#".toList "L".toList ∧ 'y' ∉ "(4c#".toList ∧
    Displayed (some "##".toList) (base40ToAccidental (kernToBase40 "4b".toList + 6 + 1)) := by
  refine ⟨⟨by decide, by decide, by decide⟩, by decide, .inr ⟨by decide +kernel, by decide +kernel, by decide +kernel, by decide +kernel⟩⟩

/-- The mark after a mordent letter counts: 'y' hides the mordent, '>' and '<' place it. -/
theorem mordent_marks (p r : Str) (c m : Char) (n : Nat) (out : OrnOut) (lo : Str) (hc : c ∈ "wWmM".toList)
    (hp : ∀ x ∈ p, x ∉ "wWmMr".toList) (hr : ∀ x ∈ r, x ∉ "y<>r".toList) :
    (m = 'y' → readMordent (p ++ c :: m :: r) n out lo = []) ∧
    (m = '>' → ∃ l a, readMordent (p ++ c :: m :: r) n out lo = [.mordent l .above a]) ∧
    (m = '<' → ∃ l a, readMordent (p ++ c :: m :: r) n out lo = [.mordent l .below a]) := by
  have hc4 : c = 'w' ∨ c = 'W' ∨ c = 'm' ∨ c = 'M' := by simpa using hc
  have hcm : isMordentChar c = true := by rcases hc4 with rfl | rfl | rfl | rfl <;> rfl
  have hpm : ∀ x ∈ p, isMordentChar x = false := by
    intro x hx
    cases hm : isMordentChar x with
    | false => rfl
    | true =>
      simp [isMordentChar] at hm
      exact (hp x hx (by simp; tauto)).elim
  have ht : r.takeWhile isMordentMark = [] := by
    cases r with
    | nil => rfl
    | cons x t =>
      have := hr x (by simp)
      simp at this
      simp [isMordentMark, this]
  have hr' : ∀ mm : Char, mm ≠ 'r' → (p ++ c :: mm :: r).contains 'r' = false := by
    intro mm hmm
    rw [Bool.eq_false_iff]
    intro hx
    rw [List.contains_iff_mem] at hx
    rcases List.mem_append.1 hx with hx | hx
    · exact hp 'r' hx (by decide)
    · rcases List.mem_cons.1 hx with hx | hx
      · rcases hc4 with rfl | rfl | rfl | rfl <;> cases hx
      · rcases List.mem_cons.1 hx with hx | hx
        · exact hmm hx.symm
        · exact hr 'r' hx (by decide)
  have hmm : ∀ mm : Char, isMordentMark mm = true → isMordentChar mm = false → mordentMatch (p ++ c :: mm :: r) = [c, mm] := by
    intro mm h1 h2
    unfold mordentMatch
    rw [dropWhile_to _ _ _ _ hpm hcm]
    simp [hcm, h1, h2, ht]
  refine ⟨?_, ?_, ?_⟩
  · rintro rfl
    unfold readMordent
    rw [hr' _ (by decide), hmm _ rfl rfl]
    simp
  · rintro rfl
    unfold readMordent
    rw [hr' _ (by decide), hmm _ rfl rfl]
    rcases hc4 with rfl | rfl | rfl | rfl <;> exact ⟨_, _, rfl⟩
  · rintro rfl
    unfold readMordent
    rw [hr' _ (by decide), hmm _ rfl rfl]
    rcases hc4 with rfl | rfl | rfl | rfl <;> exact ⟨_, _, rfl⟩

example : readMordent "4ccMyL".toList 1 [] [] = [] ∧ readMordent "4ccwL".toList 1 [] [] = [.mordent true .above none] := by decide +kernel

/-! ## What is lost -/

theorem ornsText_filter (es : List ExpOrn) (h : ∀ e ∈ es, OrnPlain e ∨ e = .trillLineStart) :
    ∃ es', ornsText es = ornsText es' ∧ (∀ e ∈ es', OrnPlain e) ∧ es'.filterMap trillKind = es.filterMap trillKind := by
  induction es with
  | nil => exact ⟨[], rfl, by simp, rfl⟩
  | cons e t ih =>
    obtain ⟨es', h1, h2, h3⟩ := ih fun x hx => h x (by simp [hx])
    rcases h e (by simp) with he | rfl
    · refine ⟨e :: es', ?_, ?_, ?_⟩
      · simp only [ornsText, List.flatMap_cons] at h1 ⊢; rw [h1]
      · intro x hx
        rcases List.mem_cons.1 hx with rfl | hx
        · exact he
        · exact h2 x hx
      · simp only [List.filterMap_cons, h3]
    · exact ⟨es', h1, h2, h3⟩

theorem infix_more (es : List ExpOrn) (pre post : Str) (h : .trillLineMore ∈ es) :
    isInfix "TTT".toList (pre ++ ornsText es ++ post) = true := by
  rw [isInfix_iff]
  obtain ⟨a, b, rfl⟩ := List.append_of_mem h
  exact ⟨pre ++ ornsText a, ornsText b ++ post, by simp [ornsText, ornText]⟩

/-- No trill line ever comes back: whatever trill, mordents, turns and parts of trill lines a note has, its
token starts no trill line. -/
theorem trill_line_lost (es : List ExpOrn) (pre post : Str) (ha : OrnAround pre post)
    (hp : ∀ e ∈ es, OrnPlain e ∨ e = .trillLineStart ∨ e = .trillLineMore)
    (h1 : (es.filterMap trillKind).length ≤ 1) : readTrillLine (pre ++ ornsText es ++ post) = false := by
  by_cases hm : ExpOrn.trillLineMore ∈ es
  · unfold readTrillLine
    rw [infix_more es pre post hm]
    simp
  · obtain ⟨es', e1, e2, e3⟩ := ornsText_filter es fun e he => by
      rcases hp e he with h | h | h
      · exact .inl h
      · exact .inr h
      · exact (hm (h ▸ he)).elim
    rw [e1]
    rw [← e3] at h1
    have A1 := around_class isTrillChar pre post ha trillChar_mem
    rcases filterMap_one _ es' h1 with ⟨e0, hn⟩ | ⟨a, e, b, k, he, hk, hfk, hna, hnb⟩
    · have hno := append_avoid _ _ _ (append_avoid _ _ _ A1.1 (ornsText_avoid _ _ es' trillKind_none e2 hn)) A1.2
      unfold readTrillLine afterTrill
      rw [dropWhile_never isTrillChar _ hno]
      rfl
    · have hpe : OrnPlain e := e2 e (by rw [he]; simp)
      rw [he, ornsText_split]
      cases e with
      | trill s ac =>
        have hs : 0 < s := hpe
        have hb := append_avoid isTrillChar _ _ (ornsText_avoid _ _ b trillKind_none
          (fun x hx => e2 x (by rw [he]; simp [hx])) hnb) A1.2
        have haa := append_avoid isTrillChar _ _ A1.1 (ornsText_avoid _ _ a trillKind_none
          (fun x hx => e2 x (by rw [he]; simp [hx])) hna)
        rcases trillText_up s hs with ht | ht <;> simp only [ornText, ht, List.singleton_append]
        · exact (readTrill_one _ _ _ [] [] (.inl rfl) haa hb).2
        · exact (readTrill_one _ _ _ [] [] (.inr rfl) haa hb).2
      | mordent s ac => cases hk
      | turn i d u l ua la => cases hk
      | trillLineStart => cases hk
      | trillLineMore => cases hk

/-- A trill on a later note of a trill line is lost too. -/
theorem trill_in_line_lost (es : List ExpOrn) (pre post : Str) (out : OrnOut) (lo : Str) (h : .trillLineMore ∈ es) :
    readTrill (pre ++ ornsText es ++ post) out lo = [] := by
  unfold readTrill
  rw [infix_more es pre post h]
  split <;> rfl

example : readTrillLine ("4c".toList ++ ornsText [.trill 2 none, .trillLineStart] ++ "L".toList) = false ∧
    readTrillLine "4cTTL".toList = true := by
  refine ⟨by decide +kernel, by decide +kernel⟩

/-- A mordent on a note without pitch is read as a trill. -/
theorem unpitched_mordent_becomes_trill (a : Option Str) (n : Nat) (out : OrnOut) (lo : OrnLo) (pre post : Str)
    (ha : OrnAround pre post) (hf : lo "TURN".toList "facc".toList = []) :
    (readOrns (pre ++ ornsText [.mordent 0 a] ++ post) n out lo).map ReadOrn.kind = [.trill] := by
  have e : ornsText [.mordent 0 a] = ornsText [.trill 1 a] := by
    have h1 : mordentText 0 = ['t'] := by decide +kernel
    have h2 : trillText 1 = ['t'] := by decide +kernel
    simp [ornsText, ornText, h1, h2]
  have hp : ∀ e ∈ [ExpOrn.trill 1 a], OrnPlain e := by
    intro x hx
    rw [List.mem_singleton.1 hx]
    show (0 : Rat) < 1
    decide +kernel
  rw [e, ornament_kinds_partial [.trill 1 a] pre post n out lo ha hp (List.length_filterMap_le _ _)
    (List.length_filterMap_le _ _) (List.length_filterMap_le _ _) hf]
  have h3 : (0 : Rat) < 1 := by decide +kernel
  simp [trillKind, mordentKind, turnKind, h3]

/-- A trill downwards is read as a trill upwards (placed below): on C4 with B, it comes back with D flat. -/
theorem inverted_trill_turned_up :
    ∃ out d', ornament ("4c".toList ++ ornsText [.trill (-1) none]) (kernToBase40 "4c".toList) (fun _ => 0) = .ok (out, d') ∧
      readOrns ("4c".toList ++ ornsText [.trill (-1) none]) 1 out (fun _ _ => []) = [.trill .below (some (true, -1))] ∧
      [ExpOrn.trill (-1) none].filterMap trillKind = [.invertedTrill] := by
  have e : ornsText [.trill (-1) none] = "t<".toList := by decide +kernel
  rw [e]
  exact ⟨_, _, rfl, by decide +kernel, by decide +kernel⟩

/-- On a note with a trill and a turn only the trill gets its second note; the turn's two notes are left to
the key signature: here B flat - D flat around C in the text, none in the result. -/
theorem turn_beside_trill_unspecified :
    ∃ out d', ornament ("4c".toList ++ ornsText [.trill 1 none, .turn false true 1 (-2) none none])
        (kernToBase40 "4c".toList) (fun _ => 0) = .ok (out, d') ∧
      readOrns ("4c".toList ++ ornsText [.trill 1 none, .turn false true 1 (-2) none none]) 1 out (fun _ _ => []) =
        [.trill .unset (some (true, -1)), .turn false true .unset none none] := by
  have e : ornsText [.trill 1 none, .turn false true 1 (-2) none none] = "tSsS".toList := by decide +kernel
  rw [e]
  exact ⟨_, _, rfl, by decide +kernel⟩

/-- A displayed quadruple sharp is written but not known to the reader, which then drops the accidental. -/
theorem quadruple_sharp_dropped (v : Bool) : forceAcc (modifierText 4) (some (v, 4)) = none := rfl

end C21
