import Verif.Model.ChordText
import Verif.Spec.ChordText
/-
C129: the text of a chord symbol can be read again.
-/
namespace C21

theorem accAscii_iff (c : Char) : (accAscii c).isSome = true ↔ IsAccidentalChar c := by
  unfold accAscii IsAccidentalChar
  constructor
  · intro h
    repeat' split at h
    all_goals first | (subst_vars; decide) | cases h
  · rintro (h | ⟨h1, h2, h3⟩)
    · simp only [List.mem_cons, List.not_mem_nil, or_false] at h
      rcases h with rfl | rfl <;> rfl
    · have hc : c = Char.ofNat c.toNat := (Char.ofNat_toNat c).symm
      have : c.toNat = 0xE260 ∨ c.toNat = 0xE262 ∨ c.toNat = 0xE263 ∨ c.toNat = 0xE264 ∨ c.toNat = 0xE265 ∨ c.toNat = 0xE266 ∨
          c.toNat = 0xE267 ∨ c.toNat = 0xE268 ∨ c.toNat = 0xE269 := by omega
      rcases this with h | h | h | h | h | h | h | h | h <;> rw [h] at hc <;> subst hc <;> rfl

theorem replaceGo_cons_ne (pat rep xs : Str) (p x : Char) (h : p ≠ x) :
    replaceGo (p :: pat) rep 0 (x :: xs) = x :: replaceGo (p :: pat) rep 0 xs := by
  rw [replaceGo]
  simp [List.isPrefixOf, h]

theorem replaceAll_no_infix (pat rep s : Str) (hp : pat ≠ []) (h : ¬ pat <:+: s) : replaceAll pat rep s = s := by
  unfold replaceAll
  induction s with
  | nil => rfl
  | cons x xs ih =>
    rw [replaceGo]
    have h1 : pat.isPrefixOf (x :: xs) = false := by
      rw [Bool.eq_false_iff]
      intro hc
      exact h (List.isPrefixOf_iff_prefix.1 hc).isInfix
    rw [h1]
    simp only [Bool.false_eq_true, if_false]
    rw [ih (fun hc => h (hc.trans (List.suffix_cons x xs).isInfix))]

theorem replaceAll_one (p q : Char) (s : Str) : replaceAll [p] [q] s = s.map (fun c => if c = p then q else c) := by
  unfold replaceAll
  induction s with
  | nil => rfl
  | cons x xs ih =>
    rw [replaceGo]
    by_cases h : x = p
    · simp [List.isPrefixOf, h, ih]
    · have : ¬ p = x := fun hc => h hc.symm
      simp [List.isPrefixOf, h, this, ih]

theorem infix_mem (pat s : Str) (c : Char) (h : pat <:+: s) (hc : c ∈ pat) : c ∈ s := h.subset hc

/-- A word of letters that the text keeps is in the text only if it is in the figure. -/
theorem infix_map (f : Char → Char) (pat s : Str) (hf : ∀ c ∈ pat, ∀ x, f x = c → x = c) (h : pat <:+: s.map f) : pat <:+: s := by
  obtain ⟨a, b, hab⟩ := h
  obtain ⟨l1, s3, rfl, h1, rfl⟩ := List.map_eq_append_iff.1 hab.symm
  obtain ⟨s1, s2, rfl, rfl, h2⟩ := List.map_eq_append_iff.1 h1
  refine ⟨s1, s3, ?_⟩
  have : s2 = pat := by
    clear hab h1
    induction s2 generalizing pat with
    | nil => simpa using h2
    | cons x s2 ih =>
      cases pat with
      | nil => simp at h2
      | cons p pat =>
        simp only [List.map_cons, List.cons.injEq] at h2
        rw [ih pat (fun c hc => hf c (by simp [hc])) h2.2, hf p (by simp) x h2.1]
  rw [this]

theorem printed_keeps (pat : Str) (hp : ∀ c ∈ pat, c ≠ Char.ofNat 0xE260 ∧ c ≠ Char.ofNat 0xE262) : ∀ c ∈ pat, ∀ x, printed x = c → x = c := by
  intro c hc x hx
  obtain ⟨h1, h2⟩ := hp c hc
  unfold printed at hx
  split at hx
  · exact absurd hx.symm h1
  · split at hx
    · exact absurd hx.symm h2
    · exact hx

theorem figureChars_plain (fig : Str) (h : PlainFigure fig) : figureChars fig = fig.map printed := by
  unfold figureChars
  rw [replaceAll_no_infix _ _ fig (by decide) h.subtract, replaceAll_one]
  have hc := h.chars
  clear h
  induction fig with
  | nil => rfl
  | cons c fig ih =>
    rw [List.map_cons, List.flatMap_cons, ih (fun x hx => hc x (by simp [hx])), List.map_cons]
    have hsp := (hc c (by simp)).2.1
    unfold figChar printed
    by_cases h1 : c = '-'
    · subst h1; rfl
    · by_cases h2 : c = 'b'
      · subst h2; rfl
      · by_cases h3 : c = '#'
        · subst h3; rfl
        · simp [h1, h2, h3, hsp]

theorem tweaks_none (out : Str) (h1 : ¬ "dim".toList <:+: out) (h2 : 'o' ∉ out) : figTweaks out = out := by
  unfold figTweaks
  rw [replaceAll_no_infix _ _ out (by decide) h1]
  simp [h2]

theorem printed_o (s : Str) (h : 'o' ∉ s) : 'o' ∉ s.map printed := by
  intro hc
  obtain ⟨x, hx, hx2⟩ := List.mem_map.1 hc
  have := printed_keeps ['o'] (by decide) 'o' (by simp) x hx2
  subst this
  exact h hx

/-- C129: the text of a plain figure has the same characters, with all flats and sharps as signs. -/
theorem text_of_figure (fig : Str) (h : PlainFigure fig) : figureToText fig false = fig.map printed := by
  unfold figureToText
  simp only [Bool.false_eq_true, if_false]
  rw [figureChars_plain fig h]
  refine tweaks_none _ (fun hc => h.dim (infix_map printed _ _ (printed_keeps _ (by decide)) hc)) ?_
  exact printed_o fig (fun hc => (h.chars 'o' hc).2.2 rfl)

/-- C129: the label of the kind of chord is what stands between the root with its accidentals and the bass. -/
theorem label_of_figure (root : Char) (accs kind bass : Str) (h : PlainFigure (root :: accs ++ kind ++ bass))
    (ha : ∀ c ∈ accs, c = '-' ∨ c = 'b' ∨ c = '#') (hk : ∀ c, kind.head? = some c → c ≠ '-' ∧ c ≠ 'b' ∧ c ≠ '#') (hs : '/' ∉ kind)
    (hb : bass = [] ∨ ∃ b, bass = '/' :: b) :
    figureToText (root :: accs ++ kind ++ bass) true = kind.map printed := by
  have hd : dropNames (figureChars (root :: accs ++ kind ++ bass)) = kind.map printed := by
    rw [figureChars_plain _ h]
    unfold dropNames
    simp only [List.cons_append, List.map_cons, List.drop_succ_cons, List.drop_zero, List.map_append, List.append_assoc]
    rw [List.dropWhile_append_of_pos]
    · have hslash : ∀ x, printed x = '/' → x = '/' := printed_keeps ['/'] (by decide) '/' (by simp)
      have hhead : (kind.map printed ++ bass.map printed).dropWhile (fun c => decide (c = smuflFlat) || decide (c = smuflSharp)) =
          kind.map printed ++ bass.map printed := by
        have hgen : ∀ (c : Char), c ∈ root :: accs ++ kind ++ bass → c ≠ '-' → c ≠ 'b' → c ≠ '#' →
            (decide (printed c = smuflFlat) || decide (printed c = smuflSharp)) = false := by
          intro c hc g1 g2 g3
          have hp : printed c = c := by unfold printed; simp [g1, g2, g3]
          rw [hp]
          have := (h.chars c hc).1
          have e1 : c ≠ smuflFlat := by intro he; subst he; exact this (by unfold IsAccidentalChar; decide)
          have e2 : c ≠ smuflSharp := by intro he; subst he; exact this (by unfold IsAccidentalChar; decide)
          simp [e1, e2]
        cases kind with
        | cons c kind =>
          obtain ⟨g1, g2, g3⟩ := hk c rfl
          rw [List.map_cons, List.cons_append, List.dropWhile_cons, hgen c (by simp) g1 g2 g3]
          rfl
        | nil =>
          rcases hb with rfl | ⟨b, rfl⟩
          · rfl
          · rw [List.map_nil, List.nil_append, List.map_cons, List.dropWhile_cons, hgen '/' (by simp) (by decide) (by decide) (by decide)]
            rfl
      rw [hhead]
      have hk2 : ∀ x ∈ kind.map printed, decide (x ≠ '/') = true := by
        intro x hx
        obtain ⟨y, hy, rfl⟩ := List.mem_map.1 hx
        rw [decide_eq_true_eq]
        intro hc
        have := hslash y hc
        subst this
        exact hs hy
      rw [List.takeWhile_append_of_pos hk2]
      rcases hb with rfl | ⟨b, rfl⟩
      · simp
      · have : printed '/' = '/' := by decide
        simp [this]
    · intro x hx
      obtain ⟨y, hy, rfl⟩ := List.mem_map.1 hx
      rcases ha y hy with rfl | rfl | rfl <;> decide
  unfold figureToText
  simp only [if_true]
  rw [hd]
  have hsub : kind <:+: (root :: accs ++ kind ++ bass) := ⟨root :: accs, bass, rfl⟩
  refine tweaks_none _ (fun hc => h.dim ((infix_map printed _ _ (printed_keeps _ (by decide)) hc).trans hsub)) ?_
  exact printed_o kind (fun hc => (h.chars 'o' (hsub.subset hc)).2.2 rfl)

theorem rest_plain (fig : Str) (hc : ∀ c ∈ fig, ¬ IsAccidentalChar c) (hs : '/' ∉ fig) (hy : Bool) (tail : Str) :
    restLoop hy (fig.map printed ++ tail) =
      fig.map (fun c => if c = 'b' ∨ c = '-' then (if hy then '-' else 'b') else c) ++ restLoop hy tail := by
  induction fig with
  | nil => rfl
  | cons c fig ih =>
    have ihx := ih (fun x hx => hc x (by simp [hx])) (fun h => hs (by simp [h]))
    have hcs : c ≠ '/' := by intro he; subst he; exact hs (by simp)
    rw [List.map_cons, List.cons_append, restLoop, List.map_cons, List.cons_append]
    by_cases h1 : c = 'b' ∨ c = '-'
    · have hp : printed c = Char.ofNat 0xE260 := by simp [printed, h1]
      have ha : accAscii (Char.ofNat 0xE260) = some ['b'] := by decide
      have hn : Char.ofNat 0xE260 ≠ '/' := by decide
      simp only [hp, ha, if_neg hn, ihx, if_pos h1]
      cases hy <;> simp
    · by_cases h2 : c = '#'
      · subst h2
        have hp : printed '#' = Char.ofNat 0xE262 := by decide
        have ha : accAscii (Char.ofNat 0xE262) = some ['#'] := by decide
        have hn : Char.ofNat 0xE262 ≠ '/' := by decide
        simp only [hp, ha, if_neg hn, ihx, if_neg h1]
        cases hy <;> simp
      · have hp : printed c = c := by simp [printed, h1, h2]
        have ha : accAscii c = none := by
          cases he : accAscii c with
          | none => rfl
          | some a => exact absurd ((accAscii_iff c).1 (by rw [he]; rfl)) (hc c (by simp))
        simp only [hp, ha, if_neg hcs, ihx, if_neg h1]
        simp

theorem rest_no_hyphen (s : Str) : restLoop false ('/' :: s) = '/' :: restLoop false s ∧ restLoop true ('/' :: s) = '/' :: restLoop false s := by
  constructor <;> (rw [restLoop]; rfl)

theorem rest_bass (fig : Str) (hc : ∀ c ∈ fig, ¬ IsAccidentalChar c) :
    restLoop false (fig.map printed) = fig.map (fun c => if c = '-' then 'b' else c) := by
  induction fig with
  | nil => rfl
  | cons c fig ih =>
    have ihx := ih (fun x hx => hc x (by simp [hx]))
    by_cases hcs : c = '/'
    · subst hcs
      have hp : printed '/' = '/' := by decide
      rw [List.map_cons, hp, (rest_no_hyphen _).1, ihx]
      simp
    · have := rest_plain [c] (fun x hx => hc x (by simp at hx; simp [hx])) (by simp [Ne.symm hcs]) false (fig.map printed)
      rw [List.map_cons]
      simp only [List.map_cons, List.map_nil, List.singleton_append] at this
      rw [this, ihx, List.map_cons]
      by_cases h1 : c = 'b'
      · subst h1; rfl
      · by_cases h2 : c = '-'
        · subst h2; rfl
        · simp [h1, h2]

theorem respaced_plain (fig : Str) (h : PlainFigure fig) : respaced (fig.map printed) = fig.map printed := by
  have ho : ¬ "omit".toList <:+: fig.map printed := by
    intro hc
    exact printed_o fig (fun hx => (h.chars 'o' hx).2.2 rfl) (hc.subset (by decide))
  unfold respaced
  rw [replaceAll_no_infix "add".toList _ _ (by decide) (fun hc => h.add (infix_map printed _ _ (printed_keeps _ (by decide)) hc)),
    replaceAll_no_infix "omit".toList _ _ (by decide) ho,
    replaceAll_no_infix "subtract".toList _ _ (by decide) (fun hc => h.subtract (infix_map printed _ _ (printed_keeps _ (by decide)) hc)),
    replaceAll_no_infix "alter".toList _ _ (by decide) (fun hc => h.alter (infix_map printed _ _ (printed_keeps _ (by decide)) hc))]

theorem spin_ends (c : Char) (h : ¬ IsAccidentalChar c) (fuel : Nat) (out : Str) : spinRoot c (fuel + 1) out = some out := by
  rw [spinRoot]
  cases he : accAscii c with
  | none => rfl
  | some a => exact absurd ((accAscii_iff c).1 (by rw [he]; rfl)) h

/-- C129: what comes back for a plain figure: the same figure, with each `b` before the bass turned into `-` and each `-`
of the bass turned into `b`. -/
theorem figure_read_again (root : Char) (p q : Str) (h : PlainFigure (root :: p ++ q)) (hr : root ≠ 'b' ∧ root ≠ '-' ∧ root ≠ '#')
    (hp : '/' ∉ p) (hq : q = [] ∨ ∃ b, q = '/' :: b) (fuel : Nat) :
    textToFigure (fuel + 1) (figureToText (root :: p ++ q) false) =
      some (root :: p.map (fun c => if c = 'b' then '-' else c) ++ q.map (fun c => if c = '-' then 'b' else c)) := by
  rw [text_of_figure _ h]
  unfold textToFigure
  rw [respaced_plain _ h]
  have hroot : printed root = root := by unfold printed; simp [hr]
  simp only [List.cons_append, List.map_cons, hroot]
  rw [spin_ends root (h.chars root (by simp)).1]
  simp only [List.map_append]
  rw [rest_plain p (fun c hc => (h.chars c (by simp [hc])).1) hp true]
  have hpp : p.map (fun c => if c = 'b' ∨ c = '-' then (if true then '-' else 'b') else c) = p.map (fun c => if c = 'b' then '-' else c) := by
    apply List.map_congr_left
    intro c _
    by_cases h1 : c = 'b'
    · simp [h1]
    · by_cases h2 : c = '-'
      · simp [h2]
      · simp [h1, h2]
  rw [hpp]
  rcases hq with rfl | ⟨b, rfl⟩
  · rfl
  · have hsl : printed '/' = '/' := by decide
    rw [List.map_cons, hsl, (rest_no_hyphen _).2, rest_bass b (fun c hc => (h.chars c (by simp [hc])).1)]
    simp

/-- C129: a plain figure comes back exactly if the kind has no `b` and the bass no flat. -/
theorem comes_back_iff (root : Char) (p q : Str) (h : PlainFigure (root :: p ++ q)) (hr : root ≠ 'b' ∧ root ≠ '-' ∧ root ≠ '#')
    (hp : '/' ∉ p) (hq : q = [] ∨ ∃ b, q = '/' :: b) (fuel : Nat) :
    textToFigure (fuel + 1) (figureToText (root :: p ++ q) false) = some (root :: p ++ q) ↔ 'b' ∉ p ∧ '-' ∉ q := by
  have hmap : ∀ (s : Str) (x y : Char), x ≠ y → (s.map (fun c => if c = x then y else c) = s ↔ x ∉ s) := by
    intro s x y hxy
    induction s with
    | nil => simp
    | cons c s ih =>
      simp only [List.map_cons, List.cons.injEq, List.mem_cons, not_or, ih]
      by_cases hcx : c = x
      · subst hcx; simp [Ne.symm hxy]
      · simp [hcx, Ne.symm hcx]
  rw [figure_read_again root p q h hr hp hq]
  simp only [Option.some.injEq, List.cons_append, List.cons.injEq, true_and]
  rw [← hmap p 'b' '-' (by decide), ← hmap q '-' 'b' (by decide)]
  constructor
  · intro heq
    exact List.append_inj heq (by simp)
  · rintro ⟨h1, h2⟩
    rw [h1, h2]

theorem replaceAll_head (pat w xs : Str) (p x : Char) : ∃ y ys, replaceAll (p :: pat) (' ' :: w) (x :: xs) = y :: ys ∧ (y = ' ' ∨ y = x) ∧ (p ≠ x → y = x) := by
  unfold replaceAll
  rw [replaceGo]
  split
  · rename_i hp
    refine ⟨' ', _, rfl, Or.inl rfl, ?_⟩
    intro hne
    simp [List.isPrefixOf, hne] at hp
  · exact ⟨x, _, rfl, Or.inr rfl, fun _ => rfl⟩

theorem respaced_head (x : Char) (xs : Str) : ∃ y ys, respaced (x :: xs) = y :: ys ∧ (y = ' ' ∨ y = x) ∧
    (x ≠ 'a' → x ≠ 'o' → x ≠ 's' → y = x) := by
  unfold respaced
  obtain ⟨y1, s1, e1, o1, k1⟩ := replaceAll_head "dd".toList "add ".toList xs 'a' x
  obtain ⟨y2, s2, e2, o2, k2⟩ := replaceAll_head "mit".toList "omit ".toList s1 'o' y1
  obtain ⟨y3, s3, e3, o3, k3⟩ := replaceAll_head "ubtract".toList "omit ".toList s2 's' y2
  obtain ⟨y4, s4, e4, o4, k4⟩ := replaceAll_head "lter".toList "alter ".toList s3 'a' y3
  refine ⟨y4, s4, ?_, ?_, ?_⟩
  · show replaceAll ('a' :: "lter".toList) (' ' :: "alter ".toList) (replaceAll ('s' :: "ubtract".toList) (' ' :: "omit ".toList)
      (replaceAll ('o' :: "mit".toList) (' ' :: "omit ".toList) (replaceAll ('a' :: "dd".toList) (' ' :: "add ".toList) (x :: xs)))) = _
    rw [e1, e2, e3, e4]
  · rcases o4 with rfl | rfl
    · exact Or.inl rfl
    · rcases o3 with rfl | rfl
      · exact Or.inl rfl
      · rcases o2 with rfl | rfl
        · exact Or.inl rfl
        · exact o1
  · intro ha ho hs
    have g1 := k1 ha.symm
    subst g1
    have g2 := k2 ho.symm
    subst g2
    have g3 := k3 hs.symm
    subst g3
    exact k4 ha.symm

/-- C129: reading ends for every text that does not begin with an accidental. -/
theorem reading_ends (text : Str) (h : ∀ c, text.head? = some c → ¬ IsAccidentalChar c) : ∃ out, ∀ fuel, textToFigure (fuel + 1) text = some out := by
  cases text with
  | nil => exact ⟨[], fun _ => rfl⟩
  | cons x xs =>
    obtain ⟨y, ys, e, o, _⟩ := respaced_head x xs
    have hy : ¬ IsAccidentalChar y := by
      rcases o with rfl | rfl
      · unfold IsAccidentalChar; decide
      · exact h _ rfl
    refine ⟨[y] ++ restLoop true ys, fun fuel => ?_⟩
    unfold textToFigure
    rw [e]
    simp only [spin_ends y hy]

/-! ## Where the claim is false -/

/-- Reading never ends for a text that begins with an accidental: no number of passes is enough. -/
theorem reading_hangs (c : Char) (rest : Str) (h : IsAccidentalChar c) (fuel : Nat) : textToFigure fuel (c :: rest) = none := by
  obtain ⟨y, ys, e, _, k⟩ := respaced_head c rest
  have hy : y = c := k (by rintro rfl; revert h; unfold IsAccidentalChar; decide) (by rintro rfl; revert h; unfold IsAccidentalChar; decide)
    (by rintro rfl; revert h; unfold IsAccidentalChar; decide)
  subst hy
  have hs : ∀ fuel out, spinRoot y fuel out = none := by
    intro fuel
    induction fuel with
    | zero => intro out; rfl
    | succ n ih =>
      intro out
      rw [spinRoot]
      cases he : accAscii y with
      | none => have := (accAscii_iff y).2 h; rw [he] at this; cases this
      | some a => exact ih _
  unfold textToFigure
  rw [e]
  simp only [hs]

/-- A flat bass and a flat degree come back in another spelling; a diminished chord comes back as a sign. -/
theorem chord_text_changes :
    textToFigure 1 (figureToText "C/B-".toList false) = some "C/Bb".toList ∧
    textToFigure 1 (figureToText "C7 add b9".toList false) = some "C7 add -9".toList ∧
    textToFigure 1 (figureToText "Cdim".toList false) = some "C°".toList := by
  decide +kernel

/-! ## The hypotheses are met -/

instance (c : Char) : Decidable (IsAccidentalChar c) := by unfold IsAccidentalChar; infer_instance

example : PlainFigure "B-maj7#11/F#".toList :=
  ⟨by decide +kernel, by decide +kernel, by decide +kernel, by decide +kernel, by decide +kernel⟩

example : textToFigure 1 (figureToText "B-maj7#11/F#".toList false) = some "B-maj7#11/F#".toList := by decide +kernel

example : figureToText "B-maj7#11/F#".toList true = 'm' :: 'a' :: 'j' :: '7' :: Char.ofNat 0xE262 :: "11".toList := by decide +kernel

example : IsAccidentalChar '♭' := by decide

end C21
