import Verif.Model.HumDynam
import Verif.Props.TextExport
import Verif.Props.Signifier
import Verif.Lemmas.Tac
/-
C102: dynamic marks in **dynam tokens.
-/
namespace C21

/-! ## Specification -/

/-- The dynamic marks: mf, mp; p, pp, ...; f, ff, ... also with s, r and z; fp, sfp, sfzp, ... -/
inductive IsDynamic : Str → Prop
  | mf : IsDynamic "mf".toList
  | mp : IsDynamic "mp".toList
  | piano (n : Nat) : IsDynamic (List.replicate (n + 1) 'p')
  | forte (a : Str) (n : Nat) (z : Str) (ha : a = [] ∨ a = ['s'] ∨ a = ['r']) (hz : z = [] ∨ z = ['z']) :
      IsDynamic (a ++ List.replicate (n + 1) 'f' ++ z)
  | fortePiano (a : Str) (n : Nat) (z : Str) (m : Nat) (ha : a = [] ∨ a = ['s']) (hz : z = [] ∨ z = ['z']) :
      IsDynamic (a ++ List.replicate (n + 1) 'f' ++ z ++ List.replicate (m + 1) 'p')

/-- White space, or the beginning, just before. -/
def WordStart (a : Str) : Prop := a = [] ∨ ∃ c a', a = a' ++ [c] ∧ isPySpace c = true

/-- White space, or the end, just after. -/
def WordEnd (b : Str) : Prop := b = [] ∨ ∃ c b', b = c :: b' ∧ isPySpace c = true

/-- No word of the text is a dynamic mark. -/
def NoDynamicWord (w : Str) : Prop :=
  ∀ a t b, w = a ++ t ++ b → WordStart a → WordEnd b → ¬ IsDynamic t

/-- `str.isalpha` on the letters of dynamic marks and on the space. -/
structure AlphaOk (alpha : Char → Bool) : Prop where
  letters : ∀ c ∈ "mfpsrz".toList, alpha c = true
  space : alpha ' ' = false

/-! ## Lemmas -/

theorem dynamic_letters (v : Str) (h : IsDynamic v) : ∀ c ∈ v, c ∈ "mfpsrz".toList := by
  have rp : ∀ n (x c : Char), c ∈ List.replicate n x → c = x := fun n x c h => List.eq_of_mem_replicate h
  intro c hc
  cases h with
  | mf => revert c; decide
  | mp => revert c; decide
  | piano n => rw [rp _ _ _ hc]; decide
  | forte a n z ha hz =>
    simp only [List.mem_append] at hc
    rcases hc with (hc | hc) | hc
    · rcases ha with rfl | rfl | rfl
      · cases hc
      · rw [List.mem_singleton.1 hc]; decide
      · rw [List.mem_singleton.1 hc]; decide
    · rw [rp _ _ _ hc]; decide
    · rcases hz with rfl | rfl
      · cases hc
      · rw [List.mem_singleton.1 hc]; decide
  | fortePiano a n z m ha hz =>
    simp only [List.mem_append] at hc
    rcases hc with ((hc | hc) | hc) | hc
    · rcases ha with rfl | rfl
      · cases hc
      · rw [List.mem_singleton.1 hc]; decide
    · rw [rp _ _ _ hc]; decide
    · rcases hz with rfl | rfl
      · cases hc
      · rw [List.mem_singleton.1 hc]; decide
    · rw [rp _ _ _ hc]; decide

theorem dynamic_ne_nil (v : Str) (h : IsDynamic v) : v ≠ [] := by
  cases h with
  | mf => decide
  | mp => decide
  | piano n => simp [List.replicate_succ]
  | forte a n z ha hz => simp [List.replicate_succ]
  | fortePiano a n z m ha hz => simp [List.replicate_succ]

theorem dynamic_no_space (v : Str) (h : IsDynamic v) : ∀ c ∈ v, isPySpace c = false := by
  intro c hc
  have := dynamic_letters v h c hc
  have h6 : c = 'm' ∨ c = 'f' ∨ c = 'p' ∨ c = 's' ∨ c = 'r' ∨ c = 'z' := by simpa using this
  rcases h6 with rfl | rfl | rfl | rfl | rfl | rfl <;> decide

theorem rxOpt_append (cs : List Char) (s : Str) : (rxOpt cs s).1 ++ (rxOpt cs s).2 = s ∧
    ((rxOpt cs s).1 = [] ∨ ∃ c ∈ cs, (rxOpt cs s).1 = [c]) := by
  unfold rxOpt
  split
  · rename_i x r
    by_cases h : cs.contains x = true
    · rw [if_pos h]; exact ⟨rfl, .inr ⟨x, by simpa using h, rfl⟩⟩
    · rw [if_neg h]; exact ⟨rfl, .inl rfl⟩
  · exact ⟨rfl, .inl rfl⟩

theorem rxPlus_sound (c : Char) (s : Str) (t r : Str) (h : rxPlus c s = some (t, r)) :
    s = t ++ r ∧ ∃ n, t = List.replicate (n + 1) c := by
  unfold rxPlus at h
  split at h
  · cases h
  · rename_i x ht
    cases h
    refine ⟨(List.takeWhile_append_dropWhile).symm, ?_⟩
    have hall : ∀ y ∈ s.takeWhile (· == c), y = c := fun y hy => by
      have := List.all_eq_true.1 (List.all_takeWhile (p := (· == c)) (l := s)) y hy
      simpa using this
    have := List.eq_replicate_of_mem hall
    refine ⟨(s.takeWhile (· == c)).length - 1, ?_⟩
    have hpos : 0 < (s.takeWhile (· == c)).length := by
      cases hh : s.takeWhile (· == c) with
      | nil => exact (ht hh).elim
      | cons a b => simp
    rw [Nat.sub_add_cancel hpos]
    exact this

theorem run_sound (k : DynPat) (s t r : Str) (h : k.run s = some (t, r)) : s = t ++ r ∧ IsDynamic t := by
  cases k with
  | m =>
    simp only [DynPat.run] at h
    split at h
    · cases h; exact ⟨rfl, .mf⟩
    · cases h; exact ⟨rfl, .mp⟩
    · cases h
  | fp =>
    simp only [DynPat.run] at h
    obtain ⟨ha, ha'⟩ := rxOpt_append ['s'] s
    generalize rxOpt ['s'] s = a at h ha ha'
    cases hb : rxPlus 'f' a.2 with
    | none => rw [hb] at h; cases h
    | some b =>
      rw [hb] at h
      simp only at h
      obtain ⟨hb1, n, hb2⟩ := rxPlus_sound _ _ b.1 b.2 hb
      obtain ⟨hc, hc'⟩ := rxOpt_append ['z'] b.2
      generalize rxOpt ['z'] b.2 = c at h hc hc'
      cases hd : rxPlus 'p' c.2 with
      | none => rw [hd] at h; cases h
      | some d =>
        rw [hd] at h
        simp only [Option.some.injEq, Prod.mk.injEq] at h
        obtain ⟨hd1, m, hd2⟩ := rxPlus_sound _ _ d.1 d.2 hd
        refine ⟨?_, ?_⟩
        · rw [← h.1, ← h.2, ← ha, hb1, ← hc, hd1]; simp
        · rw [← h.1, hb2, hd2]
          refine .fortePiano _ _ _ _ ?_ ?_
          · rcases ha' with h | ⟨x, hx, h⟩
            · exact .inl h
            · rw [List.mem_singleton.1 hx] at h; exact .inr h
          · rcases hc' with h | ⟨x, hx, h⟩
            · exact .inl h
            · rw [List.mem_singleton.1 hx] at h; exact .inr h
  | f =>
    simp only [DynPat.run] at h
    obtain ⟨ha, ha'⟩ := rxOpt_append ['s', 'r'] s
    generalize rxOpt ['s', 'r'] s = a at h ha ha'
    cases hb : rxPlus 'f' a.2 with
    | none => rw [hb] at h; cases h
    | some b =>
      rw [hb] at h
      simp only at h
      obtain ⟨hb1, n, hb2⟩ := rxPlus_sound _ _ b.1 b.2 hb
      obtain ⟨hc, hc'⟩ := rxOpt_append ['z'] b.2
      generalize rxOpt ['z'] b.2 = c at h hc hc'
      simp only [Option.some.injEq, Prod.mk.injEq] at h
      refine ⟨?_, ?_⟩
      · rw [← h.1, ← h.2, ← ha, hb1, ← hc]; simp
      · rw [← h.1, hb2]
        refine .forte _ _ _ ?_ ?_
        · rcases ha' with h | ⟨x, hx, h⟩
          · exact .inl h
          · simp at hx
            rcases hx with rfl | rfl
            · exact .inr (.inl h)
            · exact .inr (.inr h)
        · rcases hc' with h | ⟨x, hx, h⟩
          · exact .inl h
          · rw [List.mem_singleton.1 hx] at h; exact .inr h
  | p =>
    simp only [DynPat.run] at h
    obtain ⟨h1, n, h2⟩ := rxPlus_sound _ _ _ _ h
    exact ⟨h1, by rw [h2]; exact .piano n⟩

theorem rxPlus_rep (c : Char) (n : Nat) (r : Str) (h : ∀ x, r.head? = some x → x ≠ c) :
    rxPlus c (List.replicate (n + 1) c ++ r) = some (List.replicate (n + 1) c, r) := by
  have ht : (List.replicate (n + 1) c ++ r).takeWhile (· == c) = List.replicate (n + 1) c ∧
      (List.replicate (n + 1) c ++ r).dropWhile (· == c) = r := by
    generalize n + 1 = m
    induction m with
    | zero =>
      cases r with
      | nil => exact ⟨rfl, rfl⟩
      | cons x t => have := h x rfl; simp [this]
    | succ m ih => simp [List.replicate_succ, ih.1, ih.2]
  unfold rxPlus
  rw [ht.1, ht.2, List.replicate_succ]

theorem rxOpt_some (c : Char) (cs : List Char) (s : Str) (h : c ∈ cs) : rxOpt cs (c :: s) = ([c], s) := by
  unfold rxOpt
  simp only
  rw [if_pos (by simpa using h)]

theorem rxOpt_none (cs : List Char) (s : Str) (h : ∀ x, s.head? = some x → x ∉ cs) : rxOpt cs s = ([], s) := by
  cases s with
  | nil => rfl
  | cons x t =>
    have := h x rfl
    unfold rxOpt
    simp only
    rw [if_neg (by simpa using this)]

theorem head_rep (c : Char) (n : Nat) (r : Str) : (List.replicate (n + 1) c ++ r).head? = some c := by
  simp [List.replicate_succ]

/-- Every dynamic mark is found by one of the patterns, whatever follows, unless it goes on like a mark. -/
theorem run_complete (v : Str) (h : IsDynamic v) : ∃ k : DynPat, ∀ rest : Str,
    (∀ c, rest.head? = some c → c ≠ 'f' ∧ c ≠ 'z' ∧ c ≠ 'p') → k.run (v ++ rest) = some (v, rest) := by
  cases h with
  | mf => exact ⟨.m, fun _ _ => rfl⟩
  | mp => exact ⟨.m, fun _ _ => rfl⟩
  | piano n =>
    refine ⟨.p, fun rest hr => ?_⟩
    exact rxPlus_rep 'p' n rest fun x hx => (hr x hx).2.2
  | forte a n z ha hz =>
    refine ⟨.f, fun rest hr => ?_⟩
    have e1 : rxOpt ['s', 'r'] (a ++ List.replicate (n + 1) 'f' ++ z ++ rest) =
        (a, List.replicate (n + 1) 'f' ++ (z ++ rest)) := by
      rcases ha with rfl | rfl | rfl
      · rw [rxOpt_none]
        · simp
        · intro x hx
          rw [List.nil_append, List.append_assoc, head_rep] at hx
          cases hx; decide
      · simp only [List.cons_append, List.append_assoc]
        exact rxOpt_some _ _ _ (by decide)
      · simp only [List.cons_append, List.append_assoc]
        exact rxOpt_some _ _ _ (by decide)
    have e2 : rxPlus 'f' (List.replicate (n + 1) 'f' ++ (z ++ rest)) = some (List.replicate (n + 1) 'f', z ++ rest) := by
      apply rxPlus_rep
      intro x hx
      rcases hz with rfl | rfl
      · exact (hr x hx).1
      · simp at hx; subst hx; decide
    have e3 : rxOpt ['z'] (z ++ rest) = (z, rest) := by
      rcases hz with rfl | rfl
      · exact rxOpt_none _ _ fun x hx => by have := (hr x hx).2.1; simp [this]
      · exact rxOpt_some _ _ _ (by decide)
    simp only [DynPat.run, e1, e2, e3]
  | fortePiano a n z m ha hz =>
    refine ⟨.fp, fun rest hr => ?_⟩
    have e1 : rxOpt ['s'] (a ++ List.replicate (n + 1) 'f' ++ z ++ List.replicate (m + 1) 'p' ++ rest) =
        (a, List.replicate (n + 1) 'f' ++ (z ++ (List.replicate (m + 1) 'p' ++ rest))) := by
      rcases ha with rfl | rfl
      · rw [rxOpt_none]
        · simp
        · intro x hx
          rw [List.nil_append, List.append_assoc, List.append_assoc, head_rep] at hx
          cases hx; decide
      · simp only [List.cons_append, List.append_assoc]
        exact rxOpt_some _ _ _ (by decide)
    have e2 : rxPlus 'f' (List.replicate (n + 1) 'f' ++ (z ++ (List.replicate (m + 1) 'p' ++ rest))) =
        some (List.replicate (n + 1) 'f', z ++ (List.replicate (m + 1) 'p' ++ rest)) := by
      apply rxPlus_rep
      intro x hx
      rcases hz with rfl | rfl
      · rw [List.nil_append, head_rep] at hx; cases hx; decide
      · simp at hx; subst hx; decide
    have e3 : rxOpt ['z'] (z ++ (List.replicate (m + 1) 'p' ++ rest)) = (z, List.replicate (m + 1) 'p' ++ rest) := by
      rcases hz with rfl | rfl
      · exact rxOpt_none _ _ fun x hx => by rw [List.nil_append, head_rep] at hx; cases hx; decide
      · exact rxOpt_some _ _ _ (by decide)
    have e4 := rxPlus_rep 'p' m rest fun x hx => (hr x hx).2.2
    simp only [DynPat.run, e1, e2, e3, e4]

theorem wordEnd_head (b : Str) (h : WordEnd b) : ∀ c, b.head? = some c → c ≠ 'f' ∧ c ≠ 'z' ∧ c ≠ 'p' := by
  intro c hc
  rcases h with rfl | ⟨x, b', rfl, hx⟩
  · cases hc
  · simp at hc; subst hc
    refine ⟨?_, ?_, ?_⟩ <;> rintro rfl <;> exact absurd hx (by decide)

theorem rxEnd_word (b : Str) (h : rxEnd b = true) : WordEnd b := by
  simp [rxEnd] at h
  rcases h with rfl | rfl
  · exact .inl rfl
  · exact .inr ⟨'\n', [], rfl, by decide⟩

theorem rxSpace_word (b : Str) (h : rxSpace b = true) : ∃ c b', b = c :: b' ∧ isPySpace c = true := by
  cases b with
  | nil => cases h
  | cons c b' => exact ⟨c, b', rfl, h⟩

/-! ## Searching -/

theorem after_sound (k : DynPat) (stop : Str → Bool) (s : Str) (x : Char) (t rest : Str)
    (h : k.after stop s = some (x, t, rest)) :
    ∃ a, s = a ++ [x] ++ t ++ rest ∧ isPySpace x = true ∧ IsDynamic t ∧ stop rest = true := by
  induction s with
  | nil => cases h
  | cons y r ih =>
    have go : k.after stop r = some (x, t, rest) →
        ∃ a, y :: r = a ++ [x] ++ t ++ rest ∧ isPySpace x = true ∧ IsDynamic t ∧ stop rest = true := by
      intro h'
      obtain ⟨a, h1, h2⟩ := ih h'
      exact ⟨y :: a, by rw [h1]; simp, h2⟩
    rw [DynPat.after] at h
    by_cases hy : isPySpace y = true
    · rw [if_pos hy] at h
      cases hk : k.run r with
      | none => rw [hk] at h; exact go h
      | some p =>
        rw [hk] at h
        simp only at h
        by_cases hs : stop p.2 = true
        · rw [if_pos hs] at h
          simp only [Option.some.injEq, Prod.mk.injEq] at h
          obtain ⟨rfl, rfl, rfl⟩ := h
          obtain ⟨h1, h2⟩ := run_sound k r _ _ hk
          exact ⟨[], by rw [h1]; simp, hy, h2, hs⟩
        · rw [if_neg hs] at h; exact go h
    · rw [if_neg hy] at h; exact go h

theorem after_complete (k : DynPat) (stop : Str → Bool) (a : Str) (x : Char) (t r rest : Str) (hx : isPySpace x = true)
    (hr : k.run r = some (t, rest)) (hs : stop rest = true) : ∃ y, k.after stop (a ++ x :: r) = some y := by
  induction a with
  | nil =>
    rw [List.nil_append, DynPat.after, if_pos hx, hr]
    simp only
    rw [if_pos hs]
    exact ⟨_, rfl⟩
  | cons b a ih =>
    obtain ⟨y, hy⟩ := ih
    rw [List.cons_append, DynPat.after]
    by_cases hb : isPySpace b = true
    · rw [if_pos hb]
      split
      · split
        · exact ⟨_, rfl⟩
        · exact ⟨y, hy⟩
      · exact ⟨y, hy⟩
    · rw [if_neg hb]; exact ⟨y, hy⟩

/-- A hit is a dynamic word of the text. -/
theorem hit_sound (k : DynPat) (s : Str) (h : DynHit) (hh : k.hit s = some h) :
    ∃ a b, s = a ++ h.mark ++ b ∧ WordStart a ∧ WordEnd b ∧ IsDynamic h.mark ∧
      ((h.front = none ∧ a = []) ∨ ∃ c a', h.front = some c ∧ a = a' ++ [c]) ∧
      (h.back = none → rxEnd b = true) ∧ (∀ c, h.back = some c → b.head? = some c) := by
  have haft : k.hitAfter s = some h → ∃ a b, s = a ++ h.mark ++ b ∧ WordStart a ∧ WordEnd b ∧ IsDynamic h.mark ∧
      ((h.front = none ∧ a = []) ∨ ∃ c a', h.front = some c ∧ a = a' ++ [c]) ∧
      (h.back = none → rxEnd b = true) ∧ (∀ c, h.back = some c → b.head? = some c) := by
    intro h1
    unfold DynPat.hitAfter at h1
    cases ha : k.after rxSpace s with
    | some y =>
      obtain ⟨x, t, rest⟩ := y
      rw [ha] at h1
      simp only [Option.some.injEq] at h1
      obtain ⟨a, g1, g2, g3, g4⟩ := after_sound k _ s _ _ _ ha
      rw [← h1]
      refine ⟨a ++ [x], rest, g1, .inr ⟨x, a, rfl, g2⟩, .inr (rxSpace_word _ g4), g3, .inr ⟨x, a, rfl, rfl⟩, ?_, ?_⟩
      · intro hb
        obtain ⟨c, b', rfl, _⟩ := rxSpace_word _ g4
        cases hb
      · intro c hc; exact hc
    | none =>
      rw [ha] at h1
      simp only at h1
      cases ha2 : k.after rxEnd s with
      | some y =>
        obtain ⟨x, t, rest⟩ := y
        rw [ha2] at h1
        simp only [Option.some.injEq] at h1
        obtain ⟨a, g1, g2, g3, g4⟩ := after_sound k _ s _ _ _ ha2
        rw [← h1]
        exact ⟨a ++ [x], rest, g1, .inr ⟨x, a, rfl, g2⟩, rxEnd_word _ g4, g3, .inr ⟨x, a, rfl, rfl⟩,
          fun _ => g4, fun c hc => by cases hc⟩
      | none => rw [ha2] at h1; cases h1
  unfold DynPat.hit at hh
  cases hk : k.run s with
  | none => rw [hk] at hh; exact haft hh
  | some p =>
    rw [hk] at hh
    simp only at hh
    obtain ⟨h1, h2⟩ := run_sound k s p.1 p.2 hk
    by_cases hsp : rxSpace p.2 = true
    · rw [if_pos hsp] at hh
      simp only [Option.some.injEq] at hh
      rw [← hh]
      refine ⟨[], p.2, h1, .inl rfl, .inr (rxSpace_word _ hsp), h2, .inl ⟨rfl, rfl⟩, ?_, fun c hc => hc⟩
      intro hb
      obtain ⟨c, b', e, _⟩ := rxSpace_word _ hsp
      simp only [e] at hb
      cases hb
    · rw [if_neg hsp] at hh
      by_cases he : rxEnd p.2 = true
      · rw [if_pos he] at hh
        simp only [Option.some.injEq] at hh
        rw [← hh]
        exact ⟨[], p.2, h1, .inl rfl, rxEnd_word _ he, h2, .inl ⟨rfl, rfl⟩, fun _ => he, fun c hc => by cases hc⟩
      · rw [if_neg he] at hh; exact haft hh

theorem findSome_first {α β : Type} (f : α → Option β) (P : β → Prop) (l : List α) (hs : ∀ a b, f a = some b → P b)
    (he : ∃ a ∈ l, (f a).isSome) : ∃ b, l.findSome? f = some b ∧ P b := by
  induction l with
  | nil => obtain ⟨a, ha, _⟩ := he; cases ha
  | cons x t ih =>
    rw [List.findSome?_cons]
    cases hx : f x with
    | some b => exact ⟨b, rfl, hs x b hx⟩
    | none =>
      apply ih
      obtain ⟨a, ha, h1⟩ := he
      rcases List.mem_cons.1 ha with rfl | ha
      · rw [hx] at h1; cases h1
      · exact ⟨a, ha, h1⟩

theorem mem_dynPats (k : DynPat) : k ∈ dynPats := by cases k <;> decide

/-! ## Words -/

/-- The only dynamic word of a text followed by a mark is the mark. -/
theorem last_word (w v a t b : Str) (hw : NoDynamicWord w) (hv : IsDynamic v) (ht : IsDynamic t)
    (h : w ++ ' ' :: v = a ++ t ++ b) (ha : WordStart a) (hb : WordEnd b) : a = w ++ [' '] ∧ t = v ∧ b = [] := by
  have sp : isPySpace ' ' = true := by decide
  have nov : ∀ c ∈ v, isPySpace c = false := dynamic_no_space v hv
  have notsp : ∀ c ∈ t, isPySpace c = false := dynamic_no_space t ht
  have inside : ∀ c', w = a ++ t ++ c' → b = c' ++ ' ' :: v → False := by
    intro c' h1 h2
    refine hw a t c' h1 ha ?_ ht
    cases c' with
    | nil => exact .inl rfl
    | cons y z =>
      rcases hb with hb | ⟨c, b', hb, hc⟩
      · rw [h2] at hb; cases hb
      · rw [h2] at hb
        simp only [List.cons_append, List.cons.injEq] at hb
        exact .inr ⟨y, z, rfl, by rw [hb.1]; exact hc⟩
  rcases List.append_eq_append_iff.1 h with ⟨c', h1, h2⟩ | ⟨c', h1, h2⟩
  · -- a ++ t = w ++ c', ' ' :: v = c' ++ b
    cases c' with
    | nil => exact (inside [] (by rw [h1]; simp) (by rw [List.nil_append] at h2; rw [← h2]; rfl)).elim
    | cons y v1 =>
      simp only [List.cons_append, List.cons.injEq] at h2
      obtain ⟨rfl, h2⟩ := h2
      rcases List.append_eq_append_iff.1 h1 with ⟨e, h3, h4⟩ | ⟨e, h3, h4⟩
      · -- w = a ++ e, t = e ++ ' ' :: v1
        have := notsp ' ' (by rw [h4]; simp)
        rw [sp] at this; cases this
      · -- a = w ++ e, ' ' :: v1 = e ++ t
        cases e with
        | nil =>
          have := notsp ' ' (by rw [List.nil_append] at h4; rw [← h4]; simp)
          rw [sp] at this; cases this
        | cons y e' =>
          simp only [List.cons_append, List.cons.injEq] at h4
          obtain ⟨rfl, h4⟩ := h4
          have he' : e' = [] := by
            rcases List.eq_nil_or_concat e' with h0 | ⟨e0, z, h0⟩
            · exact h0
            · rcases ha with ha | ⟨c, a', ha, hc⟩
              · rw [h3] at ha; simp at ha
              · rw [h3, h0, List.concat_eq_append] at ha
                have : w ++ ' ' :: (e0 ++ [z]) = (w ++ ' ' :: e0) ++ [z] := by simp
                rw [this] at ha
                have hz := (List.append_inj' ha rfl).2
                simp only [List.cons.injEq, and_true] at hz
                have := nov z (by rw [h2, h4, h0]; simp)
                rw [hz, hc] at this; cases this
          subst he'
          rw [List.nil_append] at h4
          subst h4
          have hb' : b = [] := by
            rcases hb with hb | ⟨c, b', hb, hc⟩
            · exact hb
            · have := nov c (by rw [h2, hb]; simp)
              rw [hc] at this; cases this
          subst hb'
          exact ⟨h3, by rw [h2]; simp, rfl⟩
  · exact (inside c' h1 h2).elim

/-- The only dynamic word of a mark followed by a text is the mark. -/
theorem first_word (w v a t b : Str) (hw : NoDynamicWord w) (hv : IsDynamic v) (ht : IsDynamic t)
    (h : v ++ ' ' :: w = a ++ t ++ b) (ha : WordStart a) (hb : WordEnd b) : a = [] ∧ t = v ∧ b = ' ' :: w := by
  have sp : isPySpace ' ' = true := by decide
  have nov : ∀ c ∈ v, isPySpace c = false := dynamic_no_space v hv
  have notsp : ∀ c ∈ t, isPySpace c = false := dynamic_no_space t ht
  have hnil := dynamic_ne_nil t ht
  rw [List.append_assoc] at h
  rcases List.append_eq_append_iff.1 h with ⟨c', h1, h2⟩ | ⟨c', h1, h2⟩
  · -- a = v ++ c', ' ' :: w = c' ++ (t ++ b)
    cases c' with
    | nil =>
      rw [List.nil_append] at h2
      cases t with
      | nil => exact (hnil rfl).elim
      | cons y t' =>
        simp only [List.cons_append, List.cons.injEq] at h2
        have := notsp y (by simp)
        rw [← h2.1, sp] at this; cases this
    | cons y c' =>
      simp only [List.cons_append, List.cons.injEq] at h2
      obtain ⟨rfl, h2⟩ := h2
      refine (hw c' t b (by rw [h2]; simp) ?_ hb ht).elim
      rcases List.eq_nil_or_concat c' with h0 | ⟨e0, z, h0⟩
      · exact .inl h0
      · rw [List.concat_eq_append] at h0
        refine .inr ⟨z, e0, h0, ?_⟩
        rcases ha with ha | ⟨c, a', ha, hc⟩
        · rw [h1] at ha; simp at ha
        · rw [h1, h0] at ha
          have : v ++ ' ' :: (e0 ++ [z]) = (v ++ ' ' :: e0) ++ [z] := by simp
          rw [this] at ha
          have hz := (List.append_inj' ha rfl).2
          simp only [List.cons.injEq, and_true] at hz
          rw [hz]; exact hc
  · -- v = a ++ c', t ++ b = c' ++ ' ' :: w
    have ha0 : a = [] := by
      rcases ha with ha | ⟨c, a', ha, hc⟩
      · exact ha
      · have := nov c (by rw [h1, ha]; simp)
        rw [hc] at this; cases this
    subst ha0
    rw [List.nil_append] at h1
    subst h1
    refine ⟨rfl, ?_⟩
    rcases List.append_eq_append_iff.1 h2 with ⟨e, h3, h4⟩ | ⟨e, h3, h4⟩
    · -- v = t ++ e, b = e ++ ' ' :: w
      have : e = [] := by
        cases e with
        | nil => rfl
        | cons y z =>
          rcases hb with hb | ⟨c, b', hb, hc⟩
          · rw [h4] at hb; cases hb
          · rw [h4] at hb
            simp only [List.cons_append, List.cons.injEq] at hb
            have := nov y (by rw [h3]; simp)
            rw [hb.1, hc] at this; cases this
      subst this
      exact ⟨by rw [h3]; simp, by rw [h4]; rfl⟩
    · -- t = v ++ e, ' ' :: w = e ++ b
      cases e with
      | nil => exact ⟨by rw [h3]; simp, by rw [List.nil_append] at h4; exact h4.symm⟩
      | cons y z =>
        simp only [List.cons_append, List.cons.injEq] at h4
        have := notsp y (by rw [h3]; simp)
        rw [← h4.1, sp] at this; cases this

/-! ## Writing and reading -/

theorem dynLetters_mark (v : Str) (hv : IsDynamic v) : dynLetters v = some v := by
  obtain ⟨k, hk⟩ := run_complete v hv
  have h1 : (k.full v).isSome = true := by
    have := hk [] (fun c hc => by cases hc)
    rw [List.append_nil] at this
    simp [DynPat.full, this, rxEnd]
  unfold dynLetters
  by_cases a : (DynPat.f.full v).isSome = true
  · rw [if_pos a]
  rw [if_neg a]
  by_cases b : (DynPat.p.full v).isSome = true
  · rw [if_pos b]
  rw [if_neg b]
  by_cases c : (DynPat.m.full v).isSome = true
  · rw [if_pos (by simp [c])]
  by_cases d : (DynPat.fp.full v).isSome = true
  · rw [if_pos d]; split <;> rfl
  cases k with
  | m => exact absurd h1 c
  | fp => exact absurd h1 d
  | f => exact absurd h1 a
  | p => exact absurd h1 b

theorem filter_mark (alpha : Char → Bool) (ha : AlphaOk alpha) (v : Str) (hv : IsDynamic v) : v.filter alpha = v :=
  List.filter_eq_self.2 fun c hc => ha.letters c (dynamic_letters v hv c hc)

theorem full_sound (k : DynPat) (s t : Str) (h : k.full s = some t) :
    ∃ rest, s = t ++ rest ∧ IsDynamic t ∧ rxEnd rest = true := by
  unfold DynPat.full at h
  cases hk : k.run s with
  | none => rw [hk] at h; cases h
  | some p =>
    rw [hk] at h
    simp only at h
    split at h
    · rename_i he
      cases h
      obtain ⟨h1, h2⟩ := run_sound k s p.1 p.2 hk
      exact ⟨p.2, h1, h2, he⟩
    · cases h

theorem bracketed_sound (k : DynPat) (b : Str × Str × Str) (s t : Str) (h : k.bracketed b s = some t) :
    ∃ rest, s = b.2.1 ++ t ++ b.2.2 ++ rest ∧ IsDynamic t ∧ rxEnd rest = true := by
  unfold DynPat.bracketed at h
  by_cases hs : startsWith s b.2.1 = true
  · rw [if_pos hs] at h
    obtain ⟨r, hr⟩ := List.isPrefixOf_iff_prefix.1 hs
    rw [← hr, List.drop_left] at h
    cases hk : k.run r with
    | none => rw [hk] at h; cases h
    | some p =>
      rw [hk] at h
      simp only at h
      obtain ⟨h1, h2⟩ := run_sound k r p.1 p.2 hk
      split at h
      · rename_i he
        cases h
        rw [Bool.and_eq_true] at he
        obtain ⟨r2, hr2⟩ := List.isPrefixOf_iff_prefix.1 he.1
        have he2 := he.2
        rw [← hr2, List.drop_left] at he2
        exact ⟨r2, by rw [← hr, h1, ← hr2]; simp, h2, he2⟩
      · cases h
  · rw [if_neg hs] at h; cases h

theorem bracket_shape (b : Str × Str × Str) (hb : b ∈ dynBrackets) :
    ∃ x y, b.2.1 = [x, ' '] ∧ b.2.2 = [' ', y] ∧ isPySpace x = false ∧ isPySpace y = false := by
  simp only [dynBrackets, List.mem_cons, List.not_mem_nil, or_false] at hb
  rcases hb with rfl | rfl | rfl | rfl
  · exact ⟨'[', ']', rfl, rfl, by decide, by decide⟩
  · exact ⟨'(', ')', rfl, rfl, by decide, by decide⟩
  · exact ⟨'{', '}', rfl, rfl, by decide, by decide⟩
  · exact ⟨'<', '>', rfl, rfl, by decide, by decide⟩

theorem findSome_none {α β : Type} (f : α → Option β) (l : List α) (h : ∀ a ∈ l, f a = none) : l.findSome? f = none := by
  induction l with
  | nil => rfl
  | cons x t ih =>
    rw [List.findSome?_cons, h x List.mem_cons_self]
    exact ih fun a ha => h a (List.mem_cons_of_mem _ ha)

theorem dynBracketed_none (s : Str) (h : ∀ k, ∀ b ∈ dynBrackets, DynPat.bracketed k b s = none) : dynBracketed s = none := by
  unfold dynBracketed
  apply findSome_none
  intro k _
  apply findSome_none
  intro b hb
  rw [h k b hb]; rfl

theorem dynString_mark (v : Str) (hv : IsDynamic v) : dynString v = v := by
  obtain ⟨k, hk⟩ := run_complete v hv
  have h1 : (k.full v).isSome = true := by
    have := hk [] (fun c hc => by cases hc)
    rw [List.append_nil] at this
    simp [DynPat.full, this, rxEnd]
  have key : ∀ (j : DynPat) (t : Str), j.full v = some t → t = v := by
    intro j t hj
    obtain ⟨rest, e, _, hr⟩ := full_sound j v t hj
    rcases rxEnd_word rest hr with rfl | ⟨c, b', rfl, hc⟩
    · simpa using e.symm
    · have := dynamic_no_space v hv c (by rw [e]; simp)
      rw [hc] at this; cases this
  obtain ⟨t, ht, he⟩ := findSome_first (fun k : DynPat => k.full v) (fun t => t = v) dynPats key ⟨k, mem_dynPats k, h1⟩
  unfold dynString
  rw [ht]; exact he

/-- C102. A dynamic mark is written as it is, without layout, and read back. -/
theorem plain_dynamic_round_trip (alpha : Char → Bool) (ha : AlphaOk alpha) (v : Str) (hv : IsDynamic v) :
    dynString v = v ∧ dynLayout v = none ∧ dynReadBack alpha v = some v := by
  have h1 := dynString_mark v hv
  have h2 : dynLayout v = none := by simp [dynLayout, dynParams, h1]
  refine ⟨h1, h2, ?_⟩
  have e : isInfix "brack".toList [] = false ∧ isInfix "paren".toList [] = false ∧
    isInfix "curly".toList [] = false ∧ isInfix "angle".toList [] = false := by decide
  simp only [dynReadBack, h1, h2, readDynam, dynParamOf, filter_mark alpha ha v hv, dynLetters_mark v hv, e.1, e.2.1,
    e.2.2.1, e.2.2.2, if_true, Bool.false_eq_true, if_false]

/-! ### Brackets -/

/-- The opening, the closing and the name of the four kinds of brackets. -/
def IsBracket (o c name : Str) : Prop :=
  (o = "[ ".toList ∧ c = " ]".toList ∧ name = "brack".toList) ∨ (o = "( ".toList ∧ c = " )".toList ∧ name = "paren".toList) ∨
  (o = "{ ".toList ∧ c = " }".toList ∧ name = "curly".toList) ∨ (o = "< ".toList ∧ c = " >".toList ∧ name = "angle".toList)

theorem noDyn_single (y : Char) (h : y ∉ "mfpsrz".toList) : NoDynamicWord [y] := by
  intro a t b e _ _ ht
  have hn := dynamic_ne_nil t ht
  obtain ⟨z, hz⟩ := List.exists_mem_of_ne_nil t hn
  have h1 := dynamic_letters t ht z hz
  have : z ∈ [y] := by rw [e]; simp [hz]
  rw [List.mem_singleton.1 this] at h1
  exact h h1

theorem dynBracketed_mark (o c name v : Str) (hv : IsDynamic v) (hb : IsBracket o c name) :
    dynBracketed (o ++ v ++ c) = some (name, v) := by
  have hmem : (name, o, c) ∈ dynBrackets := by
    rcases hb with ⟨rfl, rfl, rfl⟩ | ⟨rfl, rfl, rfl⟩ | ⟨rfl, rfl, rfl⟩ | ⟨rfl, rfl, rfl⟩ <;> decide
  obtain ⟨x, y, ho, hc, -, hy⟩ := bracket_shape _ hmem
  simp only at ho hc
  have hyl : y ∉ "mfpsrz".toList := by
    rcases hb with ⟨rfl, rfl, rfl⟩ | ⟨rfl, rfl, rfl⟩ | ⟨rfl, rfl, rfl⟩ | ⟨rfl, rfl, rfl⟩ <;> cases hc <;> decide
  obtain ⟨k, hk⟩ := run_complete v hv
  have hrun : k.run (v ++ c) = some (v, c) := by
    apply hk
    rw [hc]
    exact wordEnd_head _ (.inr ⟨' ', _, rfl, by decide⟩)
  have hkb : k.bracketed (name, o, c) (o ++ v ++ c) = some v := by
    have p1 : startsWith (o ++ v ++ c) o = true := List.isPrefixOf_iff_prefix.2 ⟨v ++ c, by simp⟩
    have p2 : startsWith c c = true := List.isPrefixOf_iff_prefix.2 ⟨[], by simp⟩
    have p3 : (o ++ v ++ c).drop o.length = v ++ c := by rw [List.append_assoc, List.drop_left]
    simp only [DynPat.bracketed, p1, if_true, p3, hrun, p2, List.drop_length, rxEnd]
    rfl
  have key : ∀ (j : DynPat) (b : Str × Str × Str), b ∈ dynBrackets → ∀ t, j.bracketed b (o ++ v ++ c) = some t →
      (b.1, t) = (name, v) := by
    intro j b hbm t ht
    obtain ⟨rest, e, ht1, hr⟩ := bracketed_sound j b _ t ht
    have hbeq : b.2.1 = o ∧ b.1 = name := by
      simp only [dynBrackets, List.mem_cons, List.not_mem_nil, or_false] at hbm
      rcases hb with ⟨rfl, rfl, rfl⟩ | ⟨rfl, rfl, rfl⟩ | ⟨rfl, rfl, rfl⟩ | ⟨rfl, rfl, rfl⟩ <;>
        rcases hbm with rfl | rfl | rfl | rfl <;> first | exact ⟨rfl, rfl⟩ | (exfalso; simp at e)
    rw [hbeq.1] at e
    simp only [List.append_assoc] at e
    have e2 := List.append_cancel_left e
    obtain ⟨x', y', -, hc', -, -⟩ := bracket_shape b hbm
    rw [hc', hc] at e2
    have := first_word [y] v [] t ([' ', y'] ++ rest) (noDyn_single y hyl) hv ht1 (by rw [e2]; simp) (.inl rfl)
      (.inr ⟨' ', _, rfl, by decide⟩)
    rw [hbeq.2, this.2.1]
  have key2 : ∀ (j : DynPat) (r : Str × Str),
      (dynBrackets.findSome? fun b => (j.bracketed b (o ++ v ++ c)).map fun t => (b.1, t)) = some r → r = (name, v) := by
    intro j r hr
    obtain ⟨b, hbm, h⟩ := List.exists_of_findSome?_eq_some hr
    cases hjb : j.bracketed b (o ++ v ++ c) with
    | none => rw [hjb] at h; cases h
    | some t =>
      rw [hjb] at h
      simp only [Option.map_some, Option.some.injEq] at h
      rw [← h]; exact key j b hbm t hjb
  have key3 : (dynBrackets.findSome? fun b => (k.bracketed b (o ++ v ++ c)).map fun t => (b.1, t)).isSome := by
    rw [List.findSome?_isSome_iff]
    exact ⟨(name, o, c), hmem, by rw [hkb]; rfl⟩
  obtain ⟨r, hr, hP⟩ := findSome_first
    (fun k : DynPat => dynBrackets.findSome? fun b => (k.bracketed b (o ++ v ++ c)).map fun t => (b.1, t))
    (fun r => r = (name, v)) dynPats key2 ⟨k, mem_dynPats k, key3⟩
  unfold dynBracketed
  rw [hr, hP]

theorem full_none (s : Str) (h : ∀ t rest, s = t ++ rest → IsDynamic t → rxEnd rest = true → False) :
    (dynPats.findSome? fun k => k.full s) = none := by
  apply findSome_none
  intro k _
  cases hk : k.full s with
  | none => rfl
  | some t =>
    obtain ⟨rest, e, h1, h2⟩ := full_sound k s t hk
    exact (h t rest e h1 h2).elim

/-- C102. A dynamic mark in brackets, parentheses, braces or angle brackets is written as the mark with that kind of
editorial brackets, and read back. -/
theorem bracketed_dynamic_round_trip (alpha : Char → Bool) (ha : AlphaOk alpha) (o c name v : Str) (hv : IsDynamic v)
    (hb : IsBracket o c name) :
    dynString (o ++ v ++ c) = v ∧ dynLayout (o ++ v ++ c) = some ("!LO:DY:ed=".toList ++ name) ∧
    dynReadBack alpha (o ++ v ++ c) = some (o ++ v ++ c) := by
  have h0 := dynBracketed_mark o c name v hv hb
  have hf : (dynPats.findSome? fun k => k.full (o ++ v ++ c)) = none := by
    apply full_none
    intro t rest e ht _
    have hn := dynamic_ne_nil t ht
    cases t with
    | nil => exact hn rfl
    | cons z t' =>
      have hz := dynamic_letters _ ht z (by simp)
      rcases hb with ⟨rfl, rfl, rfl⟩ | ⟨rfl, rfl, rfl⟩ | ⟨rfl, rfl, rfl⟩ | ⟨rfl, rfl, rfl⟩ <;>
        (simp at e; rw [← e.1] at hz; exact absurd hz (by decide))
  have h1 : dynString (o ++ v ++ c) = v := by simp only [dynString, hf, h0]
  have hne : ¬ v = o ++ v ++ c := by
    intro e
    have := congrArg List.length e
    rcases hb with ⟨rfl, rfl, rfl⟩ | ⟨rfl, rfl, rfl⟩ | ⟨rfl, rfl, rfl⟩ | ⟨rfl, rfl, rfl⟩ <;>
      (simp at this; omega)
  have hp : dynParams (o ++ v ++ c) = (name, []) := by
    unfold dynParams
    rw [h1, if_neg hne, h0]
  have hname : name ≠ [] := by
    rcases hb with ⟨rfl, rfl, rfl⟩ | ⟨rfl, rfl, rfl⟩ | ⟨rfl, rfl, rfl⟩ | ⟨rfl, rfl, rfl⟩ <;> decide
  have h2 : dynLayout (o ++ v ++ c) = some ("!LO:DY:ed=".toList ++ name) := by
    simp only [dynLayout, hp, ne_eq, hname, not_false_eq_true, if_true]
  refine ⟨h1, h2, ?_⟩
  unfold dynReadBack
  rw [h1, h2]
  simp only [readDynam, filter_mark alpha ha v hv, dynLetters_mark v hv]
  rcases hb with ⟨rfl, rfl, rfl⟩ | ⟨rfl, rfl, rfl⟩ | ⟨rfl, rfl, rfl⟩ | ⟨rfl, rfl, rfl⟩ <;> rfl

/-! ### Text -/

theorem layout_text (txt : Str) (h : ':' ∉ txt) :
    dynParamOf "ed".toList (some ("!LO:DY:t=".toList ++ txt)) = [] ∧
    dynParamOf "t".toList (some ("!LO:DY:t=".toList ++ txt)) = txt := by
  have h1 : splitOn ':' (HumParamSet.skipBangs ("!LO:DY:t=".toList ++ txt)) = ["LO".toList, "DY".toList, 't' :: '=' :: txt] := by
    have e : HumParamSet.skipBangs ("!LO:DY:t=".toList ++ txt) = "LO".toList ++ ':' :: ("DY".toList ++ ':' :: ('t' :: '=' :: txt)) := rfl
    rw [e, splitOn_append_sep _ _ _ (by decide), splitOn_append_sep _ _ _ (by decide), splitOn_of_not_mem]
    simp [h]
  have h2 : HumParamSet.nameValue ('t' :: '=' :: txt) = (['t'], txt) := rfl
  constructor
  · simp only [dynParamOf, HumParamSet.readString, h1, List.map_cons, List.map_nil, List.nil_append, h2]
    rfl
  · simp only [dynParamOf, HumParamSet.readString, h1, List.map_cons, List.map_nil, List.nil_append, h2]
    rfl

/-- C102. A text written for something else than a dynamic does not change a dynamic. -/
theorem other_layout_not_read (ns txt key : Str) (hns : ':' ∉ ns) (hd : ns ≠ "DY".toList) (h : ':' ∉ txt) :
    dynParamOf key (some ("!LO:".toList ++ ns ++ ":t=".toList ++ txt)) = [] := by
  have h1 : splitOn ':' (HumParamSet.skipBangs ("!LO:".toList ++ ns ++ ":t=".toList ++ txt)) =
      ["LO".toList, ns, 't' :: '=' :: txt] := by
    have e : HumParamSet.skipBangs ("!LO:".toList ++ ns ++ ":t=".toList ++ txt) =
        "LO".toList ++ ':' :: (ns ++ ':' :: ('t' :: '=' :: txt)) := by
      rw [List.append_assoc, List.append_assoc]; rfl
    rw [e, splitOn_append_sep _ _ _ (by decide), splitOn_append_sep _ _ _ hns, splitOn_of_not_mem]
    simp [h]
  simp only [dynParamOf, HumParamSet.readString, h1]
  rw [if_neg]
  exact fun h => hd h.2

example : dynParamOf "t".toList (some "!LO:TX:t=dolce".toList) = [] := by decide +kernel

theorem replaceFirst_last (rep w v : Str) (hv : ∀ c ∈ v, c ≠ ' ') (hw : ¬ ∃ a b, w = a ++ (' ' :: v) ++ b) :
    replaceFirst (' ' :: v) rep (w ++ ' ' :: v) = w ++ rep := by
  induction w with
  | nil =>
    rw [List.nil_append, replaceFirst, if_pos (by simp)]
    simp
  | cons x r ih =>
    have hr : ¬ ∃ a b, r = a ++ (' ' :: v) ++ b := by
      rintro ⟨a, b, e⟩
      exact hw ⟨x :: a, b, by rw [e]; rfl⟩
    have hx : ¬ (' ' :: v).isPrefixOf (x :: (r ++ ' ' :: v)) = true := by
      intro h
      obtain ⟨q, hq⟩ := List.isPrefixOf_iff_prefix.1 h
      rw [List.cons_append, List.cons.injEq] at hq
      obtain ⟨rfl, hq⟩ := hq
      rcases List.append_eq_append_iff.1 hq with ⟨e, h1, -⟩ | ⟨e, h1, h2⟩
      · exact hw ⟨[], e, by rw [h1]; rfl⟩
      · cases e with
        | nil => exact hw ⟨[], [], by rw [h1]; simp⟩
        | cons y e =>
          rw [List.cons_append, List.cons.injEq] at h2
          exact hv y (by rw [h1]; simp) h2.1.symm
    rw [List.cons_append, replaceFirst, if_neg hx, ih hr]
    rfl

theorem replaceFirst_percent (pat rep m rest : Str) (hm : '%' ∉ m) :
    replaceFirst ('%' :: pat) rep (m ++ rest) = m ++ replaceFirst ('%' :: pat) rep rest := by
  induction m with
  | nil => rfl
  | cons a m ih =>
    have ha : ¬ a = '%' := fun h => hm (by rw [h]; simp)
    rw [List.cons_append, replaceFirst, if_neg, ih (fun h => hm (List.mem_cons_of_mem _ h))]
    · rfl
    · simp [List.isPrefixOf, Ne.symm ha]

theorem replaceGo_percent (rep m rest : Str) (hm : '%' ∉ m) :
    replaceGo ['%', 's'] rep 0 (m ++ rest) = m ++ replaceGo ['%', 's'] rep 0 rest := by
  induction m with
  | nil => rfl
  | cons a m ih =>
    have ha : ¬ a = '%' := fun h => hm (by rw [h]; simp)
    rw [List.cons_append, replaceGo, if_neg, ih (fun h => hm (List.mem_cons_of_mem _ h))]
    · rfl
    · simp [Ne.symm ha]

theorem replaceGo_percent_all (rep m : Str) (hm : '%' ∉ m) : replaceGo ['%', 's'] rep 0 m = m := by
  have := replaceGo_percent rep m [] hm
  simpa [replaceGo] using this

/-- What is read from a token with a mark and a text parameter. -/
theorem readDynam_text (alpha : Char → Bool) (ha : AlphaOk alpha) (v txt : Str) (hv : IsDynamic v) (ht : txt ≠ []) :
    readDynam alpha v [] txt = some (strip (replaceAll "%s".toList (v ++ [' ']) txt)) := by
  have e : isInfix "brack".toList [] = false ∧ isInfix "paren".toList [] = false ∧
    isInfix "curly".toList [] = false ∧ isInfix "angle".toList [] = false := by decide
  simp only [readDynam, filter_mark alpha ha v hv, dynLetters_mark v hv, ht, if_false, e.1, e.2.1, e.2.2.1, e.2.2.2,
    Bool.false_eq_true]

theorem dynBracketed_none_of (s : Str) (h : ∀ a t b, s = a ++ t ++ b → WordStart a → WordEnd b → IsDynamic t → a = [] ∨ b = []) :
    dynBracketed s = none := by
  apply dynBracketed_none
  intro k b hb
  cases hk : k.bracketed b s with
  | none => rfl
  | some t =>
    exfalso
    obtain ⟨rest, e, ht, _⟩ := bracketed_sound k b s t hk
    obtain ⟨x, y, hx, hy, -, -⟩ := bracket_shape b hb
    rw [hx, hy] at e
    rcases h [x, ' '] t ([' ', y] ++ rest) (by rw [e]; simp) (.inr ⟨' ', [x], rfl, by decide⟩)
      (.inr ⟨' ', _, rfl, by decide⟩) ht with h0 | h0
    · cases h0
    · cases h0

theorem dynHit_before (w v : Str) (hw : NoDynamicWord w) (hv : IsDynamic v) :
    dynHit (w ++ ' ' :: v) = some ⟨some ' ', v, none⟩ := by
  have key : ∀ (k : DynPat) (h : DynHit), k.hit (w ++ ' ' :: v) = some h → h = ⟨some ' ', v, none⟩ := by
    intro k h hk
    obtain ⟨a, b, e, hs, he, hd, hf, hb1, hb2⟩ := hit_sound k _ h hk
    obtain ⟨h1, h2, h3⟩ := last_word w v a h.mark b hw hv hd e hs he
    obtain ⟨f, m, bk⟩ := h
    simp only at h1 h2 h3 hf hb2
    subst h2
    have hbk : bk = none := by
      cases bk with
      | none => rfl
      | some c => have := hb2 c rfl; rw [h3] at this; cases this
    rw [hbk]
    rcases hf with ⟨-, h0⟩ | ⟨c, a', h0, h4⟩
    · rw [h1] at h0; simp at h0
    · rw [h1] at h4
      have := (List.append_inj' h4 rfl).2
      simp only [List.cons.injEq, and_true] at this
      rw [h0, this]
  obtain ⟨k, hk⟩ := run_complete v hv
  have hrun := hk [] (fun c hc => by cases hc)
  rw [List.append_nil] at hrun
  have hsome : (k.hit (w ++ ' ' :: v)).isSome := by
    have haft : (k.hitAfter (w ++ ' ' :: v)).isSome := by
      obtain ⟨y, hy⟩ := after_complete k rxEnd w ' ' v v [] (by decide) hrun rfl
      unfold DynPat.hitAfter
      split
      · rfl
      · rw [hy]; rfl
    unfold DynPat.hit
    split
    · split
      · rfl
      · split
        · rfl
        · exact haft
    · exact haft
  obtain ⟨r, hr, hP⟩ := findSome_first (fun k : DynPat => k.hit (w ++ ' ' :: v)) (fun h => h = ⟨some ' ', v, none⟩)
    dynPats key ⟨k, mem_dynPats k, hsome⟩
  unfold dynHit
  rw [hr, hP]

theorem dynHit_after (w v : Str) (hw : NoDynamicWord w) (hv : IsDynamic v) :
    dynHit (v ++ ' ' :: w) = some ⟨none, v, some ' '⟩ := by
  obtain ⟨k, hk⟩ := run_complete v hv
  have hrun := hk (' ' :: w) (wordEnd_head _ (.inr ⟨' ', w, rfl, by decide⟩))
  have hne : ∀ b, b = ' ' :: w → rxEnd b = false := by rintro b rfl; simp [rxEnd]
  have key : ∀ (k : DynPat) (h : DynHit), k.hit (v ++ ' ' :: w) = some h → h = ⟨none, v, some ' '⟩ := by
    intro k h hk
    obtain ⟨a, b, e, hs, he, hd, hf, hb1, hb2⟩ := hit_sound k _ h hk
    obtain ⟨h1, h2, h3⟩ := first_word w v a h.mark b hw hv hd e hs he
    obtain ⟨f, m, bk⟩ := h
    simp only at h1 h2 h3 hf hb1 hb2
    subst h2
    have hbk : bk = some ' ' := by
      cases bk with
      | none => have := hb1 rfl; rw [hne b h3] at this; cases this
      | some c => have := hb2 c rfl; rw [h3] at this; simp at this; rw [this]
    rw [hbk]
    rcases hf with ⟨h0, -⟩ | ⟨c, a', h0, h4⟩
    · rw [h0]
    · rw [h1] at h4; simp at h4
  have hsome : (k.hit (v ++ ' ' :: w)).isSome := by
    have : rxSpace (' ' :: w) = true := by show isPySpace ' ' = true; decide
    simp [DynPat.hit, hrun, this]
  obtain ⟨r, hr, hP⟩ := findSome_first (fun k : DynPat => k.hit (v ++ ' ' :: w)) (fun h => h = ⟨none, v, some ' '⟩)
    dynPats key ⟨k, mem_dynPats k, hsome⟩
  unfold dynHit
  rw [hr, hP]

/-- C102. A text followed by a dynamic mark is written as the mark with the text in the layout, and read back, when
the mark is the only one among the words and no earlier word begins with the same letters, and the text has no
colon or percent sign. -/
theorem text_before_dynamic_round_trip_partial (alpha : Char → Bool) (ha : AlphaOk alpha) (w v : Str) (hv : IsDynamic v)
    (hw : NoDynamicWord w) (h1 : ∃ x r, w = x :: r ∧ isPySpace x = false) (h2 : '%' ∉ w) (h3 : ':' ∉ w)
    (h4 : ¬ ∃ a b, w = a ++ (' ' :: v) ++ b) :
    dynString (w ++ ' ' :: v) = v ∧ dynLayout (w ++ ' ' :: v) = some ("!LO:DY:t=".toList ++ w ++ " %s".toList) ∧
    dynReadBack alpha (w ++ ' ' :: v) = some (w ++ ' ' :: v) := by
  have hit := dynHit_before w v hw hv
  have hlw := fun a t b => last_word w v a t b hw hv
  have hb : dynBracketed (w ++ ' ' :: v) = none :=
    dynBracketed_none_of _ fun a t b e hs he ht => .inr (hlw a t b ht e hs he).2.2
  have hf : (dynPats.findSome? fun k => k.full (w ++ ' ' :: v)) = none := by
    apply full_none
    intro t rest e ht hr
    have := (hlw [] t rest ht (by rw [e]; rfl) (.inl rfl) (rxEnd_word _ hr)).1
    simp at this
  have g1 : dynString (w ++ ' ' :: v) = v := by simp only [dynString, hf, hb, hit]
  have hns := dynamic_no_space v hv
  have hne : ¬ v = w ++ ' ' :: v := by
    intro e
    have := hns ' ' (by rw [e]; simp)
    exact absurd this (by decide)
  have hp : dynParams (w ++ ' ' :: v) = ([], w ++ " %s".toList) := by
    unfold dynParams
    rw [g1, if_neg hne, hb, hit]
    have e1 : replaceFirst (' ' :: v) " %s".toList (w ++ ' ' :: v) = w ++ " %s".toList :=
      replaceFirst_last _ w v (fun c hc e => by have := hns c hc; rw [e] at this; exact absurd this (by decide)) h4
    have e2 : replaceFirst "%s  ".toList "%s ".toList (w ++ " %s".toList) = w ++ " %s".toList := by
      show replaceFirst ('%' :: ['s', ' ', ' ']) "%s ".toList (w ++ " %s".toList) = _
      rw [replaceFirst_percent _ _ _ _ h2]
      rfl
    show ([], replaceFirst "%s  ".toList "%s ".toList (replaceFirst ([' '] ++ v ++ []) ([' '] ++ "%s".toList ++ []) _)) = _
    rw [List.append_nil]
    show ([], replaceFirst "%s  ".toList "%s ".toList (replaceFirst (' ' :: v) " %s".toList _)) = _
    rw [e1, e2]
  have hne2 : ¬ w ++ " %s".toList = [] := by simp
  have g2 : dynLayout (w ++ ' ' :: v) = some ("!LO:DY:t=".toList ++ w ++ " %s".toList) := by
    simp only [dynLayout, hp, ne_eq, not_true_eq_false, if_false, hne2, not_false_eq_true, if_true, List.append_assoc]
  refine ⟨g1, g2, ?_⟩
  have hcol : ':' ∉ w ++ " %s".toList := by
    intro h
    rcases List.mem_append.1 h with h | h
    · exact h3 h
    · exact absurd h (by decide)
  obtain ⟨l1, l2⟩ := layout_text _ hcol
  unfold dynReadBack
  rw [g1, g2, List.append_assoc, l1, l2, readDynam_text alpha ha v _ hv hne2]
  have e5 : replaceAll "%s".toList (v ++ [' ']) (w ++ " %s".toList) = (w ++ ' ' :: v) ++ [' '] := by
    show replaceGo ['%', 's'] _ 0 (w ++ ([' '] ++ "%s".toList)) = _
    rw [replaceGo_percent _ _ _ h2, replaceGo_percent _ _ _ (by decide)]
    simp [replaceGo, List.isPrefixOf]
  rw [e5]
  have e6 : strip ((w ++ ' ' :: v) ++ [' ']) = w ++ ' ' :: v := by
    obtain ⟨x, r, rfl, hx⟩ := h1
    have last : ∃ q z, x :: r ++ ' ' :: v = q ++ [z] ∧ isPySpace z = false := by
      rcases List.eq_nil_or_concat v with h0 | ⟨q, z, h0⟩
      · exact (dynamic_ne_nil v hv h0).elim
      · rw [List.concat_eq_append] at h0
        exact ⟨x :: r ++ ' ' :: q, z, by rw [h0]; simp, hns z (by rw [h0]; simp)⟩
    obtain ⟨q, z, hq, hz⟩ := last
    have hd : (x :: (r ++ ' ' :: v) ++ [' ']).dropWhile isPySpace = x :: (r ++ ' ' :: v) ++ [' '] := by
      simp [hx]
    unfold strip
    rw [List.cons_append, hd]
    rw [List.cons_append] at hq
    rw [hq]
    simp [hz, show isPySpace ' ' = true by decide]
  rw [e6]

/-- C102, false of the code for every text behind a mark: the text is read back with one more space in front, and is
then stable. -/
theorem text_after_dynamic_gains_space (alpha : Char → Bool) (ha : AlphaOk alpha) (w v : Str) (hv : IsDynamic v)
    (hw : NoDynamicWord w) (h1 : ∃ x r, w = x :: r ∧ isPySpace x = false)
    (h0 : ∃ q z, w = q ++ [z] ∧ isPySpace z = false) (h2 : '%' ∉ w) (h3 : ':' ∉ w) :
    dynReadBack alpha (v ++ ' ' :: w) = some (v ++ ' ' :: ' ' :: w) ∧
    dynReadBack alpha (v ++ ' ' :: ' ' :: w) = some (v ++ ' ' :: ' ' :: w) := by
  have hns := dynamic_no_space v hv
  -- both texts give the same token and layout
  have main : ∀ u : Str, NoDynamicWord u → u = w ∨ u = ' ' :: w →
      dynReadBack alpha (v ++ ' ' :: u) = some (v ++ ' ' :: ' ' :: w) := by
    intro u hu huw
    have hit := dynHit_after u v hu hv
    have hfw := fun a t b => first_word u v a t b hu hv
    have hb : dynBracketed (v ++ ' ' :: u) = none :=
      dynBracketed_none_of _ fun a t b e hs he ht => .inl (hfw a t b ht e hs he).1
    have hf : (dynPats.findSome? fun k => k.full (v ++ ' ' :: u)) = none := by
      apply full_none
      intro t rest e ht hr
      have := (hfw [] t rest ht (by rw [e]; rfl) (.inl rfl) (rxEnd_word _ hr)).2.2
      rw [this] at hr
      simp [rxEnd] at hr
    have g1 : dynString (v ++ ' ' :: u) = v := by simp only [dynString, hf, hb, hit]
    have hne : ¬ v = v ++ ' ' :: u := by
      intro e
      have := hns ' ' (by rw [e]; simp)
      exact absurd this (by decide)
    have hp : dynParams (v ++ ' ' :: u) = ([], "%s ".toList ++ w) := by
      unfold dynParams
      rw [g1, if_neg hne, hb, hit]
      have e1 : replaceFirst (v ++ [' ']) "%s ".toList (v ++ ' ' :: u) = "%s ".toList ++ u := by
        cases hvv : v with
        | nil => exact (dynamic_ne_nil v hv hvv).elim
        | cons x r =>
          rw [List.cons_append, List.cons_append, replaceFirst, if_pos]
          · have : x :: (r ++ ' ' :: u) = (x :: (r ++ [' '])) ++ u := by simp
            rw [this, List.drop_left]
          · exact List.isPrefixOf_iff_prefix.2 ⟨u, by simp⟩
      have e2 : replaceFirst "%s  ".toList "%s ".toList ("%s ".toList ++ u) = "%s ".toList ++ w := by
        obtain ⟨x, r, hwx, hx⟩ := h1
        rcases huw with rfl | rfl
        · show replaceFirst ('%' :: ['s', ' ', ' ']) "%s ".toList ('%' :: 's' :: ' ' :: u) = _
          have hx' : ¬ ' ' = x := by rintro rfl; exact absurd hx (by decide)
          rw [replaceFirst, if_neg (by rw [hwx]; simp [List.isPrefixOf, hx'])]
          have h6 : '%' ∉ 's' :: ' ' :: u := by simp [h2]
          have := replaceFirst_percent ['s', ' ', ' '] "%s ".toList ('s' :: ' ' :: u) [] h6
          rw [List.append_nil] at this
          rw [this]
          simp [replaceFirst]
        · rfl
      show ([], replaceFirst "%s  ".toList "%s ".toList (replaceFirst ([] ++ v ++ [' ']) ([] ++ "%s".toList ++ [' ']) _)) = _
      show ([], replaceFirst "%s  ".toList "%s ".toList (replaceFirst (v ++ [' ']) "%s ".toList _)) = _
      rw [e1, e2]
    have hne2 : ¬ "%s ".toList ++ w = [] := by simp
    have g2 : dynLayout (v ++ ' ' :: u) = some ("!LO:DY:t=".toList ++ ("%s ".toList ++ w)) := by
      simp only [dynLayout, hp, ne_eq, not_true_eq_false, if_false, hne2, not_false_eq_true, if_true]
    have hcol : ':' ∉ "%s ".toList ++ w := by
      intro h
      rcases List.mem_append.1 h with h | h
      · exact absurd h (by decide)
      · exact h3 h
    obtain ⟨l1, l2⟩ := layout_text _ hcol
    unfold dynReadBack
    rw [g1, g2, l1, l2, readDynam_text alpha ha v _ hv hne2]
    have e5 : replaceAll "%s".toList (v ++ [' ']) ("%s ".toList ++ w) = v ++ ' ' :: ' ' :: w := by
      show replaceGo ['%', 's'] _ 0 ('%' :: 's' :: ' ' :: w) = _
      have : replaceGo ['%', 's'] (v ++ [' ']) 0 (' ' :: w) = ' ' :: w :=
        replaceGo_percent_all _ _ (by simp [h2])
      simp [replaceGo, List.isPrefixOf] at this ⊢
      exact this
    rw [e5]
    congr 1
    apply strip_id
    · intro c hc
      cases hvv : v with
      | nil => exact (dynamic_ne_nil v hv hvv).elim
      | cons x r =>
        rw [hvv] at hc
        simp at hc
        rw [← hc]
        exact hns x (by rw [hvv]; simp)
    · intro c hc
      obtain ⟨q, z, hw', hz⟩ := h0
      rw [hw'] at hc
      have : v ++ ' ' :: ' ' :: (q ++ [z]) = (v ++ ' ' :: ' ' :: q) ++ [z] := by simp
      rw [this, List.getLast?_append] at hc
      simp at hc
      rw [← hc]; exact hz
  refine ⟨main w hw (.inl rfl), main (' ' :: w) ?_ (.inr rfl)⟩
  intro a t b e hs he ht
  cases a with
  | nil =>
    cases t with
    | nil => exact dynamic_ne_nil _ ht rfl
    | cons y t =>
      simp at e
      have := dynamic_no_space _ ht y (by simp)
      rw [← e.1] at this
      exact absurd this (by decide)
  | cons y a =>
    rw [List.cons_append, List.cons_append, List.cons.injEq] at e
    refine hw a t b e.2 ?_ he ht
    rcases hs with h | ⟨c, a', h, hc⟩
    · cases h
    · rcases List.eq_nil_or_concat a with h5 | ⟨q, z, h5⟩
      · exact .inl h5
      · rw [List.concat_eq_append] at h5
        rw [h5] at h
        have h6 : (y :: q) ++ [z] = a' ++ [c] := by rw [← h]; simp
        have := (List.append_inj' h6 rfl).2
        simp at this
        exact .inr ⟨z, q, h5, by rw [this]; exact hc⟩

/-- C102, false of the code: the marks of two dynamics at one time in a part are run together in reading, and come
back as one mark or none. -/
theorem two_dynamics_run_together (alpha : Char → Bool) (ha : AlphaOk alpha) (u v : Str) (hu : IsDynamic u) (hv : IsDynamic v) :
    readDynam alpha (dynString u ++ ' ' :: dynString v) [] [] = none ∨
    readDynam alpha (dynString u ++ ' ' :: dynString v) [] [] = some (u ++ v) := by
  rw [dynString_mark u hu, dynString_mark v hv]
  have hf : (u ++ ' ' :: v).filter alpha = u ++ v := by
    rw [List.filter_append, List.filter_cons, if_neg (by simp [ha.space]), filter_mark alpha ha u hu,
      filter_mark alpha ha v hv]
  have e : isInfix "brack".toList [] = false ∧ isInfix "paren".toList [] = false ∧
    isInfix "curly".toList [] = false ∧ isInfix "angle".toList [] = false := by decide
  have hl : ∀ x, dynLetters x = none ∨ dynLetters x = some x := by
    intro x; unfold dynLetters
    split
    · exact .inr rfl
    split
    · exact .inr rfl
    split
    · exact .inr rfl
    split
    · exact .inr rfl
    · exact .inl rfl
  rcases hl (u ++ v) with h | h
  · left; simp only [readDynam, hf, h]
  · right
    simp only [readDynam, hf, h, e.1, e.2.1, e.2.2.1, e.2.2.2, if_true, Bool.false_eq_true, if_false]

/-! ### Examples -/

/-- ASCII `str.isalpha`, with an accented letter. -/
def alphaEx (c : Char) : Bool := c.isAlpha || c == 'ù'

theorem alphaEx_ok : AlphaOk alphaEx := ⟨by decide, by decide⟩

example : IsDynamic "sffzpp".toList := .fortePiano ['s'] 1 ['z'] 1 (.inr rfl) (.inr rfl)
example : IsDynamic "rfz".toList := .forte ['r'] 0 ['z'] (.inr (.inr rfl)) (.inr rfl)
example : dynReadBack alphaEx "sempre ff".toList = some "sempre ff".toList := by decide +kernel
example : dynReadBack alphaEx "ff sempre".toList = some "ff  sempre".toList := by decide +kernel
example : dynReadBack alphaEx "{ mf }".toList = some "{ mf }".toList := by decide +kernel

/-- The hypotheses on the text before a mark are met. -/
example : NoDynamicWord "sub.".toList ∧ '%' ∉ "sub.".toList ∧ ':' ∉ "sub.".toList := by
  refine ⟨?_, by decide, by decide⟩
  intro a t b e hs he ht
  have hn := dynamic_ne_nil t ht
  have hl := dynamic_letters t ht
  match a, e with
  | [], e =>
    match t, e with
    | [], _ => exact hn rfl
    | [x], e =>
      simp at e
      rcases he with rfl | ⟨c, b', rfl, hc⟩
      · simp at e
      · simp at e; rw [← e.2.1] at hc; exact absurd hc (by decide)
    | x :: y :: t, e => simp at e; have := hl y (by simp); rw [← e.2.1] at this; exact absurd this (by decide)
  | x :: a, e =>
    rcases hs with h | ⟨c, a', h, hc⟩
    · cases h
    · have : c ∈ "sub.".toList := by rw [e, h]; simp
      simp at this
      rcases this with rfl | rfl | rfl | rfl <;> exact absurd hc (by decide)

/-- C102, false of the code: an earlier word with the same letters is replaced instead of the mark, and letters are lost. -/
theorem wrong_word_replaced : dynReadBack alphaEx "un poco p".toList = some "un p oco p".toList := by decide +kernel

/-- C102, false of the code: a colon in the text ends the parameter. -/
theorem dynamic_colon_cut : dynReadBack alphaEx "nota: p".toList = some "nota".toList := by decide +kernel

/-- C102, false of the code: a dynamic that is not one of the marks is not read back. -/
theorem niente_lost : dynReadBack alphaEx "n".toList = none ∧ dynReadBack alphaEx "sfpp".toList = some "sfpp".toList ∧
    dynReadBack alphaEx "cresc.".toList = none := by decide +kernel

/-- C102: `p` and `p` at one time become `pp`; `p` and `f` are lost. -/
theorem simultaneous_dynamics :
    readDynam alphaEx "p p".toList [] [] = some "pp".toList ∧ readDynam alphaEx "p f".toList [] [] = none := by decide +kernel

end C21
