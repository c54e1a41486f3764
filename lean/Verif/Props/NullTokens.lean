import Mathlib.Algebra.Order.Ring.Unbundled.Rat
import Mathlib.Data.List.Chain
import Mathlib.Data.List.Forall2
import Mathlib.Tactic.Linarith
import Verif.Model.NullTokens
import Verif.Spec.NullTokens
/-
C125: every note of an exported voice is followed by null tokens as long as it sounds, and no token is overwritten.
-/
namespace C21

/-- What a note that sounds until `e` makes of one line. -/
def fillOne (e : Rat) (x : NTSlice) : Option NTSlice :=
  if x.ts < e then
    match x.kind, x.cell with
    | .notes, none => some { x with cell := some .null }
    | .notes, some .null => some x
    | .notes, some _ => none
    | .spined, none => some { x with cell := some .null }
    | _, _ => some x
  else some x

def fillUntil (e : Rat) : List NTSlice → Option (List NTSlice)
  | [] => some []
  | x :: rest => (fillOne e x).bind (fun x' => (fillUntil e rest).map (x' :: ·))

theorem fillOne_late (e : Rat) (x : NTSlice) (h : e ≤ x.ts) : fillOne e x = some x := if_neg (not_lt.2 h)

theorem timed_le (x : NTSlice) (rest : List NTSlice) (h : TimedLines (x :: rest)) : ∀ y ∈ rest, x.ts ≤ y.ts := by
  induction rest generalizing x with
  | nil => intro y hy; cases hy
  | cons z rest ih =>
    have h1 := List.isChain_cons_cons.1 h
    intro y hy
    rcases List.mem_cons.1 hy with rfl | hy
    · exact h1.1.1
    · exact le_trans h1.1.1 (ih z h1.2 y hy)

theorem fillUntil_late (e : Rat) (xs : List NTSlice) (h : ∀ x ∈ xs, e ≤ x.ts) : fillUntil e xs = some xs := by
  induction xs with
  | nil => rfl
  | cons x xs ih =>
    rw [fillUntil, fillOne_late e x (h x (by simp)), ih (fun y hy => h y (by simp [hy]))]
    rfl

theorem fillUntil_globals (e : Rat) (xs : List NTSlice) (h : ∀ x ∈ xs, x.kind = .global) : fillUntil e xs = some xs := by
  induction xs with
  | nil => rfl
  | cons x xs ih =>
    have : fillOne e x = some x := by
      unfold fillOne
      rw [h x (by simp)]
      split <;> rfl
    rw [fillUntil, this, ih (fun y hy => h y (by simp [hy]))]
    rfl

theorem extendLoop_globals (left next : Rat) (xs : List NTSlice) (h : ∀ x ∈ xs, x.kind = .global) :
    extendLoop left next xs = some xs := by
  induction xs with
  | nil => rfl
  | cons x xs ih =>
    rw [extendLoop, h x (by simp), ih (fun y hy => h y (by simp [hy]))]
    split <;> rfl

/-- The next line with spines has the time of the next line. -/
theorem nextTime_head (c : Rat) (y : NTSlice) (ys : List NTSlice) (h : TimedLines (y :: ys)) (hs : ∃ z ∈ y :: ys, z.kind ≠ .global) :
    nextTime c (y :: ys) = y.ts := by
  induction ys generalizing y with
  | nil =>
    obtain ⟨z, hz, hk⟩ := hs
    rw [List.mem_singleton.1 hz] at hk
    simp [nextTime, NTSlice.hasSpines, hk]
  | cons w ws ih =>
    by_cases hk : y.kind = .global
    · have h1 := List.isChain_cons_cons.1 h
      have hs' : ∃ z ∈ w :: ws, z.kind ≠ .global := by
        obtain ⟨z, hz, hzk⟩ := hs
        rcases List.mem_cons.1 hz with rfl | hz
        · exact absurd hk hzk
        · exact ⟨z, hz, hzk⟩
      have := ih w h1.2 hs'
      rw [h1.1.2 (by rw [hk]; simp), ← this]
      simp [nextTime, NTSlice.hasSpines, hk]
    · simp [nextTime, NTSlice.hasSpines, hk]

theorem globals_or (xs : List NTSlice) : (∀ x ∈ xs, x.kind = .global) ∨ ∃ z ∈ xs, z.kind ≠ .global := by
  by_cases h : ∃ z ∈ xs, z.kind ≠ .global
  · exact Or.inr h
  · refine Or.inl (fun x hx => ?_)
    by_contra hc
    exact h ⟨x, hx, hc⟩

/-- The loop fills the lines that start before the note ends. -/
theorem extendLoop_fills (e : Rat) (xs : List NTSlice) : ∀ n, TimedLines xs → (∀ x, xs.head? = some x → x.ts = n) →
    extendLoop (e - n) n xs = fillUntil e xs := by
  induction xs with
  | nil => intro n _ _; rfl
  | cons x rest ih =>
    intro n ht hn
    have hx : x.ts = n := hn x rfl
    have hle := timed_le x rest ht
    have htr : TimedLines rest := List.IsChain.tail ht
    rw [extendLoop]
    by_cases h0 : e - n ≤ 0
    · rw [if_pos h0]
      have he : e ≤ x.ts := by linarith
      rw [fillUntil_late]
      intro y hy
      rcases List.mem_cons.1 hy with rfl | hy
      · exact he
      · exact le_trans he (hle y hy)
    · rw [if_neg h0]
      have hlt : x.ts < e := by linarith
      -- going on after a line that takes no time
      have go : x.kind ≠ .notes → ∀ m, (m = n ∨ m = nextTime n rest) → extendLoop (e - n) m rest = fillUntil e rest := by
        intro hk m hm
        rcases globals_or rest with hg | hs
        · rw [extendLoop_globals _ _ _ hg, fillUntil_globals _ _ hg]
        · cases rest with
          | nil => rfl
          | cons y ys =>
            have h1 := (List.isChain_cons_cons.1 ht).1.2 hk
            have hm' : m = n := by
              rcases hm with rfl | rfl
              · rfl
              · rw [nextTime_head n y ys htr hs, ← h1, hx]
            rw [hm']
            exact ih n htr (by intro z hz; cases hz; rw [← h1, hx])
      have goNotes : extendLoop (e - n - (nextTime n rest - n)) (nextTime n rest) rest = fillUntil e rest := by
        rcases globals_or rest with hg | hs
        · rw [extendLoop_globals _ _ _ hg, fillUntil_globals _ _ hg]
        · cases rest with
          | nil => rfl
          | cons y ys =>
            have := nextTime_head n y ys htr hs
            rw [this, show e - n - (y.ts - n) = e - y.ts by linarith]
            exact ih y.ts htr (by intro z hz; cases hz; rfl)
      rw [fillUntil, fillOne, if_pos hlt]
      cases hk : x.kind with
      | global =>
        dsimp only
        rw [go (by rw [hk]; simp) n (Or.inl rfl)]
        rfl
      | grace =>
        dsimp only
        rw [go (by rw [hk]; simp) _ (Or.inr rfl)]
        rfl
      | notes =>
        dsimp only
        cases hc : x.cell with
        | none => dsimp only; rw [goNotes]; rfl
        | some c =>
          cases c with
          | null => dsimp only; rw [goNotes]; rfl
          | note d => rfl
          | other => rfl
      | spined =>
        dsimp only
        cases hc : x.cell with
        | none => dsimp only; rw [go (by rw [hk]; simp) _ (Or.inr rfl)]; rfl
        | some c => dsimp only; rw [go (by rw [hk]; simp) _ (Or.inr rfl)]; rfl

theorem extendNote_fills (x : NTSlice) (d : Rat) (rest : List NTSlice) (ht : TimedLines (x :: rest)) :
    extendNote x.ts d rest = fillUntil (x.ts + d) rest := by
  cases rest with
  | nil => rfl
  | cons y ys =>
    have h1 := List.isChain_cons_cons.1 ht
    have hle := timed_le x (y :: ys) ht
    have late : d - (y.ts - x.ts) ≤ 0 → fillUntil (x.ts + d) (y :: ys) = some (y :: ys) := by
      intro h
      refine fillUntil_late _ _ ?_
      intro z hz
      have : y.ts ≤ z.ts := by
        rcases List.mem_cons.1 hz with rfl | hz
        · exact le_refl _
        · exact timed_le y ys h1.2 z hz
      linarith
    unfold extendNote
    dsimp only
    split
    · next h => rw [late]; rw [h]; linarith [h1.1.1]
    · split
      · next h => rw [late (le_of_eq h)]
      · split
        · next h => rw [late (le_of_lt h)]
        · rw [show d - (y.ts - x.ts) = (x.ts + d) - y.ts by linarith]
          exact extendLoop_fills _ _ _ h1.2 (by intro z hz; cases hz; rfl)

/-! ## What one note does to the lines -/

theorem fillOne_facts (e : Rat) (x x' : NTSlice) (h : fillOne e x = some x') :
    x'.kind = x.kind ∧ x'.ts = x.ts ∧ (∀ c, x.cell = some c → x'.cell = some c) ∧
      (x.cell = none → x'.cell ≠ none → x'.cell = some .null ∧ x.ts < e ∧ (x.kind = .notes ∨ x.kind = .spined)) ∧
      (x.kind = .notes → x.ts < e → x'.cell = some .null) := by
  unfold fillOne at h
  by_cases hlt : x.ts < e
  · rw [if_pos hlt] at h
    cases hk : x.kind <;> cases hc : x.cell with
    | none =>
      rw [hk, hc] at h
      cases h
      simp [hk, hc, hlt]
    | some c =>
      rw [hk, hc] at h
      cases c <;> cases h <;> simp [hk, hc]
  · rw [if_neg hlt] at h
    cases h
    simp [hlt]

theorem fillOne_none (e : Rat) (x : NTSlice) : fillOne e x = none ↔ x.kind = .notes ∧ x.ts < e ∧ ∃ c, x.cell = some c ∧ c ≠ .null := by
  unfold fillOne
  by_cases hlt : x.ts < e
  · rw [if_pos hlt]
    cases hk : x.kind <;> cases hc : x.cell with
    | none => simp
    | some c => cases c <;> simp [hlt]
  · rw [if_neg hlt]
    simp [hlt]

theorem fillUntil_forall (e : Rat) (xs : List NTSlice) : ∀ ys, fillUntil e xs = some ys → List.Forall₂ (fun x y => fillOne e x = some y) xs ys := by
  induction xs with
  | nil => intro ys h; cases h; exact .nil
  | cons x xs ih =>
    intro ys h
    rw [fillUntil] at h
    obtain ⟨x', h1, h2⟩ := Option.bind_eq_some_iff.1 h
    obtain ⟨ys', h3, rfl⟩ := Option.map_eq_some_iff.1 h2
    exact .cons h1 (ih ys' h3)

theorem fillUntil_none (e : Rat) (xs : List NTSlice) : fillUntil e xs = none ↔ ∃ x ∈ xs, fillOne e x = none := by
  induction xs with
  | nil => simp [fillUntil]
  | cons x xs ih =>
    rw [fillUntil]
    cases h1 : fillOne e x with
    | none => simp [h1]
    | some x' =>
      rw [Option.bind_some, Option.map_eq_none_iff, ih]
      constructor
      · rintro ⟨y, hy, h⟩; exact ⟨y, List.mem_cons_of_mem _ hy, h⟩
      · rintro ⟨y, hy, h⟩
        rcases List.mem_cons.1 hy with rfl | hy
        · rw [h1] at h; cases h
        · exact ⟨y, hy, h⟩

theorem related_right {α β : Type} {R : α → β → Prop} {a : List α} {b : List β} (h : List.Forall₂ R a b) (j : Nat) (x : α) (hx : a[j]? = some x) :
    ∃ y, b[j]? = some y ∧ R x y := by
  induction h generalizing j with
  | nil => cases hx
  | cons h1 _ ih =>
    cases j with
    | zero => cases hx; exact ⟨_, rfl, h1⟩
    | succ j => exact ih j hx

theorem related_left {α β : Type} {R : α → β → Prop} {a : List α} {b : List β} (h : List.Forall₂ R a b) (j : Nat) (y : β) (hy : b[j]? = some y) :
    ∃ x, a[j]? = some x ∧ R x y := by
  induction h generalizing j with
  | nil => cases hy
  | cons h1 _ ih =>
    cases j with
    | zero => cases hy; exact ⟨_, rfl, h1⟩
    | succ j => exact ih j hy

theorem timed_of_same (xs ys : List NTSlice) (h : List.Forall₂ (fun (x y : NTSlice) => y.kind = x.kind ∧ y.ts = x.ts) xs ys) (ht : TimedLines xs) :
    TimedLines ys := by
  induction h with
  | nil => exact .nil
  | cons h1 h2 ih =>
    cases h2 with
    | nil => exact List.isChain_singleton _
    | cons h3 h4 =>
      have hc := List.isChain_cons_cons.1 ht
      refine List.IsChain.cons_cons ?_ (ih hc.2)
      rw [h1.1, h1.2, h3.2]
      exact hc.1

/-! ## All notes -/

theorem fillVoice_zero (xs : List NTSlice) : fillVoiceFrom 0 xs = some xs := rfl

theorem fillVoice_note (n : Nat) (x : NTSlice) (rest : List NTSlice) (d : Rat) (hk : x.kind = .notes) (hc : x.cell = some (.note d)) :
    fillVoiceFrom (n + 1) (x :: rest) = (extendNote x.ts d rest).bind (fun r => (fillVoiceFrom n r).map (x :: ·)) := by
  rw [fillVoiceFrom, hk, hc]

theorem fillVoice_skip (n : Nat) (x : NTSlice) (rest : List NTSlice) (h : ¬ (x.kind = .notes ∧ ∃ d, x.cell = some (.note d))) :
    fillVoiceFrom (n + 1) (x :: rest) = (fillVoiceFrom n rest).map (x :: ·) := by
  rw [fillVoiceFrom]
  cases hk : x.kind with
  | notes =>
    cases hc : x.cell with
    | none => rfl
    | some c =>
      cases c with
      | null => rfl
      | other => rfl
      | note d => exact absurd ⟨hk, d, hc⟩ h
  | grace => rfl
  | spined => rfl
  | global => rfl

theorem soundsIn_cons (x : NTSlice) (xs : List NTSlice) (i j : Nat) : SoundsIn (x :: xs) (i + 1) (j + 1) ↔ SoundsIn xs i j := by
  unfold SoundsIn
  simp

/-- What is known about a voice before and after. -/
structure FilledAs (xs ys : List NTSlice) : Prop where
  len : ys.length = xs.length
  kept : ∀ (j : Nat) (x y : NTSlice), xs[j]? = some x → ys[j]? = some y → y.kind = x.kind ∧ y.ts = x.ts ∧ (∀ c, x.cell = some c → y.cell = some c)
  fills : ∀ (i j : Nat) (x y : NTSlice), SoundsIn xs i j → xs[j]? = some x → ys[j]? = some y → x.kind = .notes → y.cell = some .null
  only : ∀ (j : Nat) (x y : NTSlice), xs[j]? = some x → ys[j]? = some y → x.cell = none → y.cell ≠ none →
    y.cell = some .null ∧ (x.kind = .notes ∨ x.kind = .spined) ∧ ∃ i, SoundsIn xs i j

theorem fillVoice_facts (n : Nat) : ∀ xs, xs.length = n → TimedLines xs →
    (∀ ys, fillVoiceFrom n xs = some ys → FilledAs xs ys) ∧ (fillVoiceFrom n xs = none ↔ NotesOverlap xs) := by
  induction n with
  | zero =>
    intro xs hl _
    rw [List.length_eq_zero_iff] at hl
    subst hl
    refine ⟨?_, ?_⟩
    · intro ys h
      cases h
      exact ⟨rfl, (by intro j x y hx; cases hx), (by intro i j x y _ hx; cases hx), (by intro j x y hx; cases hx)⟩
    · rw [fillVoice_zero]
      constructor
      · intro h; cases h
      · rintro ⟨i, j, y, _, hy, _⟩; cases hy
  | succ n ih =>
    intro xs hl ht
    cases xs with
    | nil => cases hl
    | cons x rest =>
      have hlr : rest.length = n := by simpa using hl
      have htr : TimedLines rest := List.IsChain.tail ht
      by_cases hx : x.kind = .notes ∧ ∃ d, x.cell = some (.note d)
      · obtain ⟨hk, d, hc⟩ := hx
        rw [fillVoice_note n x rest d hk hc, extendNote_fills x d rest ht]
        have hs0 : ∀ (j : Nat) (y : NTSlice), rest[j]? = some y → y.ts < x.ts + d → SoundsIn (x :: rest) 0 (j + 1) :=
          fun j y hy hlt => ⟨Nat.succ_pos _, x, y, d, rfl, hk, hc, hy, hlt⟩
        cases hu : fillUntil (x.ts + d) rest with
        | none =>
          refine ⟨?_, ?_⟩
          · intro ys h; cases h
          · refine iff_of_true rfl ?_
            obtain ⟨y, hy, hn⟩ := (fillUntil_none _ _).1 hu
            obtain ⟨k1, k2, k3⟩ := (fillOne_none _ _).1 hn
            obtain ⟨j, hj⟩ := List.mem_iff_getElem?.1 hy
            exact ⟨0, j + 1, y, hs0 j y hj k2, hj, k1, k3⟩
        | some rest' =>
          have hF := fillUntil_forall _ _ _ hu
          have hlr' : rest'.length = n := by rw [← List.Forall₂.length_eq hF, hlr]
          have htr' : TimedLines rest' := timed_of_same rest rest' (hF.imp (fun a b hab => ⟨(fillOne_facts _ _ _ hab).1, (fillOne_facts _ _ _ hab).2.1⟩)) htr
          -- notes are the same before and after
          have hsame : ∀ (j : Nat) (y y' : NTSlice), rest[j]? = some y → rest'[j]? = some y' → fillOne (x.ts + d) y = some y' := by
            intro j y y' h1 h2
            obtain ⟨z, h3, h4⟩ := related_right hF j y h1
            rw [h2] at h3
            cases h3
            exact h4
          have hnote : ∀ (i : Nat) (a a' : NTSlice) (e : Rat), rest[i]? = some a → rest'[i]? = some a' → (a'.cell = some (.note e) ↔ a.cell = some (.note e)) := by
            intro i a a' e h1 h2
            obtain ⟨_, _, f3, f4, _⟩ := fillOne_facts _ _ _ (hsame i a a' h1 h2)
            constructor
            · intro h
              cases hca : a.cell with
              | some c => rw [f3 c hca] at h; rw [← h]
              | none =>
                have := (f4 hca (by rw [h]; simp)).1
                rw [h] at this
                cases this
            · exact f3 _
          have hsounds : ∀ i j, SoundsIn rest' i j ↔ SoundsIn rest i j := by
            intro i j
            constructor
            · rintro ⟨hij, a', b', e, h1, h2, h3, h4, h5⟩
              obtain ⟨a, k1, k2⟩ := related_left hF i a' h1
              obtain ⟨b, k3, k4⟩ := related_left hF j b' h4
              obtain ⟨f1, f2, _⟩ := fillOne_facts _ _ _ k2
              obtain ⟨g1, g2, _⟩ := fillOne_facts _ _ _ k4
              exact ⟨hij, a, b, e, k1, by rw [← f1]; exact h2, (hnote i a a' e k1 h1).1 h3, k3, by rw [← f2, ← g2]; exact h5⟩
            · rintro ⟨hij, a, b, e, h1, h2, h3, h4, h5⟩
              obtain ⟨a', k1, k2⟩ := related_right hF i a h1
              obtain ⟨b', k3, k4⟩ := related_right hF j b h4
              obtain ⟨f1, f2, _⟩ := fillOne_facts _ _ _ k2
              obtain ⟨g1, g2, _⟩ := fillOne_facts _ _ _ k4
              exact ⟨hij, a', b', e, k1, by rw [f1]; exact h2, (hnote i a a' e h1 k1).2 h3, k3, by rw [f2, g2]; exact h5⟩
          obtain ⟨ih1, ih2⟩ := ih rest' hlr' htr'
          rw [Option.bind_some]
          refine ⟨?_, ?_⟩
          · intro ys h
            obtain ⟨zs, hz, rfl⟩ := Option.map_eq_some_iff.1 h
            have hR := ih1 zs hz
            have mid : ∀ (j : Nat) (a b : NTSlice), rest[j]? = some a → zs[j]? = some b → ∃ a', rest'[j]? = some a' ∧ fillOne (x.ts + d) a = some a' := by
              intro j a b h1 _
              obtain ⟨a', k1, k2⟩ := related_right hF j a h1
              exact ⟨a', k1, k2⟩
            refine ⟨by rw [List.length_cons, List.length_cons, hR.len, hlr', hlr], ?_, ?_, ?_⟩
            · intro j a b ha hb
              cases j with
              | zero => cases ha; cases hb; exact ⟨rfl, rfl, fun c h => h⟩
              | succ j =>
                obtain ⟨a', k1, k2⟩ := mid j a b ha hb
                obtain ⟨f1, f2, f3, _⟩ := fillOne_facts _ _ _ k2
                obtain ⟨r1, r2, r3⟩ := hR.kept j a' b k1 hb
                exact ⟨r1.trans f1, r2.trans f2, fun c h => r3 c (f3 c h)⟩
            · intro i j a b hs ha hb hka
              cases j with
              | zero => exact absurd hs.1 (by omega)
              | succ j =>
                obtain ⟨a', k1, k2⟩ := mid j a b ha hb
                obtain ⟨f1, f2, f3, f4, f5⟩ := fillOne_facts _ _ _ k2
                cases i with
                | zero =>
                  obtain ⟨_, x0, y0, e, g1, _, g3, g4, g5⟩ := hs
                  cases g1
                  rw [hc] at g3
                  cases g3
                  have : y0 = a := by rw [ha] at g4; cases g4; rfl
                  rw [this] at g5
                  exact (hR.kept j a' b k1 hb).2.2 _ (f5 hka g5)
                | succ i =>
                  exact hR.fills i j a' b ((hsounds i j).2 ((soundsIn_cons x rest i j).1 hs)) k1 hb (f1.trans hka)
            · intro j a b ha hb hca hcb
              cases j with
              | zero => cases ha; cases hb; exact absurd hca hcb
              | succ j =>
                obtain ⟨a', k1, k2⟩ := mid j a b ha hb
                obtain ⟨f1, f2, f3, f4, f5⟩ := fillOne_facts _ _ _ k2
                cases hca' : a'.cell with
                | some c =>
                  obtain ⟨g1, g2, g3⟩ := f4 hca (by rw [hca']; simp)
                  exact ⟨(hR.kept j a' b k1 hb).2.2 _ g1, g3, 0, hs0 j a ha g2⟩
                | none =>
                  obtain ⟨g1, g3, i, g2⟩ := hR.only j a' b k1 hb hca' hcb
                  exact ⟨g1, by rw [← f1]; exact g3, i + 1, (soundsIn_cons x rest i j).2 ((hsounds i j).1 g2)⟩
          · rw [Option.map_eq_none_iff, ih2]
            constructor
            · rintro ⟨i, j, y', hs, hy', hk', c, hc', hcn⟩
              obtain ⟨y, k1, k2⟩ := related_left hF j y' hy'
              obtain ⟨f1, f2, f3, f4, f5⟩ := fillOne_facts _ _ _ k2
              refine ⟨i + 1, j + 1, y, (soundsIn_cons x rest i j).2 ((hsounds i j).1 hs), k1, by rw [← f1]; exact hk', c, ?_, hcn⟩
              cases hcy : y.cell with
              | some c0 => rw [f3 c0 hcy] at hc'; exact hc'
              | none =>
                have := (f4 hcy (by rw [hc']; simp)).1
                rw [hc'] at this
                cases this
                exact absurd rfl hcn
            · rintro ⟨i, j, y, hs, hy, hky, c, hcy, hcn⟩
              cases j with
              | zero => exact absurd hs.1 (by omega)
              | succ j =>
                obtain ⟨y', k1, k2⟩ := related_right hF j y hy
                obtain ⟨f1, f2, f3, f4, f5⟩ := fillOne_facts _ _ _ k2
                cases i with
                | zero =>
                  obtain ⟨_, x0, y0, e, g1, _, g3, g4, g5⟩ := hs
                  cases g1
                  rw [hc] at g3
                  cases g3
                  have : y0 = y := by rw [hy] at g4; cases g4; rfl
                  rw [this] at g5
                  have h1 := f5 hky g5
                  rw [f3 c hcy] at h1
                  cases h1
                  exact absurd rfl hcn
                | succ i =>
                  exact ⟨i, j, y', (hsounds i j).2 ((soundsIn_cons x rest i j).1 hs), k1, f1.trans hky, c, f3 c hcy, hcn⟩
      · rw [fillVoice_skip n x rest hx]
        obtain ⟨ih1, ih2⟩ := ih rest hlr htr
        have hno : ∀ j, ¬ SoundsIn (x :: rest) 0 j := by
          rintro j ⟨_, x0, y0, e, g1, g2, g3, _⟩
          cases g1
          exact hx ⟨g2, e, g3⟩
        refine ⟨?_, ?_⟩
        · intro ys h
          obtain ⟨zs, hz, rfl⟩ := Option.map_eq_some_iff.1 h
          have hR := ih1 zs hz
          refine ⟨by rw [List.length_cons, List.length_cons, hR.len], ?_, ?_, ?_⟩
          · intro j a b ha hb
            cases j with
            | zero => cases ha; cases hb; exact ⟨rfl, rfl, fun c h => h⟩
            | succ j => exact hR.kept j a b ha hb
          · intro i j a b hs ha hb hka
            cases i with
            | zero => exact absurd hs (hno j)
            | succ i =>
              cases j with
              | zero => exact absurd hs.1 (by omega)
              | succ j => exact hR.fills i j a b ((soundsIn_cons x rest i j).1 hs) ha hb hka
          · intro j a b ha hb hca hcb
            cases j with
            | zero => cases ha; cases hb; exact absurd hca hcb
            | succ j =>
              obtain ⟨g1, g3, i, g2⟩ := hR.only j a b ha hb hca hcb
              exact ⟨g1, g3, i + 1, (soundsIn_cons x rest i j).2 g2⟩
        · rw [Option.map_eq_none_iff, ih2]
          constructor
          · rintro ⟨i, j, y, hs, hy, h⟩
            exact ⟨i + 1, j + 1, y, (soundsIn_cons x rest i j).2 hs, hy, h⟩
          · rintro ⟨i, j, y, hs, hy, h⟩
            cases i with
            | zero => exact absurd hs (hno j)
            | succ i =>
              cases j with
              | zero => exact absurd hs.1 (by omega)
              | succ j => exact ⟨i, j, y, (soundsIn_cons x rest i j).1 hs, hy, h⟩

/-! ## C125 -/

/-- C125: a voice is written exactly if no note starts while another one of the voice sounds. -/
theorem nulls_written (xs : List NTSlice) (h : TimedLines xs) : fillNulls xs = none ↔ NotesOverlap xs :=
  (fillVoice_facts xs.length xs rfl h).2

/-- C125: every line of notes in which an earlier note of the voice still sounds has a null token. -/
theorem notes_filled (xs ys : List NTSlice) (h : TimedLines xs) (hy : fillNulls xs = some ys) (i j : Nat) (x y : NTSlice)
    (hs : SoundsIn xs i j) (hx : xs[j]? = some x) (hyj : ys[j]? = some y) (hk : x.kind = .notes) : y.cell = some .null :=
  ((fillVoice_facts xs.length xs rfl h).1 ys hy).fills i j x y hs hx hyj hk

/-- C125: lines stay as they are with all tokens they have, and a token is added only as a null token, only where a
note of the voice sounds, and never in a line of grace notes or a line without spines. -/
theorem tokens_kept (xs ys : List NTSlice) (h : TimedLines xs) (hy : fillNulls xs = some ys) :
    ys.length = xs.length ∧ ∀ (j : Nat) (x y : NTSlice), xs[j]? = some x → ys[j]? = some y →
      y.kind = x.kind ∧ y.ts = x.ts ∧ (∀ c, x.cell = some c → y.cell = some c) ∧
      (x.cell = none → y.cell ≠ none →
        y.cell = some .null ∧ (x.kind = .notes ∨ x.kind = .spined) ∧ ∃ i, SoundsIn xs i j) := by
  have hF := (fillVoice_facts xs.length xs rfl h).1 ys hy
  refine ⟨hF.len, fun j x y hx hyj => ?_⟩
  obtain ⟨h1, h2, h3⟩ := hF.kept j x y hx hyj
  exact ⟨h1, h2, h3, hF.only j x y hx hyj⟩

/-- C125: a voice without gaps has a token in every line of notes. -/
theorem no_holes (xs ys : List NTSlice) (h : TimedLines xs) (hy : fillNulls xs = some ys)
    (hg : ∀ (j : Nat) (x : NTSlice), xs[j]? = some x → x.kind = .notes → x.cell = none → ∃ i, SoundsIn xs i j)
    (j : Nat) (y : NTSlice) (hyj : ys[j]? = some y) (hk : y.kind = .notes) : y.cell ≠ none := by
  have hF := (fillVoice_facts xs.length xs rfl h).1 ys hy
  have hj : j < xs.length := by
    have := (List.getElem?_eq_some_iff.1 hyj).1
    rw [hF.len] at this
    exact this
  have hx : xs[j]? = some xs[j] := List.getElem?_eq_getElem hj
  obtain ⟨h1, _, h3⟩ := hF.kept j _ y hx hyj
  cases hc : xs[j].cell with
  | some c => rw [h3 c hc]; simp
  | none =>
    obtain ⟨i, hs⟩ := hg j _ hx (h1.symm.trans hk) hc
    rw [hF.fills i j _ y hs hx hyj (h1.symm.trans hk)]
    simp

/-- The claim is false for grids in which an interpretation has a time of its own: a half note is then taken to last
longer, and writing the next note fails although no notes overlap. -/
theorem own_time_breaks :
    fillNulls [⟨.notes, 0, some (.note 2)⟩, ⟨.notes, 1, none⟩, ⟨.spined, 3/2, none⟩, ⟨.notes, 2, some (.note 1)⟩] = none ∧
    fillNulls [⟨.notes, 0, some (.note 2)⟩, ⟨.notes, 1, none⟩, ⟨.spined, 2, none⟩, ⟨.notes, 2, some (.note 1)⟩] =
      some [⟨.notes, 0, some (.note 2)⟩, ⟨.notes, 1, some .null⟩, ⟨.spined, 2, none⟩, ⟨.notes, 2, some (.note 1)⟩] := by
  constructor <;> decide +kernel

/-! ## The hypotheses are met -/

/-- A dotted half note over other voices' lines, with a clef change and a global comment, then a quarter. -/
def nullVoice : List NTSlice :=
  [⟨.spined, 0, some .other⟩, ⟨.notes, 0, some (.note 3)⟩, ⟨.notes, 1, none⟩, ⟨.global, 2, none⟩, ⟨.spined, 2, none⟩,
   ⟨.grace, 2, none⟩, ⟨.notes, 2, none⟩, ⟨.notes, 3, some (.note 1)⟩]

example : TimedLines nullVoice ∧ SoundsIn nullVoice 1 6 ∧ fillNulls nullVoice =
    some [⟨.spined, 0, some .other⟩, ⟨.notes, 0, some (.note 3)⟩, ⟨.notes, 1, some .null⟩, ⟨.global, 2, none⟩,
      ⟨.spined, 2, some .null⟩, ⟨.grace, 2, none⟩, ⟨.notes, 2, some .null⟩, ⟨.notes, 3, some (.note 1)⟩] := by
  refine ⟨?_, ⟨by decide, _, _, 3, rfl, rfl, rfl, rfl, by norm_num⟩, by decide +kernel⟩
  unfold TimedLines nullVoice
  simp only [List.isChain_cons_cons, List.isChain_singleton]
  norm_num

example : NotesOverlap [⟨.notes, 0, some (.note 2)⟩, ⟨.notes, 1, some (.note 1)⟩] :=
  ⟨0, 1, _, ⟨by decide, _, _, 2, rfl, rfl, rfl, rfl, by norm_num⟩, rfl, rfl, _, rfl, by decide⟩

end C21
