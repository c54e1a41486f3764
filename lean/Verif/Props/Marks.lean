import Verif.Spec.Marks
import Verif.Lemmas.Tac
/-
C73: the display of tuplets survives when the tuplets of each measure begin in the order of voices, and is lost otherwise.
C74: pedal marks are read back if they are apart, and two that touch become one.
-/
namespace C21

/-! ### C73 -/

theorem displayTokens_read (s : TupletState) (e : TupletStart) :
    (displayTokens s e).foldl readDisplay s = displayState s e := by
  obtain ⟨v, a, b⟩ := e
  obtain ⟨c, d⟩ := s
  cases a <;> cases b <;> cases c <;> cases d <;> rfl

theorem displayState_look (s : TupletState) (e : TupletStart) : readTupletStart (displayState s e) = e.look := by
  obtain ⟨v, a, b⟩ := e
  obtain ⟨c, d⟩ := s
  cases a <;> cases b <;> cases c <;> cases d <;> rfl

theorem readLayer_tokens (s : TupletState) (toks : List Str) (rest : List VoiceItem) :
    readLayer s (toks.map VoiceItem.token ++ rest) = readLayer (toks.foldl readDisplay s) rest := by
  induction toks generalizing s with
  | nil => rfl
  | cons t toks ih => rw [List.map_cons, List.cons_append, readLayer, ih, List.foldl_cons]

theorem writeTuplets_append (s : TupletState) (A B : List TupletStart) :
    writeTuplets s (A ++ B) = writeTuplets s A ++ writeTuplets (A.foldl displayState s) B := by
  induction A generalizing s with
  | nil => rfl
  | cons a A ih => simp only [List.cons_append, writeTuplets, ih, List.foldl_cons, List.append_assoc]

theorem readLayer_writeTuplets (s : TupletState) (A : List TupletStart) :
    readLayer s ((writeTuplets s A).map Prod.snd) = (A.map TupletStart.look, A.foldl displayState s) := by
  induction A generalizing s with
  | nil => rfl
  | cons a A ih =>
    rw [writeTuplets, List.map_append, List.map_map, List.map_cons]
    have h : List.map (Prod.snd ∘ fun t => (a.voice, VoiceItem.token t)) (displayTokens s a)
        = (displayTokens s a).map VoiceItem.token := rfl
    rw [h, readLayer_tokens, displayTokens_read, readLayer, ih, displayState_look, List.map_cons, List.foldl_cons]

theorem writeTuplets_voice (s : TupletState) (A : List TupletStart) : ∀ x ∈ writeTuplets s A, ∃ e ∈ A, e.voice = x.1 := by
  induction A generalizing s with
  | nil => intro x hx; simp [writeTuplets] at hx
  | cons a A ih =>
    intro x hx
    rw [writeTuplets, List.mem_append, List.mem_cons, List.mem_map] at hx
    rcases hx with ⟨t, _, rfl⟩ | rfl | hx
    · exact ⟨a, List.mem_cons_self, rfl⟩
    · exact ⟨a, List.mem_cons_self, rfl⟩
    · obtain ⟨e, he, hv⟩ := ih _ x hx
      exact ⟨e, List.mem_cons_of_mem _ he, hv⟩

theorem layerItems_all (s : TupletState) (v : Nat) (A : List TupletStart) (h : ∀ e ∈ A, e.voice = v) :
    layerItems v (writeTuplets s A) = (writeTuplets s A).map Prod.snd := by
  unfold layerItems
  rw [List.filter_eq_self.2]
  intro x hx
  obtain ⟨e, he, hv⟩ := writeTuplets_voice s A x hx
  simp [← hv, h e he]

theorem layerItems_none (s : TupletState) (v : Nat) (A : List TupletStart) (h : ∀ e ∈ A, e.voice ≠ v) :
    layerItems v (writeTuplets s A) = [] := by
  unfold layerItems
  rw [List.filter_eq_nil_iff.2, List.map_nil]
  intro x hx
  obtain ⟨e, he, hv⟩ := writeTuplets_voice s A x hx
  simp [← hv, h e he]

theorem layerItems_append (v : Nat) (a b : List (Nat × VoiceItem)) :
    layerItems v (a ++ b) = layerItems v a ++ layerItems v b := by
  unfold layerItems
  rw [List.filter_append, List.map_append]

/-- A list in the order of voices, none below `k`: first those of `k`, then the others. -/
theorem voices_split (k : Nat) (B : List TupletStart) (hp : VoicesInOrder B) (hk : ∀ e ∈ B, k ≤ e.voice) :
    B = B.filter (fun e => e.voice = k) ++ B.filter (fun e => k < e.voice) := by
  unfold VoicesInOrder at hp
  induction B with
  | nil => rfl
  | cons b B ih =>
    rw [List.pairwise_cons] at hp
    have hB := ih hp.2 (fun e he => hk e (List.mem_cons_of_mem _ he))
    have hb := hk b List.mem_cons_self
    by_cases h : b.voice = k
    · rw [List.filter_cons_of_pos (by simpa using h), List.filter_cons_of_neg (by simp [h]), List.cons_append, ← hB]
    · have h1 : k < b.voice := by omega
      have hno : B.filter (fun e => e.voice = k) = [] := by
        rw [List.filter_eq_nil_iff]
        intro e he
        have := hp.1 e he
        simp
        omega
      rw [hno, List.nil_append] at hB
      rw [List.filter_cons_of_neg (by simpa using h), List.filter_cons_of_pos (by simpa using h1), hno, List.nil_append,
        ← hB]

theorem readLayers_spec (n : Nat) : ∀ (k : Nat) (s : TupletState) (B : List TupletStart) (m : List (Nat × VoiceItem)),
    VoicesInOrder B → (∀ e ∈ B, k ≤ e.voice ∧ e.voice < k + n) →
    (∀ v, k ≤ v → layerItems v m = layerItems v (writeTuplets s B)) →
    readLayers m s (List.range' k n) =
      ((List.range' k n).map (fun v => (B.filter (fun e => e.voice = v)).map TupletStart.look), B.foldl displayState s) := by
  induction n with
  | zero =>
    intro k s B m _ hb _
    cases B with
    | nil => rfl
    | cons b B =>
      have := hb b List.mem_cons_self
      omega
  | succ n ih =>
    intro k s B m hp hb hm
    have hsplit := voices_split k B hp (fun e he => (hb e he).1)
    have hA : ∀ e ∈ B.filter (fun e => e.voice = k), e.voice = k := fun e he => by simpa using (List.mem_filter.1 he).2
    have hC : ∀ e ∈ B.filter (fun e => k < e.voice), k < e.voice := fun e he => by simpa using (List.mem_filter.1 he).2
    have hw : ∀ v, layerItems v (writeTuplets s B) = layerItems v (writeTuplets s (B.filter (fun e => e.voice = k)))
        ++ layerItems v (writeTuplets ((B.filter (fun e => e.voice = k)).foldl displayState s)
          (B.filter (fun e => k < e.voice))) := by
      intro v
      rw [← layerItems_append, ← writeTuplets_append, ← hsplit]
    have hk : layerItems k m = (writeTuplets s (B.filter (fun e => e.voice = k))).map Prod.snd := by
      rw [hm k (le_refl _), hw, layerItems_all s k _ hA, layerItems_none _ k _ (fun e he => by have := hC e he; omega),
        List.append_nil]
    have hrest := ih (k + 1) ((B.filter (fun e => e.voice = k)).foldl displayState s) (B.filter (fun e => k < e.voice)) m
      (List.Pairwise.sublist List.filter_sublist hp)
      (fun e he => by
        have h1 := hC e he
        have h2 := hb e (List.mem_filter.1 he).1
        omega)
      (fun v hv => by
        rw [hm v (by omega), hw, layerItems_none s v _ (fun e he => by have := hA e he; omega), List.nil_append])
    rw [List.range'_succ, readLayers, hk, readLayer_writeTuplets, hrest, List.map_cons, ← List.foldl_append, ← hsplit]
    simp only [Prod.mk.injEq, List.cons.injEq, true_and, and_true]
    apply List.map_congr_left
    intro v hv
    rw [List.mem_range'] at hv
    obtain ⟨i, _, rfl⟩ := hv
    rw [List.filter_filter]
    congr 1
    apply List.filter_congr
    intro e _
    rw [Bool.eq_iff_iff]
    simp only [Bool.and_eq_true, decide_eq_true_eq]
    omega

/-- C73: the tuplets of a staff, in any number of measures and voices, look after export and import as before, if those of each
measure begin in the order of their voices. -/
theorem tuplets_look_the_same_partial (n : Nat) (ms : List (List TupletStart)) (hv : ∀ m ∈ ms, ∀ e ∈ m, e.voice < n)
    (ho : ∀ m ∈ ms, VoicesInOrder m) :
    readStaffTuplets n TupletState.init (writeStaffTuplets TupletState.init ms) = ms.map (looks n) := by
  generalize TupletState.init = s
  induction ms generalizing s with
  | nil => rfl
  | cons m ms ih =>
    have h := readLayers_spec n 0 s m (writeTuplets s m) (ho m List.mem_cons_self)
      (fun e he => ⟨Nat.zero_le _, by have := hv m List.mem_cons_self e he; omega⟩) (fun _ _ => rfl)
    rw [← List.range_eq_range'] at h
    rw [writeStaffTuplets, readStaffTuplets, h, List.map_cons]
    dsimp only
    have := ih (fun m' hm' => hv m' (List.mem_cons_of_mem _ hm')) (fun m' hm' => ho m' (List.mem_cons_of_mem _ hm'))
      (m.foldl displayState s)
    rw [writeTupletsState, this]
    rfl

/-- Both kinds of hiding, in two measures and two voices. -/
example : (∀ m ∈ [[⟨0, true, false⟩, ⟨0, false, true⟩, ⟨1, false, false⟩], [⟨1, true, true⟩, ⟨1, false, false⟩]],
    ∀ e ∈ m, TupletStart.voice e < 2) ∧
    ∀ m ∈ [[⟨0, true, false⟩, ⟨0, false, true⟩, ⟨1, false, false⟩], [⟨1, true, true⟩, ⟨1, false, false⟩]],
      VoicesInOrder m := by
  unfold VoicesInOrder
  decide

example : readStaffTuplets 2 TupletState.init (writeStaffTuplets TupletState.init
    [[⟨0, true, false⟩, ⟨0, false, true⟩, ⟨1, false, false⟩], [⟨1, true, true⟩, ⟨1, false, false⟩]])
    = [[[(true, true), (false, true)], [(false, false)]], [[], [(true, true), (false, false)]]] := by decide

/-- C73 fails when a tuplet of the second voice begins first: two tuplets without number in one measure, and the later one, in
the first voice, comes back with its number. -/
theorem second_voice_hides_too_late :
    readStaffTuplets 2 TupletState.init (writeStaffTuplets TupletState.init [[⟨1, true, true⟩, ⟨0, true, true⟩]])
      ≠ [looks 2 [⟨1, true, true⟩, ⟨0, true, true⟩]] := by decide

/-- And a measure in which voices take turns leaves the importer in another state than the exporter: the tuplet of the next
measure loses its number. -/
theorem hiding_leaks_to_next_measure :
    readStaffTuplets 2 TupletState.init (writeStaffTuplets TupletState.init
        [[⟨1, true, true⟩, ⟨0, false, false⟩], [⟨0, false, false⟩]])
      = [[[(false, false)], [(true, true)]], [[(true, true)], []]] := by decide

/-! ### C74 -/

/-- The look-around when times never go down. -/
theorem takeWhile_time {p : Rat × Str → Bool} (t : Rat) (l : List (Rat × Str)) (h : (l.map Prod.fst).Pairwise (· ≤ ·))
    (ht : ∀ x ∈ l, t ≤ x.1) :
    (l.takeWhile (fun x => x.1 = t)).any p = l.any (fun x => decide (x.1 = t) && p x) := by
  induction l with
  | nil => rfl
  | cons a l ih =>
    rw [List.map_cons, List.pairwise_cons] at h
    have hl := ih h.2 (fun x hx => ht x (List.mem_cons_of_mem _ hx))
    by_cases ha : a.1 = t
    · rw [List.takeWhile_cons_of_pos (by simpa using ha), List.any_cons, List.any_cons, hl]
      simp [ha]
    · rw [List.takeWhile_cons_of_neg (by simpa using ha)]
      have hno : l.any (fun x => decide (x.1 = t) && p x) = false := by
        rw [List.any_eq_false]
        intro x hx
        have h1 := h.1 x.1 (List.mem_map_of_mem hx)
        have h2 := ht a List.mem_cons_self
        have : x.1 ≠ t := fun he => ha (le_antisymm (he ▸ h1) h2)
        simp [this]
      rw [List.any_cons, hno]
      simp [ha]

theorem takeWhile_time_rev {p : Rat × Str → Bool} (t : Rat) (l : List (Rat × Str))
    (h : (l.map Prod.fst).Pairwise (· ≥ ·)) (ht : ∀ x ∈ l, x.1 ≤ t) :
    (l.takeWhile (fun x => x.1 = t)).any p = l.any (fun x => decide (x.1 = t) && p x) := by
  induction l with
  | nil => rfl
  | cons a l ih =>
    rw [List.map_cons, List.pairwise_cons] at h
    have hl := ih h.2 (fun x hx => ht x (List.mem_cons_of_mem _ hx))
    by_cases ha : a.1 = t
    · rw [List.takeWhile_cons_of_pos (by simpa using ha), List.any_cons, List.any_cons, hl]
      simp [ha]
    · rw [List.takeWhile_cons_of_neg (by simpa using ha)]
      have hno : l.any (fun x => decide (x.1 = t) && p x) = false := by
        rw [List.any_eq_false]
        intro x hx
        have h1 := h.1 x.1 (List.mem_map_of_mem hx)
        have h2 := ht a List.mem_cons_self
        have : x.1 ≠ t := fun he => ha (le_antisymm h2 (he ▸ h1))
        simp [this]
      rw [List.any_cons, hno]
      simp [ha]

/-- Only the tokens about the pedal matter. -/
theorem any_pedal {t : Rat} {w : Str} (hw : isPedalTok w) (l : List (Rat × Str)) :
    l.any (fun x => decide (x.1 = t) && decide (x.2 = w))
      = (l.filter (fun x => isPedalTok x.2)).any (fun x => decide (x.1 = t) && decide (x.2 = w)) := by
  induction l with
  | nil => rfl
  | cons a l ih =>
    by_cases h : isPedalTok a.2
    · rw [List.filter_cons_of_pos (by simpa using h), List.any_cons, List.any_cons, ih]
    · have hn : a.2 ≠ w := fun he => h (he ▸ hw)
      rw [List.filter_cons_of_neg (by simpa using h), List.any_cons, ih]
      simp [hn]

theorem ped_isPedal : isPedalTok "*ped".toList := Or.inl rfl
theorem xped_isPedal : isPedalTok "*Xped".toList := Or.inr rfl

/-- One step, as the specification sees it: what else happens at that time. -/
def pedalStepSpec (before : List (Rat × Str)) (x : Rat × Str) (after : List (Rat × Str)) :
    Option PedalMark × List PedalMark → Option PedalMark × List PedalMark
  | (cur, done) =>
    if x.2 = "*ped".toList then
      match cur with
      | some m => (some (m.bounce x.1 (before.any (fun y => decide (y.1 = x.1) && decide (y.2 = "*Xped".toList)))), done)
      | none => (some ⟨x.1, [], none⟩, done)
    else if x.2 = "*Xped".toList then
      if after.any (fun y => decide (y.1 = x.1) && decide (y.2 = "*ped".toList)) then (cur, done)
      else match cur with
        | none => (none, done)
        | some m => (none, done ++ [m.close x.1])
    else (cur, done)

def readPedalsSpec (before : List (Rat × Str)) :
    Option PedalMark × List PedalMark → List (Rat × Str) → Option PedalMark × List PedalMark
  | st, [] => st
  | st, x :: after => readPedalsSpec (x :: before) (pedalStepSpec before x after st) after

theorem readPedals_filter (l : List (Rat × Str)) : ∀ (before : List (Rat × Str)) (st : Option PedalMark × List PedalMark),
    ((before.reverse ++ l).map Prod.fst).Pairwise (· ≤ ·) →
    readPedalsFrom before st l
      = readPedalsSpec (before.filter (fun x => isPedalTok x.2)) st (l.filter (fun x => isPedalTok x.2)) := by
  induction l with
  | nil => intro before st _; rw [readPedalsFrom]; rfl
  | cons x l ih =>
    intro before st h
    obtain ⟨cur, done⟩ := st
    rw [readPedalsFrom, ih (x :: before) _ (by simpa using h)]
    have h0 := h
    rw [List.map_append, List.pairwise_append] at h
    obtain ⟨hb, hxl, hbx⟩ := h
    rw [List.map_cons, List.pairwise_cons] at hxl
    have hbef : bounceBefore x.1 before
        = (before.filter (fun y => isPedalTok y.2)).any (fun y => decide (y.1 = x.1) && decide (y.2 = "*Xped".toList)) := by
      unfold bounceBefore
      rw [takeWhile_time_rev, any_pedal xped_isPedal]
      · rw [List.map_reverse, List.pairwise_reverse] at hb
        exact hb
      · intro y hy
        exact hbx y.1 (List.mem_map_of_mem (List.mem_reverse.2 hy)) x.1 (by simp)
    have haft : bounceAfter x.1 l
        = (l.filter (fun y => isPedalTok y.2)).any (fun y => decide (y.1 = x.1) && decide (y.2 = "*ped".toList)) := by
      unfold bounceAfter
      rw [takeWhile_time, any_pedal ped_isPedal]
      · exact hxl.2
      · intro y hy
        exact hxl.1 y.1 (List.mem_map_of_mem hy)
    by_cases hx : isPedalTok x.2
    · rw [List.filter_cons_of_pos (by simpa using hx), List.filter_cons_of_pos (by simpa using hx), readPedalsSpec]
      congr 1
      unfold pedalStep pedalStepSpec
      dsimp only
      rw [hbef, haft]
      cases cur <;> rfl
    · have h1 : x.2 ≠ "*ped".toList := fun he => hx (Or.inl he)
      have h2 : x.2 ≠ "*Xped".toList := fun he => hx (Or.inr he)
      rw [List.filter_cons_of_neg (by simpa using hx), List.filter_cons_of_neg (by simpa using hx)]
      congr 1
      unfold pedalStep
      dsimp only
      rw [if_neg h1, if_neg h2]

theorem putBefore_eq (t : Rat) (toks : List Str) : putBefore t toks = (toks.map (fun w => (t, w))).reverse := by
  unfold putBefore
  have : ∀ acc, toks.foldl (fun above w => (t, w) :: above) acc = (toks.map (fun w => (t, w))).reverse ++ acc := by
    induction toks with
    | nil => intro acc; rfl
    | cons a toks ih => intro acc; rw [List.foldl_cons, ih, List.map_cons, List.reverse_cons]; simp
  rw [this, List.append_nil]

/-- Nothing of `l` happens at time `t`. -/
theorem any_time_false {p : Rat × Str → Bool} {t : Rat} {l : List (Rat × Str)} (h : ∀ x ∈ l, x.1 ≠ t) :
    l.any (fun y => decide (y.1 = t) && p y) = false := by
  rw [List.any_eq_false]
  intro x hx
  simp [h x hx]

theorem writePedal_times (m : PedalMark) : ∀ x ∈ writePedal m, x.1 ∈ m.times := by
  intro x hx
  unfold writePedal at hx
  rw [List.mem_append, List.mem_append] at hx
  unfold PedalMark.times
  rw [List.mem_append, List.mem_cons]
  rcases hx with (hx | hx) | hx
  · left; left
    rw [putBefore_eq] at hx
    simp at hx
    exact hx ▸ rfl
  · left; right
    rw [List.mem_flatMap] at hx
    obtain ⟨b, hb, hx⟩ := hx
    rw [putBefore_eq, List.mem_reverse, List.mem_map] at hx
    obtain ⟨w, _, rfl⟩ := hx
    exact List.mem_map_of_mem hb
  · right
    cases hs : m.stop with
    | none => rw [hs] at hx; simp at hx
    | some t =>
      rw [hs, Option.map_some, Option.getD_some, putBefore_eq] at hx
      simp at hx
      simp [hx]

/-- The bounces of a mark. -/
theorem read_bounces (bs : List (Rat × Bool)) : ∀ (before rest : List (Rat × Str)) (m : PedalMark) (done : List PedalMark),
    (bs.map Prod.fst).Pairwise (· < ·) → (∀ x ∈ before, ∀ b ∈ bs, x.1 < b.1) →
    ∃ before', (∀ x ∈ before', x ∈ before ∨ x.1 ∈ bs.map Prod.fst) ∧
      readPedalsSpec before (some m, done) (bs.flatMap (fun b => putBefore b.1 (bounceTokens b.2)) ++ rest)
        = readPedalsSpec before' (some { m with bounces := m.bounces ++ bs }, done) rest := by
  induction bs with
  | nil =>
    intro before rest m done _ _
    exact ⟨before, fun x hx => Or.inl hx, by simp⟩
  | cons b bs ih =>
    intro before rest m done hp hb
    obtain ⟨t, up⟩ := b
    rw [List.map_cons, List.pairwise_cons] at hp
    have hne : ∀ x ∈ before, x.1 ≠ t := fun x hx => ne_of_lt (hb x hx _ List.mem_cons_self)
    cases up with
    | true =>
      obtain ⟨before', h1, h2⟩ := ih ((t, "*ped".toList) :: (t, "*Xped".toList) :: before) rest
        (m.bounce t true) done hp.2 (by
          intro x hx c hc
          have hc' := hp.1 c.1 (List.mem_map_of_mem hc)
          rcases List.mem_cons.1 hx with rfl | hx
          · exact hc'
          · rcases List.mem_cons.1 hx with rfl | hx
            · exact hc'
            · exact hb x hx c (List.mem_cons_of_mem _ hc))
      refine ⟨before', ?_, ?_⟩
      · intro x hx
        rcases h1 x hx with h | h
        · rcases List.mem_cons.1 h with rfl | h
          · exact Or.inr List.mem_cons_self
          · rcases List.mem_cons.1 h with rfl | h
            · exact Or.inr List.mem_cons_self
            · exact Or.inl h
        · exact Or.inr (List.mem_cons_of_mem _ h)
      · have hw : putBefore t (bounceTokens true) = [(t, "*Xped".toList), (t, "*ped".toList)] := rfl
        rw [List.flatMap_cons, hw, List.append_assoc, List.cons_append, List.cons_append, List.nil_append,
          readPedalsSpec, readPedalsSpec]
        have s1 : pedalStepSpec before (t, "*Xped".toList)
            ((t, "*ped".toList) :: (List.flatMap (fun b => putBefore b.1 (bounceTokens b.2)) bs ++ rest)) (some m, done)
            = (some m, done) := by
          unfold pedalStepSpec
          dsimp only
          rw [if_neg (by decide), if_pos rfl, if_pos (by simp)]
        have s2 : pedalStepSpec ((t, "*Xped".toList) :: before) (t, "*ped".toList)
            (List.flatMap (fun b => putBefore b.1 (bounceTokens b.2)) bs ++ rest) (some m, done)
            = (some (m.bounce t true), done) := by
          unfold pedalStepSpec
          dsimp only
          rw [if_pos rfl]
          simp
        rw [s1, s2, h2]
        simp [PedalMark.bounce]
    | false =>
      obtain ⟨before', h1, h2⟩ := ih ((t, "*ped".toList) :: before) rest (m.bounce t false) done hp.2 (by
          intro x hx c hc
          have hc' := hp.1 c.1 (List.mem_map_of_mem hc)
          rcases List.mem_cons.1 hx with rfl | hx
          · exact hc'
          · exact hb x hx c (List.mem_cons_of_mem _ hc))
      refine ⟨before', ?_, ?_⟩
      · intro x hx
        rcases h1 x hx with h | h
        · rcases List.mem_cons.1 h with rfl | h
          · exact Or.inr List.mem_cons_self
          · exact Or.inl h
        · exact Or.inr (List.mem_cons_of_mem _ h)
      · have hw : putBefore t (bounceTokens false) = [(t, "*ped".toList)] := rfl
        rw [List.flatMap_cons, hw, List.append_assoc, List.cons_append, List.nil_append, readPedalsSpec]
        have s2 : pedalStepSpec before (t, "*ped".toList)
            (List.flatMap (fun b => putBefore b.1 (bounceTokens b.2)) bs ++ rest) (some m, done)
            = (some (m.bounce t false), done) := by
          unfold pedalStepSpec
          dsimp only
          rw [if_pos rfl, any_time_false hne]
        rw [s2, h2]
        simp [PedalMark.bounce]

/-- All marks. -/
theorem read_marks (ms : List PedalMark) : ∀ (before : List (Rat × Str)) (done : List PedalMark), Spaced ms →
    (∀ x ∈ before, ∀ m ∈ ms, x.1 < m.start) →
    readPedalsSpec before (none, done) (ms.flatMap writePedal) = (none, done ++ ms) := by
  induction ms with
  | nil => intro before done _ _; simp [readPedalsSpec]
  | cons m ms ih =>
    intro before done hs hb
    obtain ⟨start, bounces, stop⟩ := m
    have hsome := hs.ends _ List.mem_cons_self
    obtain ⟨e, rfl⟩ := Option.isSome_iff_exists.1 hsome
    have hap := hs.apart
    rw [List.flatMap_cons, List.pairwise_append] at hap
    obtain ⟨h1, h2, h3⟩ := hap
    simp only [PedalMark.times, Option.toList_some, List.cons_append, List.pairwise_cons, List.pairwise_append] at h1
    obtain ⟨hstart, hbn, -, hend⟩ := h1
    have hw : writePedal ⟨start, bounces, some e⟩ = (start, "*ped".toList) ::
        (bounces.flatMap (fun b => putBefore b.1 (bounceTokens b.2)) ++ [(e, "*Xped".toList)]) := rfl
    obtain ⟨before', hb', hread⟩ := read_bounces bounces ((start, "*ped".toList) :: before)
      ((e, "*Xped".toList) :: ms.flatMap writePedal) ⟨start, [], none⟩ done hbn (by
        intro x hx b hbm
        have hsb := hstart b.1 (List.mem_append_left _ (List.mem_map_of_mem hbm))
        rcases List.mem_cons.1 hx with rfl | hx
        · exact hsb
        · exact lt_trans (hb x hx _ List.mem_cons_self) hsb)
    rw [List.flatMap_cons, hw, List.cons_append, List.append_assoc, List.cons_append, List.nil_append, readPedalsSpec]
    have s1 : pedalStepSpec before (start, "*ped".toList)
        (bounces.flatMap (fun b => putBefore b.1 (bounceTokens b.2)) ++ (e, "*Xped".toList) :: ms.flatMap writePedal)
        (none, done) = (some ⟨start, [], none⟩, done) := by
      unfold pedalStepSpec
      dsimp only
      rw [if_pos rfl]
    rw [s1, hread, readPedalsSpec]
    have hafter : ∀ x ∈ ms.flatMap writePedal, e < x.1 := by
      intro x hx
      obtain ⟨m', hm', hx⟩ := List.mem_flatMap.1 hx
      exact h3 e (by simp [PedalMark.times]) x.1 (List.mem_flatMap.2 ⟨m', hm', writePedal_times m' x hx⟩)
    have s2 : pedalStepSpec before' (e, "*Xped".toList) (ms.flatMap writePedal)
        (some { (⟨start, [], none⟩ : PedalMark) with bounces := [] ++ bounces }, done)
        = (none, done ++ [⟨start, bounces, some e⟩]) := by
      unfold pedalStepSpec
      dsimp only
      rw [if_neg (by decide), if_pos rfl, any_time_false (fun x hx => ne_of_gt (hafter x hx))]
      rfl
    have s2' := s2
    dsimp only at s2' ⊢
    rw [s2', ih]
    · simp
    · exact ⟨fun m' hm' => hs.ends m' (List.mem_cons_of_mem _ hm'), h2⟩
    · intro x hx m' hm'
      have hm1 : m'.start ∈ ms.flatMap PedalMark.times := List.mem_flatMap.2 ⟨m', hm', by simp [PedalMark.times]⟩
      have hse := hstart e (by simp)
      have hem := h3 e (by simp [PedalMark.times]) _ hm1
      rcases List.mem_cons.1 hx with rfl | hx
      · exact hem
      · rcases hb' x hx with hx | hx
        · rcases List.mem_cons.1 hx with rfl | hx
          · exact lt_trans hse hem
          · exact hb x hx m' (List.mem_cons_of_mem _ hm')
        · exact h3 x.1 (by simp [PedalMark.times]; right; left; simpa using hx) _ hm1

/-- C74: the pedal marks of a staff, with all their bounces, are read back from what was written, whatever other tokens stand
in between, if everything about the pedal happens at different times. -/
theorem pedals_read_back_partial (ms : List PedalMark) (hs : Spaced ms) (layer : List (Rat × Str))
    (hl : LayerWith (ms.flatMap writePedal) layer) : readPedals layer = ms := by
  unfold readPedals
  rw [readPedals_filter layer [] _ (by simpa using hl.sorted), hl.pedals, List.filter_nil,
    read_marks ms [] [] hs (by simp)]
  simp

example : Spaced [⟨0, [(1, true), (2, false)], some 3⟩, ⟨4, [], some 5⟩] := by
  refine ⟨by decide, by decide +kernel⟩

example : LayerWith ([⟨0, [(1, true)], some 3⟩].flatMap writePedal)
    [(0, "*ped".toList), (0, "4c".toList), (1, "*Xped".toList), (1, "*clefG2".toList), (1, "*ped".toList),
      (1, "2d".toList), (3, "*Xped".toList)] := by
  refine ⟨by decide +kernel, by decide +kernel⟩

/-- C74 fails when one mark ends where the next one begins: they come back as one mark with a bounce. -/
theorem adjacent_pedals_merge :
    readPedals ([⟨0, [], some 2⟩, ⟨2, [], some 4⟩].flatMap writePedal) = [⟨0, [(2, true)], some 4⟩] := by decide +kernel

/-- The state of the reader is in order up to time `t`. -/
structure PedalsUpTo (t : Rat) (st : Option PedalMark × List PedalMark) : Prop where
  closed : ∀ m ∈ st.2, m.stop.isSome
  opened : ∀ m ∈ st.1, m.stop = none
  order : ((st.2 ++ st.1.toList).flatMap PedalMark.times).Pairwise (· ≤ ·)
  past : ∀ x ∈ (st.2 ++ st.1.toList).flatMap PedalMark.times, x ≤ t

theorem pedalStep_inv {t : Rat} {st : Option PedalMark × List PedalMark} (h : PedalsUpTo t st) (before after)
    (x : Rat × Str) (hx : t ≤ x.1) : PedalsUpTo x.1 (pedalStep before x after st) := by
  obtain ⟨cur, done⟩ := st
  obtain ⟨h1, h2, h3, h4⟩ := h
  dsimp only at h1 h2 h3 h4
  have hpast : ∀ y ∈ (done ++ cur.toList).flatMap PedalMark.times, y ≤ x.1 := fun y hy => le_trans (h4 y hy) hx
  have hsame : PedalsUpTo x.1 (cur, done) := ⟨h1, h2, h3, hpast⟩
  unfold pedalStep
  dsimp only
  by_cases c1 : x.2 = "*ped".toList
  · rw [if_pos c1]
    cases cur with
    | none =>
      refine ⟨h1, ?_, ?_, ?_⟩
      · intro m hm
        cases hm
        rfl
      · simp only [Option.toList_none, List.append_nil] at h3 hpast
        rw [Option.toList_some, List.flatMap_append, List.pairwise_append]
        refine ⟨h3, by simp [PedalMark.times], ?_⟩
        intro a ha b hb
        simp [PedalMark.times] at hb
        rw [hb]
        exact hpast a ha
      · simp only [Option.toList_none, List.append_nil] at h3 hpast
        intro y hy
        rw [Option.toList_some, List.flatMap_append, List.mem_append] at hy
        rcases hy with hy | hy
        · exact hpast y hy
        · simp [PedalMark.times] at hy
          exact le_of_eq hy
    | some m =>
      have hn : m.stop = none := h2 m rfl
      have ht : ∀ b, (m.bounce x.1 b).times = m.times ++ [x.1] := by
        intro b
        simp [PedalMark.times, PedalMark.bounce, hn]
      simp only [Option.toList_some, List.flatMap_append, List.flatMap_cons, List.flatMap_nil, List.append_nil] at h3 hpast
      refine ⟨h1, ?_, ?_, ?_⟩
      · intro m' hm'
        cases hm'
        exact hn
      · simp only [Option.toList_some, List.flatMap_append, List.flatMap_cons, List.flatMap_nil, List.append_nil]
        rw [ht, ← List.append_assoc, List.pairwise_append]
        refine ⟨h3, by simp, ?_⟩
        intro a ha b hb
        rw [List.mem_singleton.1 hb]
        exact hpast a ha
      · intro y hy
        simp only [Option.toList_some, List.flatMap_append, List.flatMap_cons, List.flatMap_nil, List.append_nil] at hy
        rw [ht, ← List.append_assoc, List.mem_append] at hy
        rcases hy with hy | hy
        · exact hpast y hy
        · exact le_of_eq (List.mem_singleton.1 hy)
  · rw [if_neg c1]
    by_cases c2 : x.2 = "*Xped".toList
    · rw [if_pos c2]
      by_cases c3 : bounceAfter x.1 after
      · rw [if_pos c3]
        exact hsame
      · rw [if_neg c3]
        cases cur with
        | none => exact hsame
        | some m =>
          have hn : m.stop = none := h2 m rfl
          have ht : (m.close x.1).times = m.times ++ [x.1] := by
            simp [PedalMark.times, PedalMark.close, hn]
          simp only [Option.toList_some, List.flatMap_append, List.flatMap_cons, List.flatMap_nil, List.append_nil]
            at h3 hpast
          refine ⟨?_, ?_, ?_, ?_⟩
          · intro m' hm'
            rcases List.mem_append.1 hm' with hm' | hm'
            · exact h1 m' hm'
            · rw [List.mem_singleton.1 hm']
              rfl
          · intro m' hm'
            cases hm'
          · simp only [Option.toList_none, List.append_nil, List.flatMap_append, List.flatMap_cons, List.flatMap_nil]
            rw [ht, ← List.append_assoc, List.pairwise_append]
            refine ⟨h3, by simp, ?_⟩
            intro a ha b hb
            rw [List.mem_singleton.1 hb]
            exact hpast a ha
          · intro y hy
            simp only [Option.toList_none, List.append_nil, List.flatMap_append, List.flatMap_cons, List.flatMap_nil] at hy
            rw [ht, ← List.append_assoc, List.mem_append] at hy
            rcases hy with hy | hy
            · exact hpast y hy
            · exact le_of_eq (List.mem_singleton.1 hy)
    · rw [if_neg c2]
      exact hsame

theorem readPedalsFrom_inv (l : List (Rat × Str)) : ∀ (before) (t : Rat) (st : Option PedalMark × List PedalMark),
    PedalsUpTo t st → (l.map Prod.fst).Pairwise (· ≤ ·) → (∀ x ∈ l, t ≤ x.1) →
    ∃ t', PedalsUpTo t' (readPedalsFrom before st l) := by
  induction l with
  | nil => intro before t st h _ _; rw [readPedalsFrom]; exact ⟨t, h⟩
  | cons x l ih =>
    intro before t st h hp ht
    rw [List.map_cons, List.pairwise_cons] at hp
    rw [readPedalsFrom]
    exact ih _ x.1 _ (pedalStep_inv h before l x (ht x List.mem_cons_self)) hp.2
      (fun y hy => hp.1 y.1 (List.mem_map_of_mem hy))

/-- C74, for any tokens whatever: the marks made by the importer do not overlap, the bounces of each lie between its start and
its end, and only the last mark can be without end. -/
theorem pedals_in_order (layer : List (Rat × Str)) (h : (layer.map Prod.fst).Pairwise (· ≤ ·)) :
    ((readPedals layer).flatMap PedalMark.times).Pairwise (· ≤ ·) ∧
      ∀ m ∈ (readPedals layer).dropLast, m.stop.isSome := by
  cases layer with
  | nil =>
    have : readPedals [] = [] := by unfold readPedals; rw [readPedalsFrom]; rfl
    rw [this]
    simp
  | cons x l =>
    have hp := h
    rw [List.map_cons, List.pairwise_cons] at hp
    obtain ⟨t, ht⟩ := readPedalsFrom_inv (x :: l) [] x.1 (none, [])
      ⟨by simp, (fun m hm => by cases hm), by simp, by simp⟩ h (by
        intro y hy
        rcases List.mem_cons.1 hy with rfl | hy
        · exact le_refl _
        · exact hp.1 y.1 (List.mem_map_of_mem hy))
    refine ⟨ht.order, ?_⟩
    intro m hm
    unfold readPedals at hm
    cases hc : (readPedalsFrom [] (none, []) (x :: l)).1 with
    | none =>
      rw [hc, Option.toList_none, List.append_nil] at hm
      exact ht.closed m (List.dropLast_subset _ hm)
    | some c =>
      rw [hc, Option.toList_some, List.dropLast_concat] at hm
      exact ht.closed m hm

example : ([((0 : Rat), "*Xped".toList), (0, "*ped".toList), (1, "*ped".toList)].map Prod.fst).Pairwise (· ≤ ·) := by
  decide +kernel

end C21
