import Verif.Model.HumBeams
import Verif.Lemmas.Tac
import Mathlib.Data.List.Basic
import Mathlib.Data.List.Nodup
import Mathlib.Data.List.Range
import Mathlib.Data.List.Forall2
/-
C95: beams survive export to Humdrum and import.
-/
namespace C21

/-! ### Specification -/

/-- A note of a beamed group: how many beams its duration has, and whether only the first `k` beams go on to the next note. -/
abbrev HSig := Nat × Option Nat

/-- Does beam `l` (counted from 0) go from the note `x` to the next note `y`? -/
def joins (x y : HSig) (l : Nat) : Bool := decide (l < x.1) && decide (l < y.1) && x.2.all (fun k => decide (l < k))

/-- The type of one beam of a note: `l`, does it come from the note before; `r`, does it go on to the next note. A beam that does
neither is a hook, to the right except at the last note. -/
def humShould (l r last : Bool) : BeamT :=
  if l && r then .cont else if l then .stop else if r then .start else if last then .partL else .partR

/-- The beams of the notes of a group. -/
def humBeams : Option HSig → List HSig → List (List BeamT)
  | _, [] => []
  | prev, x :: r =>
    (List.range x.1).map (fun l => humShould (prev.any (fun p => joins p x l)) (r.head?.any (fun y => joins x y l)) r.isEmpty) ::
      humBeams (some x) r

/-- The secondary breaks that Humdrum can say: between two notes with the same number of beams; all beams of the first note come
from the note before it; and more beams than go over the break go on from the second note. -/
def breaksFine : Option HSig → List HSig → Prop
  | _, [] => True
  | prev, x :: r =>
    (∀ k, x.2 = some k → 1 ≤ k ∧ k < x.1 ∧ (∃ p, prev = some p ∧ ∀ l, l < x.1 → joins p x l = true) ∧
      ∃ y z r', r = y :: z :: r' ∧ y.1 = x.1 ∧ joins y z k = true) ∧ breaksFine (some x) r

/-- A note of a group, and the tokens between it and the next one. -/
structure HBNote where
  tok : HBTok
  brk : Option Nat
  after : List HBTok

/-- The note as it counts for the beams. -/
def HBNote.sig (n : HBNote) : HSig := (n.tok.beams, n.brk)

/-- A part of a layer: a token with no beam, or a group. -/
inductive HBSeg where
  | plain (t : HBTok)
  | group (ns : List HBNote)

/-- The tokens of a group. -/
def groupToks : List HBNote → List HBTok
  | [] => []
  | n :: r => n.tok :: (n.after ++ groupToks r)

/-- The tokens of a layer. -/
def segToks : List HBSeg → List HBTok
  | [] => []
  | .plain t :: r => t :: segToks r
  | .group ns :: r => groupToks ns ++ segToks r

/-- The beams of the tokens of a group, when the notes have the beams given. -/
def groupBeams : List HBNote → List (List BeamT) → List (List BeamT)
  | n :: r, b :: bs => b :: (n.after.map (fun _ => []) ++ groupBeams r bs)
  | _, _ => []

/-- The beams that the tokens of a layer should have. -/
def segBeams : List HBSeg → List (List BeamT)
  | [] => []
  | .plain _ :: r => [] :: segBeams r
  | .group ns :: r => groupBeams ns (humBeams none (ns.map HBNote.sig)) ++ segBeams r

/-- A note or chord with beams. -/
def NoteTok (t : HBTok) : Prop :=
  t.kind = .data ∧ t.grace = false ∧ t.rest = false ∧ t.hasDur = true ∧ t.noteObj = true ∧ 1 ≤ t.beams

/-- There is no L and no J in the token, if it is no grace note. -/
def NoBeamText (t : HBTok) : Prop := t.kind = .data → t.grace = false → countChar 'L' t.text = 0 ∧ countChar 'J' t.text = 0

/-- Something between the notes of a group: no data, a grace note or a rest. -/
def Between (t : HBTok) : Prop := NoBeamText t ∧ (t.kind = .data → t.grace = false → t.rest = true)

/-- The token's text has the beam signs that the writer makes for the beams. -/
def SaysBeams (n : HBNote) (bs : List BeamT) : Prop :=
  countChar 'L' n.tok.text = countChar 'L' (humBeamText bs) ∧ countChar 'J' n.tok.text = countChar 'J' (humBeamText bs)

/-- A group of at least two notes as the writer writes it: between the notes there may be grace notes, rests and tokens that are not
data, but no rest directly after a secondary break. -/
structure GroupOk (ns : List HBNote) : Prop where
  two : 2 ≤ ns.length
  notes : ∀ n ∈ ns, NoteTok n.tok
  after : ∀ n ∈ ns, ∀ t ∈ n.after, Between t
  last : ∀ n ∈ ns.getLast?, n.after = []
  broken : ∀ n ∈ ns, n.brk ≠ none → ∀ t ∈ n.after, t.kind = .data → t.grace = true
  fine : breaksFine none (ns.map HBNote.sig)
  text : List.Forall₂ SaysBeams ns (humBeams none (ns.map HBNote.sig))

/-- A layer as the writer writes it. -/
def LayerOk (segs : List HBSeg) : Prop :=
  ∀ s ∈ segs, match s with
    | .plain t => NoBeamText t
    | .group ns => GroupOk ns

/-! ### Counting the signs -/

theorem countChar_append' (c : Char) (a b : Str) : countChar c (a ++ b) = countChar c a + countChar c b := by
  simp [countChar]

theorem countChar_replicate' (c d : Char) (n : Nat) : countChar c (List.replicate n d) = if c = d then n else 0 := by
  by_cases h : c = d
  · subst h; simp [countChar]
  · simp [countChar, h, Ne.symm h]

theorem humBeamText_L (bs : List BeamT) : countChar 'L' (humBeamText bs) = bs.count .start := by
  simp [humBeamText, countChar_append', countChar_replicate']

theorem humBeamText_J (bs : List BeamT) : countChar 'J' (humBeamText bs) = bs.count .stop := by
  simp [humBeamText, countChar_append', countChar_replicate']

/-- How many beams go from one note to the next. -/
def joinN (x y : HSig) : Nat :=
  match x.2 with
  | none => min x.1 y.1
  | some k => min (min x.1 y.1) k

theorem joins_eq (x y : HSig) (l : Nat) : joins x y l = decide (l < joinN x y) := by
  obtain ⟨a, b⟩ := x
  cases b <;> simp [joins, joinN, lt_min_iff, Bool.and_assoc]

theorem joinN_le_left (x y : HSig) : joinN x y ≤ x.1 := by
  obtain ⟨a, b⟩ := x
  cases b <;> simp [joinN]

theorem joinN_le_right (x y : HSig) : joinN x y ≤ y.1 := by
  obtain ⟨a, b⟩ := x
  cases b <;> simp [joinN]

/-- The beams that come from the note before. -/
def leftN (prev : Option HSig) (x : HSig) : Nat := (prev.map (fun p => joinN p x)).getD 0

/-- The beams that go on to the next note. -/
def rightN (x : HSig) (r : List HSig) : Nat := (r.head?.map (fun y => joinN x y)).getD 0

theorem leftN_le (prev : Option HSig) (x : HSig) : leftN prev x ≤ x.1 := by
  cases prev <;> simp [leftN, joinN_le_right]

theorem rightN_le (x : HSig) (r : List HSig) : rightN x r ≤ x.1 := by
  cases r <;> simp [rightN, joinN_le_left]

theorem humBeams_cons (prev : Option HSig) (x : HSig) (r : List HSig) :
    humBeams prev (x :: r) =
      (List.range x.1).map (fun l => humShould (decide (l < leftN prev x)) (decide (l < rightN x r)) r.isEmpty) ::
        humBeams (some x) r := by
  rw [humBeams]
  congr 1
  apply List.map_congr_left
  intro l _
  cases prev <;> cases r <;> simp only [leftN, rightN, joins_eq, Option.any_some, Option.any_none, List.head?_cons, List.head?_nil,
    Option.map_some, Option.map_none, Option.getD_some, Option.getD_none, Nat.not_lt_zero, decide_false, List.isEmpty_cons,
    List.isEmpty_nil] <;> rfl

theorem count_range (b lo hi : Nat) (h : hi ≤ b) :
    ((List.range b).filter (fun l => decide (lo ≤ l ∧ l < hi))).length = hi - lo := by
  induction b generalizing hi with
  | zero =>
    have : hi = 0 := by omega
    simp [this]
  | succ b ih =>
    rw [List.range_succ, List.filter_append, List.length_append]
    by_cases hb : hi ≤ b
    · rw [ih hi hb]
      have : ¬ (b < hi) := by omega
      simp [this]
    · have hi' : hi = b + 1 := by omega
      subst hi'
      have e : (List.range b).filter (fun l => decide (lo ≤ l ∧ l < b + 1)) = (List.range b).filter (fun l => decide (lo ≤ l ∧ l < b)) := by
        apply List.filter_congr
        intro l hl
        have := List.mem_range.1 hl
        simp [this, Nat.lt_succ_of_lt this]
      rw [e, ih b (le_refl b)]
      by_cases hlo : lo ≤ b
      · simp [hlo]; omega
      · simp [hlo]; omega

theorem count_types (b cl cr : Nat) (last : Bool) (hl : cl ≤ b) (hr : cr ≤ b) :
    ((List.range b).map (fun l => humShould (decide (l < cl)) (decide (l < cr)) last)).count .start = cr - cl ∧
    ((List.range b).map (fun l => humShould (decide (l < cl)) (decide (l < cr)) last)).count .stop = cl - cr := by
  constructor
  · rw [← count_range b cl cr hr, List.count, List.countP_map, List.countP_eq_length_filter]
    congr 1
    apply List.filter_congr
    intro l _
    rcases Nat.lt_or_ge l cl with h1 | h1 <;> rcases Nat.lt_or_ge l cr with h2 | h2 <;> cases last <;>
      simp [humShould, h1, h2, Function.comp, Nat.not_lt.2, Nat.not_le.2]
  · rw [← count_range b cr cl hl, List.count, List.countP_map, List.countP_eq_length_filter]
    congr 1
    apply List.filter_congr
    intro l _
    rcases Nat.lt_or_ge l cl with h1 | h1 <;> rcases Nat.lt_or_ge l cr with h2 | h2 <;> cases last <;>
      simp [humShould, h1, h2, Function.comp, Nat.not_lt.2, Nat.not_le.2]

/-! ### States -/

/-- What a token changes. -/
def chg (t : HBTok) : Int := if t.kind = .data then beamChange false t else 0

/-- The sums. -/
def cumul : Int → List HBTok → List Int
  | _, [] => []
  | s, t :: ts => (s + chg t) :: cumul (s + chg t) ts

theorem states_some (s : Int) (ts : List HBTok) : beamStatesFrom false (some s) s ts = cumul s ts := by
  induction ts generalizing s with
  | nil => rfl
  | cons t ts ih =>
    unfold beamStatesFrom cumul chg
    by_cases h : t.kind = .data
    · simp only [h, if_true]
      rw [Int.add_comm, ih]
    · simp only [h, if_false, Int.add_zero]
      rw [ih]

theorem states_eq (ts : List HBTok) : beamStatesFrom false none 0 ts = cumul 0 ts := by
  cases ts with
  | nil => rfl
  | cons t ts =>
    unfold beamStatesFrom cumul chg
    by_cases h : t.kind = .data
    · simp only [h, if_true, Int.zero_add]
      by_cases hg : t.grace = false
      · rw [if_pos hg, states_some]
      · have : beamChange false t = 0 := by unfold beamChange; rw [if_neg hg]
        rw [if_neg hg, this, states_some]
    · simp only [h, if_false, Int.add_zero]
      rw [states_some]

/-- Tokens, states and numbers at once. -/
def runPlaces (i : Nat) (s : Int) (n : Nat) (ts : List HBTok) : List HBPlace :=
  hbPlaces i ts (cumul s ts) (beamNumsFrom s n (cumul s ts))

theorem run_inside (i : Nat) (s : Int) (n : Nat) (t : HBTok) (ts : List HBTok) (h : s + chg t ≠ 0) :
    runPlaces i s n (t :: ts) = ⟨i, t, s + chg t, n⟩ :: runPlaces (i + 1) (s + chg t) n ts := by
  simp only [runPlaces, cumul, beamNumsFrom, h, ne_eq, not_false_eq_true, if_true, hbPlaces]

theorem run_end (i : Nat) (s : Int) (n : Nat) (t : HBTok) (ts : List HBTok) (h : s + chg t = 0) (hs : s ≠ 0) :
    runPlaces i s n (t :: ts) = ⟨i, t, 0, n⟩ :: runPlaces (i + 1) 0 (n + 1) ts := by
  simp only [runPlaces, cumul, h, beamNumsFrom, ne_eq, not_true_eq_false, if_false, hs, not_false_eq_true, if_true, hbPlaces]

theorem run_outside (i : Nat) (n : Nat) (t : HBTok) (ts : List HBTok) (h : chg t = 0) :
    runPlaces i 0 n (t :: ts) = ⟨i, t, 0, 0⟩ :: runPlaces (i + 1) 0 n ts := by
  simp only [runPlaces, cumul, h, Int.add_zero, beamNumsFrom, ne_eq, not_true_eq_false, if_false, hbPlaces]

/-- Places of the tokens between notes. -/
def afterPlaces (c : Nat) (s : Int) : Nat → List HBTok → List HBPlace
  | _, [] => []
  | i, t :: ts => ⟨i, t, s, c⟩ :: afterPlaces c s (i + 1) ts

/-- The state after a note. -/
def noteState (n : HBNote) (r : List HBNote) : Nat := rightN n.sig (r.map HBNote.sig)

/-- Places of a group. -/
def groupPlaces (c : Nat) : Nat → List HBNote → List HBPlace
  | _, [] => []
  | i, n :: r =>
    ⟨i, n.tok, noteState n r, c⟩ ::
      (afterPlaces c (noteState n r) (i + 1) n.after ++ groupPlaces c (i + 1 + n.after.length) r)

/-- Places of a layer. -/
def segPlaces : Nat → Nat → List HBSeg → List HBPlace
  | _, _, [] => []
  | i, c, .plain t :: r => ⟨i, t, 0, 0⟩ :: segPlaces (i + 1) c r
  | i, c, .group ns :: r => groupPlaces c i ns ++ segPlaces (i + (groupToks ns).length) (c + 1) r

theorem chg_quiet (t : HBTok) (h : NoBeamText t) : chg t = 0 := by
  unfold chg beamChange
  by_cases hk : t.kind = .data
  · by_cases hg : t.grace = false
    · obtain ⟨h1, h2⟩ := h hk hg
      simp [hk, hg, h1, h2]
    · simp [hk, hg]
  · simp [hk]

theorem run_after (q ts : List HBTok) (i n : Nat) (s : Int) (hs : s ≠ 0) (hq : ∀ t ∈ q, NoBeamText t) :
    runPlaces i s n (q ++ ts) = afterPlaces n s i q ++ runPlaces (i + q.length) s n ts := by
  induction q generalizing i with
  | nil => rfl
  | cons t q ih =>
    have h0 := chg_quiet t (hq t (by simp))
    rw [List.cons_append, run_inside i s n t _ (by rw [h0, Int.add_zero]; exact hs), h0, Int.add_zero,
      ih (i + 1) (fun u hu => hq u (by simp [hu])), afterPlaces, List.cons_append]
    congr 3
    simp only [List.length_cons]; omega

theorem note_chg (n : HBNote) (prev : Option HSig) (r : List HSig) (hn : NoteTok n.tok)
    (ht : SaysBeams n ((List.range n.sig.1).map
      (fun l => humShould (decide (l < leftN prev n.sig)) (decide (l < rightN n.sig r)) r.isEmpty))) :
    (leftN prev n.sig : Int) + chg n.tok = rightN n.sig r := by
  obtain ⟨h1, h2⟩ := count_types n.sig.1 (leftN prev n.sig) (rightN n.sig r) r.isEmpty (leftN_le _ _) (rightN_le _ _)
  rw [SaysBeams, humBeamText_L, humBeamText_J, h1, h2] at ht
  unfold chg beamChange
  rw [if_pos hn.1, if_pos hn.2.1, ht.1, ht.2]
  omega

theorem joinN_pos (x y : HSig) (hx : 1 ≤ x.1) (hy : 1 ≤ y.1) (hk : ∀ k, x.2 = some k → 1 ≤ k) : 1 ≤ joinN x y := by
  obtain ⟨a, b⟩ := x
  cases b with
  | none => exact le_min hx hy
  | some k => exact le_min (le_min hx hy) (hk k rfl)

theorem run_group (ns : List HBNote) (prev : Option HSig) (i c : Nat) (ts : List HBTok)
    (hnotes : ∀ n ∈ ns, NoteTok n.tok) (hafter : ∀ n ∈ ns, ∀ t ∈ n.after, Between t)
    (hlast : ∀ n ∈ ns.getLast?, n.after = []) (hfine : breaksFine prev (ns.map HBNote.sig))
    (htext : List.Forall₂ SaysBeams ns (humBeams prev (ns.map HBNote.sig)))
    (hne : ns ≠ []) (hprev : 2 ≤ ns.length ∨ ∀ n ∈ ns.head?, leftN prev n.sig ≠ 0) (s : Int)
    (hs : ∀ n ∈ ns.head?, s = leftN prev n.sig) :
    runPlaces i s c (groupToks ns ++ ts) =
      groupPlaces c i ns ++ runPlaces (i + (groupToks ns).length) 0 (c + 1) ts := by
  induction ns generalizing prev i s with
  | nil => exact absurd rfl hne
  | cons n r ih =>
    obtain rfl : s = leftN prev n.sig := hs n (by simp)
    rw [List.map_cons, humBeams_cons] at htext
    obtain ⟨ht, htr⟩ : SaysBeams n _ ∧ List.Forall₂ SaysBeams r _ := by
      cases htext with
      | cons h1 h2 => exact ⟨h1, h2⟩
    have hc := note_chg n prev (r.map HBNote.sig) (hnotes n (by simp)) ht
    cases r with
    | nil =>
      have ha : n.after = [] := hlast n (by simp)
      have hp : leftN prev n.sig ≠ 0 := by
        rcases hprev with h | h
        · simp at h
        · exact h n (by simp)
      have h0 : (leftN prev n.sig : Int) + chg n.tok = 0 := by rw [hc]; simp [rightN]
      simp only [groupToks, ha, List.append_nil, List.nil_append, List.cons_append, groupPlaces]
      rw [run_end i _ c n.tok ts h0 (by exact_mod_cast hp)]
      simp [noteState, rightN, afterPlaces]
    | cons m r =>
      have hm := hnotes m (by simp)
      have hn := hnotes n (by simp)
      have hk : ∀ k, n.sig.2 = some k → 1 ≤ k := by
        intro k hk
        exact (hfine.1 k hk).1
      have hj : 1 ≤ rightN n.sig ((m :: r).map HBNote.sig) := by
        simp only [rightN, List.map_cons, List.head?_cons, Option.map_some, Option.getD_some]
        exact joinN_pos _ _ hn.2.2.2.2.2 hm.2.2.2.2.2 hk
      have hne0 : ((rightN n.sig ((m :: r).map HBNote.sig) : Nat) : Int) ≠ 0 := by omega
      rw [groupToks, List.cons_append, run_inside i _ c n.tok _ (by rw [hc]; exact hne0), hc, List.append_assoc,
        run_after n.after _ (i + 1) c _ hne0 (fun t ht => (hafter n (by simp) t ht).1),
        ih (some n.sig) (i + 1 + n.after.length) (fun x hx => hnotes x (by simp [hx])) (fun x hx => hafter x (by simp [hx]))
          (fun x hx => hlast x (by simpa using hx)) hfine.2 htr (by simp) (Or.inr ?_) _ ?_]
      · have e : i + 1 + n.after.length + (groupToks (m :: r)).length =
            i + (n.tok :: (n.after ++ groupToks (m :: r))).length := by
          simp only [List.length_cons, List.length_append]
          omega
        rw [e]
        conv_rhs => rw [groupPlaces]
        simp only [noteState, List.cons_append, List.append_assoc]
      · intro x hx
        obtain rfl : m = x := by simpa using hx
        simp only [rightN, List.map_cons, List.head?_cons, Option.map_some, Option.getD_some] at hj
        simp only [leftN, Option.map_some, Option.getD_some]
        omega
      · intro x hx
        obtain rfl : m = x := by simpa using hx
        simp only [rightN, leftN, List.map_cons, List.head?_cons, Option.map_some, Option.getD_some]

theorem run_segs (segs : List HBSeg) (i c : Nat) (h : LayerOk segs) :
    runPlaces i 0 c (segToks segs) = segPlaces i c segs := by
  induction segs generalizing i c with
  | nil => rfl
  | cons s r ih =>
    have hr : LayerOk r := fun x hx => h x (by simp [hx])
    have hs := h s (by simp)
    cases s with
    | plain t =>
      rw [segToks, run_outside i c t _ (chg_quiet t hs), ih _ _ hr, segPlaces]
    | group ns =>
      have hne : ns ≠ [] := by
        intro h0
        have := hs.two
        simp [h0] at this
      rw [segToks, run_group ns none i c (segToks r) hs.notes hs.after hs.last hs.fine hs.text hne (Or.inl hs.two) 0
        (by intro n _; rfl), ih _ _ hr, segPlaces]

/-! ### Facts about the places -/

theorem cumul_length (s : Int) (ts : List HBTok) : (cumul s ts).length = ts.length := by
  induction ts generalizing s with
  | nil => rfl
  | cons t ts ih => simp [cumul, ih]

theorem beamNums_length (p : Int) (n : Nat) (ss : List Int) : (beamNumsFrom p n ss).length = ss.length := by
  induction ss generalizing p n with
  | nil => rfl
  | cons s ss ih =>
    unfold beamNumsFrom
    split
    · simp [ih]
    · split <;> simp [ih]

theorem hbPlaces_states (i : Nat) (ts : List HBTok) (ss : List Int) (ns : List Nat) (h1 : ss.length = ts.length)
    (h2 : ns.length = ts.length) : (hbPlaces i ts ss ns).map HBPlace.state = ss := by
  induction ts generalizing i ss ns with
  | nil =>
    have : ss = [] := List.length_eq_zero_iff.1 h1
    subst this
    rfl
  | cons t ts ih =>
    obtain ⟨s, ss, rfl⟩ := List.exists_cons_of_length_eq_add_one h1
    obtain ⟨n, ns, rfl⟩ := List.exists_cons_of_length_eq_add_one h2
    simp only [hbPlaces, List.map_cons]
    rw [ih _ _ _ (by simpa using h1) (by simpa using h2)]

theorem afterPlaces_idx (c : Nat) (s : Int) (i : Nat) (ts : List HBTok) :
    (afterPlaces c s i ts).map HBPlace.idx = List.range' i ts.length := by
  induction ts generalizing i with
  | nil => rfl
  | cons t ts ih => simp [afterPlaces, ih, List.range'_succ]

theorem groupPlaces_idx (c i : Nat) (ns : List HBNote) :
    (groupPlaces c i ns).map HBPlace.idx = List.range' i (groupToks ns).length := by
  induction ns generalizing i with
  | nil => rfl
  | cons n r ih =>
    simp only [groupPlaces, groupToks, List.map_cons, List.map_append, afterPlaces_idx, ih, List.length_cons, List.length_append,
      List.range'_succ]
    congr 1
    rw [show i + 1 + n.after.length = i + 1 + 1 * n.after.length by omega, List.range'_append]

theorem segPlaces_idx (i c : Nat) (segs : List HBSeg) :
    (segPlaces i c segs).map HBPlace.idx = List.range' i (segToks segs).length := by
  induction segs generalizing i c with
  | nil => rfl
  | cons s r ih =>
    cases s with
    | plain t => simp [segPlaces, segToks, ih, List.range'_succ]
    | group ns =>
      simp only [segPlaces, segToks, List.map_append, groupPlaces_idx, ih, List.length_append]
      rw [show i + (groupToks ns).length = i + 1 * (groupToks ns).length by omega, List.range'_append]

theorem afterPlaces_mem (c : Nat) (s : Int) (i : Nat) (ts : List HBTok) (p : HBPlace) (h : p ∈ afterPlaces c s i ts) :
    p.tok ∈ ts ∧ p.num = c ∧ p.state = s := by
  induction ts generalizing i with
  | nil => simp [afterPlaces] at h
  | cons t ts ih =>
    rcases List.mem_cons.1 h with rfl | h
    · exact ⟨by simp, rfl, rfl⟩
    · obtain ⟨h1, h2⟩ := ih _ h
      exact ⟨by simp [h1], h2⟩

theorem groupPlaces_mem (c i : Nat) (ns : List HBNote) (p : HBPlace) (h : p ∈ groupPlaces c i ns) :
    p.num = c ∧ 0 ≤ p.state := by
  induction ns generalizing i with
  | nil => simp [groupPlaces] at h
  | cons n r ih =>
    simp only [groupPlaces, List.mem_cons, List.mem_append] at h
    rcases h with rfl | h | h
    · exact ⟨rfl, Int.natCast_nonneg _⟩
    · obtain ⟨_, h1, h2⟩ := afterPlaces_mem _ _ _ _ _ h
      exact ⟨h1, by rw [h2]; exact Int.natCast_nonneg _⟩
    · exact ih _ h

/-- How many groups there are. -/
def groupsIn : List HBSeg → Nat
  | [] => 0
  | .plain _ :: r => groupsIn r
  | .group _ :: r => groupsIn r + 1

theorem segPlaces_mem (i c : Nat) (segs : List HBSeg) (p : HBPlace) (h : p ∈ segPlaces i c segs) :
    (p.num = 0 ∨ c ≤ p.num ∧ p.num < c + groupsIn segs) ∧ 0 ≤ p.state := by
  induction segs generalizing i c with
  | nil => simp [segPlaces] at h
  | cons s r ih =>
    cases s with
    | plain t =>
      simp only [segPlaces, List.mem_cons] at h
      rcases h with rfl | h
      · exact ⟨Or.inl rfl, le_refl _⟩
      · exact ih _ _ h
    | group ns =>
      simp only [segPlaces, List.mem_append] at h
      rcases h with h | h
      · obtain ⟨h1, h2⟩ := groupPlaces_mem _ _ _ _ h
        refine ⟨Or.inr ?_, h2⟩
        simp only [groupsIn]
        omega
      · obtain ⟨h1, h2⟩ := ih _ _ h
        refine ⟨?_, h2⟩
        simp only [groupsIn]
        omega

theorem segPlaces_has (i c k : Nat) (segs : List HBSeg) (hok : LayerOk segs) (h1 : c ≤ k) (h2 : k < c + groupsIn segs) :
    ∃ p ∈ segPlaces i c segs, durItem p = true ∧ p.num = k := by
  induction segs generalizing i c with
  | nil => simp [groupsIn] at h2; omega
  | cons s r ih =>
    have hr : LayerOk r := fun x hx => hok x (by simp [hx])
    have hs := hok s (by simp)
    cases s with
    | plain t =>
      obtain ⟨p, hp, h⟩ := ih (i + 1) c hr h1 h2
      exact ⟨p, by simp [segPlaces, hp], h⟩
    | group ns =>
      by_cases hk : k = c
      · subst hk
        have hs : GroupOk ns := hs
        cases ns with
        | nil => have := hs.two; simp at this
        | cons n r' =>
          have hn := hs.notes n (by simp)
          refine ⟨⟨i, n.tok, noteState n r', k⟩, by simp [segPlaces, groupPlaces], ?_, rfl⟩
          simp [durItem, hn.1, hn.2.1, hn.2.2.2.1]
      · simp only [groupsIn] at h2
        obtain ⟨p, hp, h⟩ := ih (i + (groupToks ns).length) (c + 1) hr (by omega) (by omega)
        exact ⟨p, by simp [segPlaces, hp], h⟩

theorem groupPlaces_last (c i : Nat) (ns : List HBNote) (hlast : ∀ n ∈ ns.getLast?, n.after = []) (hne : ns ≠ []) :
    ∃ p, (groupPlaces c i ns).getLast? = some p ∧ p.state = 0 := by
  induction ns generalizing i with
  | nil => exact absurd rfl hne
  | cons n r ih =>
    cases r with
    | nil =>
      have ha : n.after = [] := hlast n (by simp)
      exact ⟨⟨i, n.tok, noteState n [], c⟩, by simp [groupPlaces, ha, afterPlaces], by simp [noteState, rightN]⟩
    | cons m r =>
      obtain ⟨p, h1, h2⟩ := ih (i + 1 + n.after.length) (fun x hx => hlast x (by simpa using hx)) (by simp)
      refine ⟨p, ?_, h2⟩
      rw [groupPlaces, ← List.cons_append, List.getLast?_append, h1]
      rfl

theorem segPlaces_last (i c : Nat) (segs : List HBSeg) (hok : LayerOk segs) (hne : segPlaces i c segs ≠ []) :
    ∃ p, (segPlaces i c segs).getLast? = some p ∧ p.state = 0 := by
  induction segs generalizing i c with
  | nil => exact absurd rfl hne
  | cons s r ih =>
    have hr : LayerOk r := fun x hx => hok x (by simp [hx])
    have hs := hok s (by simp)
    cases s with
    | plain t =>
      by_cases h0 : segPlaces (i + 1) c r = []
      · exact ⟨⟨i, t, 0, 0⟩, by simp [segPlaces, h0], rfl⟩
      · obtain ⟨p, h1, h2⟩ := ih (i + 1) c hr h0
        refine ⟨p, ?_, h2⟩
        rw [segPlaces, List.getLast?_cons, h1]
        rfl
    | group ns =>
      have hs : GroupOk ns := hs
      by_cases h0 : segPlaces (i + (groupToks ns).length) (c + 1) r = []
      · have hn : ns ≠ [] := by
          intro h
          have := hs.two
          simp [h] at this
        obtain ⟨p, h1, h2⟩ := groupPlaces_last c i ns hs.last hn
        exact ⟨p, by rw [segPlaces, h0, List.append_nil, h1], h2⟩
      · obtain ⟨p, h1, h2⟩ := ih _ _ hr h0
        exact ⟨p, by rw [segPlaces, List.getLast?_append, h1]; rfl, h2⟩

/-- What the walk uses, from the places. -/
def itemOf (ds : List HBPlace) (brs : List (Nat × Int)) (p : HBPlace) : HBItem :=
  ⟨p.tok, durItem p && startAt ds p.idx != 0, durItem p && endAt ds p.idx != 0, (brs.lookup p.idx).getD 0⟩

theorem hbLayerItems_places (segs : List HBSeg) (hok : LayerOk segs) :
    hbLayerItems (segToks segs) =
      (segPlaces 0 1 segs).map (itemOf ((segPlaces 0 1 segs).filter durItem)
        (breaksFrom ((segPlaces 0 1 segs).filter (inBeamList false)))) := by
  have hrun := run_segs segs 0 1 hok
  by_cases hne : segToks segs = []
  · rw [← hrun, hne]
    rfl
  · have hst : (segPlaces 0 1 segs).map HBPlace.state = cumul 0 (segToks segs) := by
      rw [← hrun]
      exact hbPlaces_states _ _ _ _ (cumul_length _ _) (by rw [beamNums_length, cumul_length])
    have hwrong : beamsWrong (beamStatesFrom false none 0 (segToks segs)) = false := by
      rw [states_eq, ← hst]
      have hne' : segPlaces 0 1 segs ≠ [] := by
        intro h
        have := congrArg List.length (segPlaces_idx 0 1 segs)
        rw [h] at this
        simp at this
        exact hne (List.length_eq_zero_iff.1 this.symm)
      obtain ⟨p, h1, h2⟩ := segPlaces_last 0 1 segs hok hne'
      simp only [beamsWrong, Bool.or_eq_false_iff, List.any_eq_false, List.mem_map, decide_eq_true_eq, decide_eq_false_iff_not, not_not]
      refine ⟨?_, by rw [List.getLast?_map, h1]; simp [h2]⟩
      rintro s ⟨q, hq, rfl⟩
      have := (segPlaces_mem _ _ _ q hq).2
      omega
    simp only [hbLayerItems, analyzeLayerBeams, hwrong, Bool.false_eq_true, if_false]
    rw [states_eq]
    have : hbPlaces 0 (segToks segs) (cumul 0 (segToks segs)) (beamNumsFrom 0 1 (cumul 0 (segToks segs))) = segPlaces 0 1 segs := hrun
    rw [this]
    rfl

/-! ### Starts and ends -/

theorem foldl_mark (P : Nat → Prop) [DecidablePred P] (n : Nat) :
    (List.range n).foldl (fun a k => if P k then k + 1 else a) 0 ≠ 0 ↔ ∃ k, k < n ∧ P k := by
  induction n with
  | zero => simp
  | succ n ih =>
    rw [List.range_succ, List.foldl_append]
    simp only [List.foldl_cons, List.foldl_nil]
    by_cases h : P n
    · rw [if_pos h]
      exact ⟨fun _ => ⟨n, by omega, h⟩, fun _ => by omega⟩
    · rw [if_neg h, ih]
      constructor
      · rintro ⟨k, h1, h2⟩; exact ⟨k, by omega, h2⟩
      · rintro ⟨k, h1, h2⟩
        refine ⟨k, ?_, h2⟩
        rcases Nat.lt_or_ge k n with h3 | h3
        · exact h3
        · obtain rfl : k = n := by omega
          exact absurd h2 h

theorem foldl_max_ge (ps : List HBPlace) (m : Nat) :
    m ≤ ps.foldl (fun m p => max m p.num) m ∧ ∀ p ∈ ps, p.num ≤ ps.foldl (fun m p => max m p.num) m := by
  induction ps generalizing m with
  | nil => simp
  | cons q ps ih =>
    obtain ⟨h1, h2⟩ := ih (max m q.num)
    simp only [List.foldl_cons]
    refine ⟨by omega, ?_⟩
    intro p hp
    rcases List.mem_cons.1 hp with rfl | hp
    · omega
    · exact h2 p hp

theorem foldl_max_mem (ps : List HBPlace) (m : Nat) :
    ps.foldl (fun m p => max m p.num) m = m ∨ ∃ p ∈ ps, p.num = ps.foldl (fun m p => max m p.num) m := by
  induction ps generalizing m with
  | nil => simp
  | cons q ps ih =>
    simp only [List.foldl_cons]
    rcases ih (max m q.num) with h | ⟨p, hp, h⟩
    · rw [h]
      rcases Nat.le_total m q.num with h' | h'
      · right; exact ⟨q, by simp, by omega⟩
      · left; omega
    · right; exact ⟨p, by simp [hp], h⟩

/-- All numbers up to the highest one are there. -/
def AllNums (ds : List HBPlace) : Prop := ∀ k, 1 ≤ k → k ≤ beamCountOf ds → ∃ p ∈ ds, p.num = k

theorem idx_inj (ds : List HBPlace) (hnd : (ds.map HBPlace.idx).Nodup) (p q : HBPlace) (hp : p ∈ ds) (hq : q ∈ ds)
    (h : p.idx = q.idx) : p = q := List.inj_on_of_nodup_map hnd hp hq h

theorem startAt_iff (ds : List HBPlace) (hall : AllNums ds) (hnd : (ds.map HBPlace.idx).Nodup) (p : HBPlace) (hp : p ∈ ds) :
    startAt ds p.idx ≠ 0 ↔ p.num ≠ 0 ∧ ds.find? (fun q => q.num = p.num) = some p := by
  unfold startAt
  rw [foldl_mark (fun k => beamStartIdx ds (k + 1) = some p.idx)]
  constructor
  · rintro ⟨k, hk, h⟩
    unfold beamStartIdx at h
    cases hf : ds.find? (fun q => q.num = k + 1) with
    | none =>
      obtain ⟨q, hq, hqn⟩ := hall (k + 1) (by omega) (by omega)
      rw [List.find?_eq_none] at hf
      exact absurd hqn (by simpa using hf q hq)
    | some q =>
      rw [hf] at h
      have hq := List.mem_of_find?_eq_some hf
      obtain rfl := idx_inj ds hnd q p hq hp (by simpa using h)
      have : q.num = k + 1 := by simpa using List.find?_some hf
      rw [this]
      exact ⟨by omega, hf⟩
  · rintro ⟨h0, hf⟩
    refine ⟨p.num - 1, ?_, ?_⟩
    · have := (foldl_max_ge ds 0).2 p hp
      unfold beamCountOf
      omega
    · rw [show p.num - 1 + 1 = p.num by omega, beamStartIdx, hf]

theorem endAt_iff (ds : List HBPlace) (hall : AllNums ds) (hnd : (ds.map HBPlace.idx).Nodup) (p : HBPlace) (hp : p ∈ ds) :
    endAt ds p.idx ≠ 0 ↔ p.num ≠ 0 ∧ ds.reverse.find? (fun q => q.num = p.num) = some p := by
  unfold endAt
  rw [foldl_mark (fun k => beamEndIdx ds (k + 1) = some p.idx)]
  constructor
  · rintro ⟨k, hk, h⟩
    unfold beamEndIdx at h
    cases hf : ds.reverse.find? (fun q => q.num = k + 1) with
    | none =>
      obtain ⟨q, hq, hqn⟩ := hall (k + 1) (by omega) (by omega)
      rw [List.find?_eq_none] at hf
      exact absurd hqn (by simpa using hf q (by simpa using hq))
    | some q =>
      rw [hf] at h
      have hq := List.mem_of_find?_eq_some hf
      obtain rfl := idx_inj ds hnd q p (by simpa using hq) hp (by simpa using h)
      have : q.num = k + 1 := by simpa using List.find?_some hf
      rw [this]
      exact ⟨by omega, hf⟩
  · rintro ⟨h0, hf⟩
    refine ⟨p.num - 1, ?_, ?_⟩
    · have := (foldl_max_ge ds 0).2 p hp
      unfold beamCountOf
      omega
    · rw [show p.num - 1 + 1 = p.num by omega, beamEndIdx, hf]

/-! ### Breaks -/

/-- The breaks of a group. -/
def gBreaks : Nat → List HBNote → List (Nat × Int)
  | _, [] => []
  | i, n :: r =>
    (match n.brk with
      | none => []
      | some k => [(i, (k : Int))]) ++ gBreaks (i + 1 + n.after.length) r

theorem breaksFrom_skip (a b : HBPlace) (r : List HBPlace) (h : a.state = b.state) :
    breaksFrom (a :: b :: r) = breaksFrom (b :: r) := by
  cases r with
  | nil => rfl
  | cons c r =>
    rw [breaksFrom, if_neg]
    rintro ⟨_, _, h', _⟩
    omega

theorem breaksFrom_skips (a : HBPlace) (q r : List HBPlace) (h : ∀ b ∈ q, b.state = a.state) (hn : ∀ b ∈ q, b.num = a.num) :
    ∃ x, x.state = a.state ∧ x.num = a.num ∧ breaksFrom (a :: (q ++ r)) = breaksFrom (x :: r) := by
  induction q generalizing a with
  | nil => exact ⟨a, rfl, rfl, rfl⟩
  | cons b q ih =>
    have hb := h b (by simp)
    have hbn := hn b (by simp)
    obtain ⟨x, h1, h2, h3⟩ := ih b (fun c hc => by rw [hb]; exact h c (by simp [hc])) (fun c hc => by rw [hbn]; exact hn c (by simp [hc]))
    exact ⟨x, by rw [h1, hb], by rw [h2, hbn], by rw [List.cons_append, breaksFrom_skip a b _ hb.symm, h3]⟩

theorem notePlace_in (c i : Nat) (n : HBNote) (s : Int) (hc : c ≠ 0) (hn : NoteTok n.tok) :
    inBeamList false ⟨i, n.tok, s, c⟩ = true := by
  simp [inBeamList, hc, hn.1, hn.2.1]

theorem breaks_rest (c : Nat) (hc : c ≠ 0) (r : List HBNote) (n : HBNote) (prev : Option HSig) (i : Nat) (a : HBPlace)
    (ha : a.num = c) (has : a.state = leftN prev n.sig)
    (hnotes : ∀ x ∈ n :: r, NoteTok x.tok)
    (hbroken : ∀ x ∈ n :: r, x.brk ≠ none → ∀ t ∈ x.after, t.kind = .data → t.grace = true)
    (hlast : ∀ x ∈ (n :: r).getLast?, x.after = [])
    (hfine : breaksFine prev ((n :: r).map HBNote.sig)) :
    breaksFrom (a :: (groupPlaces c i (n :: r)).filter (inBeamList false)) = gBreaks i (n :: r) := by
  induction r generalizing n prev i a with
  | nil =>
    have h0 : n.after = [] := hlast n (by simp)
    have hb : n.brk = none := by
      cases hb : n.brk with
      | none => rfl
      | some k =>
        obtain ⟨_, _, _, y, z, r', h, _⟩ := hfine.1 k hb
        simp at h
    simp only [groupPlaces, h0, afterPlaces, List.append_nil]
    rw [List.filter_cons_of_pos (notePlace_in c i n _ hc (hnotes n (by simp)))]
    simp [breaksFrom, gBreaks, hb]
  | cons m r ih =>
    have hn := hnotes n (by simp)
    have hm := hnotes m (by simp)
    have ih' := fun (x : HBPlace) (hx1 : x.num = c) (hx2 : x.state = leftN (some n.sig) m.sig) =>
      ih m (some n.sig) (i + 1 + n.after.length) x hx1 hx2 (fun y hy => hnotes y (by simp at hy ⊢; tauto))
        (fun y hy => hbroken y (by simp at hy ⊢; tauto)) (fun y hy => hlast y (by simpa using hy)) hfine.2
    have hst : ((noteState n (m :: r) : Nat) : Int) = leftN (some n.sig) m.sig := by
      simp [noteState, rightN, leftN]
    rw [groupPlaces, List.filter_cons_of_pos (notePlace_in c i n _ hc hn), List.filter_append]
    -- the note itself
    have hfirst : ∃ (q0 : HBPlace) (tl : List HBPlace), (groupPlaces c (i + 1 + n.after.length) (m :: r)).filter (inBeamList false) = q0 :: tl ∧
        q0.num = c ∧ q0.state = noteState m r := by
      rw [groupPlaces, List.filter_cons_of_pos (notePlace_in c _ m _ hc hm)]
      exact ⟨_, _, rfl, rfl, rfl⟩
    obtain ⟨q0, tl, hq0, hq1, hq2⟩ := hfirst
    set P : HBPlace := ⟨i, n.tok, noteState n (m :: r), c⟩ with hP
    have hPs : P.state = leftN (some n.sig) m.sig := hst
    cases hq : (afterPlaces c (noteState n (m :: r)) (i + 1) n.after).filter (inBeamList false) with
    | cons b q =>
      have hall : ∀ x ∈ b :: q, x.state = P.state ∧ x.num = P.num := by
        intro x hx
        rw [← hq] at hx
        obtain ⟨_, h1, h2⟩ := afterPlaces_mem _ _ _ _ _ (List.mem_filter.1 hx).1
        exact ⟨h2, h1⟩
      have hbk : n.brk = none := by
        by_contra hne
        have hb : b ∈ (afterPlaces c (noteState n (m :: r)) (i + 1) n.after).filter (inBeamList false) := by rw [hq]; simp
        obtain ⟨hb1, hb2⟩ := List.mem_filter.1 hb
        obtain ⟨h1, _, _⟩ := afterPlaces_mem _ _ _ _ _ hb1
        simp only [inBeamList, Bool.and_eq_true, decide_eq_true_eq, beq_iff_eq] at hb2
        have := hbroken n (by simp) hne b.tok h1 hb2.1.2
        rw [hb2.2] at this
        exact absurd this (by simp)
      have e : breaksFrom (a :: P :: ((b :: q) ++ (groupPlaces c (i + 1 + n.after.length) (m :: r)).filter (inBeamList false))) =
          breaksFrom (P :: ((b :: q) ++ (groupPlaces c (i + 1 + n.after.length) (m :: r)).filter (inBeamList false))) := by
        rw [List.cons_append, breaksFrom, if_neg]
        rintro ⟨_, _, _, h⟩
        have := (hall b (by simp)).1
        omega
      rw [e]
      obtain ⟨x, h1, h2, h3⟩ := breaksFrom_skips P (b :: q) ((groupPlaces c (i + 1 + n.after.length) (m :: r)).filter (inBeamList false))
        (fun y hy => (hall y hy).1) (fun y hy => (hall y hy).2)
      rw [h3, ih' x h2 (by rw [h1, hPs])]
      simp [gBreaks, hbk]
    | nil =>
      rw [List.nil_append, hq0]
      cases hbk : n.brk with
      | none =>
        rw [breaksFrom, if_neg, ← hq0, ih' P rfl hPs]
        · simp [gBreaks, hbk]
        · rintro ⟨_, _, h1, h2⟩
          have e1 : P.state = min n.sig.1 m.sig.1 := by
            rw [hPs]
            simp [leftN, joinN, HBNote.sig, hbk]
          have e2 := leftN_le prev n.sig
          have e3 := rightN_le m.sig (r.map HBNote.sig)
          have e4 : q0.state ≤ m.sig.1 := by rw [hq2]; exact_mod_cast e3
          rw [has] at h1
          rw [e1] at h1 h2
          omega
      | some k =>
        obtain ⟨hk1, hk2, ⟨p, hp, hpl⟩, y, z, r', hr, hy, hz⟩ := hfine.1 k hbk
        rw [List.map_cons, List.cons.injEq] at hr
        obtain ⟨rfl, hr⟩ := hr
        have e1 : P.state = k := by
          rw [hPs]
          have : n.sig.2 = some k := hbk
          simp only [leftN, Option.map_some, Option.getD_some, joinN, this, hy]
          omega
        have e2 : (k : Int) < a.state := by
          rw [has, hp]
          have h1 := hpl k hk2
          rw [joins_eq] at h1
          simp only [decide_eq_true_eq] at h1
          simp only [leftN, Option.map_some, Option.getD_some]
          omega
        have e3 : (k : Int) < q0.state := by
          rw [hq2]
          rw [joins_eq] at hz
          simp only [decide_eq_true_eq] at hz
          simp only [noteState, rightN, hr, List.head?_cons, Option.map_some, Option.getD_some]
          omega
        rw [breaksFrom, if_pos ⟨ha, hq1.symm, by omega, by omega⟩, ← hq0, ih' P rfl hPs]
        simp only [gBreaks, hbk, List.singleton_append]
        rw [e1]

theorem breaks_group (c : Nat) (hc : c ≠ 0) (ns : List HBNote) (hok : GroupOk ns) (i : Nat) :
    breaksFrom ((groupPlaces c i ns).filter (inBeamList false)) = gBreaks i ns := by
  cases ns with
  | nil => have := hok.two; simp at this
  | cons n r =>
    have hbk : n.brk = none := by
      cases hb : n.brk with
      | none => rfl
      | some k =>
        obtain ⟨_, _, ⟨p, hp, _⟩, _⟩ := hok.fine.1 k hb
        exact absurd hp (by simp)
    cases r with
    | nil => have := hok.two; simp at this
    | cons m r =>
      rw [groupPlaces, List.filter_cons_of_pos (notePlace_in c i n _ hc (hok.notes n (by simp))), List.filter_append]
      obtain ⟨x, h1, h2, h3⟩ := breaksFrom_skips ⟨i, n.tok, noteState n (m :: r), c⟩
        ((afterPlaces c (noteState n (m :: r)) (i + 1) n.after).filter (inBeamList false))
        ((groupPlaces c (i + 1 + n.after.length) (m :: r)).filter (inBeamList false))
        (fun y hy => (afterPlaces_mem _ _ _ _ _ (List.mem_filter.1 hy).1).2.2)
        (fun y hy => (afterPlaces_mem _ _ _ _ _ (List.mem_filter.1 hy).1).2.1)
      rw [h3, breaks_rest c hc r m (some n.sig) _ x h2 (by rw [h1]; simp [noteState, rightN, leftN])
        (fun y hy => hok.notes y (by simp at hy ⊢; tauto)) (fun y hy => hok.broken y (by simp at hy ⊢; tauto))
        (fun y hy => hok.last y (by simpa using hy)) hok.fine.2]
      simp [gBreaks, hbk]

theorem breaksFrom_append (c : Nat) (g h : List HBPlace) (hg : ∀ p ∈ g, p.num = c) (hh : ∀ p ∈ h, p.num ≠ c) :
    breaksFrom (g ++ h) = breaksFrom g ++ breaksFrom h := by
  induction g with
  | nil => rfl
  | cons a g ih =>
    have ih := ih (fun p hp => hg p (by simp [hp]))
    have ha := hg a (by simp)
    cases g with
    | nil =>
      cases h with
      | nil => rfl
      | cons b h =>
        have hb := hh b (by simp)
        cases h with
        | nil => rfl
        | cons d h =>
          rw [List.singleton_append, breaksFrom, if_neg (by rintro ⟨h1, _⟩; exact hb (by rw [← h1, ha]))]
          rfl
    | cons b g =>
      have hb := hg b (by simp)
      cases g with
      | nil =>
        cases h with
        | nil => rfl
        | cons d h =>
          have hd := hh d (by simp)
          rw [List.cons_append, List.singleton_append, breaksFrom, if_neg (by rintro ⟨_, h1, _⟩; exact hd (by rw [← h1, hb]))]
          rw [List.singleton_append] at ih
          rw [ih]
          rfl
      | cons d g =>
        simp only [List.cons_append] at ih ⊢
        rw [breaksFrom, breaksFrom, ih]
        split <;> simp

theorem breaksFrom_keys (l : List HBPlace) : ∀ x ∈ breaksFrom l, ∃ p ∈ l, p.idx = x.1 := by
  intro x hx
  match l with
  | [] => simp [breaksFrom] at hx
  | [a] => simp [breaksFrom] at hx
  | [a, b] => simp [breaksFrom] at hx
  | a :: b :: d :: r =>
    rw [breaksFrom] at hx
    have ih := breaksFrom_keys (b :: d :: r)
    split at hx
    · rcases List.mem_cons.1 hx with rfl | hx
      · exact ⟨b, by simp, rfl⟩
      · obtain ⟨p, hp, h⟩ := ih x hx
        exact ⟨p, by simp at hp ⊢; tauto, h⟩
    · obtain ⟨p, hp, h⟩ := ih x hx
      exact ⟨p, by simp at hp ⊢; tauto, h⟩

/-! ### The items -/

/-- A token that is not beamed. -/
def quietItem (t : HBTok) : HBItem := ⟨t, false, false, 0⟩

/-- The items of a group. -/
def groupItems : Bool → List HBNote → List HBItem
  | _, [] => []
  | first, n :: r => ⟨n.tok, first, r.isEmpty, ((n.brk.getD 0 : Nat) : Int)⟩ :: (n.after.map quietItem ++ groupItems false r)

/-- The items of a layer. -/
def segItems : List HBSeg → List HBItem
  | [] => []
  | .plain t :: r => quietItem t :: segItems r
  | .group ns :: r => groupItems true ns ++ segItems r

theorem lookup_none_of (l : List (Nat × Int)) (k : Nat) (h : ∀ x ∈ l, x.1 ≠ k) : l.lookup k = none := by
  induction l with
  | nil => rfl
  | cons x l ih =>
    have h1 : (k == x.1) = false := by simpa using Ne.symm (h x (by simp))
    obtain ⟨a, b⟩ := x
    simp only [List.lookup, h1]
    exact ih (fun y hy => h y (by simp [hy]))

theorem gBreaks_keys (i : Nat) (ns : List HBNote) : ∀ x ∈ gBreaks i ns, i ≤ x.1 ∧ x.1 < i + (groupToks ns).length := by
  induction ns generalizing i with
  | nil => simp [gBreaks]
  | cons n r ih =>
    intro x hx
    simp only [gBreaks, List.mem_append] at hx
    simp only [groupToks, List.length_cons, List.length_append]
    rcases hx with hx | hx
    · cases hb : n.brk with
      | none => simp [hb] at hx
      | some k =>
        simp only [hb, List.mem_singleton] at hx
        subst hx
        exact ⟨le_refl _, by simp only; omega⟩
    · have := ih _ x hx
      omega

theorem mem_idx_range (l : List HBPlace) (i n : Nat) (h : l.map HBPlace.idx = List.range' i n) (p : HBPlace) (hp : p ∈ l) :
    i ≤ p.idx ∧ p.idx < i + n := by
  have : p.idx ∈ l.map HBPlace.idx := List.mem_map_of_mem hp
  rw [h, List.mem_range'_1] at this
  exact this

theorem afterPlaces_tok (c : Nat) (s : Int) (i : Nat) (ts : List HBTok) : (afterPlaces c s i ts).map HBPlace.tok = ts := by
  induction ts generalizing i with
  | nil => rfl
  | cons t ts ih => simp [afterPlaces, ih]

theorem groupToks_pos (ns : List HBNote) (h : ns ≠ []) : 0 < (groupToks ns).length := by
  cases ns with
  | nil => exact absurd rfl h
  | cons n r => simp [groupToks]

theorem group_items (F : HBPlace → HBItem) (c i0 e : Nat) (X Y : List (Nat × Int)) (ns : List HBNote) (j : Nat)
    (hj : i0 ≤ j) (he : e = j + (groupToks ns).length)
    (hX : ∀ x ∈ X, x.1 < j) (hY : ∀ x ∈ Y, e ≤ x.1)
    (hnotes : ∀ n ∈ ns, NoteTok n.tok) (hlast : ∀ n ∈ ns.getLast?, n.after = [])
    (hF : ∀ p ∈ groupPlaces c j ns, F p = ⟨p.tok, durItem p && decide (p.idx = i0), durItem p && decide (p.idx + 1 = e),
      ((X ++ (gBreaks j ns ++ Y)).lookup p.idx).getD 0⟩) :
    (groupPlaces c j ns).map F = groupItems (decide (j = i0)) ns := by
  induction ns generalizing j X with
  | nil => rfl
  | cons n r ih =>
    have hn := hnotes n (by simp)
    have hr0 : r = [] → n.after = [] := by
      rintro rfl
      exact hlast n (by simp)
    have hrlast : ∀ x ∈ r.getLast?, x.after = [] := by
      intro x hx
      cases r with
      | nil => simp at hx
      | cons m r => exact hlast x (by simpa using hx)
    simp only [groupToks, List.length_cons, List.length_append] at he
    have hgk := gBreaks_keys (j + 1 + n.after.length) r
    simp only [groupPlaces, List.map_cons, List.map_append, groupItems]
    congr 1
    · rw [hF _ (by simp [groupPlaces])]
      have hd : durItem ⟨j, n.tok, noteState n r, c⟩ = true := by simp [durItem, hn.1, hn.2.1, hn.2.2.2.1]
      rw [hd]
      simp only [Bool.true_and]
      rw [List.lookup_append, lookup_none_of X j (fun x hx => by have := hX x hx; omega), Option.none_or]
      congr 1
      · cases r with
        | nil => simp [groupToks, hr0 rfl] at he ⊢; omega
        | cons m r =>
          have := groupToks_pos (m :: r) (by simp)
          simp
          omega
      · simp only [gBreaks]
        cases hb : n.brk with
        | none =>
          rw [List.nil_append, List.lookup_append, lookup_none_of _ j (fun x hx => by have := hgk x hx; omega),
            lookup_none_of Y j (fun x hx => by have := hY x hx; omega)]
          rfl
        | some k => simp
    · congr 1
      · have h1 : ∀ p ∈ afterPlaces c (noteState n r) (j + 1) n.after, F p = quietItem p.tok := by
          intro p hp
          have hi := mem_idx_range _ _ _ (afterPlaces_idx c (noteState n r) (j + 1) n.after) p hp
          have hr : r ≠ [] := by
            intro h
            rw [hr0 h] at hp
            simp [afterPlaces] at hp
          have hg := groupToks_pos r hr
          rw [hF p (by simp [groupPlaces, hp])]
          have e1 : decide (p.idx = i0) = false := by simp; omega
          have e2 : decide (p.idx + 1 = e) = false := by simp; omega
          rw [e1, e2, lookup_none_of]
          · simp [quietItem]
          · intro x hx
            rcases List.mem_append.1 hx with hx | hx
            · have := hX x hx; omega
            · rcases List.mem_append.1 hx with hx | hx
              · simp only [gBreaks, List.mem_append] at hx
                rcases hx with hx | hx
                · cases hb : n.brk with
                  | none => simp [hb] at hx
                  | some k =>
                    simp only [hb, List.mem_singleton] at hx
                    subst hx
                    simp only
                    omega
                · have := hgk x hx; omega
              · have := hY x hx; omega
        rw [List.map_congr_left h1]
        show List.map (quietItem ∘ HBPlace.tok) _ = _
        rw [← List.map_map, afterPlaces_tok]
      · have := ih (X ++ (match n.brk with
            | none => []
            | some k => [(j, (k : Int))])) (j + 1 + n.after.length) (by omega) (by omega) ?_ (fun m hm => hnotes m (by simp [hm])) hrlast ?_
        · rw [this]
          congr 1
          simp
          omega
        · intro x hx
          rcases List.mem_append.1 hx with hx | hx
          · have := hX x hx; omega
          · cases hb : n.brk with
            | none => simp [hb] at hx
            | some k =>
              simp only [hb, List.mem_singleton] at hx
              subst hx
              simp only
              omega
        · intro p hp
          rw [hF p (by simp [groupPlaces, hp])]
          simp only [gBreaks, List.append_assoc]

theorem groupPlaces_snoc (c i : Nat) (ns : List HBNote) (hlast : ∀ n ∈ ns.getLast?, n.after = []) (hne : ns ≠ []) :
    ∃ G n j, groupPlaces c i ns = G ++ [⟨j, HBNote.tok n, 0, c⟩] ∧ n ∈ ns ∧ j + 1 = i + (groupToks ns).length := by
  induction ns generalizing i with
  | nil => exact absurd rfl hne
  | cons n r ih =>
    cases r with
    | nil =>
      have ha : n.after = [] := hlast n (by simp)
      exact ⟨[], n, i, by simp [groupPlaces, ha, afterPlaces, noteState, rightN], by simp, by simp [groupToks, ha]⟩
    | cons m r =>
      obtain ⟨G, x, j, h1, h2, h3⟩ := ih (i + 1 + n.after.length) (fun x hx => hlast x (by simpa using hx)) (by simp)
      refine ⟨⟨i, n.tok, noteState n (m :: r), c⟩ :: (afterPlaces c (noteState n (m :: r)) (i + 1) n.after ++ G), x, j, ?_, by simp at h2 ⊢; tauto, ?_⟩
      · rw [groupPlaces, h1]
        simp
      · simp only [groupToks, List.length_cons, List.length_append] at h3 ⊢
        omega

theorem find_num_skip (l r : List HBPlace) (c : Nat) (h : ∀ p ∈ l, p.num ≠ c) :
    (l ++ r).find? (fun q => q.num = c) = r.find? (fun q => q.num = c) := by
  rw [List.find?_append]
  have : l.find? (fun q => q.num = c) = none := by
    rw [List.find?_eq_none]
    intro p hp
    simpa using h p hp
  rw [this, Option.none_or]

theorem segs_items (all : List HBPlace) (hall : AllNums (all.filter durItem)) (hnd : (all.map HBPlace.idx).Nodup)
    (segs : List HBSeg) (hok : LayerOk segs) (A : List HBPlace) (i c : Nat) (hc : c ≠ 0)
    (hA : all = A ++ segPlaces i c segs) (hAp : ∀ p ∈ A, p.num < c ∧ p.idx < i) (brA : List (Nat × Int))
    (hbr : breaksFrom (all.filter (inBeamList false)) = brA ++ breaksFrom ((segPlaces i c segs).filter (inBeamList false)))
    (hbrA : ∀ x ∈ brA, x.1 < i) :
    (segPlaces i c segs).map (itemOf (all.filter durItem) (breaksFrom (all.filter (inBeamList false)))) = segItems segs := by
  have hnd' : ((all.filter durItem).map HBPlace.idx).Nodup := (List.Sublist.map _ List.filter_sublist).nodup hnd
  induction segs generalizing A i c brA with
  | nil => rfl
  | cons s r ih =>
    have hr : LayerOk r := fun x hx => hok x (by simp [hx])
    have hs := hok s (by simp)
    cases s with
    | plain t =>
      simp only [segPlaces, List.map_cons, segItems] at hA hbr ⊢
      rw [List.filter_cons_of_neg (by simp [inBeamList])] at hbr
      congr 1
      · have hmem : (⟨i, t, 0, 0⟩ : HBPlace) ∈ all := by rw [hA]; simp
        have e1 : (durItem ⟨i, t, 0, 0⟩ && startAt (all.filter durItem) i != 0) = false := by
          cases hd : durItem ⟨i, t, 0, 0⟩ with
          | false => rfl
          | true =>
            have := (startAt_iff _ hall hnd' ⟨i, t, 0, 0⟩ (List.mem_filter.2 ⟨hmem, hd⟩)).not.2 (by simp)
            simpa using this
        have e2 : (durItem ⟨i, t, 0, 0⟩ && endAt (all.filter durItem) i != 0) = false := by
          cases hd : durItem ⟨i, t, 0, 0⟩ with
          | false => rfl
          | true =>
            have := (endAt_iff _ hall hnd' ⟨i, t, 0, 0⟩ (List.mem_filter.2 ⟨hmem, hd⟩)).not.2 (by simp)
            simpa using this
        simp only [itemOf, e1, e2, quietItem]
        rw [hbr, lookup_none_of]
        · rfl
        · intro x hx
          rcases List.mem_append.1 hx with hx | hx
          · have := hbrA x hx; omega
          · obtain ⟨p, hp, hpx⟩ := breaksFrom_keys _ x hx
            have := mem_idx_range _ _ _ (segPlaces_idx (i + 1) c r) p (List.mem_filter.1 hp).1
            omega
      · refine ih hr (A ++ [⟨i, t, 0, 0⟩]) (i + 1) c hc (by rw [hA]; simp) ?_ brA hbr (fun x hx => by have := hbrA x hx; omega)
        intro p hp
        rcases List.mem_append.1 hp with hp | hp
        · have := hAp p hp; omega
        · simp only [List.mem_singleton] at hp
          subst hp
          simp only
          omega
    | group ns =>
      have hs : GroupOk ns := hs
      have hne : ns ≠ [] := by
        intro h
        have := hs.two
        simp [h] at this
      simp only [segPlaces, List.map_append, segItems] at hA hbr ⊢
      set G := groupPlaces c i ns with hG
      set B := segPlaces (i + (groupToks ns).length) (c + 1) r with hB
      have hGn : ∀ p ∈ G, p.num = c := fun p hp => (groupPlaces_mem _ _ _ p hp).1
      have hBn : ∀ p ∈ B, p.num ≠ c := by
        intro p hp
        have := (segPlaces_mem _ _ _ p hp).1
        omega
      have hAn : ∀ p ∈ A, p.num ≠ c := by
        intro p hp
        have := (hAp p hp).1
        omega
      rw [List.filter_append, breaksFrom_append c _ _ (fun p hp => hGn p (List.mem_filter.1 hp).1)
        (fun p hp => hBn p (List.mem_filter.1 hp).1), breaks_group c hc ns hs i] at hbr
      -- first and last note
      obtain ⟨n0, r0, hn0⟩ := List.exists_cons_of_ne_nil hne
      have hP0 : ∃ G1 p0, G = p0 :: G1 ∧ p0.idx = i ∧ durItem p0 = true := by
        refine ⟨_, _, by rw [hG, hn0, groupPlaces], rfl, ?_⟩
        have := hs.notes n0 (by rw [hn0]; simp)
        simp [durItem, this.1, this.2.1, this.2.2.2.1]
      obtain ⟨G1, p0, hG1, hp0i, hp0d⟩ := hP0
      obtain ⟨G2, nL, jL, hG2, hnL, hjL⟩ := groupPlaces_snoc c i ns hs.last hne
      have hpLd : durItem ⟨jL, nL.tok, 0, c⟩ = true := by
        have := hs.notes nL hnL
        simp [durItem, this.1, this.2.1, this.2.2.2.1]
      have hp0mem : p0 ∈ all.filter durItem := List.mem_filter.2 ⟨by rw [hA, hG1]; simp, hp0d⟩
      have hpLmem : (⟨jL, nL.tok, 0, c⟩ : HBPlace) ∈ all.filter durItem := List.mem_filter.2 ⟨by rw [hA, hG, hG2]; simp, hpLd⟩
      have hfindS : (all.filter durItem).find? (fun q => q.num = c) = some p0 := by
        rw [hA, List.filter_append, find_num_skip _ _ c (fun p hp => hAn p (List.mem_filter.1 hp).1), hG1, List.cons_append,
          List.filter_cons_of_pos hp0d, List.find?_cons_of_pos]
        simpa using hGn p0 (by rw [hG1]; simp)
      have hfindE : (all.filter durItem).reverse.find? (fun q => q.num = c) = some ⟨jL, nL.tok, 0, c⟩ := by
        rw [hA, List.filter_append, List.filter_append, List.reverse_append, List.reverse_append, List.append_assoc,
          find_num_skip _ _ c (fun p hp => hBn p (List.mem_filter.1 (List.mem_reverse.1 hp)).1), hG, hG2, List.filter_append,
          List.filter_cons_of_pos hpLd, List.filter_nil, List.reverse_append]
        simp
      have hGitems : G.map (itemOf (all.filter durItem) (breaksFrom (all.filter (inBeamList false)))) = groupItems true ns := by
        have := group_items (itemOf (all.filter durItem) (breaksFrom (all.filter (inBeamList false)))) c i (i + (groupToks ns).length)
          brA (breaksFrom (B.filter (inBeamList false))) ns i (le_refl _) rfl hbrA ?_ hs.notes hs.last ?_
        · rw [this]; simp
        · intro x hx
          obtain ⟨p, hp, hpx⟩ := breaksFrom_keys _ x hx
          have := mem_idx_range _ _ _ (segPlaces_idx _ _ r) p (List.mem_filter.1 hp).1
          omega
        · intro p hp
          have hp : p ∈ G := hp
          have hpall : p ∈ all := by rw [hA]; simp [hp]
          have hpn := hGn p hp
          simp only [itemOf]
          rw [hbr]
          have e1 : (durItem p && startAt (all.filter durItem) p.idx != 0) = (durItem p && decide (p.idx = i)) := by
            cases hd : durItem p with
            | false => rfl
            | true =>
              have hpm : p ∈ all.filter durItem := List.mem_filter.2 ⟨hpall, hd⟩
              have h := startAt_iff _ hall hnd' p hpm
              rw [hpn, hfindS] at h
              rw [Bool.true_and, Bool.true_and, Bool.eq_iff_iff, bne_iff_ne, decide_eq_true_iff]
              refine h.trans ⟨?_, ?_⟩
              · rintro ⟨_, h⟩
                simp only [Option.some.injEq] at h
                rw [← h, hp0i]
              · intro h
                exact ⟨hc, by rw [idx_inj _ hnd' p0 p hp0mem hpm (by rw [hp0i, h])]⟩
          have e2 : (durItem p && endAt (all.filter durItem) p.idx != 0) = (durItem p && decide (p.idx + 1 = i + (groupToks ns).length)) := by
            cases hd : durItem p with
            | false => rfl
            | true =>
              have hpm : p ∈ all.filter durItem := List.mem_filter.2 ⟨hpall, hd⟩
              have h := endAt_iff _ hall hnd' p hpm
              rw [hpn, hfindE] at h
              rw [Bool.true_and, Bool.true_and, Bool.eq_iff_iff, bne_iff_ne, decide_eq_true_iff]
              refine h.trans ⟨?_, ?_⟩
              · rintro ⟨_, h⟩
                simp only [Option.some.injEq] at h
                rw [← h]
                exact hjL
              · intro h
                exact ⟨hc, by rw [idx_inj _ hnd' ⟨jL, nL.tok, 0, c⟩ p hpLmem hpm (by simp only; omega)]⟩
          rw [e1, e2]
      rw [hGitems]
      congr 1
      refine ih hr (A ++ G) (i + (groupToks ns).length) (c + 1) (by omega) (by rw [hA, List.append_assoc]) ?_ (brA ++ gBreaks i ns)
        (by rw [hbr, List.append_assoc]) ?_
      · intro p hp
        rcases List.mem_append.1 hp with hp | hp
        · have := hAp p hp; omega
        · have h1 := hGn p hp
          have h2 := mem_idx_range _ _ _ (groupPlaces_idx c i ns) p hp
          omega
      · intro x hx
        rcases List.mem_append.1 hx with hx | hx
        · have := hbrA x hx; omega
        · have := gBreaks_keys i ns x hx; omega

theorem hbLayerItems_eq (segs : List HBSeg) (hok : LayerOk segs) : hbLayerItems (segToks segs) = segItems segs := by
  rw [hbLayerItems_places segs hok]
  refine segs_items (segPlaces 0 1 segs) ?_ ?_ segs hok [] 0 1 (by decide) rfl (by simp) [] rfl (by simp)
  · intro k h1 h2
    obtain ⟨p, hp, hd, hk⟩ := segPlaces_has 0 1 k segs hok h1 (by
      rcases foldl_max_mem ((segPlaces 0 1 segs).filter durItem) 0 with h | ⟨p, hp, h⟩
      · unfold beamCountOf at h2
        omega
      · have := (segPlaces_mem _ _ _ p (List.mem_filter.1 hp).1).1
        unfold beamCountOf at h2
        omega)
    exact ⟨p, List.mem_filter.2 ⟨hp, hd⟩, hk⟩
  · rw [segPlaces_idx]
    exact List.nodup_range'

/-! ### The walk -/

theorem beamWalk_append (xs ys : List HBItem) (i : Nat) (st : HBState) :
    beamWalk i st (xs ++ ys) = beamWalk (i + xs.length) (beamWalk i st xs) ys := by
  induction xs generalizing i st with
  | nil => rfl
  | cons x xs ih =>
    simp only [List.cons_append, beamWalk, ih, List.length_cons]
    congr 1
    omega

theorem walk_between (ts : List HBTok) (h : ∀ t ∈ ts, Between t) (i : Nat) (st : HBState) :
    beamWalk i st (ts.map quietItem) = st := by
  induction ts generalizing i with
  | nil => rfl
  | cons t ts ih =>
    simp only [List.map_cons, beamWalk]
    have e : beamStep i st (quietItem t) = st := by
      unfold beamStep
      by_cases hk : t.kind = .data
      · rw [if_neg (by simpa [quietItem] using hk)]
        have hb := (h t (by simp)).2 hk
        cases hg : t.grace with
        | true => simp [quietItem, hg]
        | false => simp [quietItem, hg, hb hg]
      · rw [if_pos (by simpa [quietItem] using hk)]
    rw [e]
    exact ih (fun x hx => h x (by simp [hx])) _

theorem mapIdx_range_map {β : Type} (n : Nat) (f : Nat → BeamT) (g : Nat → BeamT → β) :
    ((List.range n).map f).mapIdx g = (List.range n).map (fun l => g l (f l)) := by
  apply List.ext_getElem
  · simp
  · intro i h1 h2
    simp

theorem map_range_congr (n : Nat) (f g : Nat → BeamT) (h : ∀ l, l < n → f l = g l) : (List.range n).map f = (List.range n).map g := by
  apply List.map_congr_left
  intro l hl
  exact h l (List.mem_range.1 hl)

theorem replicate_range (n : Nat) (b : BeamT) : List.replicate n b = (List.range n).map (fun _ => b) := by
  apply List.ext_getElem <;> simp

/-- The beams that a note has when the next one is not yet known. -/
def provBeams (b cl : Nat) : List BeamT := (List.range b).map (fun l => if l < cl then .cont else .start)

theorem join_spec (p m : HSig) (cl : Nat) (last : Bool) (hp : 1 ≤ p.1) (hm : 1 ≤ m.1)
    (hbrk : ∀ k, p.2 = some k → 1 ≤ k ∧ k < p.1 ∧ cl = p.1 ∧ m.1 = p.1 ∧ last = false) :
    breakBeams ((p.2.getD 0 : Nat) : Int) p.1 m.1 (joinBeams last p.1 m.1 (provBeams p.1 cl) []) =
      ((List.range p.1).map (fun l => humShould (decide (l < cl)) (decide (l < joinN p m)) false),
       if last then (List.range m.1).map (fun l => humShould (decide (l < joinN p m)) false true) else provBeams m.1 (joinN p m)) := by
  obtain ⟨a, br⟩ := p
  obtain ⟨b, br'⟩ := m
  simp only at hp hm hbrk
  cases br with
  | some k =>
    obtain ⟨h1, h2, h3, h4, h5⟩ := hbrk k rfl
    subst h5
    rw [h4, h3]
    have hj : joinN (a, some k) (a, br') = k := by simp only [joinN]; omega
    rw [hj]
    simp only [Option.getD_some, joinBeams]
    rw [if_neg (by omega), if_neg (by omega)]
    simp only [breakBeams]
    rw [if_pos ⟨by omega, trivial, by omega⟩]
    simp only [List.nil_append, Bool.false_eq_true, if_false, replicate_range, provBeams, mapIdx_range_map, Prod.mk.injEq]
    constructor
    · apply map_range_congr
      intro l hl
      rcases Nat.lt_or_ge l k with h | h
      · rw [if_neg (by omega), if_pos (by omega)]
        simp [humShould, hl, h]
      · rw [if_pos (by omega)]
        simp [humShould, hl, Nat.not_lt.2 h]
    · apply map_range_congr
      intro l hl
      rcases Nat.lt_or_ge l k with h | h
      · rw [if_neg (by omega), if_pos h]
      · rw [if_pos (by omega), if_neg (by omega)]
  | none =>
    have hj : joinN (a, none) (b, br') = min a b := rfl
    rw [hj]
    have hb0 : ∀ r, breakBeams ((Option.getD (none : Option Nat) 0 : Nat) : Int) a b r = r := by
      intro r
      unfold breakBeams
      rw [if_neg (by simp)]
    simp only
    rw [hb0]
    unfold joinBeams
    rcases Nat.lt_trichotomy b a with h | h | h
    · rw [if_pos ⟨by omega, h⟩]
      simp only [provBeams, mapIdx_range_map, List.nil_append, Prod.mk.injEq]
      constructor
      · apply map_range_congr
        intro l hl
        rcases Nat.lt_or_ge l cl with h1 | h1 <;> rcases Nat.lt_or_ge l b with h2 | h2 <;>
          simp [humShould, noMore, h1, h2, hl, Nat.not_lt.2, Nat.not_le.2]
      · cases last
        · simp only [Bool.false_eq_true, if_false, replicate_range]
          apply map_range_congr
          intro l hl
          rw [if_pos (by omega)]
        · simp only [if_true, replicate_range]
          apply map_range_congr
          intro l hl
          have : l < min a b := by omega
          simp [humShould, hl, Nat.lt_trans hl h]
    · subst h
      rw [if_neg (by omega), if_neg (by omega)]
      simp only [provBeams, List.nil_append, Prod.mk.injEq, Nat.min_self]
      constructor
      · apply map_range_congr
        intro l hl
        rcases Nat.lt_or_ge l cl with h1 | h1 <;> simp [humShould, h1, hl, Nat.not_lt.2]
      · cases last
        · simp only [Bool.false_eq_true, if_false, replicate_range]
          apply map_range_congr
          intro l hl
          rw [if_pos (by omega)]
        · simp only [if_true, replicate_range]
          apply map_range_congr
          intro l hl
          simp [humShould, hl]
    · rw [if_neg (by omega), if_pos ⟨by omega, h⟩]
      simp only [provBeams, List.nil_append, Prod.mk.injEq, Nat.min_eq_left (Nat.le_of_lt h)]
      constructor
      · apply map_range_congr
        intro l hl
        rcases Nat.lt_or_ge l cl with h1 | h1 <;> simp [humShould, h1, hl, Nat.not_lt.2]
      · cases last
        · simp only [Bool.false_eq_true, if_false]
          apply map_range_congr
          intro l hl
          rcases Nat.lt_or_ge l a with h1 | h1 <;> simp [h1, Nat.not_lt.2, Nat.not_le.2]
        · simp only [if_true]
          apply map_range_congr
          intro l hl
          rcases Nat.lt_or_ge l a with h1 | h1 <;> simp [humShould, h1, Nat.not_lt.2, Nat.not_le.2]

theorem groupItems_length (f : Bool) (ns : List HBNote) : (groupItems f ns).length = (groupToks ns).length := by
  induction ns generalizing f with
  | nil => rfl
  | cons n r ih => simp [groupItems, groupToks, ih]

theorem humBeams_length (prev : Option HSig) (xs : List HSig) : (humBeams prev xs).length = xs.length := by
  induction xs generalizing prev with
  | nil => rfl
  | cons x xs ih => simp [humBeams, ih]

theorem groupBeams_length (ns : List HBNote) (bs : List (List BeamT)) (h : bs.length = ns.length) :
    (groupBeams ns bs).length = (groupToks ns).length := by
  induction ns generalizing bs with
  | nil => cases bs <;> rfl
  | cons n r ih =>
    obtain ⟨b, bs, rfl⟩ := List.exists_cons_of_length_eq_add_one h
    simp [groupBeams, groupToks, ih bs (by simpa using h)]

/-- The rest of a group, after the note `p` at the place `ip`. -/
theorem walk_rest (ns : List HBNote) (m p : HBNote) (pp : Option HSig) (ip i : Nat) (f : Nat → List BeamT) (hip : ip < i)
    (hp : NoteTok p.tok) (hnotes : ∀ n ∈ m :: ns, NoteTok n.tok) (hafter : ∀ n ∈ m :: ns, ∀ t ∈ n.after, Between t)
    (hlast : ∀ n ∈ (m :: ns).getLast?, n.after = [])
    (hfine : breaksFine pp ((p :: m :: ns).map HBNote.sig))
    (hprov : f ip = provBeams p.tok.beams (leftN pp p.sig)) (hempty : ∀ j, i ≤ j → f j = []) :
    ∃ g, beamWalk i ⟨true, some (ip, p.tok, ((p.brk.getD 0 : Nat) : Int)), f⟩ (groupItems false (m :: ns)) = ⟨false, none, g⟩ ∧
      (∀ j, j < i → g j = if j = ip then (List.range p.tok.beams).map (fun l =>
        humShould (decide (l < leftN pp p.sig)) (decide (l < joinN p.sig m.sig)) false) else f j) ∧
      ∀ j, i ≤ j → g j = ((groupBeams (m :: ns) (humBeams (some p.sig) ((m :: ns).map HBNote.sig)))[j - i]?).getD [] := by
  induction ns generalizing m p pp ip i f with
  | nil =>
    have hm := hnotes m (by simp)
    have ha : m.after = [] := hlast m (by simp)
    have hjs := join_spec p.sig m.sig (leftN pp p.sig) true hp.2.2.2.2.2 hm.2.2.2.2.2 (by
      intro k hk
      obtain ⟨_, _, _, y, z, r', h, _⟩ := hfine.1 k hk
      simp at h)
    simp only [if_true] at hjs
    set F := setBeams (setBeams f ip ((List.range p.tok.beams).map (fun l =>
      humShould (decide (l < leftN pp p.sig)) (decide (l < joinN p.sig m.sig)) false))) i
      ((List.range m.sig.1).map (fun l => humShould (decide (l < joinN p.sig m.sig)) false true)) with hF
    have hstep : beamStep i ⟨true, some (ip, p.tok, ((p.brk.getD 0 : Nat) : Int)), f⟩ ⟨m.tok, false, true, ((m.brk.getD 0 : Nat) : Int)⟩ =
        ⟨false, none, F⟩ := by
      unfold beamStep
      rw [if_neg (by simp [hm.1]), if_neg (by simp), if_pos (by simp)]
      congr 1
      simp only [continueBeam, hm.2.2.2.2.1, hp.2.2.2.2.1, Bool.and_self, if_true, hprov, hempty i (le_refl _)]
      have : breakBeams ((p.brk.getD 0 : Nat) : Int) p.tok.beams m.tok.beams
          (joinBeams true p.tok.beams m.tok.beams (provBeams p.tok.beams (leftN pp p.sig)) []) = _ := hjs
      rw [this]
      rfl
    refine ⟨F, ?_, ?_, ?_⟩
    · simp only [groupItems, ha, List.map_nil, List.append_nil, beamWalk, List.isEmpty_nil]
      exact hstep
    · intro j hj
      rw [hF]
      simp only [setBeams]
      rw [if_neg (by omega)]
    · intro j hj
      rw [hF]
      simp only [setBeams]
      rcases Nat.eq_or_lt_of_le hj with h | h
      · subst h
        rw [if_pos rfl]
        simp only [List.map_cons, List.map_nil, humBeams_cons, groupBeams, leftN, rightN, Option.map_some, Option.getD_some, List.head?_nil,
          Option.map_none, Option.getD_none, Nat.not_lt_zero, decide_false, List.isEmpty_nil, Nat.sub_self, List.getElem?_cons_zero]
        rfl
      · rw [if_neg (by omega), if_neg (by omega), hempty j hj]
        have : j - i = (j - i - 1) + 1 := by omega
        rw [this]
        simp [humBeams_cons, groupBeams, ha]
  | cons m2 ns ih =>
    have hm := hnotes m (by simp)
    have hjs := join_spec p.sig m.sig (leftN pp p.sig) false hp.2.2.2.2.2 hm.2.2.2.2.2 (by
      intro k hk
      obtain ⟨h1, h2, ⟨q, hq, hql⟩, y, z, r', h, hy, _⟩ := hfine.1 k hk
      simp only [List.map_cons, List.cons.injEq] at h
      obtain ⟨rfl, _⟩ := h
      refine ⟨h1, h2, ?_, hy, rfl⟩
      have h3 := hql (p.sig.1 - 1) (by omega)
      rw [joins_eq, decide_eq_true_eq] at h3
      have h4 := leftN_le pp p.sig
      rw [hq] at h4 ⊢
      simp only [leftN, Option.map_some, Option.getD_some] at h4 ⊢
      omega)
    simp only [Bool.false_eq_true, if_false] at hjs
    set F := setBeams (setBeams f ip ((List.range p.tok.beams).map (fun l =>
      humShould (decide (l < leftN pp p.sig)) (decide (l < joinN p.sig m.sig)) false))) i (provBeams m.tok.beams (joinN p.sig m.sig)) with hF
    have hstep : beamStep i ⟨true, some (ip, p.tok, ((p.brk.getD 0 : Nat) : Int)), f⟩ ⟨m.tok, false, false, ((m.brk.getD 0 : Nat) : Int)⟩ =
        ⟨true, some (i, m.tok, ((m.brk.getD 0 : Nat) : Int)), F⟩ := by
      unfold beamStep
      rw [if_neg (by simp [hm.1]), if_neg (by simp), if_neg (by simp), if_pos (by simp [hm.2.1, hm.2.2.1])]
      congr 1
      simp only [continueBeam, hm.2.2.2.2.1, hp.2.2.2.2.1, Bool.and_self, if_true, hprov, hempty i (le_refl _)]
      have : breakBeams ((p.brk.getD 0 : Nat) : Int) p.tok.beams m.tok.beams
          (joinBeams false p.tok.beams m.tok.beams (provBeams p.tok.beams (leftN pp p.sig)) []) = _ := hjs
      rw [this]
      rfl
    obtain ⟨g, hg1, hg2, hg3⟩ := ih m2 m (some p.sig) i (i + 1 + m.after.length) F (by omega) hm
      (fun n hn => hnotes n (by simp at hn ⊢; tauto)) (fun n hn => hafter n (by simp at hn ⊢; tauto))
      (fun n hn => hlast n (by simpa using hn)) hfine.2 (by rw [hF]; simp [setBeams, leftN])
      (by intro j hj; rw [hF]; simp only [setBeams]; rw [if_neg (by omega), if_neg (by omega)]; exact hempty j (by omega))
    refine ⟨g, ?_, ?_, ?_⟩
    · rw [groupItems]
      simp only [List.isEmpty_cons, beamWalk]
      rw [hstep, beamWalk_append, walk_between _ (hafter m (by simp)), List.length_map]
      exact hg1
    · intro j hj
      rw [hg2 j (by omega), if_neg (by omega), hF]
      simp only [setBeams]
      rw [if_neg (by omega)]
    · intro j hj
      rw [List.map_cons, humBeams_cons, groupBeams]
      rcases Nat.eq_or_lt_of_le hj with h | h
      · subst h
        rw [hg2 i (by omega), if_pos rfl]
        simp only [leftN, rightN, Option.map_some, Option.getD_some, List.map_cons, List.head?_cons, List.isEmpty_cons, Nat.sub_self,
          List.getElem?_cons_zero]
        rfl
      · have e1 : j - i = (j - i - 1) + 1 := by omega
        rw [e1, List.getElem?_cons_succ]
        rcases Nat.lt_or_ge j (i + 1 + m.after.length) with h2 | h2
        · rw [hg2 j h2, if_neg (by omega), hF]
          simp only [setBeams]
          rw [if_neg (by omega), if_neg (by omega), hempty j hj, List.getElem?_append_left (by simp; omega), List.getElem?_map]
          cases m.after[j - i - 1]? <;> rfl
        · rw [hg3 j h2, List.getElem?_append_right (by simp; omega), List.length_map]
          congr 2
          omega

theorem walk_group (ns : List HBNote) (hok : GroupOk ns) (i : Nat) (f : Nat → List BeamT) (hempty : ∀ j, i ≤ j → f j = []) :
    ∃ g, beamWalk i ⟨false, none, f⟩ (groupItems true ns) = ⟨false, none, g⟩ ∧
      (∀ j, j < i → g j = f j) ∧
      ∀ j, i ≤ j → g j = ((groupBeams ns (humBeams none (ns.map HBNote.sig)))[j - i]?).getD [] := by
  match ns, hok with
  | [], hok => have := hok.two; simp at this
  | [n], hok => have := hok.two; simp at this
  | n :: m :: r, hok =>
    have hn := hok.notes n (by simp)
    have hstep : beamStep i ⟨false, none, f⟩ ⟨n.tok, true, false, ((n.brk.getD 0 : Nat) : Int)⟩ =
        ⟨true, some (i, n.tok, ((n.brk.getD 0 : Nat) : Int)), setBeams f i (provBeams n.tok.beams 0)⟩ := by
      unfold beamStep
      rw [if_neg (by simp [hn.1]), if_pos (by simp)]
      congr 1
      simp only [startBeam, hn.2.2.2.2.1, if_true, hempty i (le_refl _), provBeams, List.nil_append, Nat.not_lt_zero, if_false]
      rw [replicate_range]
    obtain ⟨g, hg1, hg2, hg3⟩ := walk_rest r m n none i (i + 1 + n.after.length) (setBeams f i (provBeams n.tok.beams 0)) (by omega) hn
      (fun x hx => hok.notes x (by simp at hx ⊢; tauto)) (fun x hx => hok.after x (by simp at hx ⊢; tauto))
      (fun x hx => hok.last x (by simpa using hx)) hok.fine (by simp [setBeams, leftN])
      (by intro j hj; simp only [setBeams]; rw [if_neg (by omega)]; exact hempty j (by omega))
    refine ⟨g, ?_, ?_, ?_⟩
    · rw [groupItems]
      simp only [List.isEmpty_cons, beamWalk]
      rw [hstep, beamWalk_append, walk_between _ (hok.after n (by simp)), List.length_map]
      exact hg1
    · intro j hj
      rw [hg2 j (by omega), if_neg (by omega)]
      simp only [setBeams]
      rw [if_neg (by omega)]
    · intro j hj
      rw [List.map_cons, humBeams_cons, groupBeams]
      rcases Nat.eq_or_lt_of_le hj with h | h
      · subst h
        rw [hg2 i (by omega), if_pos rfl]
        simp only [leftN, rightN, Option.map_some, Option.getD_some, List.map_cons, List.head?_cons, List.isEmpty_cons, Nat.sub_self,
          List.getElem?_cons_zero]
        rfl
      · have e1 : j - i = (j - i - 1) + 1 := by omega
        rw [e1, List.getElem?_cons_succ]
        rcases Nat.lt_or_ge j (i + 1 + n.after.length) with h2 | h2
        · rw [hg2 j h2, if_neg (by omega)]
          simp only [setBeams]
          rw [if_neg (by omega), hempty j hj, List.getElem?_append_left (by simp; omega), List.getElem?_map]
          cases n.after[j - i - 1]? <;> rfl
        · rw [hg3 j h2, List.getElem?_append_right (by simp; omega), List.length_map]
          congr 2
          omega

theorem walk_segs (segs : List HBSeg) (hok : LayerOk segs) (i : Nat) (f : Nat → List BeamT) (hempty : ∀ j, i ≤ j → f j = []) :
    ∃ g, beamWalk i ⟨false, none, f⟩ (segItems segs) = ⟨false, none, g⟩ ∧
      (∀ j, j < i → g j = f j) ∧ ∀ j, i ≤ j → g j = ((segBeams segs)[j - i]?).getD [] := by
  induction segs generalizing i f with
  | nil => exact ⟨f, rfl, fun _ _ => rfl, fun j hj => by simp [segBeams, hempty j hj]⟩
  | cons s r ih =>
    have hr : LayerOk r := fun x hx => hok x (by simp [hx])
    have hs := hok s (by simp)
    cases s with
    | plain t =>
      have hstep : beamStep i ⟨false, none, f⟩ (quietItem t) = ⟨false, none, f⟩ := by
        unfold beamStep
        by_cases hk : t.kind = .data
        · rw [if_neg (by simpa [quietItem] using hk)]
          simp [quietItem]
        · rw [if_pos (by simpa [quietItem] using hk)]
      obtain ⟨g, hg1, hg2, hg3⟩ := ih hr (i + 1) f (fun j hj => hempty j (by omega))
      refine ⟨g, ?_, fun j hj => hg2 j (by omega), ?_⟩
      · rw [segItems, beamWalk, hstep]
        exact hg1
      · intro j hj
        rw [segBeams]
        rcases Nat.eq_or_lt_of_le hj with h | h
        · subst h
          rw [hg2 i (by omega), hempty i (le_refl _)]
          simp
        · have e1 : j - i = (j - (i + 1)) + 1 := by omega
          rw [hg3 j (by omega), e1, List.getElem?_cons_succ]
    | group ns =>
      have hs : GroupOk ns := hs
      have hlen : (groupBeams ns (humBeams none (ns.map HBNote.sig))).length = (groupToks ns).length :=
        groupBeams_length _ _ (by rw [humBeams_length, List.length_map])
      obtain ⟨g1, h1, h2, h3⟩ := walk_group ns hs i f hempty
      obtain ⟨g, hg1, hg2, hg3⟩ := ih hr (i + (groupToks ns).length) g1 (by
        intro j hj
        rw [h3 j (by omega), List.getElem?_eq_none (by omega)]
        rfl)
      refine ⟨g, ?_, ?_, ?_⟩
      · rw [segItems, beamWalk_append, h1, groupItems_length]
        exact hg1
      · intro j hj
        rw [hg2 j (by omega), h2 j hj]
      · intro j hj
        rw [segBeams]
        rcases Nat.lt_or_ge j (i + (groupToks ns).length) with h | h
        · rw [hg2 j h, h3 j hj, List.getElem?_append_left (by omega)]
        · rw [hg3 j h, List.getElem?_append_right (by omega), hlen]
          congr 2
          omega

theorem segBeams_length (segs : List HBSeg) : (segBeams segs).length = (segToks segs).length := by
  induction segs with
  | nil => rfl
  | cons s r ih =>
    cases s with
    | plain t => simp [segBeams, segToks, ih]
    | group ns =>
      simp only [segBeams, segToks, List.length_append, ih]
      rw [groupBeams_length _ _ (by rw [humBeams_length, List.length_map])]

/-- C95. Missing of the full statement: groups of one note in a chord, hooks to the left inside a group, breaks that Humdrum does not
say, beams over a barline (see the theorems below). -/
theorem hum_beams_round_trip_partial (segs : List HBSeg) (hok : LayerOk segs) : layerBeams (segToks segs) = segBeams segs := by
  obtain ⟨g, h1, _, h3⟩ := walk_segs segs hok 0 (fun _ => []) (fun _ _ => rfl)
  unfold layerBeams
  rw [hbLayerItems_eq segs hok, h1]
  apply List.ext_getElem
  · simp [segBeams_length]
  · intro i hi1 hi2
    rw [List.getElem_map, List.getElem_range]
    show g i = _
    rw [h3 i (by omega)]
    simp [hi2]

/-- A note with beams, for the examples. -/
def beamNote (b : Nat) (text : String) : HBTok := ⟨.data, false, false, true, true, b, text.toList⟩

/-- A rest, for the examples. -/
def beamRest : HBTok := ⟨.data, false, true, true, false, 0, "8r".toList⟩

/-- A grace note, for the examples. -/
def beamGrace : HBTok := ⟨.data, true, false, false, true, 1, "8qa".toList⟩

/-- Sixteenth notes with a secondary break, a rest and a grace note among them; a quarter note; a dotted group. -/
def beamExample : List HBSeg :=
  [.group [⟨beamNote 2 "16aLL", none, [beamRest]⟩, ⟨beamNote 2 "16aJ", some 1, [beamGrace]⟩, ⟨beamNote 2 "16aL", none, []⟩,
      ⟨beamNote 2 "16aJJ", none, []⟩],
    .plain (beamNote 0 "4b"), .plain ⟨.nonData, false, false, false, false, 0, "*clefG2".toList⟩,
    .group [⟨beamNote 1 "8.cL", none, []⟩, ⟨beamNote 2 "16cJk", none, []⟩]]

example : LayerOk beamExample := by
  intro s hs
  simp only [beamExample, List.mem_cons, List.not_mem_nil, or_false] at hs
  rcases hs with rfl | rfl | rfl | rfl
  · refine ⟨by decide, ?_, ?_, ?_, ?_, ?_, ?_⟩
    · simp [NoteTok, beamNote]
    · simp [Between, NoBeamText, beamRest, beamGrace, countChar]
    · simp
    · simp [beamGrace]
    · simp [breaksFine, HBNote.sig, beamNote, joins]
    · repeat' constructor
  · exact fun _ _ => ⟨by decide, by decide⟩
  · exact fun h => absurd h (by decide)
  · refine ⟨by decide, ?_, ?_, ?_, ?_, ?_, ?_⟩
    · simp [NoteTok, beamNote]
    · simp
    · simp
    · simp
    · simp [breaksFine, HBNote.sig]
    · repeat' constructor

example : segBeams beamExample =
    [[.start, .start], [], [.cont, .stop], [], [.cont, .start], [.stop, .stop], [], [], [.start], [.stop, .partL]] := by decide

/-- A chord of one note loses its beams and the ends of its slurs. -/
theorem one_note_chord_loses_beams : chordEnds 1 "L".toList ")".toList = [[]] ∧ chordEnds 2 "L".toList ")".toList = [[], "L)".toList] := by
  decide

/-- A break after the first note of a group is lost: the first note should have a hook. -/
theorem first_break_lost :
    let ns : List HBNote := [⟨beamNote 2 "16aKL", some 1, []⟩, ⟨beamNote 2 "16aL", none, []⟩, ⟨beamNote 2 "16aJJ", none, []⟩]
    (humBeams none (ns.map HBNote.sig)).map humBeamText = ["KL".toList, "L".toList, "JJ".toList] ∧
    humBeams none (ns.map HBNote.sig) = [[.start, .partR], [.cont, .start], [.stop, .stop]] ∧
    layerBeams (groupToks ns) = [[.start, .start], [.cont, .cont], [.stop, .stop]] := by decide

/-- A break with a rest after it is lost. -/
theorem break_before_rest_lost :
    let ns : List HBNote := [⟨beamNote 2 "16aLL", none, []⟩, ⟨beamNote 2 "16aJ", some 1, [beamRest]⟩, ⟨beamNote 2 "16aL", none, []⟩,
      ⟨beamNote 2 "16aJJ", none, []⟩]
    (humBeams none (ns.map HBNote.sig)).map humBeamText = ["LL".toList, "J".toList, "L".toList, "JJ".toList] ∧
    humBeams none (ns.map HBNote.sig) = [[.start, .start], [.cont, .stop], [.cont, .start], [.stop, .stop]] ∧
    layerBeams (groupToks ns) = [[.start, .start], [.cont, .cont], [], [.cont, .cont], [.stop, .stop]] := by decide

/-- A break between notes with different numbers of beams is lost (the third beam goes on as it would without the break). -/
theorem hum_uneven_break_lost :
    let ns : List HBNote := [⟨beamNote 3 "32aLLL", none, []⟩, ⟨beamNote 3 "32aJJ", some 1, []⟩, ⟨beamNote 2 "16aL", none, []⟩,
      ⟨beamNote 2 "16aJJ", none, []⟩]
    (humBeams none (ns.map HBNote.sig)).map humBeamText = ["LLL".toList, "JJ".toList, "L".toList, "JJ".toList] ∧
    humBeams none (ns.map HBNote.sig) = [[.start, .start, .start], [.cont, .stop, .stop], [.cont, .start], [.stop, .stop]] ∧
    layerBeams (groupToks ns) = [[.start, .start, .start], [.cont, .cont, .stop], [.cont, .cont], [.stop, .stop]] := by decide

/-- A hook inside a group is always read as one to the right. -/
theorem inner_hook_to_the_right :
    humBeamText [.cont, .partL] = "k".toList ∧
    layerBeams [beamNote 1 "8.aL", beamNote 2 "16ak", beamNote 1 "8aJ"] = [[.start], [.cont, .partR], [.stop]] := by decide

/-- A beam that goes over the barline takes all beams of the layer in both measures away. -/
theorem beam_over_barline :
    layerBeams [beamNote 1 "8aL", beamNote 1 "8aJ", beamNote 1 "8aL"] = [[], [], []] ∧
    layerBeams [beamNote 1 "8aJ", beamNote 1 "8aL", beamNote 1 "8aJ"] = [[], [], []] := by decide

/-- A beam over notes without durations spoils the beams that come after it: both notes of the second beam start a beam. -/
theorem beam_without_durations :
    let n : HBTok := ⟨.data, false, false, false, true, 0, "aL".toList⟩
    let m : HBTok := ⟨.data, false, false, false, true, 0, "aJ".toList⟩
    layerBeams [n, m, beamNote 1 "8aL", beamNote 1 "8aJ"] = [[], [], [.start], [.start]] := by decide

end C21
