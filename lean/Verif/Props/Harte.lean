import Verif.Props.HarteText
import Verif.Props.Dates
import Mathlib.Data.List.Nodup
/-
C109: chord symbols survive as Harte texts.
-/
namespace C21

/-! ## Specification -/

/-- The notes of a chord, as degrees above its root, from those of its kind and its modifications: what is left out or
altered goes, what is added or altered comes. -/
def chordNotes (base : List Str) (mods : List CsMod) : List Str :=
  (base.filter fun d =>
    decide (∀ m ∈ mods, (m.type = .subtract → harteDegree m.degree m.semis ≠ d) ∧ (m.type = .alter → natStr m.degree ≠ d))) ++
  (mods.filter fun m => decide (m.type = .add ∨ m.type = .alter ∧ natStr m.degree ∈ base)).map
    fun m => harteDegree m.degree m.semis

/-- The notes of a kind in music21's table. -/
def kindNotes (kinds : List (Str × Str)) (kind : Str) : List Str :=
  ((kinds.find? fun k => k.1 = kind).map fun k => kindDegrees k.2).getD []

/-- What is asked of music21's table of kinds. -/
structure KindTable (kinds : List (Str × Str)) : Prop where
  names : (kinds.map (·.1)).Nodup
  named : ∀ k ∈ kinds, k.1 ≠ []
  nodup : ∀ k ∈ kinds, (kindDegrees k.2).Nodup
  ones : ∀ k ∈ kinds, ['1'] ∈ kindDegrees k.2
  differ : ∀ k ∈ kinds, ∀ l ∈ kinds, (∀ d ∈ kindDegrees k.2, d ∈ kindDegrees l.2) →
    (∀ d ∈ kindDegrees l.2, d ∈ kindDegrees k.2) → k = l
  agree : ∀ r ∈ harteLong, ∀ k ∈ kinds, k.1 = r.1.toList →
    (∀ d ∈ kindDegrees k.2, d = ['1'] ∨ d ∈ splitOn ',' r.2.toList) ∧ (∀ d ∈ splitOn ',' r.2.toList, d ∈ kindDegrees k.2)
  has : ∀ r ∈ simplifyRules, r.2.2.2.2.toList ∈ kinds.map (·.1)
  pedal : ("pedal".toList, "1".toList) ∈ kinds

/-- Modifications that are kept: degrees other than the root are added; different natural degrees of the chord are
left out, or different natural degrees altered, but not both. -/
structure GoodMods (base : List Str) (mods : List CsMod) : Prop where
  root : ∀ m ∈ mods, m.degree ≠ 1
  omits : ∀ m ∈ mods, m.type = .subtract → m.semis = 0 ∧ natStr m.degree ∈ base
  alters : ∀ m ∈ mods, m.type = .alter → natStr m.degree ∈ base
  single : (mods.filter fun m => m.type ≠ .add).Pairwise fun m m' => m.degree ≠ m'.degree
  oneSort : ∀ m ∈ mods, ∀ m' ∈ mods, m.type = .subtract → m'.type ≠ .alter

/-- Chord symbols that are kept. -/
structure GoodChord (kinds : List (Str × Str)) (cs : ChordSym) : Prop where
  rootStep : cs.root.step < 7
  bassStep : cs.bass.step < 7
  bass : GoodBass cs.root cs.bass
  known : ∃ r ∈ harteLong, r.1.toList = cs.kind
  listed : cs.kind ∈ kinds.map (·.1)
  mods : GoodMods (kindNotes kinds cs.kind) cs.mods

/-! ## Lists -/

theorem count_foldl_erase (X L : List Str) (a : Str) :
    (X.foldl (fun l x => l.erase x) L).count a = L.count a - X.count a := by
  induction X generalizing L with
  | nil => simp
  | cons x X ih =>
    rw [List.foldl_cons, ih, List.count_erase, List.count_cons]
    omega

theorem mem_foldl_erase_filter (p : Str → Bool) (L : List Str) (a : Str) :
    a ∈ (L.filter p).foldl (fun l x => l.erase x) L ↔ a ∈ L ∧ p a = false := by
  rw [← List.count_pos_iff, count_foldl_erase, ← List.count_pos_iff (l := L)]
  by_cases hp : p a = true
  · rw [List.count_filter hp]
    simp [hp]
  · have : (L.filter p).count a = 0 := by
      rw [List.count_eq_zero]
      intro h
      exact hp (List.mem_filter.1 h).2
    rw [this]
    simp [hp]

theorem mem_foldl_erase_nodup (X L : List Str) (hL : L.Nodup) (a : Str) :
    a ∈ X.foldl (fun l x => l.erase x) L ↔ a ∈ L ∧ a ∉ X := by
  induction X generalizing L with
  | nil => simp
  | cons x X ih =>
    rw [List.foldl_cons, ih _ (hL.erase x), hL.mem_erase_iff, List.mem_cons]
    tauto

theorem foldl_erase_map {β : Type} (f : β → Str) (X : List β) (L : List Str) :
    X.foldl (fun l r => l.erase (f r)) L = (X.map f).foldl (fun l x => l.erase x) L := by
  induction X generalizing L with
  | nil => rfl
  | cons x X ih => rw [List.foldl_cons, List.map_cons, List.foldl_cons, ih]

theorem foldl_erase_absent (o : Str) (degs new : List Str) (h : o ∉ degs) :
    degs.foldl (fun n d => if o = d then n.erase d else n) new = new := by
  induction degs generalizing new with
  | nil => rfl
  | cons d degs ih =>
    rw [List.mem_cons, not_or] at h
    rw [List.foldl_cons, if_neg h.1, ih _ h.2]

theorem foldl_erase_once (o : Str) (degs new : List Str) (hn : degs.Nodup) (h : o ∈ degs) :
    degs.foldl (fun n d => if o = d then n.erase d else n) new = new.erase o := by
  induction degs generalizing new with
  | nil => cases h
  | cons d degs ih =>
    rw [List.nodup_cons] at hn
    rw [List.foldl_cons]
    by_cases hd : o = d
    · subst hd
      rw [if_pos rfl, foldl_erase_absent _ _ _ hn.1]
    · rw [if_neg hd, ih _ hn.2 (by simpa [hd] using h)]

/-! ## Degrees -/

theorem modText_eq (m : CsMod) : modText m = harteDegree m.degree m.semis := by
  unfold modText harteDegree
  congr 1
  by_cases h : m.semis > 0
  · rw [if_pos h, if_pos (by omega)]
    congr 1
    omega
  · rw [if_neg h]
    by_cases h0 : m.semis = 0
    · rw [h0]; rfl
    · rw [if_neg (by omega)]
      congr 1
      omega

theorem digit_not_prefix (c : Char) (h : isDig c = true) : degreePrefix c = false := by
  unfold isDig at h
  rw [Bool.and_eq_true, decide_eq_true_eq, decide_eq_true_eq] at h
  unfold degreePrefix
  rw [Bool.or_eq_false_iff, beq_eq_false_iff_ne]
  refine ⟨?_, ?_⟩
  · rintro rfl
    revert h
    decide
  · rw [Bool.and_eq_false_iff]
    right
    have : '*'.toNat = 42 := by decide
    rw [this]
    simp
    omega

theorem degreeInt_prefix (p : Str) (n : Nat) (hp : ∀ c ∈ p, degreePrefix c = true) : degreeInt (p ++ natStr n) = some n := by
  unfold degreeInt
  have h1 : (p ++ natStr n).dropWhile degreePrefix = natStr n :=
    dropWhile_all_append p (natStr n) hp (fun c hc => digit_not_prefix c (natStr_isDig n c (List.mem_of_mem_head? hc)))
  have h2 : (natStr n).takeWhile isDig = natStr n := by
    have := takeWhile_all_append (p := isDig) (natStr n) [] (natStr_isDig n) (fun c hc => by cases hc)
    rwa [List.append_nil] at this
  simp only [h1, h2]
  rw [if_neg (natStr_ne_nil n), parse_natStr]

theorem degreeInt_harte (n : Nat) (a : Int) : degreeInt (harteDegree n a) = some n := by
  unfold harteDegree
  apply degreeInt_prefix
  intro c hc
  split at hc <;> · rw [List.eq_of_mem_replicate hc]; decide

theorem degreeInt_star (n : Nat) : degreeInt ('*' :: natStr n) = some n := by
  have := degreeInt_prefix ['*'] n (by intro c hc; rw [List.mem_singleton.1 hc]; decide)
  simpa using this

theorem harteDegree_zero (n : Nat) : harteDegree n 0 = natStr n := rfl

theorem harteDegree_counts (n : Nat) (a : Int) :
    (countChar '#' (harteDegree n a) : Int) - countChar 'b' (harteDegree n a) = a := by
  have hd : ∀ c, isDig c = false → countChar c (natStr n) = 0 := by
    intro c hc
    unfold countChar
    rw [List.length_eq_zero_iff, List.filter_eq_nil_iff]
    intro x hx h
    rw [beq_iff_eq] at h
    subst h
    rw [natStr_isDig n x hx] at hc
    cases hc
  have happ : ∀ (c : Char) (x y : Str), countChar c (x ++ y) = countChar c x + countChar c y := by
    intro c x y
    unfold countChar
    rw [List.filter_append, List.length_append]
  unfold harteDegree
  rw [happ, happ, hd _ (by decide), hd _ (by decide)]
  by_cases ha : a ≥ 0
  · rw [if_pos ha, countChar_rep_self, countChar_rep_other _ _ _ (by decide)]
    omega
  · rw [if_neg ha, countChar_rep_self, countChar_rep_other _ _ _ (by decide)]
    omega

theorem harteDegree_head (n : Nat) (a : Int) : startsWith (harteDegree n a) ['*'] = false := by
  unfold startsWith harteDegree
  have hmem : ∀ c ∈ (if a ≥ 0 then List.replicate a.toNat '#' else List.replicate (-a).toNat 'b') ++ natStr n, c ≠ '*' := by
    intro c hc
    rw [List.mem_append] at hc
    rcases hc with hc | hc
    · split at hc <;> · rw [List.eq_of_mem_replicate hc]; decide
    · rintro rfl
      have := natStr_isDig n _ hc
      revert this
      decide
  generalize (if a ≥ 0 then List.replicate a.toNat '#' else List.replicate (-a).toNat 'b') ++ natStr n = s at hmem
  cases s with
  | nil => rfl
  | cons x s =>
    have := hmem x (by simp)
    simp [List.isPrefixOf, this.symm]

theorem harteDegree_chars (n : Nat) (a : Int) : ∀ c ∈ harteDegree n a, degreeChar c = true ∧ c ≠ ',' := by
  intro c hc
  unfold harteDegree at hc
  rw [List.mem_append] at hc
  rcases hc with hc | hc
  · split at hc <;> · rw [List.eq_of_mem_replicate hc]; decide
  · have := natStr_isDig n c hc
    refine ⟨by unfold degreeChar; simp [this], ?_⟩
    rintro rfl
    revert this
    decide

/-- A degree that stands for a note: no star, and the root only without accidentals. -/
def CanonDeg (d : Str) : Prop := ∃ n a, d = harteDegree n a ∧ (n = 1 → a = 0)

/-- A degree or one left out. -/
def ListedDeg (d : Str) : Prop := CanonDeg d ∨ ∃ n, d = '*' :: natStr n

theorem listed_int (d : Str) (h : ListedDeg d) : (degreeInt d).isSome = true := by
  rcases h with ⟨n, a, rfl, -⟩ | ⟨n, rfl⟩
  · rw [degreeInt_harte]; rfl
  · rw [degreeInt_star]; rfl

theorem listed_chars (d : Str) (h : ListedDeg d) : d ≠ [] ∧ ∀ c ∈ d, degreeChar c = true ∧ c ≠ ',' := by
  rcases h with ⟨n, a, rfl, -⟩ | ⟨n, rfl⟩
  · refine ⟨?_, harteDegree_chars n a⟩
    unfold harteDegree
    intro h
    exact natStr_ne_nil n (List.append_eq_nil_iff.1 h).2
  · refine ⟨by simp, ?_⟩
    intro c hc
    rw [List.mem_cons] at hc
    rcases hc with rfl | hc
    · decide
    · exact harteDegree_chars n 0 c hc

theorem sort_listed (l : List Str) (h : ∀ d ∈ l, ListedDeg d) :
    ∃ s, sortDegrees l = .ok s ∧ s.Perm l := by
  refine ⟨l.insertionSort fun a b => (degreeInt a).getD 0 ≤ (degreeInt b).getD 0, ?_, List.perm_insertionSort _ _⟩
  unfold sortDegrees
  rw [if_pos]
  rw [List.all_eq_true]
  exact fun d hd => listed_int d (h d hd)

theorem degreeList_join (l : List Str) (h : ∀ d ∈ l, ListedDeg d) : degreeList (joinWith ',' l) = l := by
  cases l with
  | nil => rfl
  | cons x xs =>
    have hne : joinWith ',' (x :: xs) ≠ [] := by
      cases xs with
      | nil => exact (listed_chars x (h x (by simp))).1
      | cons y ys => simp [joinWith]
    unfold degreeList
    rw [if_neg hne]
    apply splitOn_joinWith _ _ (by simp)
    intro d hd hc
    exact ((listed_chars d (h d hd)).2 _ hc).2 rfl

theorem join_chars (l : List Str) (h : ∀ d ∈ l, ListedDeg d) : ∀ c ∈ joinWith ',' l, degreeChar c = true := by
  intro c hc
  rcases mem_joinWith ',' l c hc with rfl | ⟨d, hd, hcd⟩
  · decide
  · exact ((listed_chars d (h d hd)).2 c hcd).1

/-! ## Writing -/

theorem omit_loop (degs : List Str) (hn : degs.Nodup) :
    ∀ (omits done : List Str), (done ++ omits).Nodup → (∀ o ∈ omits, ∃ n, o = natStr n) →
    (∀ o ∈ omits, ∀ d ∈ degs, d ≠ '*' :: o) → (∀ o ∈ done, ∀ o' ∈ omits, '*' :: o ≠ o') →
    loopM (omitOne degs) omits ((degs.filter fun d => decide (d ∉ done)) ++ (done.filter fun o => decide (o ∉ degs)).map ('*' :: ·)) =
      .ok ((degs.filter fun d => decide (d ∉ done ++ omits)) ++
        ((done ++ omits).filter fun o => decide (o ∉ degs)).map ('*' :: ·)) := by
  intro omits
  induction omits with
  | nil =>
    intro done _ _ _ _
    rw [List.append_nil]
    rfl
  | cons o omits ih =>
    intro done hnd hnat hstar hds
    have hod : o ∉ done := by
      rw [List.nodup_append] at hnd
      intro h
      exact hnd.2.2 o h o (by simp) rfl
    have hnd' : (done ++ [o] ++ omits).Nodup := by simpa using hnd
    have hsos : ∀ o' ∈ done ++ [o], ∀ o'' ∈ omits, '*' :: o' ≠ o'' := by
      intro o' ho' o'' ho''
      obtain ⟨n, hn⟩ := hnat o'' (List.mem_cons_of_mem _ ho'')
      intro he
      rw [hn] at he
      have := natStr_isDig n '*' (by rw [← he]; simp)
      revert this
      decide
    have hih := ih (done ++ [o]) hnd' (fun x hx => hnat x (List.mem_cons_of_mem _ hx))
      (fun x hx => hstar x (List.mem_cons_of_mem _ hx)) hsos
    have happ : done ++ [o] ++ omits = done ++ o :: omits := by simp
    rw [happ] at hih
    rw [loopM]
    have hstep : omitOne degs ((degs.filter fun d => decide (d ∉ done)) ++
        (done.filter fun o => decide (o ∉ degs)).map ('*' :: ·)) o =
        .ok ((degs.filter fun d => decide (d ∉ done ++ [o])) ++
          ((done ++ [o]).filter fun o => decide (o ∉ degs)).map ('*' :: ·)) := by
      unfold omitOne
      by_cases hin : o ∈ degs
      · rw [if_pos hin]
        have hmem : o ∈ degs.filter fun d => decide (d ∉ done) := by
          rw [List.mem_filter]; exact ⟨hin, by simpa using hod⟩
        have hcount : degs.count o ≤ ((degs.filter fun d => decide (d ∉ done)) ++
            (done.filter fun o => decide (o ∉ degs)).map ('*' :: ·)).count o := by
          have h1 : degs.count o = 1 := List.count_eq_one_of_mem hn hin
          have h2 : 0 < (degs.filter fun d => decide (d ∉ done)).count o := List.count_pos_iff.2 hmem
          rw [h1, List.count_append]
          omega
        rw [if_pos hcount, foldl_erase_once o degs _ hn hin, List.erase_append_left _ hmem,
          List.Nodup.erase_eq_filter (hn.filter _), List.filter_filter, List.filter_append (l₁ := done)]
        have h3 : [o].filter (fun o => decide (o ∉ degs)) = [] := by simp [hin]
        rw [h3, List.append_nil]
        congr 2
        apply List.filter_congr
        intro d _
        rw [Bool.eq_iff_iff]
        simp
        tauto
      · rw [if_neg hin]
        obtain ⟨n, hn2⟩ := hnat o (by simp)
        have h4 : natStr ((degreeInt o).getD 0) = o := by
          have h5 := degreeInt_harte n 0
          rw [harteDegree_zero] at h5
          rw [hn2, h5]
          rfl
        rw [h4, List.filter_append (l₁ := done)]
        have h3 : [o].filter (fun o => decide (o ∉ degs)) = [o] := by simp [hin]
        rw [h3, List.map_append, List.append_assoc]
        have h5 : (degs.filter fun d => decide (d ∉ done)) = degs.filter fun d => decide (d ∉ done ++ [o]) := by
          apply List.filter_congr
          intro d hd
          rw [Bool.eq_iff_iff]
          simp
          intro _ he
          exact hin (he ▸ hd)
        rw [h5]
        rfl
    rw [hstep]
    exact hih

theorem alter_one (a : Str) : ∀ (degs : List Str) (f : Str → Str),
    alterOne a degs (degs.map f) = .ok (degs.map fun d => if degreeInt a = degreeInt d then a else f d)
  | [], _ => rfl
  | d :: ds, f => by
    rw [List.map_cons, alterOne, alter_one a ds f]
    rfl

/-- The text a degree becomes when altered by each of a list. -/
def alteredTo (alters : List Str) (d : Str) : Str :=
  alters.foldl (fun x a => if degreeInt a = degreeInt d then a else x) d

theorem alter_loop (degs : List Str) : ∀ (alters : List Str) (f : Str → Str),
    loopM (fun n a => alterOne a degs n) alters (degs.map f) =
      .ok (degs.map fun d => alters.foldl (fun x a => if degreeInt a = degreeInt d then a else x) (f d))
  | [], _ => rfl
  | a :: alters, f => by
    rw [loopM, alter_one a degs f]
    exact alter_loop degs alters (fun d => if degreeInt a = degreeInt d then a else f d)

theorem foldl_alter_none (d x : Str) (alters : List Str) (h : ∀ a ∈ alters, degreeInt a ≠ degreeInt d) :
    alters.foldl (fun x a => if degreeInt a = degreeInt d then a else x) x = x := by
  induction alters generalizing x with
  | nil => rfl
  | cons a alters ih =>
    rw [List.foldl_cons, if_neg (h a (by simp)), ih _ (fun b hb => h b (List.mem_cons_of_mem _ hb))]

theorem foldl_alter_some (d x a : Str) (alters : List Str) (ha : a ∈ alters) (hi : degreeInt a = degreeInt d)
    (hp : alters.Pairwise fun a b => degreeInt a ≠ degreeInt b) :
    alters.foldl (fun x a => if degreeInt a = degreeInt d then a else x) x = a := by
  induction alters generalizing x with
  | nil => cases ha
  | cons b alters ih =>
    rw [List.pairwise_cons] at hp
    rw [List.foldl_cons]
    rw [List.mem_cons] at ha
    rcases ha with rfl | ha
    · rw [if_pos hi, foldl_alter_none]
      intro b hb h2
      exact hp.1 b hb (hi.trans h2.symm)
    · exact ih _ ha hp.2

/-! ## The tables -/

def canonB (d : Str) : Bool :=
  d == harteDegree ((degreeInt d).getD 0) ((countChar '#' d : Int) - countChar 'b' d) &&
    (decide ((degreeInt d).getD 0 ≠ 1) || decide ((countChar '#' d : Int) - countChar 'b' d = 0))

theorem canonB_spec (d : Str) (h : canonB d = true) : CanonDeg d := by
  unfold canonB at h
  rw [Bool.and_eq_true, beq_iff_eq, Bool.or_eq_true, decide_eq_true_eq, decide_eq_true_eq] at h
  exact ⟨_, _, h.1, fun h1 => h.2.resolve_left (fun h2 => h2 h1)⟩

/-- The two tables of kinds agree, and their texts are well formed. -/
def RowOK (r : String × String) (s : String × String × String) : Prop :=
  harteShort.find? (fun x => x.1.toList = r.1.toList) = some s ∧
  (degreeList s.2.2.toList).Nodup ∧ (impliedDegrees s.2.1.toList).Nodup ∧
  (s.2.1.toList ≠ [] ↔ impliedDegrees s.2.1.toList ≠ []) ∧
  (∀ d ∈ degreeList s.2.2.toList, d ∉ impliedDegrees s.2.1.toList) ∧
  (∀ d ∈ degreeList s.2.2.toList ++ impliedDegrees s.2.1.toList, d ∈ splitOn ',' r.2.toList) ∧
  (∀ d ∈ splitOn ',' r.2.toList, d = ['1'] ∨ d ∈ degreeList s.2.2.toList ++ impliedDegrees s.2.1.toList) ∧
  (∀ d ∈ splitOn ',' r.2.toList, canonB d = true) ∧
  (splitOn ',' r.2.toList).Pairwise (fun a b => degreeInt a ≠ degreeInt b) ∧
  (∀ c ∈ s.2.1.toList, shortChar c = true) ∧ (∀ c ∈ s.2.2.toList, degreeChar c = true) ∧
  r.2.toList ≠ []

instance (r : String × String) (s : String × String × String) : Decidable (RowOK r s) := by
  unfold RowOK; infer_instance

theorem rows_ok : ∀ r ∈ harteLong, harteLong.find? (fun x => x.1.toList = r.1.toList) = some r ∧
    ∃ s ∈ harteShort, RowOK r s := by decide +kernel

/-! ## What the reader makes of the degrees -/

theorem read_no_short (dg : Str) : readDegrees [] dg = degreeList dg := rfl

theorem read_short (sh dg : Str) (hsh : sh ≠ []) (hI : impliedDegrees sh ≠ []) (hn : (impliedDegrees sh).Nodup) (d : Str) :
    d ∈ readDegrees sh dg ↔ (d ∈ degreeList dg ∧ startsWith d ['*'] = false) ∨
      (d ∈ impliedDegrees sh ∧ '*' :: d ∉ degreeList dg) := by
  unfold readDegrees
  simp only [hsh, hI, if_false]
  have hstar : ∀ d : Str, startsWith d ['*'] = true → '*' :: d.drop 1 = d := by
    intro d hd
    unfold startsWith at hd
    cases d with
    | nil => cases hd
    | cons x d =>
      simp [List.isPrefixOf] at hd
      rw [hd]
      rfl
  have hback : ((degreeList dg).filter fun d => startsWith d ['*']).map (fun x => '*' :: x.drop 1) =
      (degreeList dg).filter fun d => startsWith d ['*'] := by
    conv_rhs => rw [← List.map_id ((degreeList dg).filter fun d => startsWith d ['*'])]
    apply List.map_congr_left
    intro x hx
    exact hstar x (List.mem_filter.1 hx).2
  rw [List.mem_append, foldl_erase_map (fun r : Str => '*' :: r), List.map_map]
  have e : (degreeList dg |>.filter fun d => startsWith d ['*']).map ((fun r : Str => '*' :: r) ∘ fun x => x.drop 1) =
      (degreeList dg).filter fun d => startsWith d ['*'] := hback
  rw [e, mem_foldl_erase_filter, mem_foldl_erase_nodup _ _ hn]
  have hr : d ∉ ((degreeList dg).filter fun d => startsWith d ['*']).map (fun x => x.drop 1) ↔ '*' :: d ∉ degreeList dg := by
    rw [not_iff_not, List.mem_map]
    constructor
    · rintro ⟨x, hx, rfl⟩
      rw [List.mem_filter] at hx
      rw [hstar x hx.2]
      exact hx.1
    · intro h
      refine ⟨'*' :: d, List.mem_filter.2 ⟨h, by simp [startsWith, List.isPrefixOf]⟩, rfl⟩
  rw [hr]

theorem mem_modTexts (t : ModType) (mods : List CsMod) (d : Str) :
    d ∈ modTexts t mods ↔ ∃ m ∈ mods, m.type = t ∧ d = harteDegree m.degree m.semis := by
  unfold modTexts
  rw [List.mem_map]
  constructor
  · rintro ⟨m, hm, rfl⟩
    rw [List.mem_filter] at hm
    exact ⟨m, hm.1, by simpa using hm.2, modText_eq m⟩
  · rintro ⟨m, hm, ht, rfl⟩
    exact ⟨m, List.mem_filter.2 ⟨hm, by simpa using ht⟩, modText_eq m⟩

theorem mem_chordNotes (base : List Str) (mods : List CsMod) (d : Str) :
    d ∈ chordNotes base mods ↔
      (d ∈ base ∧ ∀ m ∈ mods, (m.type = .subtract → harteDegree m.degree m.semis ≠ d) ∧ (m.type = .alter → natStr m.degree ≠ d)) ∨
      ∃ m ∈ mods, (m.type = .add ∨ m.type = .alter ∧ natStr m.degree ∈ base) ∧ d = harteDegree m.degree m.semis := by
  unfold chordNotes
  rw [List.mem_append, List.mem_filter, List.mem_map]
  simp only [decide_eq_true_eq, List.mem_filter]
  constructor
  · rintro (h | ⟨m, ⟨h1, h2⟩, rfl⟩)
    · exact Or.inl h
    · exact Or.inr ⟨m, h1, h2, rfl⟩
  · rintro (h | ⟨m, h1, h2, rfl⟩)
    · exact Or.inl h
    · exact Or.inr ⟨m, ⟨h1, h2⟩, rfl⟩

theorem degree_texts_differ (m m' : CsMod) (h : m.degree ≠ m'.degree) : degreeInt (modText m) ≠ degreeInt (modText m') := by
  rw [modText_eq, modText_eq, degreeInt_harte, degreeInt_harte]
  simpa using h

theorem modTexts_pairwise (t : ModType) (ht : t ≠ .add) (mods : List CsMod)
    (h : (mods.filter fun m => m.type ≠ .add).Pairwise fun m m' => m.degree ≠ m'.degree) :
    (modTexts t mods).Pairwise fun a b => degreeInt a ≠ degreeInt b := by
  unfold modTexts
  rw [List.pairwise_map]
  have e : mods.filter (fun m => decide (m.type = t)) = (mods.filter fun m => decide (m.type ≠ .add)).filter (fun m => decide (m.type = t)) := by
    rw [List.filter_filter]
    apply List.filter_congr
    intro m _
    rw [Bool.eq_iff_iff]
    simp only [Bool.and_eq_true, decide_eq_true_eq]
    constructor
    · intro h; exact ⟨h, by rw [h]; exact ht⟩
    · exact fun h => h.1
  rw [e]
  exact (h.filter _).imp (fun {a b} hab => degree_texts_differ a b hab)

/-- **What is written for the notes of a chord stands for them.** -/
theorem harteDegrees_spec (base : List Str) (r : String × String) (hr : r ∈ harteLong) (mods : List CsMod)
    (hbase : ∀ d, d ∈ base ↔ d = ['1'] ∨ d ∈ splitOn ',' r.2.toList) (hm : GoodMods base mods) :
    ∃ sh dg, harteDegrees r.1.toList mods = some (.ok (sh, dg)) ∧ (∀ c ∈ sh, shortChar c = true) ∧
      (∀ c ∈ dg, degreeChar c = true) ∧ (∀ d ∈ readDegrees sh dg, CanonDeg d) ∧
      ∀ d, (d = ['1'] ∨ d ∈ readDegrees sh dg) ↔ d ∈ chordNotes base mods := by
  obtain ⟨hfl, s, hs, hfs, hLn, hIn, hIe, hdisj, hsub, hsup, hcan, hpw, hsc, hdc, hrne⟩ := rows_ok r hr
  set B := splitOn ',' r.2.toList with hB
  set L := degreeList s.2.2.toList with hL
  set I := impliedDegrees s.2.1.toList with hI
  have hcanB : ∀ d ∈ B, CanonDeg d := fun d hd => canonB_spec d (hcan d hd)
  have hcanL : ∀ d ∈ L, CanonDeg d := fun d hd => hcanB d (hsub d (by simp [hd]))
  have hcanI : ∀ d ∈ I, CanonDeg d := fun d hd => hcanB d (hsub d (by simp [hd]))
  have hns : ∀ d, CanonDeg d → startsWith d ['*'] = false := by
    rintro d ⟨n, a, rfl, -⟩
    exact harteDegree_head n a
  have hnstar : ∀ d, CanonDeg d → ∀ o, d ≠ '*' :: o := by
    intro d hd o he
    have := hns d hd
    rw [he] at this
    simp [startsWith, List.isPrefixOf] at this
  have hLI : ∀ d, d ∈ base ↔ d = ['1'] ∨ d ∈ L ∨ d ∈ I := by
    intro d
    rw [hbase]
    constructor
    · rintro (h | h)
      · exact Or.inl h
      · rcases hsup d h with h | h
        · exact Or.inl h
        · rw [List.mem_append] at h
          exact Or.inr h
    · rintro (h | h | h)
      · exact Or.inl h
      · exact Or.inr (hsub d (by simp [h]))
      · exact Or.inr (hsub d (by simp [h]))
  have hone : ∀ m ∈ mods, natStr m.degree ≠ ['1'] := by
    intro m hmm h
    exact hm.root m hmm (natStr_inj _ 1 (by rw [h]; decide))
  have haddC : ∀ t, ∀ d ∈ modTexts t mods, CanonDeg d := by
    intro t d hd
    rw [mem_modTexts] at hd
    obtain ⟨m, hmm, -, rfl⟩ := hd
    exact ⟨m.degree, m.semis, rfl, fun h => absurd h (hm.root m hmm)⟩
  unfold harteDegrees
  by_cases halt : ∃ m ∈ mods, m.type = .alter
  · -- altered degrees: the long list
    have hany : (mods.any fun m => decide (m.type = .alter)) = true := by
      rw [List.any_eq_true]
      obtain ⟨m, h1, h2⟩ := halt
      exact ⟨m, h1, by simpa using h2⟩
    have hne : mods ≠ [] := by
      rintro rfl
      obtain ⟨m, h1, -⟩ := halt
      cases h1
    have hnosub : modTexts .subtract mods = [] := by
      rw [List.eq_nil_iff_forall_not_mem]
      intro d hd
      rw [mem_modTexts] at hd
      obtain ⟨m, h1, h2, -⟩ := hd
      obtain ⟨m', h3, h4⟩ := halt
      exact hm.oneSort m h1 m' h3 h2 h4
    have hdl : degreeList r.2.toList = B := by
      unfold degreeList
      rw [if_neg hrne]
    set A := modTexts .alter mods with hA
    have hApw : A.Pairwise fun a b => degreeInt a ≠ degreeInt b := modTexts_pairwise .alter (by decide) mods hm.single
    have hloop : loopM (fun n a => alterOne a B n) A B = .ok (B.map fun d => alteredTo A d) := by
      have := alter_loop B A id
      simpa [alteredTo] using this
    have hmatch : ∀ d ∈ B, ∀ m ∈ mods, m.type = .alter → (degreeInt (harteDegree m.degree m.semis) = degreeInt d ↔ natStr m.degree = d) := by
      intro d hd m hmm hmt
      have hmb : natStr m.degree ∈ B := by
        rcases (hbase _).1 (hm.alters m hmm hmt) with h | h
        · exact absurd h (hone m hmm)
        · exact h
      rw [degreeInt_harte]
      have hi : degreeInt (natStr m.degree) = some m.degree := by
        have := degreeInt_harte m.degree 0
        rwa [harteDegree_zero] at this
      constructor
      · intro h
        by_contra hne'
        have hp1 : B.Pairwise (fun a b => a ≠ b → degreeInt a ≠ degreeInt b) := hpw.imp (fun {a b} h (_ : a ≠ b) => h)
        have hp2 : B.Pairwise (flip fun a b => a ≠ b → degreeInt a ≠ degreeInt b) :=
          hpw.imp (fun {a b} h (_ : b ≠ a) => Ne.symm h)
        have := List.Pairwise.forall_of_forall_of_flip (fun x _ h => absurd rfl h) hp1 hp2 hmb hd hne'
        rw [hi] at this
        exact this h
      · rintro rfl
        exact hi.symm
    have hto : ∀ d ∈ B, (∀ m ∈ mods, m.type = .alter → natStr m.degree ≠ d) ∧ alteredTo A d = d ∨
        ∃ m ∈ mods, m.type = .alter ∧ natStr m.degree = d ∧ alteredTo A d = harteDegree m.degree m.semis := by
      intro d hd
      by_cases h : ∃ m ∈ mods, m.type = .alter ∧ natStr m.degree = d
      · right
        obtain ⟨m, h1, h2, h3⟩ := h
        refine ⟨m, h1, h2, h3, ?_⟩
        exact foldl_alter_some d d _ A ((mem_modTexts ..).2 ⟨m, h1, h2, rfl⟩) ((hmatch d hd m h1 h2).2 h3) hApw
      · left
        have h' : ∀ m ∈ mods, m.type = .alter → natStr m.degree ≠ d := fun m h1 h2 h3 => h ⟨m, h1, h2, h3⟩
        refine ⟨h', foldl_alter_none d d A ?_⟩
        intro a ha he
        rw [hA, mem_modTexts] at ha
        obtain ⟨m, h1, h2, rfl⟩ := ha
        exact h' m h1 h2 ((hmatch d hd m h1 h2).1 he)
    have hlist : ∀ d ∈ (B.map fun d => alteredTo A d) ++ modTexts .add mods, CanonDeg d := by
      intro d hd
      rw [List.mem_append, List.mem_map] at hd
      rcases hd with ⟨x, hx, rfl⟩ | hd
      · rcases hto x hx with ⟨-, h⟩ | ⟨m, h1, h2, h3, h4⟩
        · rw [h]; exact hcanB x hx
        · rw [h4]; exact ⟨_, _, rfl, fun h => absurd h (hm.root m h1)⟩
      · exact haddC _ d hd
    obtain ⟨srt, hsrt, hperm⟩ := sort_listed _ (fun d hd => Or.inl (hlist d hd))
    have hsl : ∀ d ∈ srt, ListedDeg d := fun d hd => Or.inl (hlist d (hperm.mem_iff.1 hd))
    refine ⟨[], joinWith ',' srt, ?_, by simp, join_chars srt hsl, ?_, ?_⟩
    · rw [if_pos hany, hfl]
      simp only [Option.map_some, hne, if_false]
      unfold modifyDegrees
      simp only [hnosub, loopM, hdl, hloop, hsrt]
    · rw [read_no_short, degreeList_join srt hsl]
      exact fun d hd => hlist d (hperm.mem_iff.1 hd)
    · intro d
      rw [read_no_short, degreeList_join srt hsl, hperm.mem_iff, List.mem_append, List.mem_map, mem_modTexts, mem_chordNotes, hbase]
      constructor
      · rintro (rfl | ⟨x, hx, rfl⟩ | ⟨m, h1, h2, rfl⟩)
        · refine Or.inl ⟨Or.inl rfl, fun m hmm => ⟨fun hms => ?_, fun _ => hone m hmm⟩⟩
          obtain ⟨m', h3, h4⟩ := halt
          exact absurd h4 (hm.oneSort m hmm m' h3 hms)
        · rcases hto x hx with ⟨h, h'⟩ | ⟨m, h1, h2, h3, h4⟩
          · rw [h']
            refine Or.inl ⟨Or.inr hx, fun m hmm => ⟨fun hms => ?_, h m hmm⟩⟩
            obtain ⟨m', h3, h4⟩ := halt
            exact absurd h4 (hm.oneSort m hmm m' h3 hms)
          · exact Or.inr ⟨m, h1, Or.inr ⟨h2, hm.alters m h1 h2⟩, h4⟩
        · exact Or.inr ⟨m, h1, Or.inl h2, rfl⟩
      · rintro (⟨h1 | h1, h2⟩ | ⟨m, h1, h2 | ⟨h2, h3⟩, rfl⟩)
        · exact Or.inl h1
        · refine Or.inr (Or.inl ⟨d, h1, ?_⟩)
          rcases hto d h1 with ⟨-, h⟩ | ⟨m, h3, h4, h5, -⟩
          · exact h
          · exact absurd h5 ((h2 m h3).2 h4)
        · exact Or.inr (Or.inr ⟨m, h1, h2, rfl⟩)
        · have hmb : natStr m.degree ∈ B := by
            rcases (hbase _).1 h3 with h | h
            · exact absurd h (hone m h1)
            · exact h
          refine Or.inr (Or.inl ⟨natStr m.degree, hmb, ?_⟩)
          exact foldl_alter_some _ _ _ A ((mem_modTexts ..).2 ⟨m, h1, h2, rfl⟩) ((hmatch _ hmb m h1 h2).2 rfl) hApw
  · -- no altered degrees: shorthand and more degrees
    have hany : (mods.any fun m => decide (m.type = .alter)) = false := by
      rw [List.any_eq_false]
      intro m h1 h2
      exact halt ⟨m, h1, by simpa using h2⟩
    have hnalt : modTexts .alter mods = [] := by
      rw [List.eq_nil_iff_forall_not_mem]
      intro d hd
      rw [mem_modTexts] at hd
      obtain ⟨m, h1, h2, -⟩ := hd
      exact halt ⟨m, h1, h2⟩
    set O := modTexts .subtract mods with hO
    have hOm : ∀ o, o ∈ O ↔ ∃ m ∈ mods, m.type = .subtract ∧ o = natStr m.degree := by
      intro o
      rw [hO, mem_modTexts]
      constructor
      · rintro ⟨m, h1, h2, rfl⟩
        exact ⟨m, h1, h2, by rw [(hm.omits m h1 h2).1, harteDegree_zero]⟩
      · rintro ⟨m, h1, h2, rfl⟩
        exact ⟨m, h1, h2, by rw [(hm.omits m h1 h2).1, harteDegree_zero]⟩
    have hOin : ∀ o ∈ O, o ∈ L ∨ o ∈ I := by
      intro o ho
      obtain ⟨m, h1, h2, rfl⟩ := (hOm o).1 ho
      rcases (hLI _).1 (hm.omits m h1 h2).2 with h | h
      · exact absurd h (hone m h1)
      · exact h
    have hOn : O.Nodup := (modTexts_pairwise .subtract (by decide) mods hm.single).imp (fun h he => h (by rw [he]))
    -- the degrees in the text, sorted or not
    have main : ∀ dg : Str, (∀ d, d ∈ degreeList dg ↔ (d ∈ L ∧ d ∉ O) ∨ (∃ o ∈ O, o ∉ L ∧ d = '*' :: o) ∨ d ∈ modTexts .add mods) →
        (∀ d ∈ readDegrees s.2.1.toList dg, CanonDeg d) ∧
        ∀ d, (d = ['1'] ∨ d ∈ readDegrees s.2.1.toList dg) ↔ d ∈ chordNotes base mods := by
      intro dg hdg
      have hread : ∀ d, d ∈ readDegrees s.2.1.toList dg ↔ ((d ∈ L ∨ d ∈ I) ∧ d ∉ O) ∨ d ∈ modTexts .add mods := by
        intro d
        by_cases hsh : s.2.1.toList = []
        · have hI0 : I = [] := by
            by_contra h
            exact (hIe.2 h) hsh
          rw [hsh, read_no_short, hdg, hI0]
          constructor
          · rintro (⟨h1, h2⟩ | ⟨o, h1, h2, -⟩ | h)
            · exact Or.inl ⟨Or.inl h1, h2⟩
            · rcases hOin o h1 with h3 | h3
              · exact absurd h3 h2
              · rw [hI0] at h3; cases h3
            · exact Or.inr h
          · rintro (⟨h1 | h1, h2⟩ | h)
            · exact Or.inl ⟨h1, h2⟩
            · cases h1
            · exact Or.inr (Or.inr h)
        · rw [read_short _ dg hsh (hIe.1 hsh) hIn, hdg, hdg]
          constructor
          · rintro (⟨⟨h1, h2⟩ | ⟨o, h1, h2, rfl⟩ | h, hst⟩ | ⟨h1, h2⟩)
            · exact Or.inl ⟨Or.inl h1, h2⟩
            · simp [startsWith, List.isPrefixOf] at hst
            · exact Or.inr h
            · refine Or.inl ⟨Or.inr h1, fun ho => h2 ?_⟩
              exact Or.inr (Or.inl ⟨d, ho, fun hl => hdisj d hl h1, rfl⟩)
          · rintro (⟨h1 | h1, h2⟩ | h)
            · exact Or.inl ⟨Or.inl ⟨h1, h2⟩, hns d (hcanL d h1)⟩
            · refine Or.inr ⟨h1, ?_⟩
              rintro (⟨h3, -⟩ | ⟨o, h3, -, h5⟩ | h3)
              · exact hnstar _ (hcanL _ h3) d rfl
              · injection h5 with _ h5
                exact h2 (h5 ▸ h3)
              · exact hnstar _ (haddC _ _ h3) d rfl
            · exact Or.inl ⟨Or.inr (Or.inr h), hns d (haddC _ d h)⟩
      refine ⟨?_, ?_⟩
      · intro d hd
        rcases (hread d).1 hd with ⟨h1 | h1, -⟩ | h
        · exact hcanL d h1
        · exact hcanI d h1
        · exact haddC _ d h
      · intro d
        rw [hread, mem_chordNotes, hLI, mem_modTexts .add]
        have hnotO : d ∉ O ↔ ∀ m ∈ mods, (m.type = .subtract → harteDegree m.degree m.semis ≠ d) ∧ (m.type = .alter → natStr m.degree ≠ d) := by
          rw [hO, mem_modTexts]
          constructor
          · intro h m h1
            exact ⟨fun h2 h3 => h ⟨m, h1, h2, h3.symm⟩, fun h2 => absurd ⟨m, h1, h2⟩ halt⟩
          · rintro h ⟨m, h1, h2, h3⟩
            exact (h m h1).1 h2 h3.symm
        rw [← hnotO]
        have h1O : ['1'] ∉ O := by
          intro h
          obtain ⟨m, h1, h2, h3⟩ := (hOm _).1 h
          exact hone m h1 h3.symm
        constructor
        · rintro (rfl | ⟨h1, h2⟩ | ⟨m, h1, h2, h3⟩)
          · exact Or.inl ⟨Or.inl rfl, h1O⟩
          · exact Or.inl ⟨Or.inr h1, h2⟩
          · exact Or.inr ⟨m, h1, Or.inl h2, h3⟩
        · rintro (⟨h1 | h1, h2⟩ | ⟨m, h1, h2 | ⟨h2, -⟩, h3⟩)
          · exact Or.inl h1
          · exact Or.inr (Or.inl ⟨h1, h2⟩)
          · exact Or.inr (Or.inr ⟨m, h1, h2, h3⟩)
          · exact absurd ⟨m, h1, h2⟩ halt
    by_cases hne : mods = []
    · have hO0 : O = [] := by rw [hO, hne]; rfl
      obtain ⟨h1, h2⟩ := main s.2.2.toList (by
        intro d
        rw [hO0, hne]
        simp [modTexts, ← hL])
      refine ⟨s.2.1.toList, s.2.2.toList, ?_, hsc, hdc, h1, h2⟩
      rw [hany, hfs, hne]
      rfl
    · have hOL : loopM (omitOne L) O L = .ok ((L.filter fun d => decide (d ∉ O)) ++ (O.filter fun o => decide (o ∉ L)).map ('*' :: ·)) := by
        have := omit_loop L hLn O [] (by simpa using hOn)
          (fun o ho => by obtain ⟨m, -, -, h⟩ := (hOm o).1 ho; exact ⟨_, h⟩)
          (fun o _ d hd => hnstar d (hcanL d hd) o) (by simp)
        simpa using this
      have hlist : ∀ d ∈ ((L.filter fun d => decide (d ∉ O)) ++ (O.filter fun o => decide (o ∉ L)).map ('*' :: ·)) ++
          modTexts .add mods, ListedDeg d := by
        intro d hd
        rw [List.mem_append, List.mem_append, List.mem_map] at hd
        rcases hd with (hd | ⟨o, ho, rfl⟩) | hd
        · exact Or.inl (hcanL d (List.mem_of_mem_filter hd))
        · obtain ⟨m, -, -, rfl⟩ := (hOm o).1 (List.mem_of_mem_filter ho)
          exact Or.inr ⟨_, rfl⟩
        · exact Or.inl (haddC _ d hd)
      obtain ⟨srt, hsrt, hperm⟩ := sort_listed _ hlist
      have hsl : ∀ d ∈ srt, ListedDeg d := fun d hd => hlist d (hperm.mem_iff.1 hd)
      obtain ⟨h1, h2⟩ := main (joinWith ',' srt) (by
        intro d
        rw [degreeList_join srt hsl, hperm.mem_iff, List.mem_append, List.mem_append, List.mem_map, List.mem_filter]
        simp only [List.mem_filter, decide_eq_true_eq]
        constructor
        · rintro ((h | ⟨o, ⟨h1, h2⟩, rfl⟩) | h)
          · exact Or.inl h
          · exact Or.inr (Or.inl ⟨o, h1, h2, rfl⟩)
          · exact Or.inr (Or.inr h)
        · rintro (h | ⟨o, h1, h2, rfl⟩ | h)
          · exact Or.inl (Or.inl h)
          · exact Or.inl (Or.inr ⟨o, ⟨h1, h2⟩, rfl⟩)
          · exact Or.inr h)
      refine ⟨s.2.1.toList, joinWith ',' srt, ?_, hsc, join_chars srt hsl, h1, h2⟩
      rw [hany, hfs]
      simp only [Bool.false_eq_true, if_false, Option.map_some, hne]
      unfold modifyDegrees
      simp only [← hL, hOL, hnalt, loopM, hsrt]

/-! ## The search among the kinds -/

theorem find_named {α : Type} (f : α → Str) (l : List α) (hn : (l.map f).Nodup) (k : α) (hk : k ∈ l) :
    l.find? (fun x => decide (f x = f k)) = some k := by
  induction l with
  | nil => cases hk
  | cons x xs ih =>
    rw [List.map_cons, List.nodup_cons] at hn
    rw [List.find?_cons]
    rcases List.mem_cons.1 hk with rfl | hk'
    · simp
    · have : f x ≠ f k := fun h => hn.1 (h ▸ List.mem_map_of_mem hk')
      simp only [this, decide_false]
      exact ih hn.2 hk'

theorem kindNotes_of (kinds : List (Str × Str)) (hk : KindTable kinds) (k : Str × Str) (h : k ∈ kinds) :
    kindNotes kinds k.1 = kindDegrees k.2 := by
  unfold kindNotes
  rw [find_named (·.1) kinds hk.names k h]
  rfl

theorem kind_search (ds : List Str) (kinds : List (Str × Str)) (hn : ∀ k ∈ kinds, (kindDegrees k.2).Nodup)
    (done todo : List (Str × Str)) (hall : done ++ todo = kinds) (st : Str × Nat × List Str)
    (hst : (st = ([], 0, []) ∧ ∀ k ∈ done, ¬ ∀ d ∈ kindDegrees k.2, d ∈ ds) ∨
      ∃ k ∈ done, (∀ d ∈ kindDegrees k.2, d ∈ ds) ∧
        st = (k.1, (kindDegrees k.2).length, ds.filter fun d => decide (d ∉ kindDegrees k.2)) ∧
        ∀ l ∈ done, (∀ d ∈ kindDegrees l.2, d ∈ ds) → (kindDegrees l.2).length ≤ (kindDegrees k.2).length)
    (hone : ∀ k ∈ kinds, kindDegrees k.2 ≠ []) :
    (todo.foldl (kindStep ds) st = ([], 0, []) ∧ ∀ k ∈ kinds, ¬ ∀ d ∈ kindDegrees k.2, d ∈ ds) ∨
      ∃ k ∈ kinds, (∀ d ∈ kindDegrees k.2, d ∈ ds) ∧
        todo.foldl (kindStep ds) st = (k.1, (kindDegrees k.2).length, ds.filter fun d => decide (d ∉ kindDegrees k.2)) ∧
        ∀ l ∈ kinds, (∀ d ∈ kindDegrees l.2, d ∈ ds) → (kindDegrees l.2).length ≤ (kindDegrees k.2).length := by
  induction todo generalizing done st with
  | nil =>
    rw [List.append_nil] at hall
    subst hall
    exact hst
  | cons k todo ih =>
    rw [List.foldl_cons]
    apply ih (done ++ [k]) (by rw [← hall]; simp)
    have hkm : k ∈ kinds := by rw [← hall]; simp
    have hdd : (kindDegrees k.2).dedup = kindDegrees k.2 := List.dedup_eq_self.2 (hn k hkm)
    unfold kindStep
    simp only [hdd]
    by_cases hsub : ∀ d ∈ kindDegrees k.2, d ∈ ds
    · have hany : ((kindDegrees k.2).any fun d => decide (d ∉ ds)) = false := by
        rw [List.any_eq_false]
        intro d hd h
        exact (of_decide_eq_true h) (hsub d hd)
      have hinter : ((kindDegrees k.2).filter fun d => decide (d ∈ ds)) = kindDegrees k.2 := by
        rw [List.filter_eq_self]
        exact fun d hd => decide_eq_true (hsub d hd)
      rw [hany, if_neg (by simp), hinter]
      right
      rcases hst with ⟨rfl, hno⟩ | ⟨k0, hk0, hs0, rfl, hmax⟩
      · have hpos : (kindDegrees k.2).length > 0 := List.length_pos_iff.2 (hone k hkm)
        rw [if_pos hpos]
        refine ⟨k, by simp, hsub, rfl, ?_⟩
        intro l hl hls
        rw [List.mem_append, List.mem_singleton] at hl
        rcases hl with hl | rfl
        · exact absurd hls (hno l hl)
        · exact Nat.le_refl _
      · have hk0m : k0 ∈ kinds := by rw [← hall]; exact List.mem_append_left _ hk0
        by_cases hgt : (kindDegrees k.2).length > (kindDegrees k0.2).length
        · rw [if_pos hgt]
          refine ⟨k, by simp, hsub, rfl, ?_⟩
          intro l hl hls
          rw [List.mem_append, List.mem_singleton] at hl
          rcases hl with hl | rfl
          · have := hmax l hl hls
            omega
          · exact Nat.le_refl _
        · rw [if_neg hgt]
          split
          · rename_i heq
            refine ⟨k, by simp, hsub, rfl, ?_⟩
            intro l hl hls
            rw [List.mem_append, List.mem_singleton] at hl
            rcases hl with hl | rfl
            · have := hmax l hl hls
              have := heq.1
              simp only at this
              omega
            · exact Nat.le_refl _
          · refine ⟨k0, by simp [hk0], hs0, rfl, ?_⟩
            intro l hl hls
            rw [List.mem_append, List.mem_singleton] at hl
            rcases hl with hl | rfl
            · exact hmax l hl hls
            · omega
    · have hany : ((kindDegrees k.2).any fun d => decide (d ∉ ds)) = true := by
        rw [List.any_eq_true]
        by_contra h
        apply hsub
        intro d hd
        by_contra hd'
        exact h ⟨d, hd, decide_eq_true hd'⟩
      rw [hany, if_pos rfl]
      rcases hst with ⟨rfl, hno⟩ | ⟨k0, hk0, hs0, rfl, hmax⟩
      · left
        refine ⟨rfl, ?_⟩
        intro l hl
        rw [List.mem_append, List.mem_singleton] at hl
        rcases hl with hl | rfl
        · exact hno l hl
        · exact hsub
      · right
        refine ⟨k0, by simp [hk0], hs0, rfl, ?_⟩
        intro l hl hls
        rw [List.mem_append, List.mem_singleton] at hl
        rcases hl with hl | rfl
        · exact hmax l hl hls
        · exact absurd hls hsub

theorem kind_found (ds : List Str) (hd : ds.Nodup) (h1 : ['1'] ∈ ds) (kinds : List (Str × Str)) (hk : KindTable kinds) :
    ∃ k ∈ kinds, (∀ d ∈ kindDegrees k.2, d ∈ ds) ∧
      kinds.foldl (kindStep ds) ([], 0, []) =
        (k.1, (kindDegrees k.2).length, ds.filter fun d => decide (d ∉ kindDegrees k.2)) ∧
      ∀ l ∈ kinds, (∀ d, d ∈ kindDegrees l.2 ↔ d ∈ ds) → k = l := by
  have hone : ∀ k ∈ kinds, kindDegrees k.2 ≠ [] := by
    intro k hkm h
    have := hk.ones k hkm
    rw [h] at this
    cases this
  rcases kind_search ds kinds hk.nodup [] kinds rfl ([], 0, []) (Or.inl ⟨rfl, by simp⟩) hone with ⟨-, hno⟩ | ⟨k, hkm, hs, hf, hmax⟩
  · exfalso
    apply hno _ hk.pedal
    have : kindDegrees "1".toList = [['1']] := by decide
    rw [this]
    simpa using h1
  · refine ⟨k, hkm, hs, hf, ?_⟩
    intro l hl hls
    have hlen := hmax l hl (fun d hd => (hls d).1 hd)
    have hsp : (kindDegrees k.2).Subperm (kindDegrees l.2) :=
      List.subperm_of_subset (hk.nodup k hkm) (fun d hd => (hls d).2 (hs d hd))
    have hperm := hsp.perm_of_length_le hlen
    exact hk.differ k hkm l hl (fun d hd => hperm.mem_iff.1 hd) (fun d hd => hperm.mem_iff.2 hd)

/-! ## Simplification -/

theorem chordNotes_congr (b b' : List Str) (h : ∀ d, d ∈ b ↔ d ∈ b') (mods : List CsMod) (d : Str) :
    d ∈ chordNotes b mods ↔ d ∈ chordNotes b' mods := by
  rw [mem_chordNotes, mem_chordNotes, h]
  simp only [h]

theorem rules_ok : ∀ r ∈ simplifyRules, ∃ a ∈ harteLong, ∃ b ∈ harteLong, a.1 = r.1 ∧ b.1 = r.2.2.2.2 ∧
    (∀ d ∈ chordNotes (['1'] :: splitOn ',' a.2.toList) [⟨r.2.1, r.2.2.1, r.2.2.2.1⟩], d ∈ ['1'] :: splitOn ',' b.2.toList) ∧
    (∀ d ∈ ['1'] :: splitOn ',' b.2.toList, d ∈ chordNotes (['1'] :: splitOn ',' a.2.toList) [⟨r.2.1, r.2.2.1, r.2.2.2.1⟩]) := by
  decide +kernel

theorem listed_base (kinds : List (Str × Str)) (hk : KindTable kinds) (r : String × String) (hr : r ∈ harteLong)
    (hl : r.1.toList ∈ kinds.map (·.1)) (d : Str) :
    d ∈ kindNotes kinds r.1.toList ↔ d = ['1'] ∨ d ∈ splitOn ',' r.2.toList := by
  obtain ⟨k, hkm, hkn⟩ := List.mem_map.1 hl
  rw [← hkn, kindNotes_of kinds hk k hkm]
  obtain ⟨h1, h2⟩ := hk.agree r hr k hkm hkn
  constructor
  · exact h1 d
  · rintro (rfl | h)
    · exact hk.ones k hkm
    · exact h2 d h

theorem simplify_notes (kinds : List (Str × Str)) (hk : KindTable kinds) (cs : ChordSym) (hl : cs.kind ∈ kinds.map (·.1)) :
    (simplifyChord cs).root = cs.root ∧ (simplifyChord cs).bass = cs.bass ∧
    (simplifyChord cs).kind ∈ kinds.map (·.1) ∧
    ((simplifyChord cs = cs) ∨ (simplifyChord cs).mods = [] ∧ ∃ r ∈ harteLong, r.1.toList = (simplifyChord cs).kind) ∧
    (∀ d, d ∈ chordNotes (kindNotes kinds (simplifyChord cs).kind) (simplifyChord cs).mods ↔
      d ∈ chordNotes (kindNotes kinds cs.kind) cs.mods) := by
  unfold simplifyChord
  split
  · rename_i m hm
    split
    · rename_i r hr
      have hrm := List.mem_of_find?_eq_some hr
      have hrp := List.find?_some hr
      simp only [decide_eq_true_eq] at hrp
      obtain ⟨e1, e2, e3, e4⟩ := hrp
      obtain ⟨a, ha, b, hb, ea, eb, hab, hba⟩ := rules_ok r hrm
      have hbl : b.1.toList ∈ kinds.map (·.1) := by rw [eb]; exact hk.has r hrm
      have hbk := listed_base kinds hk b hb hbl
      have hal : a.1.toList ∈ kinds.map (·.1) := by rw [ea, e1]; exact hl
      have hak := listed_base kinds hk a ha hal
      refine ⟨rfl, rfl, hk.has r hrm, Or.inr ⟨rfl, b, hb, by rw [eb]⟩, ?_⟩
      intro d
      have hmr : m = ⟨r.2.1, r.2.2.1, r.2.2.2.1⟩ := by rw [e2, e3, e4]
      rw [hm, hmr, ← e1, ← ea, chordNotes_congr (kindNotes kinds a.1.toList) (['1'] :: splitOn ',' a.2.toList)
        (fun d => by rw [hak, List.mem_cons])]
      have hnil : ∀ B : List Str, d ∈ chordNotes B [] ↔ d ∈ B := by
        intro B
        rw [mem_chordNotes]
        simp
      show d ∈ chordNotes (kindNotes kinds r.2.2.2.2.toList) [] ↔ _
      rw [hnil, ← eb, hbk, ← List.mem_cons]
      exact ⟨hba d, hab d⟩
    · exact ⟨rfl, rfl, hl, Or.inl rfl, fun _ => Iff.rfl⟩
  · exact ⟨rfl, rfl, hl, Or.inl rfl, fun _ => Iff.rfl⟩

theorem leftover_mod (d : Str) (h : CanonDeg d) (h1 : d ≠ ['1']) :
    ∃ n a, leftoverMod d = some ⟨.add, n, a⟩ ∧ d = harteDegree n a := by
  obtain ⟨n, a, rfl, hna⟩ := h
  refine ⟨n, a, ?_, rfl⟩
  unfold leftoverMod
  rw [degreeInt_harte, if_neg, harteDegree_counts]
  · rfl
  · intro he
    injection he with he
    subst he
    rw [hna rfl] at h1
    exact h1 (by decide)

/-! ## Round trip -/

/-- **C109, chord symbols.**  A chord symbol whose kind is known comes back with its root and its bass, and with the
same notes; without modifications it comes back as it was. -/
theorem harte_round_trip_partial (kinds : List (Str × Str)) (hk : KindTable kinds) (noResult : Str) (cs : ChordSym)
    (hc : GoodChord kinds cs) :
    ∃ text cs', writeHarte noResult (some cs) = .ok text ∧ readHarte kinds text = .ok (some (some cs')) ∧
      cs'.root = cs.root ∧ cs'.bass = cs.bass ∧
      (∀ d, d ∈ chordNotes (kindNotes kinds cs'.kind) cs'.mods ↔ d ∈ chordNotes (kindNotes kinds cs.kind) cs.mods) ∧
      (cs.mods = [] → cs' = cs) := by
  obtain ⟨s1, s2, s3, s4, s5⟩ := simplify_notes kinds hk cs hc.listed
  have hknown : ∃ r ∈ harteLong, r.1.toList = (simplifyChord cs).kind := by
    rcases s4 with h | ⟨-, h⟩
    · rw [h]; exact hc.known
    · exact h
  have hmods : GoodMods (kindNotes kinds (simplifyChord cs).kind) (simplifyChord cs).mods := by
    rcases s4 with h | ⟨h, -⟩
    · rw [h]; exact hc.mods
    · rw [h]
      exact ⟨by simp, by simp, by simp, by simp, by simp⟩
  obtain ⟨r, hr, hrk⟩ := hknown
  have hbase := listed_base kinds hk r hr (by rw [hrk]; exact s3)
  rw [hrk] at hbase
  obtain ⟨sh, dg, hw, hsh, hdg, hcan, hnotes⟩ := harteDegrees_spec _ r hr _ hbase hmods
  rw [hrk] at hw
  obtain ⟨bt, hbw, hbr, hbt⟩ := bass_round_trip cs.root cs.bass hc.rootStep hc.bassStep hc.bass
  have hbtx : BassText bt := by
    rcases hbt with rfl | ⟨n, a, rfl⟩
    · exact Or.inl rfl
    · exact harteDegree_bassText n a
  obtain ⟨hr1, hr2, hr3⟩ := root_text cs.root hc.rootStep
  have hparse := parse_harteText _ sh dg bt hr1 hr2 hsh hdg hbtx
  set rt := (hpName cs.root).map (swapChar '-' 'b') with hrt
  have hrN : rt ≠ ['N'] := by
    intro h
    have := hr2 'N' (by rw [h]; simp)
    revert this
    decide
  -- the degrees read
  set degs := (if ['1'] ∈ readDegrees sh dg then readDegrees sh dg else ['1'] :: readDegrees sh dg) with hdegs
  have hmem : ∀ d, d ∈ degs ↔ d ∈ chordNotes (kindNotes kinds cs.kind) cs.mods := by
    intro d
    rw [← s5 d, ← hnotes d, hdegs]
    split
    · rename_i h
      constructor
      · exact Or.inr
      · rintro (rfl | h')
        · exact h
        · exact h'
    · rw [List.mem_cons]
  have hdc : ∀ d ∈ degs, CanonDeg d := by
    intro d hd
    rw [hdegs] at hd
    have h1 : CanonDeg ['1'] := ⟨1, 0, by decide, fun _ => rfl⟩
    split at hd
    · exact hcan d hd
    · rcases List.mem_cons.1 hd with rfl | hd
      · exact h1
      · exact hcan d hd
  obtain ⟨srt, hsrt, hperm⟩ := sort_listed degs (fun d hd => Or.inl (hdc d hd))
  have hsm : ∀ d, d ∈ srt.dedup ↔ d ∈ chordNotes (kindNotes kinds cs.kind) cs.mods := by
    intro d
    rw [List.mem_dedup, hperm.mem_iff, hmem]
  have h1m : ['1'] ∈ srt.dedup := by
    rw [hsm, ← hmem, hdegs]
    split
    · assumption
    · simp
  obtain ⟨k, hkm, hks, hfold, hexact⟩ := kind_found srt.dedup (List.nodup_dedup _) h1m kinds hk
  have hleftc : ∀ d ∈ srt.dedup.filter (fun d => decide (d ∉ kindDegrees k.2)), CanonDeg d ∧ d ≠ ['1'] := by
    intro d hd
    rw [List.mem_filter, decide_eq_true_eq] at hd
    refine ⟨hdc d ((hmem d).2 ((hsm d).1 hd.1)), ?_⟩
    rintro rfl
    exact hd.2 (hk.ones k hkm)
  obtain ⟨lf, hlf, hlperm⟩ := sort_listed _ (fun d hd => Or.inl (hleftc d hd).1)
  set found : ChordSym := ⟨cs.root, cs.bass, k.1, lf.filterMap leftoverMod⟩ with hfound
  have hfl : found.kind ∈ kinds.map (·.1) := List.mem_map_of_mem hkm
  obtain ⟨f1, f2, f3, f4, f5⟩ := simplify_notes kinds hk found hfl
  refine ⟨harteText rt sh dg bt, simplifyChord found, ?_, ?_, f1, f2, ?_, ?_⟩
  · unfold writeHarte
    simp only [s1, s2, hbw, hw]
    rfl
  · unfold readHarte
    simp only [hparse, hrN, hr1, if_false, hr3]
    have hb' : (if bt = [] ∨ bt = ['1'] then some cs.root
        else (intervalOf (bassIntervalName bt)).map fun i => transposeHp cs.root i.1 i.2) = some cs.bass := hbr
    simp only [hb', ← hdegs, hsrt, hfold, hk.named k hkm, if_false, hlf]
    rfl
  · intro d
    rw [f5, ← hsm d, mem_chordNotes]
    show (d ∈ kindNotes kinds k.1 ∧ _) ∨ _ ↔ _
    rw [kindNotes_of kinds hk k hkm]
    have hlmods : ∀ m ∈ found.mods, m.type = .add ∧ harteDegree m.degree m.semis ∈ srt.dedup ∧
        harteDegree m.degree m.semis ∉ kindDegrees k.2 := by
      intro m hm
      obtain ⟨x, hx, hxm⟩ := List.mem_filterMap.1 hm
      have hx' := hlperm.mem_iff.1 hx
      obtain ⟨c1, c2⟩ := hleftc x hx'
      obtain ⟨n, a, e1, e2⟩ := leftover_mod x c1 c2
      rw [e1] at hxm
      injection hxm with hxm
      subst hxm
      rw [List.mem_filter, decide_eq_true_eq, e2] at hx'
      exact ⟨rfl, hx'.1, hx'.2⟩
    constructor
    · rintro (⟨h, -⟩ | ⟨m, hm, -, rfl⟩)
      · exact hks d h
      · exact (hlmods m hm).2.1
    · intro h
      by_cases hkd : d ∈ kindDegrees k.2
      · refine Or.inl ⟨hkd, fun m hm => ⟨fun ht => ?_, fun ht => ?_⟩⟩
        · rw [(hlmods m hm).1] at ht; cases ht
        · rw [(hlmods m hm).1] at ht; cases ht
      · have hd' : d ∈ srt.dedup.filter (fun d => decide (d ∉ kindDegrees k.2)) :=
          List.mem_filter.2 ⟨h, decide_eq_true hkd⟩
        obtain ⟨c1, c2⟩ := hleftc d hd'
        obtain ⟨n, a, e1, e2⟩ := leftover_mod d c1 c2
        exact Or.inr ⟨⟨.add, n, a⟩, List.mem_filterMap.2 ⟨d, hlperm.mem_iff.2 hd', e1⟩, Or.inl rfl, e2⟩
  · intro hm
    obtain ⟨k0, hk0, hkn⟩ := List.mem_map.1 hc.listed
    have hmatch : ∀ d, d ∈ kindDegrees k0.2 ↔ d ∈ srt.dedup := by
      intro d
      rw [hsm, hm, mem_chordNotes, ← hkn, kindNotes_of kinds hk k0 hk0]
      simp
    have hkk := hexact k0 hk0 hmatch
    have hempty : srt.dedup.filter (fun d => decide (d ∉ kindDegrees k.2)) = [] := by
      rw [List.filter_eq_nil_iff]
      intro d hd h
      rw [decide_eq_true_eq, hkk] at h
      exact h ((hmatch d).2 hd)
    have hlf0 : lf = [] := by
      rw [hempty] at hlperm
      exact hlperm.eq_nil
    have : found = cs := by
      rw [hfound, hlf0, hkk]
      cases cs
      simp only at hm hkn
      subst hm
      rw [hkn]
      rfl
    rw [this]
    unfold simplifyChord
    rw [hm]

/-- A symbol without chord comes back. -/
theorem no_chord_round_trip (kinds : List (Str × Str)) (noResult : Str) :
    writeHarte noResult none = .ok ['N'] ∧ readHarte kinds ['N'] = .ok (some none) := ⟨rfl, rfl⟩

/-! ## A table -/

/-- music21's table of kinds, with the ones added to it. -/
def sampleKinds : List (Str × Str) :=
  ([("major", "1,3,5"), ("minor", "1,-3,5"), ("augmented", "1,3,#5"),
   ("diminished", "1,-3,-5"), ("dominant-seventh", "1,3,5,-7"), ("major-seventh", "1,3,5,7"),
   ("minor-major-seventh", "1,-3,5,7"), ("minor-seventh", "1,-3,5,-7"), ("augmented-major-seventh", "1,3,#5,7"),
   ("augmented-seventh", "1,3,#5,-7"), ("half-diminished-seventh", "1,-3,-5,-7"), ("diminished-seventh", "1,-3,-5,--7"),
   ("seventh-flat-five", "1,3,-5,-7"), ("major-sixth", "1,3,5,6"), ("minor-sixth", "1,-3,5,6"),
   ("major-ninth", "1,3,5,7,9"), ("dominant-ninth", "1,3,5,-7,9"), ("minor-major-ninth", "1,-3,5,7,9"),
   ("minor-ninth", "1,-3,5,-7,9"), ("augmented-major-ninth", "1,3,#5,7,9"), ("augmented-dominant-ninth", "1,3,#5,-7,9"),
   ("half-diminished-ninth", "1,-3,-5,-7,9"), ("half-diminished-minor-ninth", "1,-3,-5,-7,-9"), ("diminished-ninth", "1,-3,-5,--7,9"),
   ("diminished-minor-ninth", "1,-3,-5,--7,-9"), ("dominant-11th", "1,3,5,-7,9,11"), ("major-11th", "1,3,5,7,9,11"),
   ("minor-major-11th", "1,-3,5,7,9,11"), ("minor-11th", "1,-3,5,-7,9,11"), ("augmented-major-11th", "1,3,#5,7,9,11"),
   ("augmented-11th", "1,3,#5,-7,9,11"), ("half-diminished-11th", "1,-3,-5,-7,9,11"), ("diminished-11th", "1,-3,-5,--7,9,11"),
   ("major-13th", "1,3,5,7,9,11,13"), ("dominant-13th", "1,3,5,-7,9,11,13"), ("minor-major-13th", "1,-3,5,7,9,11,13"),
   ("minor-13th", "1,-3,5,-7,9,11,13"), ("augmented-major-13th", "1,3,#5,7,9,11,13"), ("augmented-dominant-13th", "1,3,#5,-7,9,11,13"),
   ("half-diminished-13th", "1,-3,-5,-7,9,11,13"), ("suspended-second", "1,2,5"), ("suspended-fourth", "1,4,5"),
   ("suspended-fourth-seventh", "1,4,5,-7"), ("Neapolitan", "1,-2,3,-5"), ("Italian", "1,#4,-6"),
   ("French", "1,2,#4,-6"), ("German", "1,-3,#4,-6"), ("pedal", "1"),
   ("power", "1,5"), ("Tristan", "1,#4,#6,#9")] : List (String × String)).map fun k => (k.1.toList, k.2.toList)


theorem sampleKinds_table : KindTable sampleKinds where
  names := by decide +kernel
  named := by decide +kernel
  nodup := by decide +kernel
  ones := by decide +kernel
  differ := by decide +kernel
  agree := by decide +kernel
  has := by decide +kernel
  pedal := by decide +kernel

instance (base : List Str) (mods : List CsMod) : Decidable (GoodMods base mods) :=
  decidable_of_iff ((∀ m ∈ mods, m.degree ≠ 1) ∧ (∀ m ∈ mods, m.type = .subtract → m.semis = 0 ∧ natStr m.degree ∈ base) ∧
    (∀ m ∈ mods, m.type = .alter → natStr m.degree ∈ base) ∧
    ((mods.filter fun m => m.type ≠ .add).Pairwise fun m m' => m.degree ≠ m'.degree) ∧
    (∀ m ∈ mods, ∀ m' ∈ mods, m.type = .subtract → m'.type ≠ .alter))
    ⟨fun h => ⟨h.1, h.2.1, h.2.2.1, h.2.2.2.1, h.2.2.2.2⟩, fun h => ⟨h.root, h.omits, h.alters, h.single, h.oneSort⟩⟩

-- G ninth chord over D sharp, without its fifth, with a sharp eleventh
example : GoodChord sampleKinds ⟨⟨4, 0⟩, ⟨1, 1⟩, "dominant-ninth".toList, [⟨.subtract, 5, 0⟩, ⟨.add, 11, 1⟩]⟩ where
  rootStep := by decide
  bassStep := by decide
  bass := ⟨by decide, fun n a h => by
    have : bassInterval ⟨4, 0⟩ ⟨1, 1⟩ = some (5, 1) := by decide
    rw [this] at h; injection h with h; injection h with h1 h2; subst h1; left; decide⟩
  known := by decide +kernel
  listed := by decide +kernel
  mods := by decide +kernel

-- the texts of some chords
example : writeHarte [] (some ⟨⟨4, 0⟩, ⟨1, 1⟩, "dominant-ninth".toList, [⟨.subtract, 5, 0⟩, ⟨.add, 11, 1⟩]⟩) =
    .ok "G:9(*5,#11)/#5".toList := by
  have : (match writeHarte [] (some ⟨⟨4, 0⟩, ⟨1, 1⟩, "dominant-ninth".toList, [⟨.subtract, 5, 0⟩, ⟨.add, 11, 1⟩]⟩) with
    | .ok t => some t
    | .error _ => none) = some "G:9(*5,#11)/#5".toList := by decide +kernel
  split at this
  · rename_i t h
    rw [h]
    injection this with this
    rw [this]
  · cases this

/-! ## What is not kept -/

/-- The result of writing and reading, where both work. -/
def harteBack (kinds : List (Str × Str)) (cs : ChordSym) : Option ChordSym :=
  match writeHarte [] (some cs) with
  | .ok t => match readHarte kinds t with
    | .ok (some (some c)) => some c
    | _ => none
  | .error _ => none

/-- **C109 is false for omitted flat degrees.**  What is left out is written as the natural degree, and the reader looks
for just that: a minor seventh chord without its third, or without its seventh, comes back whole. -/
theorem omitted_flat_degree_lost :
    let third : ChordSym := ⟨⟨0, 0⟩, ⟨0, 0⟩, "minor-seventh".toList, [⟨.subtract, 3, 0⟩]⟩
    let seventh : ChordSym := ⟨⟨0, 0⟩, ⟨0, 0⟩, "minor-seventh".toList, [⟨.subtract, 7, -1⟩]⟩
    let whole : ChordSym := ⟨⟨0, 0⟩, ⟨0, 0⟩, "minor-seventh".toList, []⟩
    harteBack sampleKinds third = some whole ∧ harteBack sampleKinds seventh = some whole := by
  decide +kernel

/-- **C109 is false for chords with an omitted and an altered degree.**  The altered degree is looked for at its place
before the other one was left out: the export fails. -/
theorem omit_and_alter_fails :
    (match writeHarte [] (some ⟨⟨0, 0⟩, ⟨0, 0⟩, "major".toList, [⟨.subtract, 3, 0⟩, ⟨.alter, 5, -1⟩]⟩) with
      | .error e => some e
      | .ok _ => none) = some .indexError := by
  decide +kernel

/-- **C109 is false for basses that go below the root by an accidental only.**  C over C flat is written as a bass on
the eighth degree, which the reader cannot make an interval of. -/
theorem chromatic_bass_unreadable :
    (match writeHarte [] (some ⟨⟨0, 0⟩, ⟨0, -1⟩, "major".toList, []⟩) with
      | .ok t => some t
      | .error _ => none) = some "C:maj/bb8".toList ∧
    (match readHarte sampleKinds "C:maj/bb8".toList with
      | .error e => some e
      | .ok _ => none) = some .valueError := by
  decide +kernel

/-- **C109 is false for modifications of the root**: an omitted root and an added sharp root are both ignored. -/
theorem root_modification_lost :
    let omit1 : ChordSym := ⟨⟨0, 0⟩, ⟨0, 0⟩, "major".toList, [⟨.subtract, 1, 0⟩]⟩
    let sharp1 : ChordSym := ⟨⟨0, 0⟩, ⟨0, 0⟩, "major".toList, [⟨.add, 1, 1⟩]⟩
    let plain : ChordSym := ⟨⟨0, 0⟩, ⟨0, 0⟩, "major".toList, []⟩
    harteBack sampleKinds omit1 = some plain ∧ harteBack sampleKinds sharp1 = some plain := by
  decide +kernel

/-- **C109 is false for kinds without a Harte text**: nothing is left but the text given for that case. -/
theorem unknown_kind_lost (noResult : Str) (cs : ChordSym) (hm : cs.mods = []) (hb : cs.bass = cs.root)
    (hk : ∀ r ∈ harteShort, r.1.toList ≠ cs.kind) : writeHarte noResult (some cs) = .ok noResult := by
  unfold writeHarte
  have hs : simplifyChord cs = cs := by unfold simplifyChord; rw [hm]
  simp only [hs]
  have hbw : hartifyBass cs.root cs.bass = .ok [] := by unfold hartifyBass; rw [hb, if_pos rfl]
  have hf : harteShort.find? (fun r => decide (r.1.toList = cs.kind)) = none := by
    rw [List.find?_eq_none]
    intro r hr h
    exact hk r hr (of_decide_eq_true h)
  simp only [hbw, harteDegrees, hm, hf]
  rfl

example : ∀ r ∈ harteShort, r.1.toList ≠ "other".toList := by decide +kernel

end C21
