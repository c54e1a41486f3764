import Verif.Model.MeiPedals
import Verif.Spec.MeiPedals
/-
C128: pedal elements of an MEI file become the pedal marks the file says.
-/
namespace C21

def afterPedals (op : Str → Option Nat) (ps : List (PedalEl × Nat)) : Str → Option Nat := ps.foldl (fun o p => (meiPedalStep o p).1) op

theorem runPedals_append (op : Str → Option Nat) (a b : List (PedalEl × Nat)) :
    runPedals op (a ++ b) = runPedals op a ++ runPedals (afterPedals op a) b := by
  induction a generalizing op with
  | nil => rfl
  | cons p a ih => simp [runPedals, afterPedals, ih]

theorem toggle_other (op : Str → Option Nat) (e : PedalEl) (i : Nat) (s : Str) (h : e.staff ≠ s) : (pedalToggle op e i).1 s = op s := by
  unfold pedalToggle
  split <;> simp [setOpen, Ne.symm h]

theorem pedal_step_other (op : Str → Option Nat) (p : PedalEl × Nat) (s : Str) (h : p.1.staff ≠ s) : (meiPedalStep op p).1 s = op s := by
  unfold meiPedalStep
  split
  · exact toggle_other _ _ _ _ h
  · exact toggle_other _ _ _ _ h
  · exact toggle_other _ _ _ _ h
  · split
    · rfl
    · simp [setOpen, Ne.symm h]
  · rfl

theorem toggle_same (op op' : Str → Option Nat) (e : PedalEl) (i : Nat) (h : op e.staff = op' e.staff) :
    (pedalToggle op e i).2 = (pedalToggle op' e i).2 ∧ (pedalToggle op e i).1 e.staff = (pedalToggle op' e i).1 e.staff := by
  unfold pedalToggle
  rw [h]
  split <;> simp [setOpen]

theorem pedal_step_same (op op' : Str → Option Nat) (p : PedalEl × Nat) (h : op p.1.staff = op' p.1.staff) :
    (meiPedalStep op p).2 = (meiPedalStep op' p).2 ∧ (meiPedalStep op p).1 p.1.staff = (meiPedalStep op' p).1 p.1.staff := by
  unfold meiPedalStep
  split
  · exact toggle_same _ _ _ _ h
  · exact toggle_same _ _ _ _ h
  · exact toggle_same _ _ _ _ h
  · rw [h]
    split
    · exact ⟨rfl, h⟩
    · exact ⟨rfl, by simp [setOpen]⟩
  · exact ⟨rfl, h⟩

theorem run_staff (s : Str) (ps : List (PedalEl × Nat)) : ∀ (op op' : Str → Option Nat), op s = op' s →
    ∀ x ∈ runPedals op' (ps.filter (fun p => p.1.staff = s ∧ p.1.dir ≠ .other)), x ∈ runPedals op ps := by
  induction ps with
  | nil => intro op op' _ x hx; cases hx
  | cons p ps ih =>
    intro op op' h x hx
    by_cases hs : p.1.staff = s
    · by_cases hd : p.1.dir = .other
      · rw [List.filter_cons_of_neg (by simp [hd])] at hx
        have h1 : (meiPedalStep op p).1 = op := by unfold meiPedalStep; rw [hd]
        rw [runPedals, h1]
        exact List.mem_cons_of_mem _ (ih op op' h x hx)
      · rw [List.filter_cons_of_pos (by simp [hd, hs])] at hx
        subst hs
        obtain ⟨h2, h3⟩ := pedal_step_same op op' p h
        rw [runPedals] at hx
        rw [runPedals]
        rcases List.mem_cons.1 hx with rfl | hx
        · rw [h2]; exact List.mem_cons_self ..
        · exact List.mem_cons_of_mem _ (ih _ _ h3 x hx)
    · rw [List.filter_cons_of_neg (by simp [hs])] at hx
      rw [runPedals]
      exact List.mem_cons_of_mem _ (ih _ op' ((pedal_step_other op p s hs).trans h) x hx)

theorem run_bounces (s : Str) (m : Nat) (mid : List (PedalEl × Nat)) (hb : ∀ p ∈ mid, p.1.dir = .bounce ∧ p.1.staff = s)
    (op : Str → Option Nat) (h : op s = some m) :
    afterPedals op mid = op ∧ runPedals op mid = mid.map (fun p => (p.2, some (m, p.1.dir))) := by
  induction mid with
  | nil => exact ⟨rfl, rfl⟩
  | cons p mid ih =>
    obtain ⟨h1, h2⟩ := hb p (by simp)
    have hst : meiPedalStep op p = (op, some (m, .bounce)) := by
      unfold meiPedalStep
      rw [h1, h2, h]
    obtain ⟨h3, h4⟩ := ih (fun q hq => hb q (by simp [hq]))
    constructor
    · show afterPedals (meiPedalStep op p).1 mid = op
      rw [hst]; exact h3
    · rw [runPedals, hst, h4, List.map_cons, h1]

theorem step_toggles (op : Str → Option Nat) (p : PedalEl × Nat) (h : p.1.dir = .down ∨ p.1.dir = .half ∨ p.1.dir = .up) :
    meiPedalStep op p = pedalToggle op p.1 p.2 := by
  unfold meiPedalStep
  rcases h with h | h | h <;> rw [h]

theorem run_groups (s : Str) (groups : List (List (PedalEl × Nat))) : ∀ (op : Str → Option Nat), op s = none →
    (∀ g ∈ groups, OnePedal (g.map (·.1)) ∧ ∀ p ∈ g, p.1.staff = s) →
    ∀ g ∈ groups, ∃ m, g.head?.map (·.2) = some m ∧ ∀ p ∈ g, (p.2, some (m, p.1.dir)) ∈ runPedals op groups.flatten := by
  induction groups with
  | nil => intro op _ _ g hg; cases hg
  | cons g0 groups ih =>
    intro op hop hg g hmem
    obtain ⟨⟨a, b, mid, he, hmid, hab⟩, hst⟩ := hg g0 (by simp)
    obtain ⟨pa, rest, rfl, rfl, hrest⟩ := List.map_eq_cons_iff.1 he
    obtain ⟨pm, pb, rfl, rfl, hpb⟩ := List.map_eq_append_iff.1 hrest
    obtain ⟨pb, _, rfl, rfl, hnil⟩ := List.map_eq_cons_iff.1 hpb
    rw [List.map_eq_nil_iff] at hnil
    subst hnil
    have ha : meiPedalStep op pa = (setOpen op s (some pa.2), some (pa.2, pa.1.dir)) := by
      rw [step_toggles op pa (by rcases hab with ⟨h | h, _⟩ | ⟨h, _⟩ <;> simp [h]), pedalToggle, hst pa (by simp), hop]
    obtain ⟨hm1, hm2⟩ := run_bounces s pa.2 pm (fun p hp => ⟨hmid p.1 (List.mem_map_of_mem hp), hst p (by simp [hp])⟩)
      (setOpen op s (some pa.2)) (by simp [setOpen])
    have hb : meiPedalStep (setOpen op s (some pa.2)) pb = (setOpen (setOpen op s (some pa.2)) s none, some (pa.2, pb.1.dir)) := by
      rw [step_toggles _ pb (by rcases hab with ⟨_, h⟩ | ⟨_, h | h⟩ <;> simp [h]), pedalToggle, hst pb (by simp)]
      simp [setOpen]
    have hrun : runPedals op (((pa :: (pm ++ [pb])) :: groups).flatten) =
        (pa :: (pm ++ [pb])).map (fun p => (p.2, some (pa.2, p.1.dir))) ++
          runPedals (setOpen (setOpen op s (some pa.2)) s none) groups.flatten := by
      rw [List.flatten_cons, List.cons_append, runPedals, ha, List.append_assoc, runPedals_append, hm1, hm2,
        List.singleton_append, runPedals, hb]
      simp
    rw [hrun]
    rcases List.mem_cons.1 hmem with rfl | hmem
    · refine ⟨pa.2, rfl, ?_⟩
      intro p hp
      exact List.mem_append_left _ (List.mem_map_of_mem hp)
    · obtain ⟨m, h1, h2⟩ := ih (setOpen (setOpen op s (some pa.2)) s none) (by simp [setOpen]) (fun g hg' => hg g (by simp [hg'])) g hmem
      exact ⟨m, h1, fun p hp => List.mem_append_right _ (h2 p hp)⟩

/-- C128: if the pedal elements of a staff are uses of the pedal one after the other, whatever stands between them for
other staves, then the elements of each use are put into the same mark, the one made for the first of them, with their
directions. -/
theorem pedals_paired_partial (es : List PedalEl) (s : Str) (groups : List (List (PedalEl × Nat)))
    (hg : staffPedals s es = groups.flatten) (hp : ∀ g ∈ groups, OnePedal (g.map (·.1))) :
    ∀ g ∈ groups, ∃ m, g.head?.map (·.2) = some m ∧ ∀ p ∈ g, (p.2, some (m, p.1.dir)) ∈ ppPedals es := by
  intro g hm
  have hst : ∀ g ∈ groups, ∀ p ∈ g, p.1.staff = s := by
    intro g hg' p hp'
    have h1 : p ∈ staffPedals s es := by rw [hg]; exact List.mem_flatten.2 ⟨g, hg', hp'⟩
    have h2 := (List.mem_filter.1 h1).2
    simp only [ne_eq, decide_eq_true_eq] at h2
    exact h2.1
  obtain ⟨m, h1, h2⟩ := run_groups s groups (fun _ => none) rfl (fun g hg' => ⟨hp g hg', hst g hg'⟩) g hm
  refine ⟨m, h1, fun p hpg => ?_⟩
  apply run_staff s es.zipIdx (fun _ => none) (fun _ => none) rfl
  show _ ∈ runPedals _ (staffPedals s es)
  rw [hg]
  exact h2 p hpg

/-- C128: every element has one place in the result, in the order of the file. -/
theorem pedals_each_once (es : List PedalEl) : (ppPedals es).map (·.1) = List.range es.length := by
  have key : ∀ (ps : List (PedalEl × Nat)) (op : Str → Option Nat), (runPedals op ps).map (·.1) = ps.map (·.2) := by
    intro ps
    induction ps with
    | nil => intro op; rfl
    | cons p ps ih => intro op; simp [runPedals, ih]
  rw [ppPedals, key]
  simp [List.range_eq_range']

theorem pedal_step_made (es : List PedalEl) (op : Str → Option Nat) (p : PedalEl × Nat) (hp : es[p.2]? = some p.1)
    (h : ∀ s m, op s = some m → ∃ e, es[m]? = some e ∧ e.staff = s ∧ e.dir ≠ .other) :
    (∀ s m, (meiPedalStep op p).1 s = some m → ∃ e, es[m]? = some e ∧ e.staff = s ∧ e.dir ≠ .other) ∧
    (∀ m d, (meiPedalStep op p).2 = some (m, d) → ∃ e, es[m]? = some e ∧ e.staff = p.1.staff ∧ e.dir ≠ .other) ∧
    ((meiPedalStep op p).2 = none ↔ p.1.dir = .other) := by
  have tog : p.1.dir ≠ .other → (∀ s m, (pedalToggle op p.1 p.2).1 s = some m → ∃ e, es[m]? = some e ∧ e.staff = s ∧ e.dir ≠ .other) ∧
      (∀ m d, (pedalToggle op p.1 p.2).2 = some (m, d) → ∃ e, es[m]? = some e ∧ e.staff = p.1.staff ∧ e.dir ≠ .other) ∧
      ((pedalToggle op p.1 p.2).2 = none ↔ p.1.dir = .other) := by
    intro hne
    unfold pedalToggle
    cases hop : op p.1.staff with
    | some m0 =>
      refine ⟨?_, ?_, by simp [hne]⟩
      · intro s m hs
        simp only [setOpen] at hs
        split at hs
        · cases hs
        · exact h s m hs
      · intro m d hmd
        cases hmd
        exact h _ _ hop
    | none =>
      refine ⟨?_, ?_, by simp [hne]⟩
      · intro s m hs
        simp only [setOpen] at hs
        split at hs
        · rename_i heq
          cases hs
          exact ⟨p.1, hp, heq.symm, hne⟩
        · exact h s m hs
      · intro m d hmd
        cases hmd
        exact ⟨p.1, hp, rfl, hne⟩
  unfold meiPedalStep
  split
  · rename_i hd; exact tog (by rw [hd]; decide)
  · rename_i hd; exact tog (by rw [hd]; decide)
  · rename_i hd; exact tog (by rw [hd]; decide)
  · rename_i hd
    have hne : p.1.dir ≠ .other := by rw [hd]; decide
    cases hop : op p.1.staff with
    | some m0 =>
      refine ⟨h, ?_, by simp [hd]⟩
      intro m d hmd
      cases hmd
      exact h _ _ hop
    | none =>
      refine ⟨?_, ?_, by simp [hd]⟩
      · intro s m hs
        simp only [setOpen] at hs
        split at hs
        · rename_i heq
          cases hs
          exact ⟨p.1, hp, heq.symm, hne⟩
        · exact h s m hs
      · intro m d hmd
        cases hmd
        exact ⟨p.1, hp, rfl, hne⟩
  · rename_i hd
    refine ⟨h, ?_, by simp [hd]⟩
    intro m d hmd
    cases hmd

/-- C128: in every file, a mark has elements of one staff only; the elements without a known direction, and only these,
are in no mark. -/
theorem mark_of_staff (es : List PedalEl) (i : Nat) (r : Option (Nat × PedalDir)) (h : (i, r) ∈ ppPedals es) :
    ∃ e, es[i]? = some e ∧ (r = none ↔ e.dir = .other) ∧
      ∀ m d, r = some (m, d) → ∃ e', es[m]? = some e' ∧ e'.staff = e.staff ∧ e'.dir ≠ .other := by
  have key : ∀ (ps : List (PedalEl × Nat)) (op : Str → Option Nat), (∀ p ∈ ps, es[p.2]? = some p.1) →
      (∀ s m, op s = some m → ∃ e, es[m]? = some e ∧ e.staff = s ∧ e.dir ≠ .other) → (i, r) ∈ runPedals op ps →
      ∃ e, es[i]? = some e ∧ (r = none ↔ e.dir = .other) ∧
        ∀ m d, r = some (m, d) → ∃ e', es[m]? = some e' ∧ e'.staff = e.staff ∧ e'.dir ≠ .other := by
    intro ps
    induction ps with
    | nil => intro op _ _ hx; cases hx
    | cons p ps ih =>
      intro op h1 h2 hx
      obtain ⟨k1, k2, k3⟩ := pedal_step_made es op p (h1 p (by simp)) h2
      rw [runPedals] at hx
      rcases List.mem_cons.1 hx with hx | hx
      · cases hx
        exact ⟨p.1, h1 p (by simp), k3, k2⟩
      · exact ih _ (fun q hq => h1 q (by simp [hq])) k1 hx
  refine key es.zipIdx (fun _ => none) ?_ (by intro s m hs; cases hs) h
  intro p hp
  exact List.mem_zipIdx_iff_getElem?.1 hp

theorem zip_mem (es : List PedalEl) (e : PedalEl) (i : Nat) (r : Option (Nat × PedalDir)) :
    (e, (i, r)) ∈ es.zip (ppPedals es) ↔ es[i]? = some e ∧ (i, r) ∈ ppPedals es := by
  have hlen : (ppPedals es).length = es.length := by
    have := congrArg List.length (pedals_each_once es)
    simpa using this
  have hfst : ∀ (j : Nat) (x : Nat × Option (Nat × PedalDir)), (ppPedals es)[j]? = some x → x.1 = j := by
    intro j x hx
    have h1 : ((ppPedals es).map (·.1))[j]? = some x.1 := by simp [hx]
    rw [pedals_each_once] at h1
    obtain ⟨_, h2⟩ := List.getElem?_eq_some_iff.1 h1
    simpa using h2.symm
  constructor
  · intro h
    obtain ⟨j, hj⟩ := List.mem_iff_getElem?.1 h
    rw [List.getElem?_zip_eq_some] at hj
    have := hfst j _ hj.2
    simp only at this
    subst this
    exact ⟨hj.1, List.mem_iff_getElem?.2 ⟨_, hj.2⟩⟩
  · rintro ⟨h1, h2⟩
    obtain ⟨j, hj⟩ := List.mem_iff_getElem?.1 h2
    have := hfst j _ hj
    simp only at this
    subst this
    exact List.mem_iff_getElem?.2 ⟨_, List.getElem?_zip_eq_some.2 ⟨h1, hj⟩⟩

theorem writes_mem (es : List PedalEl) (id : Str) (k : PedalAttr) (r : Nat × PedalDir) : ((id, k), r) ∈ pedalWrites es ↔
    id ≠ [] ∧ ∃ i e, es[i]? = some e ∧ e.startId = id ∧ attrFor e.dir = k ∧ (i, some r) ∈ ppPedals es := by
  unfold pedalWrites
  rw [List.mem_filterMap]
  constructor
  · rintro ⟨⟨e, i, o⟩, hm, hq⟩
    rw [zip_mem] at hm
    cases o with
    | none => cases hq
    | some r' =>
      simp only at hq
      split at hq
      · cases hq
      · rename_i hne
        cases hq
        exact ⟨hne, i, e, hm.1, rfl, rfl, hm.2⟩
  · rintro ⟨hne, i, e, h1, h2, h3, h4⟩
    refine ⟨(e, (i, some r)), (zip_mem es e i (some r)).2 ⟨h1, h4⟩, ?_⟩
    subst h2 h3
    simp [hne]

theorem kind_of_attr (a b : PedalDir) (ha : a ≠ .other) (hb : b ≠ .other) (h : attrFor a = attrFor b) : sameKind a b := by
  cases a <;> cases b <;> first | trivial | cases h | exact absurd rfl ha | exact absurd rfl hb

theorem writes_pairwise (es : List PedalEl) (h : OnePerNote es) : (pedalWrites es).Pairwise (fun a b => a.1 ≠ b.1) := by
  unfold pedalWrites
  rw [List.pairwise_filterMap]
  have hlen : (ppPedals es).length = es.length := by
    have := congrArg List.length (pedals_each_once es)
    simpa using this
  have h1 : (es.zip (ppPedals es)).Pairwise (fun a b => a.1.startId = b.1.startId → a.1.startId ≠ [] → ¬ sameKind a.1.dir b.1.dir) := by
    have h2 : ((es.zip (ppPedals es)).map (·.1)).Pairwise (fun a b => a.startId = b.startId → a.startId ≠ [] → ¬ sameKind a.dir b.dir) := by
      rw [List.map_fst_zip (by omega)]
      exact h
    rw [List.pairwise_map] at h2
    exact h2
  refine List.Pairwise.imp_of_mem ?_ h1
  intro x y hx hy hxy a ha b hb heq
  obtain ⟨e, i, o⟩ := x
  obtain ⟨e', i', o'⟩ := y
  rw [zip_mem] at hx hy
  cases o with
  | none => cases ha
  | some r =>
    cases o' with
    | none => cases hb
    | some r' =>
      simp only at ha hb
      split at ha
      · cases ha
      · rename_i hne
        split at hb
        · cases hb
        · cases ha
          cases hb
          simp only [Prod.mk.injEq] at heq
          refine hxy heq.1 hne (kind_of_attr _ _ ?_ ?_ heq.2)
          · obtain ⟨e1, g1, g2, _⟩ := mark_of_staff es i _ hx.2
            have : e1 = e := by have := hx.1.symm.trans g1; cases this; rfl
            subst this
            intro hc
            cases g2.2 hc
          · obtain ⟨e1, g1, g2, _⟩ := mark_of_staff es i' _ hy.2
            have : e1 = e' := by have := hy.1.symm.trans g1; cases this; rfl
            subst this
            intro hc
            cases g2.2 hc

theorem lastWrite_iff (ws : List ((Str × PedalAttr) × (Nat × PedalDir))) (h : ws.Pairwise (fun a b => a.1 ≠ b.1)) (k : Str × PedalAttr)
    (r : Nat × PedalDir) : lastWrite ws k = some r ↔ (k, r) ∈ ws := by
  have hle : (ws.filterMap (fun w => if w.1 = k then some w.2 else none)).length ≤ 1 := by
    clear r
    induction ws with
    | nil => simp
    | cons w ws ih =>
      rw [List.pairwise_cons] at h
      rw [List.filterMap_cons]
      by_cases hw : w.1 = k
      · have hz : ws.filterMap (fun w => if w.1 = k then some w.2 else none) = [] := by
          rw [List.filterMap_eq_nil_iff]
          intro a ha
          rw [if_neg (fun hc => h.1 a ha (hw.trans hc.symm))]
        simp [hw, hz]
      · simp only [if_neg hw]
        exact ih h.2
  have hmem : (k, r) ∈ ws ↔ r ∈ ws.filterMap (fun w => if w.1 = k then some w.2 else none) := by
    rw [List.mem_filterMap]
    constructor
    · intro hm; exact ⟨(k, r), hm, by simp⟩
    · rintro ⟨w, hw, hr⟩
      by_cases hk : w.1 = k
      · rw [if_pos hk] at hr
        cases hr
        rw [← hk]
        exact hw
      · rw [if_neg hk] at hr
        cases hr
  rw [hmem]
  unfold lastWrite
  generalize ws.filterMap (fun w => if w.1 = k then some w.2 else none) = l at hle
  match l, hle with
  | [], _ => simp
  | [x], _ => simp [eq_comm]
  | _ :: _ :: _, hle => simp at hle

theorem result_dir (es : List PedalEl) (i : Nat) (e : PedalEl) (m : Nat) (d : PedalDir) (he : es[i]? = some e) (h : (i, some (m, d)) ∈ ppPedals es) :
    (e.dir ≠ .bounce → d = e.dir) ∧ e.dir ≠ .other ∧ d ≠ .half ∨ (d = .half ∧ e.dir = .half) := by
  have key : ∀ (ps : List (PedalEl × Nat)) (op : Str → Option Nat), (∀ p ∈ ps, es[p.2]? = some p.1) → (i, some (m, d)) ∈ runPedals op ps →
      (e.dir ≠ .bounce → d = e.dir) ∧ e.dir ≠ .other ∧ d ≠ .half ∨ (d = .half ∧ e.dir = .half) := by
    intro ps
    induction ps with
    | nil => intro op _ hx; cases hx
    | cons p ps ih =>
      intro op h1 hx
      rw [runPedals] at hx
      rcases List.mem_cons.1 hx with hz | hz
      · simp only [Prod.mk.injEq] at hz
        obtain ⟨rfl, hy⟩ := hz
        clear hx
        have hpe : p.1 = e := by have := (h1 p (by simp)).symm.trans he; cases this; rfl
        subst hpe
        have tog : (meiPedalStep op p).2 = (pedalToggle op p.1 p.2).2 → d = p.1.dir := by
          intro ht
          rw [ht] at hy
          unfold pedalToggle at hy
          split at hy <;> (cases hy; rfl)
        cases hd : p.1.dir with
        | down => left; have := tog (by unfold meiPedalStep; rw [hd]); rw [this, hd]; simp
        | half => right; exact ⟨(tog (by unfold meiPedalStep; rw [hd])).trans hd, rfl⟩
        | up => left; have := tog (by unfold meiPedalStep; rw [hd]); rw [this, hd]; simp
        | bounce =>
          left
          unfold meiPedalStep at hy
          rw [hd] at hy
          simp only at hy
          split at hy <;> (cases hy; simp)
        | other =>
          unfold meiPedalStep at hy
          rw [hd] at hy
          cases hy
      · exact ih _ (fun q hq => h1 q (by simp [hq])) hz
  refine key es.zipIdx (fun _ => none) ?_ h
  intro p hp
  exact List.mem_zipIdx_iff_getElem?.1 hp

/-- C128: a note finds exactly the pedals that are attached to it, with their marks and directions, if no two of them are
of the same kind. -/
theorem note_pedals_partial (es : List PedalEl) (h : OnePerNote es) (id : Str) (hid : id ≠ []) (m : Nat) (d : PedalDir) :
    (m, d) ∈ notePedals es id ↔ ∃ i e d', es[i]? = some e ∧ e.startId = id ∧ (i, some (m, d')) ∈ ppPedals es ∧ d = asTold d' := by
  have hlw := fun k r => lastWrite_iff (pedalWrites es) (writes_pairwise es h) (id, k) r
  have hmem : ∀ k r, r ∈ (lastWrite (pedalWrites es) (id, k)).toList ↔
      ∃ i e, es[i]? = some e ∧ e.startId = id ∧ attrFor e.dir = k ∧ (i, some r) ∈ ppPedals es := by
    intro k r
    rw [Option.mem_toList, hlw, writes_mem]
    simp [hid]
  unfold notePedals
  simp only [List.mem_append, List.mem_map, hmem]
  constructor
  · rintro ((⟨⟨m', d'⟩, ⟨i, e, h1, h2, h3, h4⟩, h5⟩ | ⟨⟨m', d'⟩, ⟨i, e, h1, h2, h3, h4⟩, h5⟩) | ⟨i, e, h1, h2, h3, h4⟩)
    · simp only [Prod.mk.injEq] at h5
      obtain ⟨rfl, rfl⟩ := h5
      refine ⟨i, e, d', h1, h2, h4, ?_⟩
      have := result_dir es i e m' d' h1 h4
      cases hd : e.dir <;> rw [hd] at h3 this <;> simp [attrFor] at h3 this
      · rw [this.1]; rfl
      · rw [this]; rfl
    · simp only [Prod.mk.injEq] at h5
      obtain ⟨rfl, rfl⟩ := h5
      refine ⟨i, e, d', h1, h2, h4, ?_⟩
      have := result_dir es i e m' d' h1 h4
      cases hd : e.dir <;> rw [hd] at h3 this <;> simp [attrFor] at h3 this
      rw [this.1]; rfl
    · refine ⟨i, e, d, h1, h2, h4, ?_⟩
      have := result_dir es i e m d h1 h4
      cases hd : e.dir <;> rw [hd] at h3 this <;> simp [attrFor] at h3 this
      cases d <;> first | rfl | exact absurd rfl this
  · rintro ⟨i, e, d', h1, h2, h3, rfl⟩
    have hr := result_dir es i e m d' h1 h3
    cases hd : e.dir <;> rw [hd] at hr <;> simp at hr
    · left; left
      exact ⟨(m, d'), ⟨i, e, h1, h2, by rw [hd]; rfl, h3⟩, by rw [hr.1]; rfl⟩
    · left; left
      refine ⟨(m, d'), ⟨i, e, h1, h2, by rw [hd]; rfl, h3⟩, ?_⟩
      rw [hr]; rfl
    · left; right
      exact ⟨(m, d'), ⟨i, e, h1, h2, by rw [hd]; rfl, h3⟩, by rw [hr.1]; rfl⟩
    · right
      have : asTold d' = d' := by cases d' <;> first | rfl | exact absurd rfl hr
      rw [this]
      exact ⟨i, e, h1, h2, by rw [hd]; rfl, h3⟩

/-! ## Where the claim is false -/

/-- A down whose up is missing: the next down is taken as the end of its mark, the up after that begins a mark, and so on. -/
theorem missing_up_breaks :
    ppPedals [⟨.down, ['1'], []⟩, ⟨.down, ['1'], []⟩, ⟨.up, ['1'], []⟩, ⟨.down, ['1'], []⟩, ⟨.up, ['1'], []⟩] =
      [(0, some (0, .down)), (1, some (0, .down)), (2, some (2, .up)), (3, some (2, .down)), (4, some (4, .up))] := by
  decide

/-- Two staves with a pedal down at the same note: the note is only put into the mark of the second. -/
theorem same_note_breaks :
    notePedals [⟨.down, ['1'], ['n']⟩, ⟨.down, ['2'], ['n']⟩, ⟨.up, ['1'], ['m']⟩, ⟨.up, ['2'], ['k']⟩] ['n'] = [(1, .down)] ∧
    notePedals [⟨.down, ['1'], ['n']⟩, ⟨.down, ['2'], ['n']⟩, ⟨.up, ['1'], ['m']⟩, ⟨.up, ['2'], ['k']⟩] ['m'] = [(0, .up)] := by
  decide

/-! ## The hypotheses are met -/

/-- Two staves with the pedal in turns, one with a bounce; the second use of staff 1 has its up first. -/
def twoPedals : List PedalEl :=
  [⟨.down, ['1'], ['a']⟩, ⟨.half, ['2'], []⟩, ⟨.bounce, ['1'], ['b']⟩, ⟨.up, ['2'], ['a']⟩, ⟨.other, ['1'], []⟩, ⟨.up, ['1'], ['c']⟩,
   ⟨.up, ['1'], ['d']⟩, ⟨.down, ['1'], ['c']⟩]

example : staffPedals ['1'] twoPedals =
    [[(⟨.down, ['1'], ['a']⟩, 0), (⟨.bounce, ['1'], ['b']⟩, 2), (⟨.up, ['1'], ['c']⟩, 5)],
     [(⟨.up, ['1'], ['d']⟩, 6), (⟨.down, ['1'], ['c']⟩, 7)]].flatten := by decide

example : OnePedal [⟨.down, ['1'], ['a']⟩, ⟨.bounce, ['1'], ['b']⟩, ⟨.up, ['1'], ['c']⟩] ∧ OnePedal [⟨.up, ['1'], ['d']⟩, ⟨.down, ['1'], ['c']⟩] :=
  ⟨⟨_, _, [⟨.bounce, ['1'], ['b']⟩], rfl, by simp, by simp⟩, ⟨_, _, [], rfl, by simp, by simp⟩⟩

example : OnePerNote twoPedals := by simp [OnePerNote, twoPedals, sameKind]

example : notePedals twoPedals ['c'] = [(6, .down), (0, .up)] ∧ notePedals twoPedals ['a'] = [(0, .down), (1, .up)] ∧
    notePedals twoPedals ['b'] = [(0, .bounce)] := by decide

end C21
