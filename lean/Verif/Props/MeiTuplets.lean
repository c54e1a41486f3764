import Verif.Model.MeiTuplets
import Verif.Lemmas.Tac
/-
C93: tuplets survive MEI export and import.
-/
namespace C21

/-! ## Specification -/

/-- The things of a part with their tuplets: a note, a grace note, another thing, or a tuplet with what is in it. -/
inductive TupTree
  | note (id : Nat) (dur : Rat)
  | grace (id : Nat)
  | other (id : Nat)
  | tup (t : TupInfo) (kids : List TupTree)

/-- The type of a tuplet at one of its notes. -/
def tupTypeAt (first last : Bool) : Option TupType :=
  match first, last with
  | true, true => some .startStop
  | true, false => some .start
  | false, true => some .stop
  | false, false => none

/-- The notes in a tuplet: all but grace notes have it, before the tuplets inside it. -/
def markTup (t : TupInfo) : Bool → List TupNote → List TupNote
  | _, [] => []
  | first, n :: r =>
    if n.kind = .note then
      { n with tuplets := (t, tupTypeAt first (r.all fun m => m.kind != .note)) :: n.tuplets } :: markTup t false r
    else n :: markTup t first r

mutual
/-- The things of a tree in order, with their tuplets from the outermost. -/
def treeNotes : TupTree → List TupNote
  | .note i d => [⟨i, .note, d, []⟩]
  | .grace i => [⟨i, .grace, 0, []⟩]
  | .other i => [⟨i, .other, 0, []⟩]
  | .tup t kids => markTup t true (forestNotes kids)
/-- Trees one after the other. -/
def forestNotes : List TupTree → List TupNote
  | [] => []
  | e :: es => treeNotes e ++ forestNotes es
end

mutual
/-- The notes of a tree, without grace notes. -/
def treeIds : TupTree → List Nat
  | .note i _ => [i]
  | .grace _ => []
  | .other _ => []
  | .tup _ kids => forestIds kids
def forestIds : List TupTree → List Nat
  | [] => []
  | e :: es => treeIds e ++ forestIds es
end

mutual
/-- The tuplets of a tree, each with its notes, in the order of their ends. -/
def treeSpans : TupTree → List (TupInfo × List Nat)
  | .note _ _ => []
  | .grace _ => []
  | .other _ => []
  | .tup t kids => forestSpans kids ++ [(t, forestIds kids)]
def forestSpans : List TupTree → List (TupInfo × List Nat)
  | [] => []
  | e :: es => treeSpans e ++ forestSpans es
end

mutual
/-- Every tuplet has a note in it. -/
def TreeFull : TupTree → Prop
  | .note _ _ => True
  | .grace _ => True
  | .other _ => True
  | .tup _ kids => forestIds kids ≠ [] ∧ ForestFull kids
def ForestFull : List TupTree → Prop
  | [] => True
  | e :: es => TreeFull e ∧ ForestFull es
end

/-! ## Writing -/

/-- The steps of the writer at a note: tuplets that start, the note, and ends of tuplets. -/
inductive TupOp
  | push (t : TupInfo)
  | add (i : Nat)
  | pop

def runTupOp (st : TupState) : TupOp → TupState
  | .push t => ⟨(t, []) :: st.opened, st.done⟩
  | .add i => ⟨st.opened.map (addToTup i), st.done⟩
  | .pop => popTup st

def noteOps (n : TupNote) : List TupOp :=
  if n.kind = .note then
    (n.tuplets.filter fun t => startsTuplet t.2).map (fun t => .push t.1) ++ [.add n.id] ++
      (n.tuplets.filter fun t => stopsTuplet t.2).map fun _ => .pop
  else []

mutual
def treeOps : TupTree → List TupOp
  | .note i _ => [.add i]
  | .grace _ => []
  | .other _ => []
  | .tup t kids => .push t :: (forestOps kids ++ [.pop])
def forestOps : List TupTree → List TupOp
  | [] => []
  | e :: es => treeOps e ++ forestOps es
end

theorem noteOps_mark (t : TupInfo) (ns : List TupNote) : ∀ first, (∃ n ∈ ns, n.kind = .note) →
    (markTup t first ns).flatMap noteOps = (if first then [.push t] else []) ++ (ns.flatMap noteOps ++ [.pop]) := by
  induction ns with
  | nil => rintro _ ⟨n, h, _⟩; cases h
  | cons n r ih =>
    rintro first hex
    by_cases hn : n.kind = .note
    · simp only [markTup, hn, if_true, List.flatMap_cons]
      by_cases hr : ∃ m ∈ r, m.kind = .note
      · have hall : (r.all fun m => m.kind != .note) = false := by
          rw [← Bool.not_eq_true, List.all_eq_true]
          intro h
          obtain ⟨m, hm, hk⟩ := hr
          have := h m hm
          simp [hk] at this
        rw [hall, ih false hr]
        cases first <;> simp [noteOps, tupTypeAt, startsTuplet, stopsTuplet, hn]
      · have hall : (r.all fun m => m.kind != .note) = true := by
          rw [List.all_eq_true]
          intro m hm
          simp only [bne_iff_ne, ne_eq]
          exact fun hk => hr ⟨m, hm, hk⟩
        have hrest : ∀ l : List TupNote, (∀ m ∈ l, m.kind ≠ .note) → (markTup t false l).flatMap noteOps = [] ∧ l.flatMap noteOps = [] := by
          intro l
          induction l with
          | nil => intro _; exact ⟨rfl, rfl⟩
          | cons m l ihl =>
            intro hl
            have hm := hl m List.mem_cons_self
            obtain ⟨a, b⟩ := ihl fun x hx => hl x (List.mem_cons_of_mem _ hx)
            simp [markTup, hm, noteOps, a, b]
        obtain ⟨a, b⟩ := hrest r fun m hm hk => hr ⟨m, hm, hk⟩
        rw [hall, a, b]
        cases first <;> simp [noteOps, tupTypeAt, startsTuplet, stopsTuplet, hn, List.map_const']
        all_goals rw [← List.replicate_succ', ← List.replicate_succ]
    · have hr : ∃ m ∈ r, m.kind = .note := by
        obtain ⟨m, hm, hk⟩ := hex
        rcases List.mem_cons.mp hm with rfl | hm
        · exact absurd hk hn
        · exact ⟨m, hm, hk⟩
      simp only [markTup, hn, if_false, List.flatMap_cons, ih first hr]
      have : noteOps n = [] := by simp [noteOps, hn]
      rw [this]
      rfl

theorem markTup_kinds (t : TupInfo) (ns : List TupNote) (first : Bool) :
    (markTup t first ns).map (fun n => (n.id, n.kind, n.dur)) = ns.map fun n => (n.id, n.kind, n.dur) := by
  induction ns generalizing first with
  | nil => rfl
  | cons n r ih =>
    unfold markTup
    by_cases hn : n.kind = .note
    · rw [if_pos hn]; simp only [List.map_cons, ih]
    · rw [if_neg hn]; simp only [List.map_cons, ih]

/-- The notes in a list, without grace notes. -/
def noteIds (ns : List TupNote) : List Nat := ns.filterMap fun n => if n.kind = .note then some n.id else none

theorem noteIds_mark (t : TupInfo) (ns : List TupNote) (first : Bool) : noteIds (markTup t first ns) = noteIds ns := by
  have h := congrArg (List.filterMap fun x : Nat × TupKind × Rat => if x.2.1 = .note then some x.1 else none) (markTup_kinds t ns first)
  simpa [List.filterMap_map, Function.comp_def, noteIds] using h

mutual
theorem treeNotes_ids : ∀ e : TupTree, noteIds (treeNotes e) = treeIds e
  | .note _ _ => rfl
  | .grace _ => rfl
  | .other _ => rfl
  | .tup t kids => by
    rw [treeNotes, treeIds, noteIds_mark]
    exact forestNotes_ids kids
theorem forestNotes_ids : ∀ f : List TupTree, noteIds (forestNotes f) = forestIds f
  | [] => rfl
  | e :: es => by
    rw [forestNotes, forestIds, ← treeNotes_ids e, ← forestNotes_ids es]
    simp [noteIds]
end

theorem exists_note (ns : List TupNote) (h : noteIds ns ≠ []) : ∃ n ∈ ns, n.kind = .note := by
  by_contra hc
  apply h
  unfold noteIds
  rw [List.filterMap_eq_nil_iff]
  intro n hn
  rw [if_neg fun hk => hc ⟨n, hn, hk⟩]

mutual
theorem tree_ops : ∀ e : TupTree, TreeFull e → (treeNotes e).flatMap noteOps = treeOps e
  | .note _ _, _ => rfl
  | .grace _, _ => rfl
  | .other _, _ => rfl
  | .tup t kids, h => by
    rw [treeNotes, treeOps, noteOps_mark t _ true (exists_note _ (by rw [forestNotes_ids]; exact h.1)), forest_ops kids h.2]
    rfl
theorem forest_ops : ∀ f : List TupTree, ForestFull f → (forestNotes f).flatMap noteOps = forestOps f
  | [], _ => rfl
  | e :: es, h => by
    rw [forestNotes, forestOps, List.flatMap_append, tree_ops e h.1, forest_ops es h.2]
end

/-- Notes added to a spanner. -/
def addAllTup (is : List Nat) (sp : TupInfo × List Nat) : TupInfo × List Nat := (sp.1, sp.2 ++ is)

theorem addAllTup_nil (st : List (TupInfo × List Nat)) : st.map (addAllTup []) = st := by
  have : addAllTup [] = id := by funext x; simp [addAllTup]
  rw [this, List.map_id]

mutual
theorem run_tree : ∀ (e : TupTree) (st : TupState),
    (treeOps e).foldl runTupOp st = ⟨st.opened.map (addAllTup (treeIds e)), st.done ++ treeSpans e⟩
  | .note i _, st => by simp [treeOps, runTupOp, treeIds, treeSpans, addAllTup, addToTup, Function.comp_def]
  | .grace _, st => by simp [treeOps, treeIds, treeSpans, addAllTup_nil]
  | .other _, st => by simp [treeOps, treeIds, treeSpans, addAllTup_nil]
  | .tup t kids, st => by
    rw [treeOps, List.foldl_cons, List.foldl_append, run_forest kids]
    simp [runTupOp, popTup, treeSpans, treeIds, addAllTup]
theorem run_forest : ∀ (f : List TupTree) (st : TupState),
    (forestOps f).foldl runTupOp st = ⟨st.opened.map (addAllTup (forestIds f)), st.done ++ forestSpans f⟩
  | [], st => by simp [forestOps, forestIds, forestSpans, addAllTup_nil]
  | e :: es, st => by
    rw [forestOps, List.foldl_append, run_tree e, run_forest es]
    simp [forestIds, forestSpans, addAllTup, Function.comp_def, List.append_assoc]
end

theorem openTup_all (ts : List (TupInfo × Option TupType)) : ∀ st : List (TupInfo × List Nat),
    (st ≠ [] ∨ ts = [] ∨ ∃ t r, ts = t :: r ∧ startsTuplet t.2 = true) →
    ts.foldl openTup st = ((ts.filter fun t => startsTuplet t.2).map fun t => (t.1, [])).reverse ++ st := by
  induction ts with
  | nil => intro st _; rfl
  | cons t r ih =>
    intro st h
    rw [List.foldl_cons]
    by_cases hs : startsTuplet t.2 = true
    · have : openTup st t = (t.1, []) :: st := by simp [openTup, hs]
      rw [this, ih _ (Or.inl (by simp)), List.filter_cons_of_pos (by exact hs)]
      simp
    · have hst : st ≠ [] := by
        rcases h with h | h | ⟨t', r', h, h'⟩
        · exact h
        · cases h
        · injection h with h1 _
          rw [h1] at hs
          exact absurd h' hs
      have hemp : st.isEmpty = false := by
        cases st with
        | nil => exact absurd rfl hst
        | cons _ _ => rfl
      have : openTup st t = st := by simp [openTup, hs, hemp]
      rw [this, ih _ (Or.inl hst), List.filter_cons_of_neg (by exact hs)]

theorem closeTup_all (ts : List (TupInfo × Option TupType)) (st : TupState) :
    ts.foldl closeTup st = ((ts.filter fun t => stopsTuplet t.2).map fun _ => TupOp.pop).foldl runTupOp st := by
  induction ts generalizing st with
  | nil => rfl
  | cons t r ih =>
    rw [List.foldl_cons, ih]
    by_cases hs : stopsTuplet t.2 = true
    · rw [List.filter_cons_of_pos (by exact hs)]
      simp [closeTup, hs, runTupOp]
    · rw [List.filter_cons_of_neg (by exact hs)]
      simp [closeTup, hs]

theorem run_pushes (ts : List TupInfo) (st : TupState) :
    (ts.map TupOp.push).foldl runTupOp st = ⟨(ts.map fun t => (t, [])).reverse ++ st.opened, st.done⟩ := by
  induction ts generalizing st with
  | nil => rfl
  | cons t r ih =>
    rw [List.map_cons, List.foldl_cons, ih]
    simp [runTupOp]

theorem step_ops (st : TupState) (n : TupNote) (hk : n.kind = .note)
    (h : n.tuplets ≠ [] ∧ (st.opened ≠ [] ∨ ∃ t r, n.tuplets = t :: r ∧ startsTuplet t.2 = true)) :
    annotateTuplet st n = (noteOps n).foldl runTupOp st := by
  have hne : n.tuplets.isEmpty = false := by
    cases ht : n.tuplets with
    | nil => exact absurd ht h.1
    | cons _ _ => rfl
  unfold annotateTuplet noteOps
  rw [if_neg (by rw [hk]; simp), hne]
  simp only [Bool.false_and, Bool.false_eq_true, if_false, hk, if_true]
  rw [openTup_all _ _ (by rcases h.2 with h | h; exact Or.inl h; exact Or.inr (Or.inr h)), closeTup_all]
  rw [List.foldl_append, List.foldl_append]
  have : (List.map (fun t : TupInfo × Option TupType => TupOp.push t.1) (n.tuplets.filter fun t => startsTuplet t.2)) =
      ((n.tuplets.filter fun t => startsTuplet t.2).map Prod.fst).map TupOp.push := by simp [Function.comp_def]
  rw [this, run_pushes]
  simp [runTupOp, Function.comp_def]

theorem step_other (st : TupState) (n : TupNote) (hk : n.kind ≠ .note) (ht : n.tuplets = []) : annotateTuplet st n = st := by
  unfold annotateTuplet
  by_cases ho : n.kind = .other
  · rw [if_pos ho]
  · rw [if_neg ho, ht]
    have hg : n.kind = .grace := by
      cases h : n.kind with
      | note => exact absurd h hk
      | grace => rfl
      | other => exact absurd h ho
    cases hst : st.opened with
    | nil => obtain ⟨o, d⟩ := st; simp at hst; simp [hst]
    | cons a b => simp [hg]

/-- Ends are never more than starts, from a depth. -/
def depthOK : Nat → List TupOp → Prop
  | _, [] => True
  | d, .push _ :: r => depthOK (d + 1) r
  | d, .add _ :: r => depthOK d r
  | d, .pop :: r => 0 < d ∧ depthOK (d - 1) r

mutual
theorem tree_depth : ∀ (e : TupTree) (d : Nat) (rest : List TupOp), depthOK d rest → depthOK d (treeOps e ++ rest)
  | .note _ _, _, _, h => h
  | .grace _, _, _, h => h
  | .other _, _, _, h => h
  | .tup t kids, d, rest, h => by
    rw [treeOps, List.cons_append, List.append_assoc]
    refine forest_depth kids (d + 1) _ ?_
    exact ⟨by omega, h⟩
theorem forest_depth : ∀ (f : List TupTree) (d : Nat) (rest : List TupOp), depthOK d rest → depthOK d (forestOps f ++ rest)
  | [], _, _, h => h
  | e :: es, d, rest, h => by
    rw [forestOps, List.append_assoc]
    exact tree_depth e d _ (forest_depth es d rest h)
end

theorem run_depth (p : List TupOp) : ∀ (q : List TupOp) (d k : Nat) (st : TupState), depthOK d (p ++ q) → st.opened.length = d + k →
    ∃ d', depthOK d' q ∧ (p.foldl runTupOp st).opened.length = d' + k := by
  induction p with
  | nil => intro q d k st h hl; exact ⟨d, h, hl⟩
  | cons o p ih =>
    intro q d k st h hl
    rw [List.foldl_cons]
    cases o with
    | push t => exact ih q (d + 1) k _ h (by simp [runTupOp, hl]; omega)
    | add i => exact ih q d k _ h (by simp [runTupOp, hl])
    | pop =>
      obtain ⟨hd, h⟩ := h
      exact ih q (d - 1) k _ h (by simp [runTupOp, popTup, hl]; omega)

theorem fold_nonnotes (t : TupInfo) (ns : List TupNote) (first : Bool) (st : TupState) (hk : ∀ n ∈ ns, n.kind ≠ .note)
    (ht : ∀ n ∈ ns, n.kind ≠ .note → n.tuplets = []) :
    (markTup t first ns).foldl annotateTuplet st = st ∧ (markTup t first ns).flatMap noteOps = [] := by
  induction ns generalizing first st with
  | nil => exact ⟨rfl, rfl⟩
  | cons n r ih =>
    have hn := hk n List.mem_cons_self
    obtain ⟨a, b⟩ := ih first st (fun m hm => hk m (List.mem_cons_of_mem _ hm)) (fun m hm => ht m (List.mem_cons_of_mem _ hm))
    simp only [markTup, hn, if_false, List.foldl_cons, List.flatMap_cons, step_other st n hn (ht n List.mem_cons_self hn), a, b, true_and]
    simp [noteOps, hn]

theorem noteOps_marked (t : TupInfo) (n : TupNote) (hk : n.kind = .note) (first last : Bool) :
    noteOps { n with tuplets := (t, tupTypeAt first last) :: n.tuplets } =
      (if first then [TupOp.push t] else []) ++ noteOps n ++ (if last then [TupOp.pop] else []) := by
  cases first <;> cases last <;> simp [noteOps, hk, tupTypeAt, startsTuplet, stopsTuplet, List.map_const']
  all_goals rw [← List.replicate_succ', ← List.replicate_succ]

theorem fold_tuplet (t : TupInfo) (ns : List TupNote) : ∀ (first : Bool) (st : TupState) (d : Nat),
    (∀ n ∈ ns, n.kind ≠ .note → n.tuplets = []) → depthOK d (ns.flatMap noteOps) →
    (first = false → st.opened.length = d + 1) → (first = true → st.opened.length = d ∧ d = 0) →
    (markTup t first ns).foldl annotateTuplet st = ((markTup t first ns).flatMap noteOps).foldl runTupOp st := by
  induction ns with
  | nil => intro _ _ _ _ _ _ _; rfl
  | cons n r ih =>
    intro first st d ht hd h1 h2
    have ht' : ∀ m ∈ r, m.kind ≠ .note → m.tuplets = [] := fun m hm => ht m (List.mem_cons_of_mem _ hm)
    by_cases hn : n.kind = .note
    · have hm : markTup t first (n :: r) =
          { n with tuplets := (t, tupTypeAt first (r.all fun m => m.kind != .note)) :: n.tuplets } :: markTup t false r := by
        rw [markTup, if_pos hn]
      rw [hm, List.foldl_cons, List.flatMap_cons, List.foldl_append]
      have hstep : annotateTuplet st { n with tuplets := (t, tupTypeAt first (r.all fun m => m.kind != .note)) :: n.tuplets } =
          (noteOps { n with tuplets := (t, tupTypeAt first (r.all fun m => m.kind != .note)) :: n.tuplets }).foldl runTupOp st := by
        refine step_ops st _ hn ⟨by simp, ?_⟩
        cases first with
        | true =>
          right
          refine ⟨_, _, rfl, ?_⟩
          cases (r.all fun m => m.kind != .note) <;> rfl
        | false =>
          left
          have := h1 rfl
          intro hc
          rw [hc] at this
          simp at this
      rw [← hstep]
      by_cases hr : ∃ m ∈ r, m.kind = .note
      · have hall : (r.all fun m => m.kind != .note) = false := by
          rw [← Bool.not_eq_true, List.all_eq_true]
          intro h
          obtain ⟨m, hm, hk⟩ := hr
          have := h m hm
          simp [hk] at this
        rw [hall] at hstep ⊢
        rw [hstep, noteOps_marked t n hn]
        have hlen : ((if first then [TupOp.push t] else []).foldl runTupOp st).opened.length = d + 1 := by
          cases first with
          | true => have := h2 rfl; simp [runTupOp, this.1]
          | false => simpa using h1 rfl
        rw [List.flatMap_cons] at hd
        obtain ⟨d', hd', hl'⟩ := run_depth (noteOps n) (r.flatMap noteOps) d 1 _ hd hlen
        simp only [List.foldl_append, Bool.false_eq_true, if_false, List.foldl_nil]
        refine ih false _ d' ht' hd' (fun _ => hl') (fun h => by cases h)
      · have hk : ∀ m ∈ r, m.kind ≠ .note := fun m hm hk => hr ⟨m, hm, hk⟩
        obtain ⟨a, b⟩ := fold_nonnotes t r false
          (annotateTuplet st { n with tuplets := (t, tupTypeAt first (r.all fun m => m.kind != .note)) :: n.tuplets }) hk ht'
        rw [a, b]
        rfl
    · simp only [markTup, hn, if_false, List.foldl_cons, List.flatMap_cons, List.foldl_append,
        step_other st n hn (ht n List.mem_cons_self hn)]
      have : noteOps n = [] := by simp [noteOps, hn]
      rw [List.flatMap_cons, this] at hd
      rw [this]
      exact ih first st d ht' hd h1 h2

mutual
theorem tree_nonnotes : ∀ e : TupTree, ∀ n ∈ treeNotes e, n.kind ≠ .note → n.tuplets = []
  | .note _ _, n, h, _ => by simp [treeNotes] at h; rw [h]
  | .grace _, n, h, _ => by simp [treeNotes] at h; rw [h]
  | .other _, n, h, _ => by simp [treeNotes] at h; rw [h]
  | .tup t kids, n, h, hk => by
    rw [treeNotes] at h
    have hf := forest_nonnotes kids
    generalize forestNotes kids = ns at h hf
    generalize true = first at h
    induction ns generalizing first with
    | nil => cases h
    | cons m r ih =>
      unfold markTup at h
      by_cases hm : m.kind = .note
      · rw [if_pos hm] at h
        rcases List.mem_cons.mp h with rfl | h
        · exact absurd hm hk
        · exact ih (fun x hx => hf x (List.mem_cons_of_mem _ hx)) _ h
      · rw [if_neg hm] at h
        rcases List.mem_cons.mp h with rfl | h
        · exact hf n List.mem_cons_self hk
        · exact ih (fun x hx => hf x (List.mem_cons_of_mem _ hx)) _ h
theorem forest_nonnotes : ∀ f : List TupTree, ∀ n ∈ forestNotes f, n.kind ≠ .note → n.tuplets = []
  | [], n, h, _ => by cases h
  | e :: es, n, h, hk => by
    rw [forestNotes] at h
    rcases List.mem_append.mp h with h | h
    · exact tree_nonnotes e n h hk
    · exact forest_nonnotes es n h hk
end

theorem annotate_forest : ∀ (f : List TupTree), ForestFull f → ∀ done,
    (forestNotes f).foldl annotateTuplet ⟨[], done⟩ = ⟨[], done ++ forestSpans f⟩
  | [], _, done => by simp [forestNotes, forestSpans]
  | e :: es, h, done => by
    have he : (treeNotes e).foldl annotateTuplet ⟨[], done⟩ = ⟨[], done ++ treeSpans e⟩ := by
      cases e with
      | note i d => simp [treeNotes, annotateTuplet, treeSpans]
      | grace i => simp [treeNotes, annotateTuplet, treeSpans]
      | other i => simp [treeNotes, annotateTuplet, treeSpans]
      | tup t kids =>
        have hd : depthOK 0 ((forestNotes kids).flatMap noteOps) := by
          rw [forest_ops kids h.1.2]
          have := forest_depth kids 0 [] trivial
          simpa using this
        have := fold_tuplet t (forestNotes kids) true ⟨[], done⟩ 0 (forest_nonnotes kids) hd (fun h => by cases h) (fun _ => ⟨rfl, rfl⟩)
        have hops := tree_ops (.tup t kids) h.1
        rw [treeNotes] at hops ⊢
        rw [this, hops, run_tree]
        rfl
    rw [forestNotes, List.foldl_append, he, annotate_forest es h.2]
    simp [forestSpans, List.append_assoc]

/-- C93, writing: the tuplets that are written for a part are its tuplets, each with its notes in order, however they are nested. -/
theorem tuplets_written (f : List TupTree) (h : ForestFull f) :
    (annotateTuplets (forestNotes f)).done = forestSpans f ∧ (annotateTuplets (forestNotes f)).opened = [] := by
  unfold annotateTuplets
  rw [annotate_forest f h []]
  exact ⟨rfl, rfl⟩

/-! ## How they look -/

/-- Looks that MEI can say: no curved bracket; the number is not shown, or shown alone, or the ratio is shown; there is a place only if there
is something to place. -/
def LookSaid (l : TupLook) : Prop :=
  l.bracket ≠ .slur ∧
  ((l.actual = none ∧ l.normal = none) ∨ (l.actual = some .number ∧ l.normal = none) ∨ (l.actual = some .number ∧ l.normal = some .number)) ∧
  (l.bracket = .no → l.actual = none → l.above = none)

instance (l : TupLook) : Decidable (LookSaid l) := by unfold LookSaid; infer_instance

theorem look_iff (l : TupLook) : (readTup (tupAttrs ⟨0, 0, l⟩)).look = l ↔ LookSaid l := by
  obtain ⟨bracket, actual, normal, above⟩ := l
  cases bracket <;> rcases actual with _ | _ | _ | _ <;> rcases normal with _ | _ | _ | _ <;> rcases above with _ | _ | _ <;> decide

/-- C93: numbers and look of a tuplet come back if, and only if, MEI can say them. -/
theorem tuplet_look_iff (t : TupInfo) : readTup (tupAttrs t) = t ↔ LookSaid t.look := by
  rw [← look_iff]
  have h3 : readTup (tupAttrs t) = ⟨t.num, t.base, (readTup (tupAttrs ⟨0, 0, t.look⟩)).look⟩ := rfl
  rw [h3]
  constructor
  · intro h
    have h4 : (⟨t.num, t.base, (readTup (tupAttrs ⟨0, 0, t.look⟩)).look⟩ : TupInfo).look = t.look := by rw [h]
    exact h4
  · intro h
    rw [h]

/-- The numbers come back always. -/
theorem tuplet_numbers (t : TupInfo) : (readTup (tupAttrs t)).num = t.num ∧ (readTup (tupAttrs t)).base = t.base := ⟨rfl, rfl⟩

/-! ## Reading -/

/-- The members of a `tuplet` element: all notes have the tuplet, after the tuplets inside it. -/
def appendTup (a : TupAttrs) : Bool → List TupNote → List TupNote
  | _, [] => []
  | first, n :: r =>
    if n.kind = .note then withTuplet a (tupTypeAt first (r.all fun m => m.kind != .note)) n :: appendTup a false r
    else n :: appendTup a first r

theorem no_notes_iff (r : List TupNote) : (r.all fun m => m.kind != .note) = true ↔ ∀ m ∈ r, m.kind ≠ .note := by
  rw [List.all_eq_true]
  exact forall_congr' fun m => forall_congr' fun _ => by simp

theorem scale_nonnotes (a : TupAttrs) (r : List TupNote) (b c : Bool) (h : ∀ m ∈ r, m.kind ≠ .note) :
    scaleToTuplet a b r = r ∧ appendTup a c r = r := by
  induction r generalizing b c with
  | nil => exact ⟨rfl, rfl⟩
  | cons n r ih =>
    have hn := h n List.mem_cons_self
    obtain ⟨h1, _⟩ := ih false c fun m hm => h m (List.mem_cons_of_mem _ hm)
    obtain ⟨_, h2⟩ := ih false c fun m hm => h m (List.mem_cons_of_mem _ hm)
    refine ⟨?_, ?_⟩
    · rw [scaleToTuplet, h1]
      simp [withTuplet, hn]
    · rw [appendTup, if_neg hn, h2]

theorem setLastType_add (a : TupAttrs) (ty : Option TupType) (ty' : TupType) (n : TupNote) (hn : n.kind = .note) :
    setLastType ty' (withTuplet a ty n) = withTuplet a (some ty') n := by
  unfold setLastType withTuplet
  rw [if_pos hn, if_pos hn]
  simp

theorem withTuplet_kind (a : TupAttrs) (ty : Option TupType) (n : TupNote) : (withTuplet a ty n).kind = n.kind := by
  unfold withTuplet
  split <;> rfl

theorem scale_kinds (a : TupAttrs) (r : List TupNote) (b : Bool) : (scaleToTuplet a b r).map TupNote.kind = r.map TupNote.kind := by
  induction r generalizing b with
  | nil => rfl
  | cons n r ih => simp [scaleToTuplet, withTuplet_kind, ih]

theorem scale_all (a : TupAttrs) (r : List TupNote) (b : Bool) :
    ((scaleToTuplet a b r).all fun m => m.kind != .note) = r.all fun m => m.kind != .note := by
  have h := congrArg (fun l : List TupKind => l.all fun k => k != .note) (scale_kinds a r b)
  simpa [List.all_map, Function.comp_def] using h

theorem onLast_scale (a : TupAttrs) (r : List TupNote) (h : ∃ m ∈ r, m.kind = .note) :
    onLast (setLastType .stop) (scaleToTuplet a false r) = appendTup a false r := by
  induction r with
  | nil => obtain ⟨m, hm, _⟩ := h; cases hm
  | cons n r ih =>
    rw [scaleToTuplet, onLast, appendTup, withTuplet_kind, scale_all]
    by_cases hn : n.kind = .note
    · by_cases hr : (r.all fun m => m.kind != .note) = true
      · obtain ⟨h1, h2⟩ := scale_nonnotes a r false false ((no_notes_iff r).mp hr)
        simp only [hn, hr, h1, h2]
        simp [setLastType_add _ _ _ _ hn, tupTypeAt]
      · rw [Bool.not_eq_true] at hr
        have hr' : ∃ m ∈ r, m.kind = .note := by
          by_contra hc
          rw [(no_notes_iff r).mpr fun m hm hk => hc ⟨m, hm, hk⟩] at hr
          cases hr
        have hne : r.isEmpty = false := by
          obtain ⟨m, hm, _⟩ := hr'
          cases r with
          | nil => cases hm
          | cons _ _ => rfl
        simp [hn, hr, ih hr', hne, tupTypeAt]
    · have hr' : ∃ m ∈ r, m.kind = .note := by
        obtain ⟨m, hm, hk⟩ := h
        rcases List.mem_cons.mp hm with rfl | hm
        · exact absurd hk hn
        · exact ⟨m, hm, hk⟩
      have : withTuplet a (if false = true then some TupType.start else if r.isEmpty then some .stop else none) n = n := by
        simp [withTuplet, hn]
      rw [this, if_neg (by simp [hn]), if_neg hn, ih hr']

theorem scale_fixed (a : TupAttrs) (ms : List TupNote) : ∀ b, (∃ m ∈ ms, m.kind = .note) →
    appendTup a true ms =
      if (ms.filter fun m => m.kind == .note).length = 1 then
        onFirst (setLastType .startStop) (onFirst (setLastType .start) (scaleToTuplet a b ms))
      else onLast (setLastType .stop) (onFirst (setLastType .start) (scaleToTuplet a b ms)) := by
  induction ms with
  | nil => rintro _ ⟨m, hm, _⟩; cases hm
  | cons n r ih =>
    intro b h
    rw [scaleToTuplet, appendTup]
    by_cases hn : n.kind = .note
    · rw [if_pos hn, onFirst, withTuplet_kind, if_pos hn, setLastType_add _ _ _ _ hn, onFirst, withTuplet_kind, if_pos hn,
        setLastType_add _ _ _ _ hn, onLast, withTuplet_kind, scale_all, List.filter_cons_of_pos (by simp [hn])]
      by_cases hr : (r.all fun m => m.kind != .note) = true
      · have hno := (no_notes_iff r).mp hr
        obtain ⟨h1, h2⟩ := scale_nonnotes a r false false hno
        have : (r.filter fun m => m.kind == .note) = [] := by
          rw [List.filter_eq_nil_iff]
          intro m hm
          simp [hno m hm]
        rw [this, hr, h1, h2]
        simp [tupTypeAt]
      · have hr' : ∃ m ∈ r, m.kind = .note := by
          by_contra hc
          exact hr ((no_notes_iff r).mpr fun m hm hk => hc ⟨m, hm, hk⟩)
        rw [Bool.not_eq_true] at hr
        have hlen : ¬ ((n :: r.filter fun m => m.kind == .note).length = 1) := by
          obtain ⟨m, hm, hk⟩ := hr'
          have : m ∈ r.filter fun m => m.kind == .note := List.mem_filter.mpr ⟨hm, by simp [hk]⟩
          have := List.length_pos_of_mem this
          rw [List.length_cons]
          omega
        rw [if_neg hlen, hr]
        simp [tupTypeAt, onLast_scale a r hr']
    · have hr' : ∃ m ∈ r, m.kind = .note := by
        obtain ⟨m, hm, hk⟩ := h
        rcases List.mem_cons.mp hm with rfl | hm
        · exact absurd hk hn
        · exact ⟨m, hm, hk⟩
      have hadd : ∀ ty, withTuplet a ty n = n := by intro ty; simp [withTuplet, hn]
      rw [if_neg hn, hadd, onFirst, if_neg hn, onFirst, if_neg hn, onLast, List.filter_cons_of_neg (by simp [hn]), ih false hr']
      by_cases hl : (r.filter fun m => m.kind == .note).length = 1
      · rw [if_pos hl, if_pos hl]
      · rw [if_neg hl, if_neg hl, if_neg (by simp [hn])]

/-- C93, reading: the members of a `tuplet` element with a note in it. -/
theorem tupletElement_reads (a : TupAttrs) (ms : List TupNote) (h : ∃ m ∈ ms, m.kind = .note) :
    tupletElement a ms = appendTup a true ms := by
  rw [scale_fixed a ms true h]
  unfold tupletElement
  obtain ⟨m, hm, hk⟩ := h
  have hpos : 0 < (ms.filter fun m => m.kind == .note).length :=
    List.length_pos_of_mem (List.mem_filter.mpr ⟨hm, by simp [hk]⟩)
  generalize (ms.filter fun m => m.kind == .note).length = k at hpos
  rcases k with _ | _ | k
  · omega
  · simp
  · simp

mutual
/-- A tree that has been written as `tuplet` elements with things in them is read: mei/meireader.py:6215-6279 for each `tuplet`, the ones
inside it first. -/
def readTree : TupTree → List TupNote
  | .note i d => [⟨i, .note, d, []⟩]
  | .grace i => [⟨i, .grace, 0, []⟩]
  | .other i => [⟨i, .other, 0, []⟩]
  | .tup t kids => tupletElement (tupAttrs t) (readForest kids)
def readForest : List TupTree → List TupNote
  | [] => []
  | e :: es => readTree e ++ readForest es
end

mutual
/-- All tuplets have a look that MEI can say. -/
def TreeSaid : TupTree → Prop
  | .note _ _ => True
  | .grace _ => True
  | .other _ => True
  | .tup t kids => LookSaid t.look ∧ ForestSaid kids
def ForestSaid : List TupTree → Prop
  | [] => True
  | e :: es => TreeSaid e ∧ ForestSaid es
end

/-- A note as it is read: its duration is in the time of its tuplets, and its tuplets are from the innermost. -/
def noteAsRead (n : TupNote) : TupNote :=
  { n with dur := n.tuplets.foldr (fun t d => d * t.1.base / t.1.num) n.dur, tuplets := n.tuplets.reverse }

theorem append_mark (t : TupInfo) (hl : LookSaid t.look) (ns : List TupNote) (first : Bool) :
    appendTup (tupAttrs t) first (ns.map noteAsRead) = (markTup t first ns).map noteAsRead := by
  have hall : ∀ r : List TupNote, ((r.map noteAsRead).all fun m => m.kind != .note) = r.all fun m => m.kind != .note := by
    intro r
    rw [List.all_map]
    rfl
  induction ns generalizing first with
  | nil => rfl
  | cons n r ih =>
    rw [List.map_cons, appendTup, markTup, hall]
    by_cases hn : n.kind = .note
    · have hn' : (noteAsRead n).kind = .note := hn
      rw [if_pos hn', if_pos hn, List.map_cons, ih]
      congr 1
      unfold withTuplet
      rw [if_pos hn', (tuplet_look_iff t).mpr hl]
      unfold noteAsRead
      simp [tupAttrs]
    · have hn' : ¬ (noteAsRead n).kind = .note := hn
      rw [if_neg hn', if_neg hn, List.map_cons, ih]

mutual
theorem readTree_notes : ∀ e : TupTree, TreeFull e → TreeSaid e → readTree e = (treeNotes e).map noteAsRead
  | .note _ _, _, _ => rfl
  | .grace _, _, _ => rfl
  | .other _, _, _ => rfl
  | .tup t kids, h, hs => by
    rw [readTree, treeNotes, readForest_notes kids h.2 hs.2, tupletElement_reads, append_mark t hs.1]
    obtain ⟨n, hn, hk⟩ := exists_note (forestNotes kids) (by rw [forestNotes_ids]; exact h.1)
    exact ⟨noteAsRead n, List.mem_map_of_mem hn, hk⟩
theorem readForest_notes : ∀ f : List TupTree, ForestFull f → ForestSaid f → readForest f = (forestNotes f).map noteAsRead
  | [], _, _ => rfl
  | e :: es, h, hs => by
    rw [readForest, forestNotes, List.map_append, readTree_notes e h.1 hs.1, readForest_notes es h.2 hs.2]
end

/-- C93, reading: every note has all its tuplets, with their numbers, looks and types, but in the opposite order; its duration is in their time. -/
theorem tuplets_read (f : List TupTree) (h : ForestFull f) (hs : ForestSaid f) : readForest f = (forestNotes f).map noteAsRead :=
  readForest_notes f h hs

/-- No tuplet in another. -/
def FlatTuplets (f : List TupTree) : Prop := ∀ n ∈ forestNotes f, n.tuplets.length ≤ 1

/-- C93: export, then import: the written tuplets are those of the part; read again, each note has the tuplets that it had, and its duration.
For tuplets with no other tuplet in them. -/
theorem tuplets_round_trip_partial (f : List TupTree) (h : ForestFull f) (hs : ForestSaid f) (hf : FlatTuplets f) :
    (annotateTuplets (forestNotes f)).done = forestSpans f ∧
    (readForest f).map (fun n => (n.id, n.kind, n.tuplets)) = (forestNotes f).map (fun n => (n.id, n.kind, n.tuplets)) ∧
    (annotateTuplets (readForest f)).done = forestSpans f := by
  have h1 : (readForest f).map (fun n => (n.id, n.kind, n.tuplets)) = (forestNotes f).map (fun n => (n.id, n.kind, n.tuplets)) := by
    rw [tuplets_read f h hs, List.map_map]
    refine List.map_congr_left fun n hn => ?_
    have := hf n hn
    simp only [Function.comp, noteAsRead]
    congr 2
    generalize n.tuplets = ts at this
    rcases ts with _ | ⟨a, _ | ⟨b, r⟩⟩
    · rfl
    · rfl
    · simp at this
  refine ⟨(tuplets_written f h).1, h1, ?_⟩
  rw [← (tuplets_written f h).1]
  have hfold : ∀ (l m : List TupNote) (st : TupState), l.map (fun n => (n.id, n.kind, n.tuplets)) = m.map (fun n => (n.id, n.kind, n.tuplets)) →
      l.foldl annotateTuplet st = m.foldl annotateTuplet st := by
    intro l
    induction l with
    | nil =>
      intro m st h
      cases m with
      | nil => rfl
      | cons _ _ => cases h
    | cons a l ih =>
      intro m st h
      cases m with
      | nil => cases h
      | cons b m =>
        rw [List.map_cons, List.map_cons, List.cons.injEq] at h
        obtain ⟨h, h'⟩ := h
        rw [List.foldl_cons, List.foldl_cons]
        have : annotateTuplet st a = annotateTuplet st b := by
          simp only [Prod.mk.injEq] at h
          unfold annotateTuplet
          rw [h.1, h.2.1, h.2.2]
        rw [this]
        exact ih m _ h'
  unfold annotateTuplets
  rw [hfold _ _ _ h1]

/-! ### `tupletSpan` with no plist -/

theorem guess_plain (ns : List TupNote) (st : GuessState) (h : st.inTuplet = false) (post : List (TupNote × SearchMark)) :
    guessTuplets st (ns.map (fun n => (n, none)) ++ post) = ns ++ guessTuplets st post := by
  induction ns with
  | nil => rfl
  | cons n r ih =>
    simp only [List.map_cons, List.cons_append, guessTuplets, h, ih, Bool.false_eq_true, if_false, ite_self]

theorem guess_inside (ns : List TupNote) (st : GuessState) (h : st.inTuplet = true) (post : List (TupNote × SearchMark)) :
    guessTuplets st (ns.map (fun n => (n, none)) ++ post) = ns.map (withTuplet st.attrs none) ++ guessTuplets st post := by
  induction ns with
  | nil => rfl
  | cons n r ih =>
    by_cases ho : n.kind = .other
    · simp [guessTuplets, ho, ih, withTuplet]
    · simp [guessTuplets, ho, h, ih]

/-- C93, reading: the first `tupletSpan` of a layer: from the note at its start to the note at its end all notes have the tuplet, and
nothing else before and between changes. -/
theorem tupletSpan_read (a b : TupAttrs) (pre mid : List TupNote) (s e : TupNote) (post : List (TupNote × SearchMark))
    (hs : s.kind = .note ∧ s.tuplets = []) (he : e.kind = .note ∧ e.tuplets = []) :
    ∃ st : GuessState, st.inTuplet = false ∧ guessTuplets noGuess
      (pre.map (fun n => (n, none)) ++ (s, some (true, a)) :: (mid.map (fun n => (n, none)) ++ (e, some (false, b)) :: post)) =
      pre ++ withTuplet a (some .start) s :: (mid.map (withTuplet a none) ++ withTuplet a (some .stop) e :: guessTuplets st post) := by
  have hb : noGuess.begin a = ⟨true, a⟩ := by
    obtain ⟨_, _, _, _, _, _, _⟩ := a
    simp [GuessState.begin, noGuess]
  refine ⟨⟨false, a⟩, rfl, ?_⟩
  rw [guess_plain _ _ rfl]
  congr 1
  have h1 : ¬ s.kind = .other := by rw [hs.1]; simp
  have h2 : ¬ e.kind = .other := by rw [he.1]; simp
  simp only [guessTuplets, if_neg h1, hb, if_true]
  rw [guess_inside _ _ rfl]
  simp only [guessTuplets, if_neg h2, if_true]
  congr 1
  · simp [setFirstType, withTuplet, hs.1, hs.2]
  · congr 2
    simp [setFirstType, withTuplet, he.1, he.2]

/-! ### Bare attributes -/

/-- Each end has a start before it. -/
def attrsNested : Nat → List TupAttrI → Prop
  | _, [] => True
  | d, .i :: r => attrsNested (d + 1) r
  | d, .t :: r => 0 < d ∧ attrsNested (d - 1) r
  | d, .other :: r => attrsNested d r

theorem bare_none (l : List TupAttrI) : ∀ d : Nat, attrsNested d l → bareTuplets d l = l.map fun _ => none := by
  induction l with
  | nil => intro _ _; rfl
  | cons a r ih =>
    intro d h
    cases a with
    | i =>
      have := ih (d + 1) h
      have hc : ¬ ((d : Int) + 1 = 0) := by omega
      simp only [bareTuplets, bareTuplet, List.map_cons]
      simp only [if_true, if_neg hc]
      rw [← this]
      rfl
    | t =>
      obtain ⟨hd, h⟩ := h
      have := ih (d - 1) h
      have hc : ¬ ((d : Int) = 0) := by omega
      simp only [bareTuplets, bareTuplet, List.map_cons]
      simp only [reduceCtorEq, if_false, if_true, if_neg hc]
      rw [← this]
      congr 2
      omega
    | other =>
      have := ih d h
      simp only [bareTuplets, bareTuplet, List.map_cons, reduceCtorEq, if_false, ite_self]
      rw [← this]

/-- Tuplets that are given by the attribute `tuplet` alone are never read, for every layer in which each end has a start before it: no
note changes, so durations are too long. -/
theorem bare_tuplets_not_read (ns : List (TupNote × TupAttrI)) (h : attrsNested 0 (ns.map Prod.snd)) (a : TupAttrs) :
    guessTuplets noGuess (List.zipWith (fun n m => (n, m.map fun s => (s, a))) (ns.map Prod.fst) (bareTuplets 0 (ns.map Prod.snd))) =
      ns.map Prod.fst := by
  have hb := bare_none _ 0 h
  rw [show ((0 : Int) = ((0 : Nat) : Int)) from rfl, hb]
  have hz : List.zipWith (fun (n : TupNote) (m : Option Bool) => (n, m.map fun s => (s, a))) (ns.map Prod.fst)
      ((ns.map Prod.snd).map fun _ => none) = (ns.map Prod.fst).map fun n => (n, none) := by
    clear h hb
    induction ns with
    | nil => rfl
    | cons x r ih => simpa using ih
  rw [hz]
  have := guess_plain (ns.map Prod.fst) noGuess rfl []
  simpa [guessTuplets] using this

/-! ## Samples -/

def plainLook : TupLook := ⟨.yes, some .number, none, some true⟩

/-- Three notes in the time of two with a grace note among them, and a note after it. -/
def tupSample : List TupTree :=
  [.tup ⟨3, 2, plainLook⟩ [.note 1 (1/2), .note 2 (1/2), .grace 9, .note 3 (1/2)], .note 4 1,
   .tup ⟨5, 4, ⟨.no, some .number, some .number, none⟩⟩ [.note 5 (1/2), .note 6 2]]

theorem tupSample_ok : ForestFull tupSample ∧ ForestSaid tupSample ∧ FlatTuplets tupSample := by
  refine ⟨?_, ?_, ?_⟩
  · simp [tupSample, ForestFull, TreeFull, forestIds, treeIds]
  · simp only [tupSample, ForestSaid, TreeSaid, and_true]
    exact ⟨by decide, by decide⟩
  · unfold FlatTuplets
    decide +kernel

example : forestSpans tupSample =
    [(⟨3, 2, plainLook⟩, [1, 2, 3]), (⟨5, 4, ⟨.no, some .number, some .number, none⟩⟩, [5, 6])] := by decide

/-- A tuplet in a tuplet. -/
def nestedSample : List TupTree :=
  [.tup ⟨5, 4, plainLook⟩ [.tup ⟨3, 2, plainLook⟩ [.note 1 1, .note 2 1, .note 3 1], .note 4 1, .note 5 1]]

theorem nestedSample_ok : ForestFull nestedSample ∧ ForestSaid nestedSample := by
  refine ⟨?_, ?_⟩
  · simp [nestedSample, ForestFull, TreeFull, forestIds, treeIds]
  · simp only [nestedSample, ForestSaid, TreeSaid, and_true]
    exact ⟨by decide, by decide⟩

/-! ## Where it is not so -/

/-- When a tuplet in a tuplet has been read and is written again, their notes are exchanged. -/
theorem nested_tuplets_exchanged :
    forestSpans nestedSample = [(⟨3, 2, plainLook⟩, [1, 2, 3]), (⟨5, 4, plainLook⟩, [1, 2, 3, 4, 5])] ∧
    (annotateTuplets (readForest nestedSample)).done = [(⟨5, 4, plainLook⟩, [1, 2, 3]), (⟨3, 2, plainLook⟩, [1, 2, 3, 4, 5])] := by
  refine ⟨by decide, ?_⟩
  rw [tuplets_read _ nestedSample_ok.1 nestedSample_ok.2]
  decide +kernel

/-- A tuplet over a bar line is broken by a note of another voice. -/
theorem tuplet_broken_by_voice :
    (annotateTuplets [⟨1, .note, 1, [(⟨3, 2, plainLook⟩, some .start)]⟩, ⟨7, .note, 1, []⟩,
      ⟨2, .note, 1, [(⟨3, 2, plainLook⟩, none)]⟩, ⟨3, .note, 1, [(⟨3, 2, plainLook⟩, some .stop)]⟩]).done =
    [(⟨3, 2, plainLook⟩, [1]), (⟨3, 2, plainLook⟩, [2, 3])] := by decide +kernel

/-- Two tuplets one after the other with no types are written as one. -/
theorem untyped_tuplets_joined (t : TupInfo) :
    (annotateTuplets (((List.range 6).map fun i => (⟨i, .note, 1, [(t, none)]⟩ : TupNote)) ++ [⟨6, .note, 1, []⟩])).done =
      [(t, [0, 1, 2, 3, 4, 5])] := rfl

/-- A `tuplet` element with only grace notes or clefs in it: they are lost. -/
theorem tuplet_without_notes_lost (a : TupAttrs) (i : Nat) : tupletElement a [⟨i, .grace, 0, []⟩] = [] := rfl

/-- The look of a `tupletSpan` goes over to the next one that does not say. -/
theorem tupletSpan_look_leaks :
    (guessTuplets noGuess
      [(⟨1, .note, 1, []⟩, some (true, ⟨3, 2, some false, none, none, none, none⟩)), (⟨2, .note, 1, []⟩, some (false, ⟨3, 2, none, none, none, none, none⟩)),
       (⟨3, .note, 1, []⟩, some (true, ⟨3, 2, none, none, none, none, none⟩)), (⟨4, .note, 1, []⟩, some (false, ⟨3, 2, none, none, none, none, none⟩))]).map
      (fun n => n.tuplets.map fun t => t.1.look.bracket) = [[.no], [.no], [.no], [.no]] := by decide +kernel

end C21
