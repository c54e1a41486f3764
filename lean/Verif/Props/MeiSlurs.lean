import Mathlib.Data.List.Induction
import Mathlib.Data.List.Nodup
import Verif.Lemmas.PyStr
import Verif.Model.MeiSlurs
import Verif.Spec.MeiSlurs
/-
C126: the slurs read from an MEI document join the notes and chords the document says.
-/
namespace C21

/-! ## The attributes made beforehand -/

theorem splitOn_snoc (c : Char) (v : Str) (h : c ∉ v) (s : Str) : splitOn c (s ++ c :: v) = splitOn c s ++ [v] := by
  induction s with
  | nil => simp [splitOn, splitOn_of_not_mem c v h]
  | cons x xs ih =>
    rw [List.cons_append, splitOn, splitOn, ih]
    split
    · rfl
    · cases hs : splitOn c xs with
      | nil =>
        exfalso
        cases xs with
        | nil => simp [splitOn] at hs
        | cons y ys =>
          rw [splitOn] at hs
          split at hs
          · cases hs
          · split at hs <;> cases hs
      | cons a b => rfl

def FullTexts (a : MIdAttrs) : Prop := ∀ k s, attrText a k = some s → s ≠ []

theorem attrText_add (id v : Str) (a : MIdAttrs) (k : Str) : attrText (addIdTo id v a) k =
    if id = k then some (match attrText a id with | none => v | some s => s ++ ',' :: v) else attrText a k := by
  induction a with
  | nil => simp [addIdTo, attrText]
  | cons q rest ih =>
    obtain ⟨k0, w⟩ := q
    rw [addIdTo]
    by_cases h : k0 = id
    · subst h
      by_cases hk : k0 = k
      · subst hk; simp [attrText]
      · simp [attrText, hk]
    · rw [if_neg h, attrText, ih]
      by_cases hk : k0 = k
      · subst hk
        rw [if_pos rfl, if_neg (fun e => h e.symm)]
        simp [attrText]
      · rw [if_neg hk]
        simp [attrText, h, hk]

theorem fullTexts_add (id v : Str) (hv : v ≠ []) (a : MIdAttrs) (h : FullTexts a) : FullTexts (addIdTo id v a) := by
  intro k s hs
  rw [attrText_add] at hs
  split at hs
  · cases hs
    split
    · exact hv
    · simp
  · exact h k s hs

theorem idsIn_add (id v : Str) (hid : id ≠ []) (hv : v ≠ []) (hc : ',' ∉ v) (a : MIdAttrs) (h : FullTexts a) (k : Str) :
    idsIn (addIdTo id v a) k = if id = k then idsIn a k ++ [v] else idsIn a k := by
  by_cases hk : id = k
  · subst hk
    rw [if_pos rfl]
    unfold idsIn
    rw [if_neg hid, if_neg hid, attrText_add, if_pos rfl]
    cases ht : attrText a id with
    | none => simp [hv, splitOn_of_not_mem ',' v hc]
    | some s => simp [h id s ht, splitOn_snoc ',' v hc]
  · rw [if_neg hk]
    unfold idsIn
    rw [attrText_add, if_neg hk]

theorem removeHash_nil (s : Str) : removeHash s = [] ↔ s = [] ∨ s = ['#'] := by
  unfold removeHash
  split
  · simp
  · next h =>
    constructor
    · exact Or.inl
    · rintro (h1 | h1)
      · exact h1
      · exact absurd h1 (h [])

theorem refersTo_iff (ref xid : Str) (hx : xid ≠ []) : RefersTo ref xid ↔ removeHash ref = xid := by
  unfold RefersTo removeHash
  split
  · next rest => simp [hx]
  · next h =>
    constructor
    · rintro ⟨_, h1 | h1⟩
      · exact absurd h1 (h xid)
      · exact h1.1
    · intro h1
      refine ⟨hx, Or.inr ⟨h1, ?_⟩⟩
      cases ref with
      | nil => simp
      | cons c cs =>
        intro hc
        simp only [List.head?_cons, Option.some.injEq] at hc
        subst hc
        exact h cs rfl

theorem anchored_iff (e : MSlurEl) : e.anchored = true ↔ (removeHash e.startid ≠ [] ∨ removeHash e.endid ≠ []) := by
  unfold MSlurEl.anchored
  rw [decide_eq_true_iff, ne_eq, ne_eq, removeHash_nil, removeHash_nil]

/-- What is known after `_ppSlurs`. -/
structure PreDone (uid : Nat → Str) (rel : List MSlurEl) (p : MSlurPre) : Prop where
  bundle : p.bundle = rel.zipIdx.map (fun q => ⟨some (uid q.2), curvePlace q.1.curvedir, []⟩)
  fullS : FullTexts p.starts
  fullE : FullTexts p.ends
  idsS : ∀ k, k ≠ [] → idsIn p.starts k = (rel.zipIdx.filter (fun q => decide (removeHash q.1.startid = k))).map (fun q => uid q.2)
  idsE : ∀ k, k ≠ [] → idsIn p.ends k = (rel.zipIdx.filter (fun q => decide (removeHash q.1.endid = k))).map (fun q => uid q.2)

theorem ppSlurs_done (uid : Nat → Str) (hc : ∀ n, ',' ∉ uid n) (hn : ∀ n, uid n ≠ []) (es : List MSlurEl) :
    PreDone uid (es.filter (·.anchored)) (ppSlurs uid es) := by
  induction es using List.reverseRecOn with
  | nil =>
    refine ⟨rfl, ?_, ?_, ?_, ?_⟩
    · intro k s h; cases h
    · intro k s h; cases h
    · intro k hk; simp [ppSlurs, idsIn, attrText]
    · intro k hk; simp [ppSlurs, idsIn, attrText]
  | append_singleton es e ih =>
    have h1 : ppSlurs uid (es ++ [e]) = ppSlur uid (ppSlurs uid es) e := by
      unfold ppSlurs; rw [List.foldl_append]; rfl
    rw [h1, List.filter_append]
    by_cases ha : e.anchored = true
    · have hr := (anchored_iff e).1 ha
      rw [show [e].filter (·.anchored) = [e] by simp [ha], ppSlur, if_pos hr]
      have hlen : (ppSlurs uid es).bundle.length = (es.filter (·.anchored)).length := by
        rw [ih.bundle]; simp
      refine ⟨?_, ?_, ?_, ?_, ?_⟩
      · dsimp only
        rw [hlen, ih.bundle, List.zipIdx_append, List.map_append]
        simp
      · dsimp only
        split
        · exact fullTexts_add _ _ (hn _) _ ih.fullS
        · exact ih.fullS
      · dsimp only
        split
        · exact fullTexts_add _ _ (hn _) _ ih.fullE
        · exact ih.fullE
      · intro k hk
        dsimp only
        rw [List.zipIdx_append, List.filter_append, List.map_append, ← ih.idsS k hk, hlen]
        split
        · next h =>
          rw [idsIn_add _ _ h (hn _) (hc _) _ ih.fullS]
          split
          · next h2 => simp [h2]
          · next h2 => simp [h2]
        · next h =>
          have h2 : removeHash e.startid ≠ k := by
            intro h3; exact h (by rw [h3]; exact hk)
          simp [h2]
      · intro k hk
        dsimp only
        rw [List.zipIdx_append, List.filter_append, List.map_append, ← ih.idsE k hk, hlen]
        split
        · next h =>
          rw [idsIn_add _ _ h (hn _) (hc _) _ ih.fullE]
          split
          · next h2 => simp [h2]
          · next h2 => simp [h2]
        · next h =>
          have h2 : removeHash e.endid ≠ k := by
            intro h3; exact h (by rw [h3]; exact hk)
          simp [h2]
    · rw [show [e].filter (·.anchored) = [] by simp [ha], List.append_nil, ppSlur, if_neg (fun h => ha ((anchored_iff e).2 h))]
      exact ih

/-! ## The two kinds of slurs do not meet -/

theorem addTo_left (clear : Bool) (i : Nat) (id : Str) (A B : List MSlurSp) (h : some id ∈ A.map (·.idLocal)) :
    addToSpanner clear i id (A ++ B) = addToSpanner clear i id A ++ B := by
  induction A with
  | nil => cases h
  | cons s A ih =>
    rw [List.cons_append, addToSpanner, addToSpanner]
    split
    · rfl
    · next hs =>
      rw [ih (by
        rcases List.mem_cons.1 h with h | h
        · exact absurd h.symm hs
        · exact h)]
      rfl

theorem addTo_right (clear : Bool) (i : Nat) (id : Str) (A B : List MSlurSp) (h : some id ∉ A.map (·.idLocal)) :
    addToSpanner clear i id (A ++ B) = A ++ addToSpanner clear i id B := by
  induction A with
  | nil => rfl
  | cons s A ih =>
    rw [List.map_cons, List.mem_cons, not_or] at h
    rw [List.cons_append, addToSpanner, if_neg (fun e => h.1 e.symm), ih h.2]
    rfl

theorem addTo_ids (i : Nat) (id : Str) (A : List MSlurSp) : (addToSpanner false i id A).map (·.idLocal) = A.map (·.idLocal) := by
  induction A with
  | nil => rfl
  | cons s A ih =>
    rw [addToSpanner]
    split
    · rfl
    · rw [List.map_cons, ih]; rfl

theorem foldAdd_ids (i : Nat) (ids : List Str) (A : List MSlurSp) :
    (ids.foldl (fun b id => addToSpanner false i id b) A).map (·.idLocal) = A.map (·.idLocal) := by
  induction ids generalizing A with
  | nil => rfl
  | cons id ids ih => rw [List.foldl_cons, ih, addTo_ids]

theorem foldAdd_left (i : Nat) (ids : List Str) (A B : List MSlurSp) (h : ∀ id ∈ ids, some id ∈ A.map (·.idLocal)) :
    ids.foldl (fun b id => addToSpanner false i id b) (A ++ B) = ids.foldl (fun b id => addToSpanner false i id b) A ++ B := by
  induction ids generalizing A with
  | nil => rfl
  | cons id ids ih =>
    rw [List.foldl_cons, List.foldl_cons, addTo_left _ _ _ _ _ (h id (by simp))]
    exact ih _ (fun x hx => by rw [addTo_ids]; exact h x (by simp [hx]))

theorem words_right (i : Nat) (ws : List Str) (A B : List MSlurSp) (h : ∀ w ∈ ws, some (w.drop 1) ∉ A.map (·.idLocal)) :
    ws.foldl (addSlurWord i) (A ++ B) = A ++ ws.foldl (addSlurWord i) B := by
  induction ws generalizing B with
  | nil => rfl
  | cons w ws ih =>
    have : addSlurWord i (A ++ B) w = A ++ addSlurWord i B w := by
      unfold addSlurWord
      split
      · rw [List.append_assoc]
      · next num => exact addTo_right true i num A B (h ('t' :: num) (by simp))
      · rfl
    rw [List.foldl_cons, List.foldl_cons, this]
    exact ih _ (fun x hx => h x (by simp [hx]))

/-- Reading only what belongs to slur elements. -/
def readElems (p : MSlurPre) : Nat → List MSlurObj → List MSlurSp → List MSlurSp
  | _, [], A => A
  | i, o :: os, A => readElems p (i + 1) os (addElemSlurs p i o A)

/-- Reading only the attributes. -/
def readAttrs : Nat → List MSlurObj → List MSlurSp → List MSlurSp
  | _, [], B => B
  | i, o :: os, B => readAttrs (i + 1) os (addAttrSlurs i o B)

theorem addElem_ids (p : MSlurPre) (i : Nat) (o : MSlurObj) (A : List MSlurSp) : (addElemSlurs p i o A).map (·.idLocal) = A.map (·.idLocal) := by
  unfold addElemSlurs
  rw [foldAdd_ids, foldAdd_ids]

theorem readObjs_split (p : MSlurPre) (objs : List MSlurObj) (i : Nat) (A B : List MSlurSp)
    (hk : ∀ x, ∀ id ∈ idsIn p.starts x ++ idsIn p.ends x, some id ∈ A.map (·.idLocal))
    (hw : ∀ o ∈ objs, ∀ s, o.slur = some s → ∀ w ∈ splitOn ' ' s, some (w.drop 1) ∉ A.map (·.idLocal)) :
    readObjs p i objs (A ++ B) = readElems p i objs A ++ readAttrs i objs B := by
  induction objs generalizing i A B with
  | nil => rfl
  | cons o os ih =>
    have h1 : addElemSlurs p i o (A ++ B) = addElemSlurs p i o A ++ B := by
      unfold addElemSlurs
      rw [foldAdd_left i _ A B (fun id hid => hk o.xid id (List.mem_append_left _ hid)),
        foldAdd_left i _ _ B (fun id hid => by rw [foldAdd_ids]; exact hk o.xid id (List.mem_append_right _ hid))]
    have h2 : addAttrSlurs i o (addElemSlurs p i o A ++ B) = addElemSlurs p i o A ++ addAttrSlurs i o B := by
      unfold addAttrSlurs
      cases hs : o.slur with
      | none => rfl
      | some s => exact words_right i _ _ B (fun w hwm => by rw [addElem_ids]; exact hw o (by simp) s hs w hwm)
    rw [readObjs, h1, h2, ih]
    · rfl
    · intro x id hid; rw [addElem_ids]; exact hk x id hid
    · intro o' ho' s hs w hwm; rw [addElem_ids]; exact hw o' (by simp [ho']) s hs w hwm

/-! ## Slur elements -/

def addElTo (i : Nat) (s : MSlurSp) : MSlurSp := { s with els := addOnce i s.els }

theorem addElTo_twice (i : Nat) (s : MSlurSp) : addElTo i (addElTo i s) = addElTo i s := by
  unfold addElTo addOnce
  by_cases h : i ∈ s.els <;> simp [h]

theorem addTo_map (i : Nat) (id : Str) (A : List MSlurSp) (h : (A.map (·.idLocal)).Nodup) :
    addToSpanner false i id A = A.map (fun s => if s.idLocal = some id then addElTo i s else s) := by
  induction A with
  | nil => rfl
  | cons s A ih =>
    rw [List.map_cons, List.nodup_cons] at h
    rw [addToSpanner, List.map_cons]
    by_cases hs : s.idLocal = some id
    · rw [if_pos hs, if_pos hs]
      congr 1
      symm
      refine (List.map_congr_left (fun x hx => ?_)).trans (List.map_id A)
      rw [if_neg]
      · rfl
      · intro hx2
        exact h.1 (List.mem_map.2 ⟨x, hx, by rw [hx2, hs]⟩)
    · rw [if_neg hs, if_neg hs, ih h.2]

def hasId (ids : List Str) (x : Option Str) : Bool := ids.any (fun id => decide (x = some id))

theorem foldAdd_map (i : Nat) (ids : List Str) (A : List MSlurSp) (h : (A.map (·.idLocal)).Nodup) :
    ids.foldl (fun b id => addToSpanner false i id b) A =
      A.map (fun s => if hasId ids s.idLocal = true then addElTo i s else s) := by
  induction ids generalizing A with
  | nil => simp [hasId]
  | cons id ids ih =>
    rw [List.foldl_cons, ih _ (by rw [addTo_ids]; exact h), addTo_map i id A h, List.map_map]
    refine List.map_congr_left (fun s _ => ?_)
    have e1 : (addElTo i s).idLocal = s.idLocal := rfl
    dsimp only [Function.comp]
    by_cases h1 : s.idLocal = some id
    · simp only [if_pos h1, e1, addElTo_twice, ite_self]
      rw [if_pos (by simp [hasId, h1])]
    · simp only [if_neg h1]
      rw [show hasId (id :: ids) s.idLocal = hasId ids s.idLocal by unfold hasId; rw [List.any_cons, decide_eq_false h1, Bool.false_or]]

/-- The object is joined by the slur with this id. -/
def hitBy (p : MSlurPre) (id : Option Str) (o : MSlurObj) : Bool :=
  (idsIn p.starts o.xid ++ idsIn p.ends o.xid).any (fun x => decide (id = some x))

theorem addElem_map (p : MSlurPre) (i : Nat) (o : MSlurObj) (A : List MSlurSp) (h : (A.map (·.idLocal)).Nodup) :
    addElemSlurs p i o A = A.map (fun s => if hitBy p s.idLocal o then addElTo i s else s) := by
  unfold addElemSlurs
  rw [← List.foldl_append, foldAdd_map i _ A h]
  rfl

theorem readElems_map (p : MSlurPre) (objs : List MSlurObj) (i : Nat) (A : List MSlurSp) (h : (A.map (·.idLocal)).Nodup)
    (hl : ∀ s ∈ A, ∀ x ∈ s.els, x < i) :
    readElems p i objs A = A.map (fun s => { s with els := s.els ++ ((objs.zipIdx i).filter (fun q => hitBy p s.idLocal q.1)).map (·.2) }) := by
  induction objs generalizing i A with
  | nil => simp [readElems]
  | cons o os ih =>
    rw [readElems, ih (i + 1)]
    · rw [addElem_map p i o A h, List.map_map]
      refine List.map_congr_left (fun s hs => ?_)
      dsimp only [Function.comp]
      have hni : i ∉ s.els := fun hi => Nat.lt_irrefl _ (hl s hs i hi)
      rw [List.zipIdx_cons, List.filter_cons]
      by_cases hh : hitBy p s.idLocal o = true
      · rw [if_pos hh]
        simp [addElTo, addOnce, hni, hh]
      · rw [if_neg hh]
        simp [hh]
    · rw [addElem_ids]; exact h
    · rw [addElem_map p i o A h]
      intro s hs x hx
      obtain ⟨s0, hs0, rfl⟩ := List.mem_map.1 hs
      by_cases hh : hitBy p s0.idLocal o = true
      · rw [if_pos hh] at hx
        simp only [addElTo, addOnce] at hx
        split at hx
        · exact Nat.lt_succ_of_lt (hl s0 hs0 x hx)
        · rcases List.mem_append.1 hx with hx | hx
          · exact Nat.lt_succ_of_lt (hl s0 hs0 x hx)
          · rw [List.mem_singleton.1 hx]; exact Nat.lt_succ_self i
      · rw [if_neg hh] at hx
        exact Nat.lt_succ_of_lt (hl s0 hs0 x hx)

theorem mem_ids (uid : Nat → Str) (hinj : ∀ m n, uid m = uid n → m = n) (rel : List MSlurEl) (f : MSlurEl → Bool) (e : MSlurEl) (j : Nat)
    (hj : (e, j) ∈ rel.zipIdx) : uid j ∈ (rel.zipIdx.filter (fun q => f q.1)).map (fun q => uid q.2) ↔ f e = true := by
  constructor
  · intro h
    obtain ⟨q, hq, hu⟩ := List.mem_map.1 h
    obtain ⟨hq1, hq2⟩ := List.mem_filter.1 hq
    have hjj : q.2 = j := hinj _ _ hu
    have h1 := List.mem_zipIdx_iff_getElem?.1 hq1
    have h2 := List.mem_zipIdx_iff_getElem?.1 hj
    rw [hjj] at h1
    simp only at h2
    rw [h1] at h2
    cases h2
    exact hq2
  · intro h
    exact List.mem_map.2 ⟨(e, j), List.mem_filter.2 ⟨hj, h⟩, rfl⟩

theorem hit_iff (uid : Nat → Str) (hinj : ∀ m n, uid m = uid n → m = n) (rel : List MSlurEl) (p : MSlurPre) (hp : PreDone uid rel p)
    (e : MSlurEl) (j : Nat) (hj : (e, j) ∈ rel.zipIdx) (o : MSlurObj) : hitBy p (some (uid j)) o = e.joins o := by
  rw [Bool.eq_iff_iff]
  unfold hitBy MSlurEl.joins
  rw [List.any_eq_true, decide_eq_true_iff]
  simp only [decide_eq_true_eq]
  by_cases hx : o.xid = []
  · constructor
    · rintro ⟨x, h, _⟩
      simp [idsIn, hx] at h
    · rintro (h | h) <;> exact absurd hx h.1
  · rw [refersTo_iff _ _ hx, refersTo_iff _ _ hx]
    have hs := mem_ids uid hinj rel (fun e => decide (removeHash e.startid = o.xid)) e j hj
    have he := mem_ids uid hinj rel (fun e => decide (removeHash e.endid = o.xid)) e j hj
    rw [← hp.idsS _ hx, decide_eq_true_iff] at hs
    rw [← hp.idsE _ hx, decide_eq_true_iff] at he
    rw [← hs, ← he, ← List.mem_append]
    constructor
    · rintro ⟨x, h, h2⟩; cases h2; exact h
    · intro h; exact ⟨_, h, rfl⟩

theorem readSlurs_parts (uid : Nat → Str) (es : List MSlurEl) (objs : List MSlurObj) (h : FreshSlurIds uid objs) :
    readSlurs uid es objs =
      (es.filter (·.anchored)).zipIdx.map (fun q => ⟨some (uid q.2), curvePlace q.1.curvedir, placesOf q.1.joins objs⟩) ++ readAttrs 0 objs [] := by
  have hp := ppSlurs_done uid h.comma h.nonempty es
  have hid : (ppSlurs uid es).bundle.map (·.idLocal) = (es.filter (·.anchored)).zipIdx.map (fun q => some (uid q.2)) := by
    rw [hp.bundle, List.map_map]; rfl
  have hnd : ((ppSlurs uid es).bundle.map (·.idLocal)).Nodup := by
    rw [hid]
    have : (es.filter (·.anchored)).zipIdx.map (fun q => some (uid q.2)) =
        ((es.filter (·.anchored)).zipIdx.map (·.2)).map (fun n => some (uid n)) := by rw [List.map_map]; rfl
    rw [this]
    refine List.Nodup.map (fun a b hab => h.inj a b (Option.some.inj hab)) ?_
    rw [List.zipIdx_map_snd]
    exact List.nodup_range'
  unfold readSlurs
  have hs := readObjs_split (ppSlurs uid es) objs 0 (ppSlurs uid es).bundle [] ?_ ?_
  · rw [List.append_nil] at hs
    rw [hs]
    congr 1
    rw [readElems_map _ _ _ _ hnd]
    · rw [hp.bundle, List.map_map]
      refine List.map_congr_left (fun q hq => ?_)
      dsimp only [Function.comp]
      rw [List.nil_append]
      unfold placesOf
      congr 2
      refine List.filter_congr (fun r _ => ?_)
      exact hit_iff uid h.inj _ _ hp q.1 q.2 hq r.1
    · intro s hs0 x hx
      rw [hp.bundle] at hs0
      obtain ⟨q, _, rfl⟩ := List.mem_map.1 hs0
      cases hx
  · intro x id hid2
    rw [hid]
    by_cases hx : x = []
    · simp [idsIn, hx] at hid2
    · rw [hp.idsS x hx, hp.idsE x hx] at hid2
      rcases List.mem_append.1 hid2 with h2 | h2 <;>
      · obtain ⟨q, hq, hu⟩ := List.mem_map.1 h2
        exact List.mem_map.2 ⟨q, (List.mem_filter.1 hq).1, by rw [hu]⟩
  · intro o ho s hs w hw hm
    rw [hid] at hm
    obtain ⟨q, _, hu⟩ := List.mem_map.1 hm
    exact h.apart o ho s hs w hw q.2 (Option.some.inj hu).symm

/-! ## Slur attributes -/

def doMark (b : List MSlurSp) : MSlurMark → List MSlurSp
  | .start n o => b ++ [⟨some n, none, [o]⟩]
  | .stop n o => addToSpanner true o n b

theorem word_mark (i : Nat) (ws : List Str) (b : List MSlurSp) : ws.foldl (addSlurWord i) b = (ws.filterMap (markOf i)).foldl doMark b := by
  induction ws generalizing b with
  | nil => rfl
  | cons w ws ih =>
    have h1 : addSlurWord i b w = (match markOf i w with | none => b | some m => doMark b m) := by
      unfold addSlurWord markOf
      split
      · rfl
      · rfl
      · split <;> simp_all
    rw [List.foldl_cons, ih, List.filterMap_cons, h1]
    cases markOf i w <;> rfl

theorem readAttrs_marks (objs : List MSlurObj) (i : Nat) (b : List MSlurSp) : readAttrs i objs b = (slurMarksFrom i objs).foldl doMark b := by
  induction objs generalizing i b with
  | nil => rfl
  | cons o os ih =>
    rw [readAttrs, ih, slurMarksFrom, List.foldl_append]
    congr 1
    unfold addAttrSlurs
    cases o.slur with
    | none => rfl
    | some s => exact word_mark i _ b

/-- Starts matched with ends of the same number in order. -/
def matchUp : (Str → List Nat) → List (Str × Nat) → List MSlurSp
  | _, [] => []
  | cl, (n, o) :: rest =>
    (match cl n with
      | [] => ⟨some n, none, [o]⟩
      | x :: _ => ⟨none, none, addOnce x [o]⟩) :: matchUp (fun k => if k = n then (cl n).tail else cl k) rest

theorem matchUp_start (n : Str) (o : Nat) (ss : List (Str × Nat)) : ∀ cl : Str → List Nat, (cl n).length ≤ ss.countP (fun q => decide (q.1 = n)) →
    matchUp cl (ss ++ [(n, o)]) = matchUp cl ss ++ [⟨some n, none, [o]⟩] := by
  induction ss with
  | nil =>
    intro cl h
    have : cl n = [] := List.length_eq_zero_iff.1 (by simpa using h)
    simp [matchUp, this]
  | cons q ss ih =>
    intro cl h
    obtain ⟨m, x⟩ := q
    rw [List.cons_append, matchUp, matchUp, ih]
    · rfl
    · rw [List.countP_cons] at h
      by_cases hm : n = m
      · subst hm
        simp at h ⊢
        omega
      · have : ¬ m = n := fun e => hm e.symm
        simp [hm, this] at h ⊢
        exact h

theorem matchUp_stop (n : Str) (x : Nat) (ss : List (Str × Nat)) : ∀ cl : Str → List Nat, (cl n).length < ss.countP (fun q => decide (q.1 = n)) →
    matchUp (fun k => if k = n then cl n ++ [x] else cl k) ss = addToSpanner true x n (matchUp cl ss) := by
  induction ss with
  | nil => intro cl h; simp at h
  | cons q ss ih =>
    intro cl h
    obtain ⟨m, o⟩ := q
    rw [List.countP_cons] at h
    by_cases hm : m = n
    · subst hm
      cases hc : cl m with
      | nil =>
        rw [matchUp, matchUp, hc]
        simp only [if_true, List.nil_append, List.tail_cons, List.tail_nil, addToSpanner]
        congr 2
        funext k
        by_cases hk : k = m <;> simp [hk]
      | cons y ys =>
        rw [matchUp, matchUp, hc]
        simp only [if_true, List.cons_append, List.tail_cons]
        rw [addToSpanner, if_neg (by simp)]
        congr 1
        have := ih (fun k => if k = m then ys else cl k) (by
          rw [hc] at h
          simp at h ⊢
          omega)
        rw [← this]
        congr 1
        funext k
        by_cases hk : k = m <;> simp [hk]
    · rw [matchUp, matchUp]
      simp only [hm, if_false]
      have key : matchUp (fun k => if k = m then (cl m).tail else if k = n then cl n ++ [x] else cl k) ss =
          addToSpanner true x n (matchUp (fun k => if k = m then (cl m).tail else cl k) ss) := by
        have hnm : ¬ n = m := fun e => hm e.symm
        have := ih (fun k => if k = m then (cl m).tail else cl k) (by simpa [hnm, hm] using h)
        rw [← this]
        congr 1
        funext k
        by_cases hk : k = m
        · subst hk; simp [hm]
        · simp [hk, hnm]
      cases hc : cl m with
      | nil =>
        rw [hc] at key
        rw [addToSpanner, if_neg (by simpa using hm)]
        congr 1
      | cons y ys =>
        rw [hc] at key
        rw [addToSpanner, if_neg (by simp)]
        congr 1

theorem slurStarts_append (a b : List MSlurMark) : slurStarts (a ++ b) = slurStarts a ++ slurStarts b := by
  induction a with
  | nil => rfl
  | cons m a ih => cases m <;> simp [slurStarts, ih]

theorem slurStops_append (n : Str) (a b : List MSlurMark) : slurStops n (a ++ b) = slurStops n a ++ slurStops n b := by
  induction a with
  | nil => rfl
  | cons m a ih =>
    cases m with
    | start k o => simp [slurStops, ih]
    | stop k o =>
      simp only [List.cons_append, slurStops, ih]
      split <;> rfl

theorem stops_le (ms : List MSlurMark) (h : NoStrayStop ms) (n : Str) : (slurStops n ms).length ≤ (slurStarts ms).countP (fun q => decide (q.1 = n)) := by
  induction ms using List.reverseRecOn with
  | nil => simp [slurStops, slurStarts]
  | append_singleton ms m ih =>
    have h' : NoStrayStop ms := fun pre num o hp => h pre num o (hp.trans (List.prefix_append _ _))
    rw [slurStarts_append, slurStops_append, List.length_append, List.countP_append]
    have := ih h'
    cases m with
    | start k o => simp only [slurStops, List.length_nil]; omega
    | stop k o =>
      have hl := h ms k o (List.prefix_refl _)
      simp only [slurStops, slurStarts, List.countP_nil]
      split
      · next hk => subst hk; simp; omega
      · simpa using this

theorem marks_match (ms : List MSlurMark) (h : NoStrayStop ms) : ms.foldl doMark [] = matchUp (fun n => slurStops n ms) (slurStarts ms) := by
  induction ms using List.reverseRecOn with
  | nil => rfl
  | append_singleton ms m ih =>
    have h' : NoStrayStop ms := fun pre num o hp => h pre num o (hp.trans (List.prefix_append _ _))
    rw [List.foldl_append, ih h', slurStarts_append]
    simp only [slurStops_append]
    cases m with
    | start n o =>
      simp only [slurStops, slurStarts, List.append_nil, List.foldl_cons, List.foldl_nil, doMark]
      rw [matchUp_start n o _ _ (stops_le ms h' n)]
    | stop n o =>
      simp only [slurStarts, List.append_nil, List.foldl_cons, List.foldl_nil, doMark]
      rw [← matchUp_stop n o _ _ (h ms n o (List.prefix_refl _))]
      congr 1
      funext k
      by_cases hk : k = n
      · subst hk; simp [slurStops]
      · have : ¬ n = k := fun e => hk e.symm
        simp [slurStops, hk, this]

theorem matchUp_get (ss : List (Str × Nat)) : ∀ (cl : Str → List Nat) (j : Nat) (n : Str) (o : Nat), ss[j]? = some (n, o) →
    ((matchUp cl ss)[j]?).map (fun s => (s.place, s.els)) = some (none,
      match (cl n)[(ss.take j).countP (fun q => decide (q.1 = n))]? with
      | none => [o]
      | some x => if x = o then [o] else [o, x]) := by
  induction ss with
  | nil => intro cl j n o h; cases h
  | cons q ss ih =>
    intro cl j n o h
    obtain ⟨m, y⟩ := q
    cases j with
    | zero =>
      cases h
      rw [matchUp]
      cases hc : cl n with
      | nil => simp
      | cons x xs =>
        simp only [List.getElem?_cons_zero, List.take_zero, List.countP_nil, Option.map_some, addOnce, List.mem_singleton]
        split <;> rfl
    | succ j =>
      rw [matchUp, List.getElem?_cons_succ, ih _ j n o h, List.take_succ_cons, List.countP_cons]
      by_cases hm : n = m
      · subst hm
        simp
      · have : ¬ m = n := fun e => hm e.symm
        simp [hm, this]

theorem matchUp_length (ss : List (Str × Nat)) : ∀ cl : Str → List Nat, (matchUp cl ss).length = ss.length := by
  induction ss with
  | nil => intro cl; rfl
  | cons q ss ih => intro cl; obtain ⟨m, y⟩ := q; rw [matchUp, List.length_cons, ih, List.length_cons]

/-! ## C126 -/

/-- C126: every slur element that says where it starts or ends becomes one slur, in the order of the elements, with its
placement; it joins exactly the notes and chords with the two ids, however many slurs start or end there. -/
theorem slur_elements (uid : Nat → Str) (es : List MSlurEl) (objs : List MSlurObj) (h : FreshSlurIds uid objs) :
    ((readSlurs uid es objs).take (es.filter (·.anchored)).length).map (fun s => (s.place, s.els)) =
      (es.filter (·.anchored)).map (fun e => (e.side, placesOf e.joins objs)) := by
  rw [readSlurs_parts uid es objs h, List.take_left' (by simp), List.map_map]
  have : ((fun s : MSlurSp => (s.place, s.els)) ∘ fun q : MSlurEl × Nat => (⟨some (uid q.2), curvePlace q.1.curvedir, placesOf q.1.joins objs⟩ : MSlurSp)) =
      (fun e : MSlurEl => (e.side, placesOf e.joins objs)) ∘ Prod.fst := by
    funext q
    simp [curvePlace, MSlurEl.side]
  rw [this, ← List.map_map, List.zipIdx_map_fst]

/-- C126: every start in an attribute makes one slur, after those of the elements and in the order of the starts. The
k-th slur started with a number ends at the k-th end with this number; one without an end has only its start. -/
theorem slur_attributes (uid : Nat → Str) (es : List MSlurEl) (objs : List MSlurObj) (h : FreshSlurIds uid objs)
    (hs : NoStrayStop (slurMarksFrom 0 objs)) (j : Nat) (n : Str) (o : Nat) (hj : (slurStarts (slurMarksFrom 0 objs))[j]? = some (n, o)) :
    ((readSlurs uid es objs)[(es.filter (·.anchored)).length + j]?).map (fun s => (s.place, s.els)) = some (none,
      match (slurStops n (slurMarksFrom 0 objs))[((slurStarts (slurMarksFrom 0 objs)).take j).countP (fun q => decide (q.1 = n))]? with
      | none => [o]
      | some x => if x = o then [o] else [o, x]) := by
  rw [readSlurs_parts uid es objs h, List.getElem?_append_right (by simp), readAttrs_marks, marks_match _ hs]
  have e : (es.filter (·.anchored)).length + j - ((es.filter (·.anchored)).zipIdx.map (fun q => (⟨some (uid q.2), curvePlace q.1.curvedir, placesOf q.1.joins objs⟩ : MSlurSp))).length = j := by
    simp
  rw [e]
  exact matchUp_get _ _ j n o hj

/-- C126: there are no other slurs. -/
theorem slur_count (uid : Nat → Str) (es : List MSlurEl) (objs : List MSlurObj) (h : FreshSlurIds uid objs)
    (hs : NoStrayStop (slurMarksFrom 0 objs)) :
    (readSlurs uid es objs).length = (es.filter (·.anchored)).length + (slurStarts (slurMarksFrom 0 objs)).length := by
  rw [readSlurs_parts uid es objs h, readAttrs_marks, marks_match _ hs, List.length_append, matchUp_length]
  simp

/-- The start and the end are not told apart: a slur whose end is read before its start (in a staff above, or in an
earlier layer) begins with its end. -/
theorem slur_turned_round : (readSlurs (fun n => "u".toList ++ List.replicate n 'v')
      [⟨"#b".toList, "#a".toList, []⟩] [⟨"a".toList, none⟩, ⟨"b".toList, none⟩]).map (·.els) = [[0, 1]] ∧
    (readSlurs (fun n => "u".toList ++ List.replicate n 'v')
      [⟨"#a".toList, "#b".toList, []⟩] [⟨"a".toList, none⟩, ⟨"b".toList, none⟩]).map (·.els) = [[0, 1]] := by
  constructor <;> decide +kernel

/-- Numbers in attributes are not kept apart by staff: with slurs of number 1 in two staves, the shorter one (notes 1 and
2 of the lower staff) and the longer one (notes 0 and 3 of the upper staff) get each other's ends. -/
theorem staves_share_numbers : (readSlurs (fun n => "u".toList ++ List.replicate n 'v') []
      [⟨[], some "i1".toList⟩, ⟨[], some "i1".toList⟩, ⟨[], some "t1".toList⟩, ⟨[], some "t1".toList⟩]).map (·.els) = [[0, 2], [1, 3]] := by
  decide +kernel

/-! ## The hypotheses are met -/

/-- Ids u, uv, uvv, … -/
def slurUid (n : Nat) : Str := 'u' :: List.replicate n 'v'

/-- Three slur elements, two of them from the first note; attributes with a chain of slurs and a second number. -/
def slurDocEls : List MSlurEl := [⟨"#a".toList, "#b".toList, "above".toList⟩, ⟨[], [], []⟩, ⟨"#a".toList, "#c".toList, []⟩, ⟨"b".toList, "#c".toList, "below".toList⟩]
def slurDocObjs : List MSlurObj := [⟨"a".toList, some "i1".toList⟩, ⟨"b".toList, some "t1 i1 i2".toList⟩, ⟨[], none⟩, ⟨"c".toList, some "t2 t1".toList⟩]

theorem slurDoc_fresh : FreshSlurIds slurUid slurDocObjs := by
  refine ⟨?_, ?_, ?_, ?_⟩
  · intro m n h
    have := congrArg List.length h
    simpa [slurUid] using this
  · intro n hc
    rcases List.mem_cons.1 hc with h | h
    · exact absurd h (by decide)
    · exact absurd (List.eq_of_mem_replicate h) (by decide)
  · intro n h; cases h
  · intro o ho s hs w hw n h
    have hu : (w.drop 1).head? = some 'u' := by rw [h]; rfl
    have : ∀ o ∈ slurDocObjs, ∀ s ∈ o.slur.toList, ∀ w ∈ splitOn ' ' s, (w.drop 1).head? ≠ some 'u' := by decide +kernel
    exact this o ho s (by rw [hs]; simp) w hw hu

example : readSlurs slurUid slurDocEls slurDocObjs =
    [⟨some "u".toList, some "above".toList, [0, 1]⟩, ⟨some "uv".toList, none, [0, 3]⟩, ⟨some "uvv".toList, some "below".toList, [1, 3]⟩,
     ⟨none, none, [0, 1]⟩, ⟨none, none, [1, 3]⟩, ⟨none, none, [1, 3]⟩] := by decide +kernel

example : NoStrayStop (slurMarksFrom 0 slurDocObjs) := by
  have hm : slurMarksFrom 0 slurDocObjs = [.start ['1'] 0, .stop ['1'] 1, .start ['1'] 1, .start ['2'] 1, .stop ['2'] 3, .stop ['1'] 3] := by decide +kernel
  rw [hm]
  intro pre num o hp
  obtain ⟨t, ht⟩ := hp
  rcases pre with _ | ⟨m0, _ | ⟨m1, _ | ⟨m2, _ | ⟨m3, _ | ⟨m4, _ | ⟨m5, pre⟩⟩⟩⟩⟩⟩
  all_goals simp at ht
  all_goals simp_all [slurStarts, slurStops]

end C21
