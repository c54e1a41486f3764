import Mathlib.Data.List.TakeWhile
import Verif.Model.OutputName
import Verif.Spec.OutputName
/-
C135: the file the command line program writes has an extension of its format.
-/
namespace C21

theorem takeWhile_stop (q : Char → Bool) (a b : Str) (ha : ∀ c ∈ a, q c = true) (hb : b = [] ∨ ∃ c r, b = c :: r ∧ q c = false) :
    (a ++ b).takeWhile q = a := by
  rw [List.takeWhile_append_of_pos ha]
  rcases hb with rfl | ⟨c, r, rfl, hc⟩
  · simp
  · rw [List.takeWhile_cons, hc]; simp

theorem splitExt_of (p root e : Str) (h : HasExt p root e) : splitExt p = (root, '.' :: e) := by
  obtain ⟨⟨d, s, rfl, hd, hs, c, hc, hcd⟩, he1, he2, rfl⟩ := h
  have hrev : (d ++ s ++ '.' :: e).reverse = e.reverse ++ '.' :: (s.reverse ++ d.reverse) := by simp
  have htw : (e.reverse ++ '.' :: (s.reverse ++ d.reverse)).takeWhile (fun c => c != '.' && c != '/') = e.reverse := by
    apply takeWhile_stop
    · intro x hx
      have hx' := List.mem_reverse.1 hx
      have h1 : x ≠ '.' := fun h => he1 (h ▸ hx')
      have h2 : x ≠ '/' := fun h => he2 (h ▸ hx')
      simp [h1, h2]
    · right; exact ⟨'.', _, rfl, by decide⟩
  have hname : (s.reverse ++ d.reverse).takeWhile (fun c => c != '/') = s.reverse := by
    apply takeWhile_stop
    · intro x hx
      have h2 : x ≠ '/' := fun h => hs (h ▸ List.mem_reverse.1 hx)
      simp [h2]
    · rcases hd with rfl | hd
      · left; rfl
      · right
        obtain ⟨r, hr⟩ := List.getLast?_eq_some_iff.1 hd
        exact ⟨'/', r.reverse, by rw [hr]; simp, by decide⟩
  have hany : s.reverse.any (fun c => c != '.') = true := by
    rw [List.any_eq_true]
    exact ⟨c, List.mem_reverse.2 hc, by simp [hcd]⟩
  unfold splitExt
  simp only [hrev, htw, List.drop_left, hname, hany, if_true]
  simp

theorem splitExt_cases (p : Str) : (∃ root e, splitExt p = (root, '.' :: e) ∧ HasExt p root e) ∨ (splitExt p = (p, []) ∧ ∀ root e, ¬ HasExt p root e) := by
  have hnone : splitExt p = (p, []) → ∀ root e, ¬ HasExt p root e := by
    intro h root e he
    rw [splitExt_of p root e he] at h
    cases h
  by_cases hs : splitExt p = (p, [])
  · exact Or.inr ⟨hs, hnone hs⟩
  left
  have hsplit := List.takeWhile_append_dropWhile (p := fun c => c != '.' && c != '/') (l := p.reverse)
  have hdrop : p.reverse.drop (p.reverse.takeWhile (fun c => c != '.' && c != '/')).length = p.reverse.dropWhile (fun c => c != '.' && c != '/') := by
    have key : ∀ a b l : Str, a ++ b = l → l.drop a.length = b := by
      rintro a b l rfl
      exact List.drop_left
    exact key _ _ _ hsplit
  unfold splitExt at hs ⊢
  simp only at hs ⊢
  rw [hdrop] at hs ⊢
  generalize hE : p.reverse.takeWhile (fun c => c != '.' && c != '/') = E at *
  generalize p.reverse.dropWhile (fun c => c != '.' && c != '/') = D at *
  split at hs
  · rename_i base
    split at hs
    · rename_i hany
      refine ⟨base.reverse, E.reverse, by simp only [hany, if_true], ⟨?_, ?_, ?_, ?_⟩⟩
      · have hb := List.takeWhile_append_dropWhile (p := fun c => c != '/') (l := base)
        refine ⟨(base.dropWhile (fun c => c != '/')).reverse, (base.takeWhile (fun c => c != '/')).reverse, ?_, ?_, ?_, ?_⟩
        · rw [← List.reverse_append, hb]
        · cases hd : base.dropWhile (fun c => c != '/') with
          | nil => left; rfl
          | cons x xs =>
            right
            have hx := List.head?_dropWhile_not (fun c => c != '/') base
            rw [hd] at hx
            simp only [List.head?_cons] at hx
            have : x = '/' := by simpa using hx
            rw [this]
            simp
        · intro h
          have := List.mem_takeWhile_imp (List.mem_reverse.1 h)
          simp at this
        · obtain ⟨c, hc, hcd⟩ := List.any_eq_true.1 hany
          exact ⟨c, List.mem_reverse.2 hc, by simpa using hcd⟩
      · intro h
        rw [List.mem_reverse, ← hE] at h
        have := List.mem_takeWhile_imp h
        simp at this
      · intro h
        rw [List.mem_reverse, ← hE] at h
        have := List.mem_takeWhile_imp h
        simp at this
      · have := congrArg List.reverse hsplit
        simpa using this.symm
    · exact absurd rfl hs
  · exact absurd rfl hs

theorem allOutExts_mem (subs : List SubConv) (form x : Str) : x ∈ allOutExts subs form ↔ ∃ y, x = '.' :: y ∧ RegisteredExt subs form y := by
  unfold allOutExts RegisteredExt
  rw [List.mem_flatMap]
  constructor
  · rintro ⟨s, hs, hx⟩
    split at hx
    · rename_i hf
      obtain ⟨y, hy, rfl⟩ := List.mem_map.1 hx
      exact ⟨y, rfl, s, hs, hf, hy⟩
    · cases hx
  · rintro ⟨y, rfl, s, hs, hf, hy⟩
    exact ⟨s, hs, by rw [if_pos hf]; exact List.mem_map.2 ⟨y, hy, rfl⟩⟩

theorem firstOutExt_spec (subs : List SubConv) (form : Str) (h : ∃ x, RegisteredExt subs form x) :
    ∃ x, firstOutExt subs form = '.' :: x ∧ RegisteredExt subs form x := by
  induction subs with
  | nil => obtain ⟨x, s, hs, -⟩ := h; cases hs
  | cons s rest ih =>
    have hrest : (∃ x, RegisteredExt rest form x) → ∃ x, firstOutExt rest form = '.' :: x ∧ RegisteredExt (s :: rest) form x := by
      intro hr
      obtain ⟨x, hx, u, hu, hu2⟩ := ih hr
      exact ⟨x, hx, u, List.mem_cons_of_mem _ hu, hu2⟩
    obtain ⟨x, u, hu, huf, hux⟩ := h
    unfold firstOutExt
    split
    · rename_i he
      apply hrest
      rcases List.mem_cons.1 hu with rfl | hu
      · rw [he] at hux; cases hux
      · exact ⟨x, u, hu, huf, hux⟩
    · rename_i y ys he
      split
      · rename_i hf
        exact ⟨y, rfl, s, by simp, hf, by rw [he]; simp⟩
      · rename_i hf
        apply hrest
        rcases List.mem_cons.1 hu with rfl | hu
        · exact absurd huf hf
        · exact ⟨x, u, hu, huf, hux⟩

/-- C135: a path with an extension of the format is kept. -/
theorem output_name_kept (subs : List SubConv) (form p root e : Str) (h : HasExt p root e) (hr : RegisteredExt subs form e) : outputName subs form p = p := by
  unfold outputName
  rw [splitExt_of p root e h, if_pos ((allOutExts_mem _ _ _).2 ⟨e, rfl, hr⟩)]

/-- C135: another extension is replaced by one of the format. -/
theorem output_name_replaced (subs : List SubConv) (form p root e : Str) (hf : ∃ x, RegisteredExt subs form x) (h : HasExt p root e)
    (hr : ¬ RegisteredExt subs form e) : ∃ x, RegisteredExt subs form x ∧ outputName subs form p = root ++ '.' :: x := by
  obtain ⟨x, hx, hx2⟩ := firstOutExt_spec subs form hf
  refine ⟨x, hx2, ?_⟩
  unfold outputName
  rw [splitExt_of p root e h, if_neg, hx]
  intro hm
  obtain ⟨y, hy, hy2⟩ := (allOutExts_mem _ _ _).1 hm
  cases hy
  exact hr hy2

/-- C135: a path without extension gets one of the format at its end. -/
theorem output_name_added (subs : List SubConv) (form p : Str) (hf : ∃ x, RegisteredExt subs form x) (h : ∀ root e, ¬ HasExt p root e) :
    ∃ x, RegisteredExt subs form x ∧ outputName subs form p = p ++ '.' :: x := by
  obtain ⟨x, hx, hx2⟩ := firstOutExt_spec subs form hf
  refine ⟨x, hx2, ?_⟩
  have hs : splitExt p = (p, []) := by
    rcases splitExt_cases p with ⟨root, e, -, he⟩ | ⟨hs, -⟩
    · exact absurd he (h root e)
    · exact hs
  unfold outputName
  rw [hs, if_neg, hx]
  intro hm
  obtain ⟨y, hy, -⟩ := (allOutExts_mem _ _ _).1 hm
  cases hy

/-- C135: for every path that ends with a name, the file written has an extension of the format. -/
theorem output_ext_valid_partial (subs : List SubConv) (form p : Str) (hf : ∃ x, RegisteredExt subs form x) (hp : PlainExts subs) (hn : NamedPath p) :
    ∃ root x, HasExt (outputName subs form p) root x ∧ RegisteredExt subs form x := by
  have plain : ∀ x, RegisteredExt subs form x → '.' ∉ x ∧ '/' ∉ x := fun x ⟨s, hs, _, hx⟩ => hp s hs x hx
  rcases splitExt_cases p with ⟨root, e, -, he⟩ | ⟨-, hno⟩
  · by_cases hr : RegisteredExt subs form e
    · exact ⟨root, e, by rw [output_name_kept subs form p root e he hr]; exact he, hr⟩
    · obtain ⟨x, hx, ho⟩ := output_name_replaced subs form p root e hf he hr
      exact ⟨root, x, ⟨he.1, (plain x hx).1, (plain x hx).2, ho⟩, hx⟩
  · obtain ⟨x, hx, ho⟩ := output_name_added subs form p hf hno
    exact ⟨p, x, ⟨hn, (plain x hx).1, (plain x hx).2, ho⟩, hx⟩

/-- C135: asking for the file that was written gives the same file. -/
theorem output_name_stable (subs : List SubConv) (form p : Str) (hf : ∃ x, RegisteredExt subs form x) (hp : PlainExts subs) (hn : NamedPath p) :
    outputName subs form (outputName subs form p) = outputName subs form p := by
  obtain ⟨root, x, h, hx⟩ := output_ext_valid_partial subs form p hf hp hn
  exact output_name_kept subs form _ root x h hx

/-! ## Where the claim is false -/

/-- Two subconverters. -/
def demoSubs : List SubConv := [⟨["humdrum".toList], ["krn".toList]⟩, ⟨["mei".toList], ["mei".toList]⟩, ⟨["musicxml".toList, "xml".toList], ["musicxml".toList, "xml".toList]⟩]

/-- Different names give the same file, so that one output replaces the other. -/
theorem output_names_collide : outputName demoSubs "humdrum".toList "op.1".toList = "op.krn".toList ∧ outputName demoSubs "humdrum".toList "op.2".toList = "op.krn".toList := by
  decide +kernel

/-- A name that is only an extension is not taken for one: another is added. -/
theorem dot_name_breaks : outputName demoSubs "humdrum".toList "a/.krn".toList = "a/.krn.krn".toList ∧
    outputName demoSubs "humdrum".toList "a/".toList = "a/.krn".toList := by
  decide +kernel

/-! ## The hypotheses are met -/

example : PlainExts demoSubs := by unfold PlainExts; decide +kernel

example : RegisteredExt demoSubs "xml".toList "musicxml".toList := ⟨_, List.mem_cons_of_mem _ (List.mem_cons_of_mem _ (List.mem_singleton.2 rfl)), by decide +kernel, by decide +kernel⟩

example : HasExt "out.d/a.b.xml".toList "out.d/a.b".toList "xml".toList :=
  ⟨⟨"out.d/".toList, "a.b".toList, by decide, Or.inr (by decide), by decide, 'a', by decide, by decide⟩, by decide, by decide, by decide⟩

example : outputName demoSubs "xml".toList "out.d/a.b.xml".toList = "out.d/a.b.xml".toList ∧ outputName demoSubs "xml".toList "out.d/a".toList = "out.d/a.musicxml".toList := by
  decide +kernel

end C21
