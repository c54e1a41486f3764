import Verif.Spec.ReadDecoration
import Verif.Props.Decoration
import Verif.Lemmas.PyNum
import Verif.Lemmas.Tac
import Mathlib.Data.List.Chain
/-
C68: staff groups survive the export and import of the system decoration.
-/
namespace C21

/-! ## The text -/

/-- The pieces that are not commas. -/
def noComma (ts : List DTok) : List DTok := ts.filter (fun t => decide (t ≠ .comma))

theorem noComma_append (a b : List DTok) : noComma (a ++ b) = noComma a ++ noComma b := List.filter_append ..

theorem lex_digits (ds : Str) (hd : ∀ c ∈ ds, isDig c = true) (rest : Str) : ∀ v, lexDeco (.num v) (ds ++ rest) =
    lexDeco (.num (ds.foldl (fun a c => a * 10 + (c.toNat - 48)) v)) rest := by
  induction ds with
  | nil => intro v; rfl
  | cons c cs ih =>
    intro v
    rw [List.cons_append, lexDeco, if_pos (hd c List.mem_cons_self), Pend.digit, ih (fun x hx => hd x (List.mem_cons_of_mem _ hx)), List.foldl_cons]

theorem lex_staff (n : Nat) (rest : Str) : lexDeco .s (natStr n ++ rest) = lexDeco (.num n) rest := by
  have hd := natStr_isDig n
  have hp := parse_natStr n
  cases hs : natStr n with
  | nil => exact absurd hs (natStr_ne_nil n)
  | cons c cs =>
    rw [hs] at hd hp
    rw [List.cons_append, lexDeco, if_pos (hd c List.mem_cons_self), Pend.digit, lex_digits cs (fun x hx => hd x (List.mem_cons_of_mem _ hx))]
    unfold parseNat at hp
    rw [List.foldl_cons] at hp
    simp only [Nat.zero_mul, Nat.zero_add] at hp
    rw [hp]

theorem lex_text (ts : List DTok) : ∀ p : Pend, lexDeco p (ts.flatMap DTok.text) = p.flush ++ noComma ts := by
  induction ts with
  | nil => intro p; show p.flush = _; simp [noComma]
  | cons t ts ih =>
    intro p
    rw [List.flatMap_cons]
    cases t with
    | op d =>
      have e : noComma (.op d :: ts) = .op d :: noComma ts := by simp [noComma]
      rw [e]
      cases d <;> (show lexDeco p (_ :: _) = _; rw [lexDeco, if_neg (by decide), if_neg (by decide)]; show _ ++ lexDeco .idle (ts.flatMap DTok.text) = _; rw [ih]; simp [charDelim, Delim.opChar, Pend.flush])
    | cl d =>
      have e : noComma (.cl d :: ts) = .cl d :: noComma ts := by simp [noComma]
      rw [e]
      cases d <;> (show lexDeco p (_ :: _) = _; rw [lexDeco, if_neg (by decide), if_neg (by decide)]; show _ ++ lexDeco .idle (ts.flatMap DTok.text) = _; rw [ih]; simp [charDelim, Delim.clChar, Pend.flush])
    | comma =>
      have e : noComma (.comma :: ts) = noComma ts := by simp [noComma]
      rw [e]
      show lexDeco p (_ :: _) = _
      rw [lexDeco, if_neg (by decide), if_neg (by decide)]
      show _ ++ lexDeco .idle (ts.flatMap DTok.text) = _
      rw [ih]
      simp [charDelim, Pend.flush]
    | staff n =>
      have e : noComma (.staff n :: ts) = .staff n :: noComma ts := by simp [noComma]
      rw [e]
      show lexDeco p ('s' :: (natStr n ++ ts.flatMap DTok.text)) = _
      rw [lexDeco, if_neg (by decide), if_pos rfl, lex_staff, ih]
      rfl

/-! ## Structured decorations -/

/-- A decoration with its structure. -/
inductive DSeq
  | nil
  | staff (n : Nat) (rest : DSeq)
  | grp (s : GSym) (b : Bool) (inner rest : DSeq)

/-- The opening brackets of a group. -/
def preOf (s : GSym) (b : Bool) : List DTok := preToks ⟨s, b, []⟩
/-- The closing brackets of a group. -/
def postOf (s : GSym) (b : Bool) : List DTok := postToks ⟨s, b, []⟩

def DSeq.toks : DSeq → List DTok
  | .nil => []
  | .staff n r => .staff n :: r.toks
  | .grp s b i r => preOf s b ++ i.toks ++ postOf s b ++ r.toks

def DSeq.staves : DSeq → List Nat
  | .nil => []
  | .staff n r => n :: r.staves
  | .grp _ _ i r => i.staves ++ r.staves

/-- The groups with their staves, in order of appearance. -/
def DSeq.descs : DSeq → List (GSym × Bool × List Nat)
  | .nil => []
  | .staff _ r => r.descs
  | .grp s b i r => (s, b, i.staves) :: (i.descs ++ r.descs)

def DSeq.app : DSeq → DSeq → DSeq
  | .nil, q => q
  | .staff n r, q => .staff n (r.app q)
  | .grp s b i r, q => .grp s b i (r.app q)

/-- Nothing but one group that shows only its barlines. -/
def LoneParen (q : DSeq) : Prop := ∃ s i, q = .grp s true i .nil ∧ s.delim = none

/-- Every group is visible and has staves, and no group without barlines contains nothing but a group that shows only its barlines. -/
def DSeq.Good : DSeq → Prop
  | .nil => True
  | .staff _ r => r.Good
  | .grp s b i r => (s.delim ≠ none ∨ b = true) ∧ i.staves ≠ [] ∧ (b = false → ¬ LoneParen i) ∧ i.Good ∧ r.Good

theorem app_toks (p q : DSeq) : (p.app q).toks = p.toks ++ q.toks := by
  induction p with
  | nil => rfl
  | staff n r ih => simp [DSeq.app, DSeq.toks, ih]
  | grp s b i r _ ih => simp [DSeq.app, DSeq.toks, ih]

theorem app_staves (p q : DSeq) : (p.app q).staves = p.staves ++ q.staves := by
  induction p with
  | nil => rfl
  | staff n r ih => simp [DSeq.app, DSeq.staves, ih]
  | grp s b i r _ ih => simp [DSeq.app, DSeq.staves, ih]

theorem app_descs (p q : DSeq) : (p.app q).descs = p.descs ++ q.descs := by
  induction p with
  | nil => rfl
  | staff n r ih => simp [DSeq.app, DSeq.descs, ih]
  | grp s b i r _ ih => simp [DSeq.app, DSeq.descs, ih]

theorem app_good {p q : DSeq} (hp : p.Good) (hq : q.Good) : (p.app q).Good := by
  induction p with
  | nil => exact hq
  | staff n r ih => exact ih hp
  | grp s b i r _ ih => exact ⟨hp.1, hp.2.1, hp.2.2.1, hp.2.2.2.1, ih hp.2.2.2.2⟩

/-- Staves one after another. -/
def staffSeq : List Nat → DSeq
  | [] => .nil
  | n :: ns => .staff n (staffSeq ns)

theorem staffSeq_facts (ns : List Nat) : (staffSeq ns).toks = ns.map DTok.staff ∧ (staffSeq ns).staves = ns ∧ (staffSeq ns).descs = [] ∧ (staffSeq ns).Good := by
  induction ns with
  | nil => exact ⟨rfl, rfl, rfl, trivial⟩
  | cons n ns ih => exact ⟨by simp [staffSeq, DSeq.toks, ih.1], by simp [staffSeq, DSeq.staves, ih.2.1], ih.2.2.1, ih.2.2.2⟩

/-- Number of opening brackets. -/
def preLen (s : GSym) (b : Bool) : Nat := (preOf s b).length

theorem post_length (s : GSym) (b : Bool) : (postOf s b).length = preLen s b := by cases s <;> cases b <;> rfl

theorem preLen_pos {s : GSym} {b : Bool} (h : s.delim ≠ none ∨ b = true) : 0 < preLen s b := by
  cases s <;> cases b <;> simp [preLen, preOf, preToks, GSym.delim] at h ⊢

theorem toks_ne_nil {q : DSeq} (hg : q.Good) (h : q ≠ .nil) : q.toks ≠ [] := by
  cases q with
  | nil => exact absurd rfl h
  | staff n r => simp [DSeq.toks]
  | grp s b i r =>
    intro e
    have hp := preLen_pos hg.1
    have := congrArg List.length e
    simp only [DSeq.toks, List.length_append, List.length_nil] at this
    unfold preLen at hp
    omega

theorem stavesListed_toks (q : DSeq) : stavesListed q.toks = q.staves := by
  induction q with
  | nil => rfl
  | staff n r ih => simp [DSeq.toks, DSeq.staves, stavesListed, ih]
  | grp s b i r hi hr =>
    have h1 : stavesListed (preOf s b) = [] := by cases s <;> cases b <;> rfl
    have h2 : stavesListed (postOf s b) = [] := by cases s <;> cases b <;> rfl
    rw [DSeq.toks, stavesListed_append, stavesListed_append, stavesListed_append, h1, h2, hi, hr]
    simp [DSeq.staves]

/-! ## Pairing -/

/-- The brackets of the decoration, which begins at position `i`, are paired as they should be. -/
def PairOK (pair : Nat → Option Nat) : Nat → DSeq → Prop
  | _, .nil => True
  | i, .staff _ r => pair i = none ∧ PairOK pair (i + 1) r
  | i, .grp s b q r =>
    (∀ k < preLen s b, pair (i + k) = some (i + 2 * preLen s b + q.toks.length - 1 - k) ∧ pair (i + 2 * preLen s b + q.toks.length - 1 - k) = some (i + k)) ∧
      PairOK pair (i + preLen s b) q ∧ PairOK pair (i + 2 * preLen s b + q.toks.length) r

theorem toks_length_grp (s : GSym) (b : Bool) (q r : DSeq) : (DSeq.grp s b q r).toks.length = 2 * preLen s b + q.toks.length + r.toks.length := by
  simp only [DSeq.toks, List.length_append, post_length]
  unfold preLen
  omega

theorem pairOK_congr {f g : Nat → Option Nat} (q : DSeq) : ∀ i, (∀ k, i ≤ k → k < i + q.toks.length → f k = g k) → PairOK f i q → PairOK g i q := by
  induction q with
  | nil => intro i _ _; trivial
  | staff n r ih =>
    intro i h hf
    simp only [DSeq.toks, List.length_cons] at h
    refine ⟨by rw [← h i (by omega) (by omega)]; exact hf.1, ih (i + 1) ?_ hf.2⟩
    intro k h1 h2
    exact h k (by omega) (by omega)
  | grp s b q r hq hr =>
    intro i h hf
    rw [toks_length_grp] at h
    obtain ⟨h1, h2, h3⟩ := hf
    refine ⟨?_, hq _ ?_ h2, hr _ ?_ h3⟩
    · intro k hk
      rw [← h _ (by omega) (by omega), ← h _ (by omega) (by omega)]
      exact h1 k hk
    · intro k hk1 hk2; exact h k (by omega) (by omega)
    · intro k hk1 hk2; exact h k (by omega) (by omega)

theorem pairWalk_op (i : Nat) (d : Delim) (rest : List DTok) (v : PairVars) : pairWalk i (.op d :: rest) v = pairWalk (i + 1) rest ⟨(i, d) :: v.stack, v.pair⟩ := rfl

theorem pairWalk_cl (i o : Nat) (d : Delim) (rest : List DTok) (st : List (Nat × Delim)) (f : Nat → Option Nat) :
    pairWalk i (.cl d :: rest) ⟨(o, d) :: st, f⟩ = pairWalk (i + 1) rest ⟨st, setPair f o i⟩ := by
  rw [pairWalk]
  have : pairStep ⟨(o, d) :: st, f⟩ i (.cl d) = some ⟨st, setPair f o i⟩ := by
    show (if d = d then _ else _) = _
    rw [if_pos rfl]
  rw [this]

theorem pairWalk_seq (q : DSeq) : ∀ (i : Nat) (rest : List DTok) (st : List (Nat × Delim)) (f : Nat → Option Nat), (∀ k, i ≤ k → f k = none) → ∃ g,
    pairWalk i (q.toks ++ rest) ⟨st, f⟩ = pairWalk (i + q.toks.length) rest ⟨st, g⟩ ∧ PairOK g i q ∧ ∀ k, (k < i ∨ i + q.toks.length ≤ k) → g k = f k := by
  induction q with
  | nil => intro i rest st f _; exact ⟨f, rfl, trivial, fun _ _ => rfl⟩
  | staff n r ih =>
    intro i rest st f hf
    obtain ⟨g, h1, h2, h3⟩ := ih (i + 1) rest st f (fun k hk => hf k (by omega))
    refine ⟨g, ?_, ⟨by rw [h3 i (by omega)]; exact hf i (le_refl _), h2⟩, ?_⟩
    · show pairWalk (i + 1) (r.toks ++ rest) ⟨st, f⟩ = _
      rw [h1]
      simp only [DSeq.toks, List.length_cons]
      congr 1
      omega
    · intro k hk
      refine h3 k ?_
      simp only [DSeq.toks, List.length_cons] at hk
      omega
  | grp s b q r hq hr =>
    intro i rest st f hf
    rw [toks_length_grp]
    -- the generic shape, for each number of brackets
    have shape : (preOf s b = [] ∧ postOf s b = []) ∨ (∃ d, preOf s b = [.op d] ∧ postOf s b = [.cl d]) ∨ ∃ d e, preOf s b = [.op d, .op e] ∧ postOf s b = [.cl e, .cl d] := by
      cases s <;> cases b <;> simp [preOf, postOf, preToks, postToks, GSym.delim]
    rcases shape with ⟨e1, e2⟩ | ⟨d, e1, e2⟩ | ⟨d, e, e1, e2⟩
    · have hl : preLen s b = 0 := by unfold preLen; rw [e1]; rfl
      obtain ⟨g1, a1, a2, a3⟩ := hq i (r.toks ++ rest) st f hf
      obtain ⟨g2, b1, b2, b3⟩ := hr (i + q.toks.length) rest st g1 (fun k hk => by rw [a3 k (by omega)]; exact hf k (by omega))
      refine ⟨g2, ?_, ⟨?_, ?_, ?_⟩, ?_⟩
      · rw [DSeq.toks, e1, e2]
        simp only [List.nil_append, List.append_nil, List.append_assoc]
        rw [a1, b1, hl]
        congr 1
        omega
      · intro k hk; omega
      · rw [hl]
        exact pairOK_congr q _ (fun k h1 h2 => (b3 k (by omega)).symm) a2
      · rw [hl]
        have : i + 2 * 0 + q.toks.length = i + q.toks.length := by omega
        rw [this]; exact b2
      · intro k hk
        rw [b3 k (by omega), a3 k (by omega)]
    · have hl : preLen s b = 1 := by unfold preLen; rw [e1]; rfl
      obtain ⟨g1, a1, a2, a3⟩ := hq (i + 1) (.cl d :: (r.toks ++ rest)) ((i, d) :: st) f (fun k hk => hf k (by omega))
      obtain ⟨g2, b1, b2, b3⟩ := hr (i + 1 + q.toks.length + 1) rest st (setPair g1 i (i + 1 + q.toks.length)) (fun k hk => by
        unfold setPair
        rw [if_neg (by omega), if_neg (by omega), a3 k (by omega)]
        exact hf k (by omega))
      refine ⟨g2, ?_, ⟨?_, ?_, ?_⟩, ?_⟩
      · rw [DSeq.toks, e1, e2]
        simp only [List.cons_append, List.nil_append, List.append_assoc]
        rw [pairWalk_op, a1, pairWalk_cl, b1, hl]
        congr 1
        omega
      · intro k hk
        rw [hl] at hk ⊢
        have hk0 : k = 0 := by omega
        subst hk0
        have e3 : i + 2 * 1 + q.toks.length - 1 - 0 = i + 1 + q.toks.length := by omega
        rw [e3, b3 _ (by omega), b3 _ (by omega)]
        unfold setPair
        constructor
        · rw [if_neg (by omega), if_pos (by omega)]
        · rw [if_pos rfl]; rfl
      · rw [hl]
        refine pairOK_congr q _ (fun k h1 h2 => ?_) a2
        rw [b3 k (by omega)]
        unfold setPair
        rw [if_neg (by omega), if_neg (by omega)]
      · rw [hl]
        have : i + 2 * 1 + q.toks.length = i + 1 + q.toks.length + 1 := by omega
        rw [this]; exact b2
      · intro k hk
        rw [hl] at hk
        rw [b3 k (by omega)]
        unfold setPair
        rw [if_neg (by omega), if_neg (by omega), a3 k (by omega)]
    · have hl : preLen s b = 2 := by unfold preLen; rw [e1]; rfl
      obtain ⟨g1, a1, a2, a3⟩ := hq (i + 1 + 1) (.cl e :: .cl d :: (r.toks ++ rest)) ((i + 1, e) :: (i, d) :: st) f (fun k hk => hf k (by omega))
      obtain ⟨g2, b1, b2, b3⟩ := hr (i + 1 + 1 + q.toks.length + 1 + 1) rest st
        (setPair (setPair g1 (i + 1) (i + 1 + 1 + q.toks.length)) i (i + 1 + 1 + q.toks.length + 1)) (fun k hk => by
        unfold setPair
        rw [if_neg (by omega), if_neg (by omega), if_neg (by omega), if_neg (by omega), a3 k (by omega)]
        exact hf k (by omega))
      refine ⟨g2, ?_, ⟨?_, ?_, ?_⟩, ?_⟩
      · rw [DSeq.toks, e1, e2]
        simp only [List.cons_append, List.nil_append, List.append_assoc]
        rw [pairWalk_op, pairWalk_op, a1, pairWalk_cl, pairWalk_cl, b1, hl]
        congr 1
        omega
      · intro k hk
        rw [hl] at hk ⊢
        rw [b3 _ (by omega), b3 _ (by omega)]
        unfold setPair
        have hk0 : k = 0 ∨ k = 1 := by omega
        rcases hk0 with rfl | rfl
        · constructor
          · rw [if_neg (by omega), if_pos (by omega)]
            congr 1; omega
          · rw [if_pos (by omega)]; rfl
        · constructor
          · rw [if_neg (by omega), if_neg (by omega), if_neg (by omega), if_pos (by omega)]
            congr 1; omega
          · rw [if_neg (by omega), if_neg (by omega), if_pos (by omega)]
      · rw [hl]
        refine pairOK_congr q _ (fun k h1 h2 => ?_) a2
        rw [b3 k (by omega)]
        unfold setPair
        rw [if_neg (by omega), if_neg (by omega), if_neg (by omega), if_neg (by omega)]
      · rw [hl]
        have : i + 2 * 2 + q.toks.length = i + 1 + 1 + q.toks.length + 1 + 1 := by omega
        rw [this]; exact b2
      · intro k hk
        rw [hl] at hk
        rw [b3 k (by omega)]
        unfold setPair
        rw [if_neg (by omega), if_neg (by omega), if_neg (by omega), if_neg (by omega), a3 k (by omega)]

theorem pairAll_seq (q : DSeq) : ∃ f, pairAll q.toks = some f ∧ PairOK f 0 q ∧ ∀ k, q.toks.length ≤ k → f k = none := by
  obtain ⟨g, h1, h2, h3⟩ := pairWalk_seq q 0 [] [] (fun _ => none) (fun _ _ => rfl)
  rw [List.append_nil] at h1
  refine ⟨g, ?_, h2, fun k hk => h3 k (Or.inr (by omega))⟩
  unfold pairAll
  rw [h1]
  rfl

/-! ## The walk -/

/-- The groups that the walk makes. -/
def groupsOf (staffList : List Nat) : Nat → List Nat → DSeq → List RGroup
  | _, _, .nil => []
  | k, c, .staff _ r => groupsOf staffList k c r
  | k, c, .grp s b q r =>
    ⟨readSym s, b, c, q.staves.map staffList.idxOf⟩ :: (groupsOf staffList (k + 1) (k :: c) q ++ groupsOf staffList (k + 1 + q.descs.length) c r)

theorem groupsOf_length (sl : List Nat) (q : DSeq) : ∀ k c, (groupsOf sl k c q).length = q.descs.length := by
  induction q with
  | nil => intro k c; rfl
  | staff n r ih => intro k c; exact ih k c
  | grp s b q r hq hr => intro k c; simp [groupsOf, DSeq.descs, hq, hr]

theorem addAll_length (G : List RGroup) (c ids : List Nat) : (addAll G c ids).length = G.length := by unfold addAll; simp

theorem addAll_nil (G : List RGroup) (c : List Nat) : addAll G c [] = G := by
  unfold addAll
  refine List.ext_getElem (by simp) ?_
  intro i h1 h2
  simp only [List.getElem_mapIdx]
  split
  · unfold RGroup.addIds; simp
  · rfl

theorem addAll_addAll (G : List RGroup) (c a b : List Nat) : addAll (addAll G c a) c b = addAll G c (a ++ b) := by
  unfold addAll
  refine List.ext_getElem (by simp) ?_
  intro i h1 h2
  simp only [List.getElem_mapIdx]
  split
  · unfold RGroup.addIds; simp
  · rfl

theorem addAll_append (G H : List RGroup) (c ids : List Nat) (hc : ∀ k ∈ c, k < G.length) : addAll (G ++ H) c ids = addAll G c ids ++ H := by
  unfold addAll
  rw [List.mapIdx_append]
  congr 1
  refine List.ext_getElem (by simp) ?_
  intro i h1 h2
  simp only [List.getElem_mapIdx]
  rw [if_neg]
  intro hm
  have := hc _ hm
  omega

theorem addAll_push (G : List RGroup) (g : RGroup) (c ids : List Nat) (hc : ∀ k ∈ c, k < G.length) :
    addAll (G ++ [g]) (G.length :: c) ids = addAll G c ids ++ [g.addIds ids] := by
  unfold addAll
  rw [List.mapIdx_append]
  congr 1
  · refine List.ext_getElem (by simp) ?_
    intro i h1 h2
    simp only [List.getElem_mapIdx]
    have h3 : i < G.length := by simpa using h1
    by_cases h : i ∈ c
    · rw [if_pos (List.mem_cons_of_mem _ h), if_pos h]
    · rw [if_neg ?_, if_neg h]
      intro hm
      rcases List.mem_cons.1 hm with e | hm
      · omega
      · exact h hm
  · simp

theorem head_not_close {r : DSeq} (hg : r.Good) (h : r ≠ .nil) (rest : List DTok) : closesSymbol (r.toks ++ rest).head? = false := by
  cases r with
  | nil => exact absurd rfl h
  | staff n r => rfl
  | grp s b i r =>
    have hv := hg.1
    cases s <;> cases b <;> simp [DSeq.toks, preOf, preToks, GSym.delim, closesSymbol] at hv ⊢

theorem readWalk_cons (pair : Nat → Option Nat) (sl : List Nat) (i : Nat) (t : DTok) (ts : List DTok) (v : ReadVars) :
    readWalk pair sl i (t :: ts) v = readWalk pair sl (i + 1) ts (readStep pair sl v i ts.head? t) := rfl

/-- Closing the group that was made last but those inside. -/
theorem closeGroup_eq (G : List RGroup) (D : Nat → Option Nat) (c cur seen : List Nat) (i : Nat) (k : Nat) (g : RGroup) (hD : D i = some k) (hg : G[k]? = some g)
    (hc : g.above = c) : closeGroup ⟨G, D, cur, seen, false⟩ (some i) = ⟨G, D, c, seen, false⟩ := by
  unfold closeGroup
  dsimp only
  rw [Option.bind_some, hD, Option.bind_some, hg]
  subst hc
  rfl

/-- What the walk over a decoration does. -/
def WalkOK (pair : Nat → Option Nat) (sl : List Nat) (q : DSeq) : Prop :=
  ∀ (i : Nat) (rest : List DTok) (G : List RGroup) (D : Nat → Option Nat) (c seen : List Nat), q.Good → PairOK pair i q → (∀ n ∈ q.staves, n ∈ sl) →
    (∀ k ∈ c, k < G.length) →
    (closesSymbol rest.head? = true → ∃ o, pair (i + q.toks.length) = some o ∧ o + 1 ≤ i ∧ (o + 1 = i → ¬ LoneParen q)) →
    ∃ D', readWalk pair sl i (q.toks ++ rest) ⟨G, D, c, seen, false⟩ =
        readWalk pair sl (i + q.toks.length) rest ⟨addAll G c (q.staves.map sl.idxOf) ++ groupsOf sl G.length c q, D', c, seen ++ q.staves.map sl.idxOf, false⟩ ∧
      ∀ k, (k < i ∨ i + q.toks.length ≤ k) → D' k = D k

/-- The arena after a group and what follows it. -/
theorem arena_eq (sl : List Nat) (G : List RGroup) (s : GSym) (b : Bool) (c : List Nat) (q r : DSeq) (hc : ∀ k ∈ c, k < G.length) :
    addAll (addAll (G ++ [⟨readSym s, b, c, []⟩]) (G.length :: c) (q.staves.map sl.idxOf) ++ groupsOf sl (G.length + 1) (G.length :: c) q) c (r.staves.map sl.idxOf) ++
        groupsOf sl (G.length + 1 + q.descs.length) c r =
      addAll G c ((DSeq.grp s b q r).staves.map sl.idxOf) ++ groupsOf sl G.length c (.grp s b q r) := by
  rw [addAll_push G _ c _ hc, List.append_assoc, addAll_append _ _ c _ (by rw [addAll_length]; exact hc), addAll_addAll, ← List.map_append]
  simp [groupsOf, DSeq.staves, RGroup.addIds]

theorem arena_get (sl : List Nat) (G : List RGroup) (g : RGroup) (c : List Nat) (q : DSeq) (ids : List Nat) (hc : ∀ k ∈ c, k < G.length) (H : List RGroup) :
    (addAll (G ++ [g]) (G.length :: c) ids ++ H)[G.length]? = some (g.addIds ids) := by
  rw [addAll_push G _ c _ hc, List.append_assoc, List.getElem?_append_right (by rw [addAll_length]), addAll_length]
  simp

theorem readWalk_seq (pair : Nat → Option Nat) (sl : List Nat) (q : DSeq) : WalkOK pair sl q := by
  induction q with
  | nil =>
    intro i rest G D c seen _ _ _ _ _
    refine ⟨D, ?_, fun _ _ => rfl⟩
    simp only [DSeq.toks, DSeq.staves, groupsOf, List.map_nil, addAll_nil, List.append_nil, List.nil_append, List.length_nil, Nat.add_zero]
  | staff n r ih =>
    intro i rest G D c seen hg hp hm hc hrest
    have hn : sl.contains n = true := by simpa using hm n List.mem_cons_self
    have hlen : i + (DSeq.staff n r).toks.length = i + 1 + r.toks.length := by simp only [DSeq.toks, List.length_cons]; omega
    obtain ⟨D', h1, h2⟩ := ih (i + 1) rest (addAll G c [sl.idxOf n]) D c (seen ++ [sl.idxOf n]) hg hp.2 (fun m h => hm m (List.mem_cons_of_mem _ h))
      (by rw [addAll_length]; exact hc) (by
        intro h
        obtain ⟨o, a, b, -⟩ := hrest h
        rw [hlen] at a
        exact ⟨o, a, by omega, by omega⟩)
    refine ⟨D', ?_, ?_⟩
    · have hs : readStep pair sl ⟨G, D, c, seen, false⟩ i (r.toks ++ rest).head? (.staff n) = ⟨addAll G c [sl.idxOf n], D, c, seen ++ [sl.idxOf n], false⟩ := by
        show (if sl.contains n then _ else _) = _
        rw [if_pos hn]
      rw [DSeq.toks, List.cons_append, readWalk_cons, hs, h1, ← hlen, addAll_addAll, addAll_length, DSeq.toks]
      simp [DSeq.staves, groupsOf]
    · intro k hk
      refine h2 k ?_
      rw [hlen] at hk
      omega
  | grp s b q r hq hr =>
    intro i rest G D c seen hg hp hm hc hrest
    obtain ⟨hvis, hne, hlone, hgq, hgr⟩ := hg
    obtain ⟨hp1, hpq, hpr⟩ := hp
    have hmq : ∀ n ∈ q.staves, n ∈ sl := fun n h => hm n (List.mem_append.2 (Or.inl h))
    have hmr : ∀ n ∈ r.staves, n ∈ sl := fun n h => hm n (List.mem_append.2 (Or.inr h))
    have hcG : ∀ k ∈ G.length :: c, k < (G ++ [(⟨readSym s, b, c, []⟩ : RGroup)]).length := by
      intro k hk
      rw [List.length_append, List.length_singleton]
      rcases List.mem_cons.1 hk with rfl | hk
      · omega
      · have := hc k hk; omega
    rw [toks_length_grp] at hrest ⊢
    -- what remains after the closing bracket
    have finish : ∀ D1 : Nat → Option Nat, D1 i = some G.length → (∀ k, k < i ∨ i + 2 * preLen s b + q.toks.length ≤ k → D1 k = D k) →
        ∃ D', readWalk pair sl (i + 2 * preLen s b + q.toks.length) (r.toks ++ rest)
            ⟨addAll (G ++ [⟨readSym s, b, c, []⟩]) (G.length :: c) (q.staves.map sl.idxOf) ++ groupsOf sl (G.length + 1) (G.length :: c) q, D1, c,
              seen ++ q.staves.map sl.idxOf, false⟩ =
          readWalk pair sl (i + (2 * preLen s b + q.toks.length + r.toks.length)) rest
            ⟨addAll G c ((DSeq.grp s b q r).staves.map sl.idxOf) ++ groupsOf sl G.length c (.grp s b q r), D', c, seen ++ (DSeq.grp s b q r).staves.map sl.idxOf, false⟩ ∧
          ∀ k, (k < i ∨ i + (2 * preLen s b + q.toks.length + r.toks.length) ≤ k) → D' k = D k := by
      intro D1 _ hD1
      have hlen1 : (addAll (G ++ [(⟨readSym s, b, c, []⟩ : RGroup)]) (G.length :: c) (q.staves.map sl.idxOf) ++ groupsOf sl (G.length + 1) (G.length :: c) q).length =
          G.length + 1 + q.descs.length := by
        rw [List.length_append, addAll_length, groupsOf_length, List.length_append, List.length_singleton]
      have hpos := preLen_pos hvis
      obtain ⟨D', h1, h2⟩ := hr (i + 2 * preLen s b + q.toks.length) rest _ D1 c (seen ++ q.staves.map sl.idxOf) hgr hpr hmr
        (by intro k hk; rw [hlen1]; have := hc k hk; omega) (by
          intro h
          obtain ⟨o, a, b', -⟩ := hrest h
          refine ⟨o, ?_, by omega, by omega⟩
          rw [← a]
          congr 1
          omega)
      refine ⟨D', ?_, ?_⟩
      · rw [h1, hlen1, arena_eq sl G s b c q r hc]
        have e1 : i + 2 * preLen s b + q.toks.length + r.toks.length = i + (2 * preLen s b + q.toks.length + r.toks.length) := by omega
        rw [e1]
        simp [DSeq.staves]
      · intro k hk
        rw [h2 k (by omega), hD1 k (by omega)]
    have hget := arena_get sl G ⟨readSym s, b, c, []⟩ c q (q.staves.map sl.idxOf) hc (groupsOf sl (G.length + 1) (G.length :: c) q)
    have hlenG : (G ++ [(⟨readSym s, b, c, []⟩ : RGroup)]).length = G.length + 1 := by simp
    -- the kinds of groups
    cases hd : s.delim with
    | none =>
      have hb : b = true := by rcases hvis with h | h; exact absurd hd h; exact h
      subst hb
      have hpre : preOf s true = [.op .paren] := by unfold preOf preToks; simp [hd]
      have hpost : postOf s true = [.cl .paren] := by unfold postOf postToks; simp [hd]
      have hl : preLen s true = 1 := by unfold preLen; rw [hpre]; rfl
      have hsym : readSym s = .none := by cases s <;> simp [GSym.delim] at hd <;> rfl
      rw [hl] at hp1 hpq hpr finish hrest ⊢
      have p0 := hp1 0 (by omega)
      have e0 : i + 2 * 1 + q.toks.length - 1 - 0 = i + 1 + q.toks.length := by omega
      rw [e0, Nat.add_zero] at p0
      obtain ⟨D1, h1, h2⟩ := hq (i + 1) (.cl .paren :: (r.toks ++ rest)) (G ++ [⟨readSym s, true, c, []⟩]) (fun k => if k = i then some G.length else D k)
        (G.length :: c) seen hgq hpq hmq hcG (by intro h; exact absurd h (by simp [closesSymbol]))
      have hD1i : D1 i = some G.length := by rw [h2 i (by omega)]; simp
      obtain ⟨D', f1, f2⟩ := finish D1 hD1i (by
        intro k hk
        rw [h2 k (by omega)]
        exact if_neg (by omega))
      refine ⟨D', ?_, f2⟩
      rw [← f1, DSeq.toks, hpre, hpost]
      simp only [List.cons_append, List.nil_append, List.append_assoc]
      rw [readWalk_cons]
      have hs1 : readStep pair sl ⟨G, D, c, seen, false⟩ i (q.toks ++ .cl .paren :: (r.toks ++ rest)).head? (.op .paren) =
          ⟨G ++ [⟨readSym s, true, c, []⟩], fun k => if k = i then some G.length else D k, G.length :: c, seen, false⟩ := by
        rw [hsym]; rfl
      rw [hs1, h1, readWalk_cons, hlenG]
      have hnext : (closesSymbol (r.toks ++ rest).head? && decide ((pair (i + 1 + q.toks.length + 1)).map (· + 1) = pair (i + 1 + q.toks.length))) = false := by
        by_cases hr0 : r = .nil
        · subst hr0
          by_cases hcl : closesSymbol rest.head? = true
          · obtain ⟨o, a, b', cc⟩ := hrest hcl
            have ea : i + (2 * 1 + q.toks.length + DSeq.nil.toks.length) = i + 1 + q.toks.length + 1 := by simp only [DSeq.toks, List.length_nil]; omega
            rw [ea] at a
            rw [a, p0.2]
            have : ¬ (o + 1 = i) := fun e => cc e ⟨s, q, rfl, hd⟩
            simp [this]
          · have hcl' : closesSymbol rest.head? = false := by simpa using hcl
            show (closesSymbol rest.head? && _) = _
            rw [hcl']; rfl
        · rw [head_not_close hgr hr0]; rfl
      have hs2 : ∀ V : ReadVars, V.skip = false → readStep pair sl V (i + 1 + q.toks.length) (r.toks ++ rest).head? (.cl .paren) = closeGroup V (pair (i + 1 + q.toks.length)) := by
        intro V hV
        unfold readStep
        rw [hV]
        show (if _ = true then V else _) = _
        rw [hnext]
        rfl
      rw [hs2 _ rfl, p0.2, closeGroup_eq _ D1 c _ _ i G.length _ hD1i hget rfl]
      have e5 : i + 1 + q.toks.length + 1 = i + 2 * 1 + q.toks.length := by omega
      rw [e5]
    | some d =>
      have hdp : d ≠ .paren := by intro e; subst e; cases s <;> simp [GSym.delim] at hd
      have hsym : delimSym d = readSym s := by cases s <;> simp [GSym.delim] at hd <;> subst hd <;> rfl
      have hopen : ∀ V : ReadVars, V.skip = false → ∀ j next, readStep pair sl V j next (.op d) =
          newGroup V j (delimSym d) (decide (next = some (.op .paren)) && decide ((pair (j + 1)).map (· + 1) = pair j))
            (decide (next = some (.op .paren)) && decide ((pair (j + 1)).map (· + 1) = pair j)) := by
        intro V hV j next
        unfold readStep
        rw [hV]
        cases d with
        | paren => exact absurd rfl hdp
        | brace => rfl
        | bracket => rfl
        | square => rfl
      have hclose : ∀ V : ReadVars, V.skip = false → ∀ j next, readStep pair sl V j next (.cl d) = closeGroup V (pair j) := by
        intro V hV j next
        unfold readStep
        rw [hV]
        cases d with
        | paren => exact absurd rfl hdp
        | brace => rfl
        | bracket => rfl
        | square => rfl
      have hcls : closesSymbol (some (.cl d)) = true := by
        cases d with
        | paren => exact absurd rfl hdp
        | brace => rfl
        | bracket => rfl
        | square => rfl
      cases b with
      | false =>
        have hpre : preOf s false = [.op d] := by unfold preOf preToks; simp [hd]
        have hpost : postOf s false = [.cl d] := by unfold postOf postToks; simp [hd]
        have hl : preLen s false = 1 := by unfold preLen; rw [hpre]; rfl
        rw [hl] at hp1 hpq hpr finish hrest ⊢
        have p0 := hp1 0 (by omega)
        have e0 : i + 2 * 1 + q.toks.length - 1 - 0 = i + 1 + q.toks.length := by omega
        rw [e0, Nat.add_zero] at p0
        obtain ⟨D1, h1, h2⟩ := hq (i + 1) (.cl d :: (r.toks ++ rest)) (G ++ [⟨readSym s, false, c, []⟩]) (fun k => if k = i then some G.length else D k)
          (G.length :: c) seen hgq hpq hmq hcG (by intro _; exact ⟨i, p0.2, le_refl _, fun _ => hlone rfl⟩)
        have hD1i : D1 i = some G.length := by rw [h2 i (by omega)]; simp
        obtain ⟨D', f1, f2⟩ := finish D1 hD1i (by
          intro k hk
          rw [h2 k (by omega)]
          exact if_neg (by omega))
        refine ⟨D', ?_, f2⟩
        rw [← f1, DSeq.toks, hpre, hpost]
        simp only [List.cons_append, List.nil_append, List.append_assoc]
        rw [readWalk_cons, hopen _ rfl]
        have hboth : (decide ((q.toks ++ .cl d :: (r.toks ++ rest)).head? = some (.op .paren)) && decide ((pair (i + 1)).map (· + 1) = pair i)) = false := by
          cases q with
          | nil => exact absurd rfl hne
          | staff n q => rfl
          | grp s2 b2 q2 r2 =>
            have hv2 := hgq.1
            cases hd2 : s2.delim with
            | some d2 =>
              have hdp2 : d2 ≠ .paren := by intro e; subst e; cases s2 <;> simp [GSym.delim] at hd2
              have : preOf s2 b2 = .op d2 :: (if b2 then [.op .paren] else []) := by unfold preOf preToks; simp [hd2]
              rw [DSeq.toks, this]
              simp [hdp2]
            | none =>
              have hb2 : b2 = true := by rcases hv2 with h | h; exact absurd hd2 h; exact h
              subst hb2
              have hl2 : preLen s2 true = 1 := by unfold preLen preOf preToks; simp [hd2]
              have hp2 := hpq.1 0 (by omega)
              rw [hl2] at hp2
              rw [toks_length_grp, hl2] at p0
              rw [p0.1, show pair (i + 1) = _ from hp2.1]
              have hr2 : r2 ≠ .nil := by
                intro e
                subst e
                exact hlone rfl ⟨s2, q2, rfl, hd2⟩
              have hlen2 := toks_ne_nil hgq.2.2.2.2 hr2
              have hpos2 : 0 < r2.toks.length := List.length_pos_iff.2 hlen2
              rw [Bool.and_eq_false_iff]
              right
              simp only [Option.map_some, Option.some.injEq, decide_eq_false_iff_not]
              omega
        rw [hboth]
        have hs1 : newGroup ⟨G, D, c, seen, false⟩ i (delimSym d) false false =
            ⟨G ++ [⟨readSym s, false, c, []⟩], fun k => if k = i then some G.length else D k, G.length :: c, seen, false⟩ := by
          rw [hsym]; rfl
        rw [hs1, h1, readWalk_cons, hlenG, hclose _ rfl, p0.2, closeGroup_eq _ D1 c _ _ i G.length _ hD1i hget rfl]
        have e5 : i + 1 + q.toks.length + 1 = i + 2 * 1 + q.toks.length := by omega
        rw [e5]
      | true =>
        have hpre : preOf s true = [.op d, .op .paren] := by unfold preOf preToks; simp [hd]
        have hpost : postOf s true = [.cl .paren, .cl d] := by unfold postOf postToks; simp [hd]
        have hl : preLen s true = 2 := by unfold preLen; rw [hpre]; rfl
        rw [hl] at hp1 hpq hpr finish hrest ⊢
        have p0 := hp1 0 (by omega)
        have p1 := hp1 1 (by omega)
        have e0 : i + 2 * 2 + q.toks.length - 1 - 0 = i + 2 + q.toks.length + 1 := by omega
        have e1 : i + 2 * 2 + q.toks.length - 1 - 1 = i + 2 + q.toks.length := by omega
        rw [e0, Nat.add_zero] at p0
        rw [e1] at p1
        obtain ⟨D1, h1, h2⟩ := hq (i + 2) (.cl .paren :: .cl d :: (r.toks ++ rest)) (G ++ [⟨readSym s, true, c, []⟩]) (fun k => if k = i then some G.length else D k)
          (G.length :: c) seen hgq hpq hmq hcG (by intro h; exact absurd h (by simp [closesSymbol]))
        have hD1i : D1 i = some G.length := by rw [h2 i (by omega)]; simp
        obtain ⟨D', f1, f2⟩ := finish D1 hD1i (by
          intro k hk
          rw [h2 k (by omega)]
          exact if_neg (by omega))
        refine ⟨D', ?_, f2⟩
        rw [← f1, DSeq.toks, hpre, hpost]
        simp only [List.cons_append, List.nil_append, List.append_assoc]
        rw [readWalk_cons, hopen _ rfl]
        have hboth : (decide ((DTok.op .paren :: (q.toks ++ .cl .paren :: .cl d :: (r.toks ++ rest))).head? = some (.op .paren)) && decide ((pair (i + 1)).map (· + 1) = pair i)) = true := by
          rw [p0.1, p1.1]
          simp
        rw [hboth]
        have hs1 : newGroup ⟨G, D, c, seen, false⟩ i (delimSym d) true true =
            ⟨G ++ [⟨readSym s, true, c, []⟩], fun k => if k = i then some G.length else D k, G.length :: c, seen, true⟩ := by
          rw [hsym]; rfl
        rw [hs1, readWalk_cons]
        have hs2 : ∀ (V : ReadVars) j next t, V.skip = true → readStep pair sl V j next t = { V with skip := false } := by
          intro V j next t h
          unfold readStep
          rw [if_pos h]
        rw [hs2 _ _ _ _ rfl]
        have e2 : i + 1 + 1 = i + 2 := by omega
        rw [e2]
        show readWalk pair sl (i + 2) (q.toks ++ .cl .paren :: .cl d :: (r.toks ++ rest)) ⟨G ++ [⟨readSym s, true, c, []⟩], fun k => if k = i then some G.length else D k, G.length :: c, seen, false⟩ = _
        rw [h1, readWalk_cons]
        have hs3 : ∀ V : ReadVars, V.skip = false → readStep pair sl V (i + 2 + q.toks.length) (some (.cl d)) (.cl .paren) = V := by
          intro V hV
          unfold readStep
          rw [hV]
          show (if (closesSymbol (some (.cl d)) && decide ((pair (i + 2 + q.toks.length + 1)).map (· + 1) = pair (i + 2 + q.toks.length))) = true then V else _) = _
          rw [p0.2, p1.2, hcls]
          simp
        rw [List.head?_cons, hs3 _ rfl, readWalk_cons, hlenG, hclose _ rfl, p0.2, closeGroup_eq _ D1 c _ _ i G.length _ hD1i hget rfl]
        have e5 : i + 2 + q.toks.length + 1 + 1 = i + 2 * 2 + q.toks.length := by omega
        rw [e5]

/-- The last bracket closes the first one exactly if there is one group around everything. -/
theorem last_pair (pair : Nat → Option Nat) (q : DSeq) : ∀ i, q ≠ .nil → q.Good → PairOK pair i q →
    (pair (i + q.toks.length - 1) = some i ↔ ∃ s b j, q = .grp s b j .nil) ∧ ∀ o, pair (i + q.toks.length - 1) = some o → i ≤ o := by
  induction q with
  | nil => intro i h; exact absurd rfl h
  | staff n r ih =>
    intro i _ hg hp
    simp only [DSeq.toks, List.length_cons]
    by_cases hr : r = .nil
    · subst hr
      simp only [DSeq.toks, List.length_nil, Nat.zero_add, Nat.add_sub_cancel]
      rw [hp.1]
      simp
    · obtain ⟨h1, h2⟩ := ih (i + 1) hr hg hp.2
      have hpos := List.length_pos_iff.2 (toks_ne_nil (q := r) hg hr)
      have e : i + (r.toks.length + 1) - 1 = i + 1 + r.toks.length - 1 := by omega
      rw [e]
      refine ⟨⟨fun h => ?_, ?_⟩, fun o ho => ?_⟩
      · have := h2 _ h; omega
      · rintro ⟨s, b, j, e⟩; exact absurd e (by simp)
      · have := h2 _ ho; omega
  | grp s b q r _ ih =>
    intro i _ hg hp
    rw [toks_length_grp]
    have hL := preLen_pos hg.1
    by_cases hr : r = .nil
    · subst hr
      have h0 := (hp.1 0 hL).2
      have e : i + (2 * preLen s b + q.toks.length + DSeq.nil.toks.length) - 1 = i + 2 * preLen s b + q.toks.length - 1 - 0 := by
        simp only [DSeq.toks, List.length_nil]; omega
      rw [e, h0]
      exact ⟨⟨fun _ => ⟨s, b, q, rfl⟩, fun _ => rfl⟩, fun o ho => by simp only [Option.some.injEq] at ho; omega⟩
    · obtain ⟨h1, h2⟩ := ih (i + 2 * preLen s b + q.toks.length) hr hg.2.2.2.2 hp.2.2
      have e : i + (2 * preLen s b + q.toks.length + r.toks.length) - 1 = i + 2 * preLen s b + q.toks.length + r.toks.length - 1 := by omega
      rw [e]
      refine ⟨⟨fun h => ?_, ?_⟩, fun o ho => ?_⟩
      · have := h2 _ h; omega
      · rintro ⟨s', b', j, e⟩
        simp only [DSeq.grp.injEq] at e
        exact absurd e.2.2.2 hr
      · have := h2 _ ho; omega

theorem staves_nil {q : DSeq} (hg : q.Good) (h : q.staves = []) : q = .nil := by
  cases q with
  | nil => rfl
  | staff n r => simp [DSeq.staves] at h
  | grp s b q r =>
    rw [DSeq.staves, List.append_eq_nil_iff] at h
    exact absurd h.1 hg.2.1

theorem descs_sub (q : DSeq) : ∀ d ∈ q.descs, ∀ n ∈ d.2.2, n ∈ q.staves := by
  induction q with
  | nil => intro d hd; simp [DSeq.descs] at hd
  | staff n r ih => intro d hd m hm; exact List.mem_cons_of_mem _ (ih d hd m hm)
  | grp s b q r hq hr =>
    intro d hd m hm
    rw [DSeq.descs] at hd
    rw [DSeq.staves]
    rcases List.mem_cons.1 hd with rfl | hd
    · exact List.mem_append.2 (Or.inl hm)
    · rcases List.mem_append.1 hd with hd | hd
      · exact List.mem_append.2 (Or.inl (hq d hd m hm))
      · exact List.mem_append.2 (Or.inr (hr d hd m hm))

/-- A group has all the staves exactly if there is one group around everything. -/
theorem covers_iff {q : DSeq} (hg : q.Good) (hn : q.staves.Nodup) : (∃ d ∈ q.descs, ∀ n ∈ q.staves, n ∈ d.2.2) ↔ ∃ s b j, q = .grp s b j .nil := by
  constructor
  · rintro ⟨d, hd, hc⟩
    cases q with
    | nil => simp [DSeq.descs] at hd
    | staff n r =>
      have := descs_sub r d hd n (hc n List.mem_cons_self)
      rw [DSeq.staves, List.nodup_cons] at hn
      exact absurd this hn.1
    | grp s b q r =>
      rw [DSeq.staves, List.nodup_append] at hn
      have hr : ∀ (_ : ∀ n ∈ d.2.2, n ∈ q.staves), r = .nil := by
        intro hsub
        refine staves_nil hg.2.2.2.2 ?_
        rw [List.eq_nil_iff_forall_not_mem]
        intro n hnr
        exact hn.2.2 n (hsub n (hc n (List.mem_append.2 (Or.inr hnr)))) n hnr rfl
      rw [DSeq.descs] at hd
      rcases List.mem_cons.1 hd with rfl | hd
      · rw [hr (fun n h => h)]; exact ⟨s, b, q, rfl⟩
      · rcases List.mem_append.1 hd with hd | hd
        · rw [hr (fun n h => descs_sub q d hd n h)]; exact ⟨s, b, q, rfl⟩
        · exfalso
          obtain ⟨n, hnq⟩ := List.exists_mem_of_ne_nil _ hg.2.1
          exact hn.2.2 n hnq n (descs_sub r d hd n (hc n (List.mem_append.2 (Or.inl hnq)))) rfl
  · rintro ⟨s, b, j, rfl⟩
    refine ⟨(s, b, j.staves), by simp [DSeq.descs], ?_⟩
    intro n h
    simpa [DSeq.staves] using h

/-! ## Cleaning -/

def DTok.isOp : DTok → Bool
  | .op _ => true
  | .cl _ => false
  | .staff _ => false
  | .comma => false
def DTok.isCl : DTok → Bool
  | .cl _ => true
  | .op _ => false
  | .staff _ => false
  | .comma => false

/-- No opening bracket comes directly before a closing one; a piece that neither begins with a closing nor ends with an opening bracket. -/
structure SegOK (ts : List DTok) : Prop where
  chain : List.IsChain (fun a b : DTok => a.isOp = false ∨ b.isCl = false) ts
  head : ∀ x ∈ ts.head?, x.isCl = false
  last : ∀ x ∈ ts.getLast?, x.isOp = false

theorem SegOK.append {a b : List DTok} (ha : SegOK a) (hb : SegOK b) : SegOK (a ++ b) := by
  refine ⟨List.isChain_append.2 ⟨ha.chain, hb.chain, fun x hx y hy => Or.inl (ha.last x hx)⟩, ?_, ?_⟩
  · intro x hx
    rw [List.head?_append] at hx
    cases h : a.head? with
    | none => rw [h] at hx; exact hb.head x hx
    | some y => rw [h] at hx; exact ha.head x (by rw [h]; exact hx)
  · intro x hx
    rw [List.getLast?_append] at hx
    cases h : b.getLast? with
    | none => rw [h] at hx; exact ha.last x hx
    | some y => rw [h] at hx; exact hb.last x (by rw [h]; exact hx)

theorem SegOK.wrap {w : List DTok} (h : SegOK w) (hne : w ≠ []) (d : Delim) : SegOK (.op d :: (w ++ [.cl d])) := by
  refine ⟨?_, ?_, ?_⟩
  · rw [List.isChain_cons]
    refine ⟨?_, ?_⟩
    · intro y hy
      rw [List.head?_append] at hy
      cases hh : w.head? with
      | none => exact absurd (List.head?_eq_none_iff.1 hh) hne
      | some z => rw [hh] at hy; exact Or.inr (h.head y (by rw [hh]; exact hy))
    · exact List.isChain_append.2 ⟨h.chain, List.isChain_singleton _, fun x hx y _ => Or.inl (h.last x hx)⟩
  · intro x hx
    rw [List.head?_cons, Option.mem_some_iff] at hx
    subst hx; rfl
  · intro x hx
    have : (DTok.op d :: (w ++ [DTok.cl d])).getLast? = some (.cl d) := by
      rw [← List.cons_append, List.getLast?_append]; rfl
    rw [this, Option.mem_some_iff] at hx
    subst hx; rfl

theorem segOK_toks (q : DSeq) (hg : q.Good) : SegOK q.toks := by
  induction q with
  | nil => exact ⟨List.isChain_nil, by simp [DSeq.toks], by simp [DSeq.toks]⟩
  | staff n r ih =>
    have : SegOK ([DTok.staff n] ++ r.toks) := SegOK.append ⟨List.isChain_singleton _, by simp [DTok.isCl], by simp [DTok.isOp]⟩ (ih hg)
    exact this
  | grp s b q r hq hr =>
    have h1 := hq hg.2.2.2.1
    have hne : q.toks ≠ [] := toks_ne_nil hg.2.2.2.1 (fun e => hg.2.1 (by rw [e]; rfl))
    refine SegOK.append ?_ (hr hg.2.2.2.2)
    have hv := hg.1
    have hparen := h1.wrap hne .paren
    cases hd : s.delim with
    | none =>
      have hb : b = true := by rcases hv with h | h; exact absurd hd h; exact h
      subst hb
      have hpre : preOf s true = [.op .paren] := by unfold preOf preToks; simp [hd]
      have hpost : postOf s true = [.cl .paren] := by unfold postOf postToks; simp [hd]
      rw [hpre, hpost]
      exact hparen
    | some d =>
      cases b with
      | false =>
        have hpre : preOf s false = [.op d] := by unfold preOf preToks; simp [hd]
        have hpost : postOf s false = [.cl d] := by unfold postOf postToks; simp [hd]
        rw [hpre, hpost]
        exact h1.wrap hne d
      | true =>
        have hpre : preOf s true = [.op d, .op .paren] := by unfold preOf preToks; simp [hd]
        have hpost : postOf s true = [.cl .paren, .cl d] := by unfold postOf postToks; simp [hd]
        have := hparen.wrap (by simp) d
        rw [hpre, hpost]
        simpa using this

theorem removeEmpty_id (k : Delim) : ∀ ts : List DTok, List.IsChain (fun a b : DTok => a.isOp = false ∨ b.isCl = false) ts → removeEmpty k ts = ts
  | [], _ => rfl
  | [_], _ => rfl
  | a :: b :: ts, h => by
    rw [List.isChain_cons_cons] at h
    rw [removeEmpty, if_neg, removeEmpty_id k (b :: ts) h.2]
    rintro ⟨rfl, rfl⟩
    rcases h.1 with h | h <;> simp [DTok.isOp, DTok.isCl] at h

theorem removeEmpties_id {ts : List DTok} (h : SegOK ts) : removeEmpties ts = ts := by
  unfold removeEmpties
  rw [removeEmpty_id _ _ h.chain, removeEmpty_id _ _ h.chain, removeEmpty_id _ _ h.chain, removeEmpty_id _ _ h.chain]

theorem countP_staff (ts : List DTok) : ts.countP DTok.isStaff = (stavesListed ts).length := by
  induction ts with
  | nil => rfl
  | cons t ts ih => rw [List.countP_cons, ih]; cases t <;> simp [DTok.isStaff, stavesListed]

theorem known_toks (sl : List Nat) (q : DSeq) (h : ∀ n ∈ q.staves, n ∈ sl) : ∀ t ∈ q.toks, staffKnown sl t = true := by
  induction q with
  | nil => intro t ht; simp [DSeq.toks] at ht
  | staff n r ih =>
    intro t ht
    rcases List.mem_cons.1 ht with rfl | ht
    · simpa [staffKnown] using h n List.mem_cons_self
    · exact ih (fun m hm => h m (List.mem_cons_of_mem _ hm)) t ht
  | grp s b q r hq hr =>
    intro t ht
    have hpre : ∀ t ∈ preOf s b, staffKnown sl t = true := by cases s <;> cases b <;> simp [preOf, preToks, GSym.delim, staffKnown]
    have hpost : ∀ t ∈ postOf s b, staffKnown sl t = true := by cases s <;> cases b <;> simp [postOf, postToks, GSym.delim, staffKnown]
    rw [DSeq.toks] at ht
    simp only [List.mem_append] at ht
    rcases ht with ((ht | ht) | ht) | ht
    · exact hpre t ht
    · exact hq (fun n hn => h n (List.mem_append.2 (Or.inl hn))) t ht
    · exact hpost t ht
    · exact hr (fun n hn => h n (List.mem_append.2 (Or.inr hn))) t ht

theorem clean_id (sl : List Nat) {q : DSeq} (hg : q.Good) (h : ∀ n ∈ q.staves, n ∈ sl) (h2 : q.staves.length ≠ 1) : cleanDeco sl q.toks = q.toks := by
  unfold cleanDeco
  rw [List.filter_eq_self.2 (known_toks sl q h), removeEmpties_id (segOK_toks q hg), removeEmpties_id (segOK_toks q hg)]
  rw [if_neg (by rw [countP_staff, stavesListed_toks]; exact h2)]

/-! ## Reading -/

theorem insertionSort_congr {a b : List Nat} (h : a.Perm b) : a.insertionSort (· ≤ ·) = b.insertionSort (· ≤ ·) := by
  have hp : (a.insertionSort (· ≤ ·)).Perm (b.insertionSort (· ≤ ·)) := (List.perm_insertionSort _ _).trans (h.trans (List.perm_insertionSort _ _).symm)
  exact hp.eq_of_pairwise (fun x y _ _ h1 h2 => le_antisymm h1 h2) (List.pairwise_insertionSort _ _) (List.pairwise_insertionSort _ _)

theorem sort_id {a : List Nat} (h : a.Pairwise (· < ·)) : a.insertionSort (· ≤ ·) = a :=
  (h.imp (fun h => le_of_lt h)).insertionSort_eq

theorem map_idxOf_self {sl : List Nat} (h : sl.Nodup) : sl.map sl.idxOf = List.range sl.length := by
  refine List.ext_getElem (by simp) ?_
  intro i h1 h2
  rw [List.getElem_map, List.getElem_range]
  exact h.idxOf_getElem i (by simpa using h1)

/-- The group that is read for an entry of the decoration. -/
def descOut (sl : List Nat) (d : GSym × Bool × List Nat) : ReadGroup := ⟨readSym d.1, d.2.1, (d.2.2.map sl.idxOf).insertionSort (· ≤ ·)⟩

theorem groupsOf_out (sl : List Nat) (q : DSeq) : ∀ k c, (groupsOf sl k c q).map RGroup.out = q.descs.map (descOut sl) := by
  induction q with
  | nil => intro k c; rfl
  | staff n r ih => intro k c; exact ih k c
  | grp s b q r hq hr =>
    intro k c
    rw [groupsOf, DSeq.descs, List.map_cons, List.map_append, hq, hr, List.map_cons, List.map_append]
    rfl

theorem groupsOf_ids (sl : List Nat) (q : DSeq) (hg : q.Good) : ∀ k c, ∀ g ∈ groupsOf sl k c q, g.ids ≠ [] := by
  induction q with
  | nil => intro k c g h; simp [groupsOf] at h
  | staff n r ih => intro k c g h; exact ih hg k c g h
  | grp s b q r hq hr =>
    intro k c g h
    rw [groupsOf] at h
    rcases List.mem_cons.1 h with rfl | h
    · simpa using hg.2.1
    · rcases List.mem_append.1 h with h | h
      · exact hq hg.2.2.2.1 _ _ g h
      · exact hr hg.2.2.2.2 _ _ g h

open Classical in
/-- A decoration with structure that lists each staff once is read as it is. -/
theorem readDeco_seq (sl : List Nat) (hs : sl.Nodup) (h2 : 2 ≤ sl.length) (q : DSeq) (hg : q.Good) (hp : q.staves.Perm sl) (text : Str)
    (ht : lexDeco .idle text = q.toks) :
    readDeco sl text = .ok (some ((if ∃ s b j, q = .grp s b j .nil then [] else [⟨.none, false, List.range sl.length⟩]) ++ q.descs.map (descOut sl))) := by
  have hlen := hp.length_eq
  have hm : ∀ n ∈ q.staves, n ∈ sl := fun n h => hp.mem_iff.1 h
  have hq0 : q ≠ .nil := by
    intro e
    rw [e] at hlen
    simp [DSeq.staves] at hlen
    omega
  unfold readDeco
  rw [ht, if_neg (toks_ne_nil hg hq0)]
  dsimp only
  rw [clean_id sl hg hm (by omega), if_neg (by rw [countP_staff, stavesListed_toks]; omega)]
  obtain ⟨pair, p1, p2, -⟩ := pairAll_seq q
  rw [p1]
  dsimp only
  have hlast := (last_pair pair q 0 hq0 hg p2).1
  rw [Nat.zero_add] at hlast
  have hids : (q.staves.map sl.idxOf).Perm (List.range sl.length) := (hp.map _).trans (List.Perm.of_eq (map_idxOf_self hs))
  have hcount : ((List.range sl.length).all fun k => (q.staves.map sl.idxOf).count k == 1) = true := by
    rw [List.all_eq_true]
    intro k hk
    rw [hids.count_eq, List.count_eq_one_of_mem List.nodup_range hk]
    rfl
  have hwalk := readWalk_seq pair sl q
  have hidsort : (q.staves.map sl.idxOf).insertionSort (· ≤ ·) = List.range sl.length := by
    rw [insertionSort_congr hids, sort_id List.pairwise_lt_range]
  by_cases ho : ∃ s b j, q = .grp s b j .nil
  · rw [if_pos ho]
    have : decide (pair (q.toks.length - 1) = some 0) = true := by simpa using hlast.2 ho
    rw [this]
    show (if ((List.range sl.length).all fun k => (readWalk pair sl 0 q.toks ⟨[], fun _ => none, [], [], false⟩).seen.count k == 1) = true then _ else _) = _
    obtain ⟨D', w, -⟩ := hwalk 0 [] [] (fun _ => none) [] [] hg p2 hm (by simp) (by simp [closesSymbol])
    rw [List.append_nil] at w
    have w' : readWalk pair sl 0 q.toks (readStart true) = ⟨groupsOf sl 0 [] q, D', [], q.staves.map sl.idxOf, false⟩ := by
      show readWalk pair sl 0 q.toks ⟨[], fun _ => none, [], [], false⟩ = _
      rw [w]; rfl
    have w'' : readWalk pair sl 0 q.toks ⟨[], fun _ => none, [], [], false⟩ = _ := w'
    rw [w'', if_pos hcount, w']
    dsimp only
    have hany : ((groupsOf sl 0 [] q).drop 1).any (fun g => g.ids.isEmpty) = false := by
      rw [List.any_eq_false]
      intro g hgm
      have := groupsOf_ids sl q hg 0 [] g (List.mem_of_mem_drop hgm)
      simpa using this
    rw [hany, groupsOf_out]
    rfl
  · rw [if_neg ho]
    have : decide (pair (q.toks.length - 1) = some 0) = false := by
      rw [decide_eq_false_iff_not]
      exact fun e => ho (hlast.1 e)
    rw [this]
    obtain ⟨D', w, -⟩ := hwalk 0 [] [⟨.none, false, [], []⟩] (fun _ => none) [0] [] hg p2 hm (by simp) (by simp [closesSymbol])
    rw [List.append_nil] at w
    have w' : readWalk pair sl 0 q.toks (readStart false) = ⟨⟨.none, false, [], q.staves.map sl.idxOf⟩ :: groupsOf sl 1 [0] q, D', [0], q.staves.map sl.idxOf, false⟩ := by
      show readWalk pair sl 0 q.toks ⟨[⟨.none, false, [], []⟩], fun _ => none, [0], [], false⟩ = _
      rw [w]; rfl
    rw [w']
    dsimp only
    rw [if_pos hcount]
    have hany : ((⟨.none, false, [], q.staves.map sl.idxOf⟩ :: groupsOf sl 1 [0] q : List RGroup).drop 1).any (fun g => g.ids.isEmpty) = false := by
      rw [List.any_eq_false]
      intro g hgm
      have := groupsOf_ids sl q hg 1 [0] g hgm
      simpa using this
    rw [hany, List.map_cons, groupsOf_out]
    show Except.ok (some ((⟨.none, false, (q.staves.map sl.idxOf).insertionSort (· ≤ ·)⟩ : ReadGroup) :: _)) = _
    rw [hidsort]
    rfl

/-! ## The exported decoration has structure -/

/-- An entry with its staves in order. -/
def descKey (d : GSym × Bool × List Nat) : GSym × Bool × List Nat := (d.1, d.2.1, d.2.2.insertionSort (· ≤ ·))
/-- A group as an entry. -/
def groupKey (g : SGroup) : GSym × Bool × List Nat := (g.sym, g.bar, g.nums)

/-- The pieces, without commas, are a structured decoration with exactly the visible ones of the groups. -/
structure SeqOf (ts : List DTok) (gl : List SGroup) (q : DSeq) : Prop where
  toks : noComma ts = q.toks
  good : q.Good
  descs : (q.descs.map descKey).Perm ((gl.filter SGroup.visible).map groupKey)

theorem SeqOf.append {a b : List DTok} {ga gb : List SGroup} {p q : DSeq} (ha : SeqOf a ga p) (hb : SeqOf b gb q) : SeqOf (a ++ b) (ga ++ gb) (p.app q) := by
  refine ⟨by rw [noComma_append, ha.toks, hb.toks, app_toks], app_good ha.good hb.good, ?_⟩
  rw [app_descs, List.map_append, List.filter_append, List.map_append]
  exact ha.descs.append hb.descs

theorem noComma_opt (i : Nat) : noComma (if 0 < i then [DTok.comma] else []) = [] := by split <;> rfl

theorem noComma_staff (n : Nat) (ts : List DTok) : noComma (.staff n :: ts) = .staff n :: noComma ts := by simp [noComma]

theorem seqOf_staves {ts : List DTok} {ns : List Nat} (h : noComma ts = ns.map DTok.staff) : SeqOf ts [] (staffSeq ns) := by
  obtain ⟨h1, -, h3, h4⟩ := staffSeq_facts ns
  exact ⟨by rw [h, h1], h4, by rw [h3]; exact List.Perm.refl _⟩

theorem before_noComma (low : Nat) (todo sorted : List Nat) : ∀ i, noComma (stavesBefore low todo i sorted).1 = (stavesBefore low todo i sorted).2.map DTok.staff := by
  induction sorted with
  | nil => intro i; rfl
  | cons n ns ih =>
    intro i
    unfold stavesBefore
    by_cases hl : low ≤ n
    · rw [if_pos hl]; rfl
    · rw [if_neg hl]
      by_cases ht : (!todo.contains n) = true
      · rw [if_pos ht]; exact ih (i + 1)
      · rw [if_neg ht]
        dsimp only
        rw [noComma_append, noComma_opt, List.nil_append, noComma_staff, ih (i + 1), List.map_cons]

theorem end_noComma (ns : List Nat) : ∀ i, noComma (stavesAtEnd i ns) = ns.map DTok.staff := by
  induction ns with
  | nil => intro i; rfl
  | cons n ns ih =>
    intro i
    unfold stavesAtEnd
    rw [noComma_append, noComma_opt, List.nil_append, noComma_staff, ih (i + 1), List.map_cons]

theorem children_seq (sorted : List Nat) (cs : List SGTree) (h : ∀ c ∈ cs, ∃ q, SeqOf (decoTree c).1 c.groups q) : ∀ todo : List Nat,
    ∃ q, SeqOf (decoChildren sorted todo cs).toks (groupsList cs) q := by
  induction cs with
  | nil => intro todo; exact ⟨.nil, by unfold decoChildren; rfl, trivial, List.Perm.refl _⟩
  | cons c cs ih =>
    intro todo
    obtain ⟨qc, hc⟩ := h c List.mem_cons_self
    unfold decoChildren
    dsimp only
    obtain ⟨qr, hr⟩ := ih (fun d hd => h d (List.mem_cons_of_mem _ hd))
      ((todo.filter (fun n => !(stavesBefore c.group.lowest todo 0 sorted).2.contains n)).filter (fun n => !(decoTree c).2.contains n))
    have hb := seqOf_staves (before_noComma c.group.lowest todo sorted 0)
    exact ⟨_, (hb.append hc).append hr⟩

theorem visible_iff (g : SGroup) : g.visible = true ↔ (g.sym.delim ≠ none ∨ g.bar = true) := by
  obtain ⟨s, b, n⟩ := g
  cases s <;> cases b <;> simp [SGroup.visible, GSym.delim]

theorem invisible_brackets {g : SGroup} (h : g.visible = false) : preToks g = [] ∧ postToks g = [] := by
  obtain ⟨s, b, n⟩ := g
  cases s <;> cases b <;> simp [SGroup.visible] at h <;> exact ⟨rfl, rfl⟩

theorem noComma_pre (g : SGroup) : noComma (preToks g) = preOf g.sym g.bar := by
  obtain ⟨s, b, n⟩ := g
  cases s <;> cases b <;> rfl

theorem noComma_post (g : SGroup) : noComma (postToks g) = postOf g.sym g.bar := by
  obtain ⟨s, b, n⟩ := g
  cases s <;> cases b <;> rfl

theorem mem_groupsList {cs : List SGTree} {g : SGroup} (h : g ∈ groupsList cs) : ∃ c ∈ cs, g ∈ c.groups := by
  rw [groupsList_eq] at h
  exact List.mem_flatMap.1 h

theorem stavesListed_noComma (ts : List DTok) : stavesListed (noComma ts) = stavesListed ts := by
  induction ts with
  | nil => rfl
  | cons t ts ih =>
    cases t with
    | comma => have : noComma (.comma :: ts) = noComma ts := by simp [noComma]
               rw [this, ih]; rfl
    | staff n => rw [noComma_staff, stavesListed, ih]; rfl
    | op d => have : noComma (.op d :: ts) = .op d :: noComma ts := by simp [noComma]
              rw [this]; exact ih
    | cl d => have : noComma (.cl d :: ts) = .cl d :: noComma ts := by simp [noComma]
              rw [this]; exact ih

theorem decoTree_seq (t : SGTree) (h : TreeOk t) : ∃ q, SeqOf (decoTree t).1 t.groups q := by
  induction h with
  | node g cs hset hcs hsub hstrict hdis hlow ih =>
    have htree := decoTree_ok (.node g cs) (TreeOk.node g cs hset hcs hsub hstrict hdis hlow)
    obtain ⟨qc, hc⟩ := children_seq g.nums cs ih g.nums
    have he := seqOf_staves (end_noComma (decoChildren g.nums g.nums cs).todo 0)
    have hbody := hc.append he
    rw [List.append_nil] at hbody
    generalize hq0 : qc.app (staffSeq (decoChildren g.nums g.nums cs).todo) = q0 at hbody
    have ht : (decoTree (.node g cs)).1 = preToks g ++ ((decoChildren g.nums g.nums cs).toks ++ stavesAtEnd 0 (decoChildren g.nums g.nums cs).todo) ++ postToks g := by
      rw [decoTree, if_neg hset.nonempty]
      simp
    have hst : q0.staves.Perm g.nums := by
      have h1 : stavesListed (decoTree (.node g cs)).1 = q0.staves := by
        rw [ht, stavesListed_append, stavesListed_append, ← stavesListed_noComma (preToks g), ← stavesListed_noComma (postToks g),
          ← stavesListed_noComma (_ ++ stavesAtEnd _ _), noComma_pre, noComma_post, hbody.toks, stavesListed_toks]
        have h2 : stavesListed (preOf g.sym g.bar) = [] := by cases g.sym <;> cases g.bar <;> rfl
        have h3 : stavesListed (postOf g.sym g.bar) = [] := by cases g.sym <;> cases g.bar <;> rfl
        rw [h2, h3]; simp
      rw [← h1, htree.listed]
      exact htree.perm
    by_cases hv : g.visible = true
    · refine ⟨.grp g.sym g.bar q0 .nil, ?_, ⟨(visible_iff g).1 hv, ?_, ?_, hbody.good, trivial⟩, ?_⟩
      · rw [ht, noComma_append, noComma_append, noComma_pre, noComma_post, hbody.toks, DSeq.toks]
        simp [DSeq.toks]
      · intro e
        rw [e] at hst
        exact hset.nonempty hst.nil_eq.symm
      · rintro - ⟨s, j, e, hd⟩
        have hmem : (s, true, j.staves) ∈ q0.descs := by rw [e]; exact List.mem_cons_self
        have hk := hbody.descs.mem_iff.1 (List.mem_map_of_mem (f := descKey) hmem)
        obtain ⟨g', hg', hkey⟩ := List.mem_map.1 hk
        have hg'' := (List.mem_filter.1 hg').1
        obtain ⟨c, hcm, hgc⟩ := mem_groupsList hg''
        obtain ⟨n, hn, hnc⟩ := hstrict c hcm
        apply hnc
        refine groups_sub_tree c (hcs c hcm) g' hgc n ?_
        have hnums : g'.nums = j.staves.insertionSort (· ≤ ·) := by
          have := congrArg (fun x => x.2.2) hkey
          exact this
        rw [hnums, (List.perm_insertionSort _ _).mem_iff]
        have hs2 : q0.staves = j.staves := by rw [e]; simp [DSeq.staves]
        rw [← hs2]
        exact hst.mem_iff.2 hn
      · rw [SGTree.groups, List.filter_cons, if_pos hv, DSeq.descs, List.map_cons, List.map_cons]
        have hk : descKey (g.sym, g.bar, q0.staves) = groupKey g := by
          unfold descKey groupKey
          dsimp only
          rw [insertionSort_congr hst, sort_id hset.sorted]
        rw [hk]
        refine List.Perm.cons _ ?_
        have : q0.descs ++ DSeq.nil.descs = q0.descs := by simp [DSeq.descs]
        rw [this]
        exact hbody.descs
    · have hv' : g.visible = false := by simpa using hv
      obtain ⟨e1, e2⟩ := invisible_brackets hv'
      refine ⟨q0, ?_, hbody.good, ?_⟩
      · rw [ht, e1, e2, List.nil_append, List.append_nil]; exact hbody.toks
      · rw [SGTree.groups, List.filter_cons, if_neg hv]; exact hbody.descs

theorem decoForest_seq (ts : List SGTree) (h : ∀ t ∈ ts, TreeOk t) : ∃ q, SeqOf (decoForest ts) (groupsList ts) q := by
  induction ts with
  | nil => exact ⟨.nil, rfl, trivial, List.Perm.refl _⟩
  | cons t ts ih =>
    obtain ⟨q1, h1⟩ := decoTree_seq t (h t List.mem_cons_self)
    obtain ⟨q2, h2⟩ := ih (fun x hx => h x (List.mem_cons_of_mem _ hx))
    refine ⟨q1.app q2, ?_⟩
    have : decoForest (t :: ts) = (decoTree t).1 ++ decoForest ts := by unfold decoForest; rw [List.flatMap_cons]
    rw [this, groupsList]
    exact h1.append h2

/-- The group that is read for a group in the form of an entry. -/
theorem descOut_key (sl : List Nat) (d : GSym × Bool × List Nat) : descOut sl d = descOut sl (descKey d) := by
  unfold descOut descKey
  dsimp only
  rw [insertionSort_congr ((List.perm_insertionSort (· ≤ ·) d.2.2).map sl.idxOf)]

/-- C68: staff groups that are nested or disjoint, with different staves, and that together have all the staves (at least two), are read back from the exported
system decoration: the same symbols, barlines and staves; only an invisible group around everything is added, if no visible group has all staves. -/
theorem decoration_roundtrip (gs : List SGroup) (staffList : List Nat) (h : Nested gs) (hs : staffList.Nodup) (h2 : 2 ≤ staffList.length)
    (hcover : ∀ n, n ∈ staffList ↔ ∃ g ∈ gs, n ∈ g.nums) :
    ∃ out, readDeco staffList (systemDecoration gs) = .ok (some (addedRoot staffList gs ++ out)) ∧
      out.Perm ((gs.filter SGroup.visible).map (SGroup.readBack staffList)) := by
  obtain ⟨f1, -, f3⟩ := forestOf_ok (sortBySize_nested h)
  have hperm := every_group_once gs h
  obtain ⟨d1, d2, d3⟩ := decoration_lists_once gs h
  obtain ⟨q, hq⟩ := decoForest_seq (staffGroupTrees gs) f1
  have hst : stavesListed (decoForest (staffGroupTrees gs)) = q.staves := by rw [← stavesListed_noComma, hq.toks, stavesListed_toks]
  rw [hst] at d2 d3
  have hp : q.staves.Perm staffList := (List.perm_ext_iff_of_nodup d2 hs).2 (fun n => by rw [d3, hcover])
  have hlex : lexDeco .idle (systemDecoration gs) = q.toks := by
    unfold systemDecoration
    rw [lex_text, hq.toks]; rfl
  have hdescs : (q.descs.map descKey).Perm ((gs.filter SGroup.visible).map groupKey) := hq.descs.trans ((hperm.filter _).map _)
  refine ⟨q.descs.map (descOut staffList), ?_, ?_⟩
  · rw [readDeco_seq staffList hs h2 q hq.good hp _ hlex]
    congr 3
    unfold addedRoot
    have hiff : (∃ s b j, q = .grp s b j .nil) ↔ ∃ g ∈ gs, g.visible = true ∧ ∀ n ∈ staffList, n ∈ g.nums := by
      rw [← covers_iff hq.good d2]
      constructor
      · rintro ⟨d, hd, hc⟩
        obtain ⟨g, hg, hk⟩ := List.mem_map.1 (hdescs.mem_iff.1 (List.mem_map_of_mem (f := descKey) hd))
        rw [List.mem_filter] at hg
        refine ⟨g, hg.1, hg.2, ?_⟩
        intro n hn
        have hnums : g.nums = d.2.2.insertionSort (· ≤ ·) := congrArg (fun x => x.2.2) hk
        rw [hnums, (List.perm_insertionSort _ _).mem_iff]
        exact hc n (hp.mem_iff.2 hn)
      · rintro ⟨g, hg, hv, hc⟩
        obtain ⟨d, hd, hk⟩ := List.mem_map.1 (hdescs.mem_iff.2 (List.mem_map_of_mem (f := groupKey) (List.mem_filter.2 ⟨hg, hv⟩)))
        refine ⟨d, hd, ?_⟩
        intro n hn
        have hnums : d.2.2.insertionSort (· ≤ ·) = g.nums := congrArg (fun x => x.2.2) hk
        have := hc n (hp.mem_iff.1 hn)
        rw [← hnums, (List.perm_insertionSort _ _).mem_iff] at this
        exact this
    by_cases ho : ∃ s b j, q = .grp s b j .nil
    · rw [if_pos ho, if_pos (hiff.1 ho)]
    · rw [if_neg ho, if_neg (fun e => ho (hiff.2 e))]
  · have e1 : q.descs.map (descOut staffList) = (q.descs.map descKey).map (descOut staffList) := by
      rw [List.map_map]
      exact List.map_congr_left (fun d _ => descOut_key staffList d)
    have e2 : (gs.filter SGroup.visible).map (SGroup.readBack staffList) = ((gs.filter SGroup.visible).map groupKey).map (descOut staffList) := by
      rw [List.map_map]; rfl
    rw [e1, e2]
    exact hdescs.map _

example : ∃ out, readDeco [4, 3, 2, 1] (systemDecoration [⟨.bracket, true, [1, 2, 3, 4]⟩, ⟨.brace, false, [3, 4]⟩, ⟨.line, true, [1, 2]⟩]) = .ok (some out) ∧
    out = [⟨.bracket, true, [0, 1, 2, 3]⟩, ⟨.none, true, [2, 3]⟩, ⟨.brace, false, [0, 1]⟩] := ⟨_, by decide +kernel, rfl⟩

/-- A staff outside every group: the exported decoration is not used at all, and the groups are lost. -/
theorem ungrouped_staff_loses_groups : readDeco [1, 2, 3] (systemDecoration [⟨.brace, true, [1, 2]⟩]) = .ok none := by decide +kernel

/-- A group whose staves are not in the score, inside three brackets: the import fails. -/
theorem empty_group_crashes : readDeco [1, 2] "[[[[s9]]]s1,s2]".toList = .error .indexError := by decide +kernel

end C21
