import Verif.Model.PyNum
/-
Specification: what a line of spine manipulators does, in the terms of the Humdrum syntax.
A line is read as a sequence of groups; `*v` groups are maximal.
-/
namespace C21

/-- One group of tokens of a line. -/
inductive Group where
  /-- an ordinary token -/
  | keep (t : Str)
  /-- `*^` -/
  | split
  /-- n adjacent `*v` -/
  | merge (n : Nat)
  /-- `*x *x` -/
  | swap
  /-- `*+` -/
  | add
  /-- `*-` -/
  | stop
  /-- `**name` -/
  | excl (t : Str)
deriving DecidableEq, Repr

/-- The tokens of a group. -/
def Group.text : Group → List Str
  | .keep t => [t]
  | .split => ["*^".toList]
  | .merge n => List.replicate n "*v".toList
  | .swap => ["*x".toList, "*x".toList]
  | .add => ["*+".toList]
  | .stop => ["*-".toList]
  | .excl t => [t]

/-- How many spines the group takes and how many it leaves. -/
def Group.takes : Group → Nat
  | .merge n => n
  | .swap => 2
  | _ => 1
def Group.leaves : Group → Nat
  | .split => 2 | .swap => 2 | .add => 2 | .stop => 0 | _ => 1

/-- A group is well formed: an ordinary token is no manipulator, a merge has at least two tokens, an exclusive
interpretation starts with `**`. -/
def Group.Ok : Group → Prop
  | .keep t => t ∉ ["*^".toList, "*v".toList, "*+".toList, "*x".toList, "*-".toList] ∧
      ("**".toList).isPrefixOf t = false
  | .merge n => 2 ≤ n
  | .excl t => ("**".toList).isPrefixOf t = true
  | _ => True

/-- The tokens of a line of groups. -/
def lineText (gs : List Group) : List Str := gs.flatMap Group.text

/-- A line of groups: each well formed, no two merges adjacent (they would be one). -/
def LineOk : List Group → Prop
  | [] => True
  | [g] => g.Ok
  | g :: h :: gs => g.Ok ∧ ¬ ((∃ n, g = .merge n) ∧ ∃ m, h = .merge m) ∧ LineOk (h :: gs)

/-- A spine: its track, its place in the tree of splits of that track (the last split first; false is left),
and its data type. -/
structure Spine where
  track : Nat
  path : List Bool
  type : Str
deriving DecidableEq, Repr

/-- The description of a spine: "3", "(3)a", "((3)a)b", ... -/
def describe (track : Nat) : List Bool → Str
  | [] => natStr track
  | b :: p => '(' :: describe track p ++ [')', if b then 'b' else 'a']

/-- A tree of splits. -/
inductive Tree where
  | leaf
  | node (l r : Tree)

/-- The places of the sub-spines of a split tree standing at place `p`, left to right. -/
def Tree.places : Tree → List Bool → List (List Bool)
  | .leaf, p => [p]
  | .node l r, p => l.places (false :: p) ++ r.places (true :: p)

/-- What the groups do to the spines; `n` is the number of tracks so far. A merge must join all the
sub-spines into which one spine was split, and gives back that spine. -/
inductive Moves : Nat → List Group → List Spine → List Spine → Nat → Prop where
  | nil {n} : Moves n [] [] [] n
  | keep {n t gs s ss rs m} : Moves n gs ss rs m → Moves n (.keep t :: gs) (s :: ss) (s :: rs) m
  | split {n gs s ss rs m} : Moves n gs ss rs m →
      Moves n (.split :: gs) (s :: ss)
        ({ s with path := false :: s.path } :: { s with path := true :: s.path } :: rs) m
  | merge {n gs t l r p ty ss rs m} : Moves n gs ss rs m →
      Moves n (.merge ((Tree.node l r).places p).length :: gs)
        (((Tree.node l r).places p).map (fun q => ⟨t, q, ty⟩) ++ ss) (⟨t, p, ty⟩ :: rs) m
  | swap {n gs s s' ss rs m} : Moves n gs ss rs m →
      Moves n (.swap :: gs) (s :: s' :: ss) (s' :: s :: rs) m
  | add {n gs s ss rs m} : Moves (n + 1) gs ss rs m →
      Moves n (.add :: gs) (s :: ss) (s :: ⟨n + 1, [], []⟩ :: rs) m
  | stop {n gs s ss rs m} : Moves n gs ss rs m → Moves n (.stop :: gs) (s :: ss) rs m
  | excl {n t gs s ss rs m} : Moves n gs ss rs m →
      Moves n (.excl t :: gs) (s :: ss) ({ s with type := t } :: rs) m

/-- Exclusive interpretations appear only for a spine added by `*+` and not yet named; at most one such spine is
waiting at any time. The argument says whether one is waiting before the line, the result (if the line is
correct) whether one is after it. -/
def waiting : Bool → List Group → Option Bool
  | w, [] => some w
  | w, .add :: gs => if w then none else waiting true gs
  | w, .excl _ :: gs => if w then waiting false gs else none
  | w, _ :: gs => waiting w gs

/-- The number of spines after the line. -/
def leavesOf (gs : List Group) : Nat := (gs.map Group.leaves).sum
def takesOf (gs : List Group) : Nat := (gs.map Group.takes).sum

/-- The spines of a first line of exclusive interpretations. -/
def openSpines (tokens : List Str) : List Spine := tokens.zipIdx.map (fun p => ⟨p.2 + 1, [], p.1⟩)

/-- A file is given as its lines: `none` for a line without spines (empty or global comment), otherwise the
tokens. `FileRun s lines ds s'`: the file is a correct sequence of lines from spine state `s` (none before the first
exclusive interpretation) to `s'`, and `ds` are the spine descriptions of the tokens of each line. -/
inductive FileRun : Option (List Spine × Nat × Bool) → List (Option (List Str)) → List (List Str) →
    Option (List Spine × Nat × Bool) → Prop where
  | nil {s} : FileRun s [] [] s
  | skip {s ls ds s'} : FileRun s ls ds s' → FileRun s (none :: ls) ([] :: ds) s'
  | start {toks ls ds s'} : (∃ t ∈ toks, ("**".toList).isPrefixOf t = true) →
      FileRun (some (openSpines toks, toks.length, false)) ls ds s' →
      FileRun none (some toks :: ls) ((openSpines toks).map (fun s => describe s.track s.path) :: ds) s'
  | line {ss n w gs rs m w' ls ds s'} : LineOk gs → Moves n gs ss rs m → waiting w gs = some w' →
      FileRun (some (rs, m, w')) ls ds s' →
      FileRun (some (ss, n, w)) (some (lineText gs) :: ls) (ss.map (fun s => describe s.track s.path) :: ds) s'

/-- The token counts of a file are the prescribed ones. `tail` is a list of extra tokens allowed at the end
of a line (`[[]]` for none). -/
inductive FileCounts (tail : List (List Str)) : Option Nat → List (Option (List Str)) → Prop where
  | nil {k} : FileCounts tail k []
  | skip {k ls} : FileCounts tail k ls → FileCounts tail k (none :: ls)
  | start {toks ls} : FileCounts tail (some toks.length) ls → FileCounts tail none (some toks :: ls)
  | line {gs extra ls} : LineOk gs → extra ∈ tail → FileCounts tail (some (leavesOf gs)) ls →
      FileCounts tail (some (takesOf gs + extra.length)) (some (lineText gs ++ extra) :: ls)

/-- The connections the groups make: (field on this line, field on the next line). -/
def connections : Nat → Nat → List Group → List (Nat × Nat)
  | _, _, [] => []
  | i, j, g :: gs =>
    (match g with
     | .keep _ => [(i, j)]
     | .split => [(i, j), (i, j + 1)]
     | .merge n => (List.range n).map (fun k => (i + k, j))
     | .swap => [(i + 1, j), (i, j + 1)]
     | .add => [(i, j)]
     | .stop => []
     | .excl _ => [(i, j)]) ++ connections (i + g.takes) (j + g.leaves) gs

/-- The fields of the next line which hold newly added spines. -/
def addedFields : Nat → List Group → List Nat
  | _, [] => []
  | j, g :: gs => (if g = .add then [j + 1] else []) ++ addedFields (j + g.leaves) gs

/-- Two consecutive elements of a list. -/
def Consecutive {α : Type} (l : List α) (a b : α) : Prop := ∃ pre post, l = pre ++ a :: b :: post

/-- The fields from `i` on that hold `*-`. -/
def stopFields (li : Nat) : Nat → List Str → List (Nat × Nat)
  | _, [] => []
  | i, t :: ts => (if t = "*-".toList then [(li, i)] else []) ++ stopFields li (i + 1) ts

/-- All terminators of a file after its first line of exclusive interpretations, as (line, field), in order. -/
def stopsOf : Nat → Bool → List (Option (List Str)) → List (Nat × Nat)
  | _, _, [] => []
  | li, b, none :: ls => stopsOf (li + 1) b ls
  | li, false, some _ :: ls => stopsOf (li + 1) true ls
  | li, true, some ts :: ls => stopFields li 0 ts ++ stopsOf (li + 1) true ls

end C21
