import Verif.Model.PyNum
import Verif.Model.PyStr
import Mathlib.Data.List.Sort
/-
Staff groups written as a system decoration: humdrum/humdrumwriter.py:838-930, shared/m21utilities.py:105-121 and 1735-1794.
-/
namespace C21

/-- The symbol of a staff group (music21's `StaffGroup.symbol`); `none` stands for every symbol that is not in the table of m21convert.py:96-108. -/
inductive GSym
  | brace | bracket | square | line | none
  deriving DecidableEq

/-- m21utilities.py:105-121 `M21StaffGroupTree` without its children: the symbol, whether barlines go through, and the numbers of the staves. The set of
numbers is modelled by the list of its elements in increasing order. -/
structure SGroup where
  sym : GSym
  bar : Bool
  nums : List Nat
  deriving DecidableEq

/-- A tree of staff groups. -/
inductive SGTree
  | node (g : SGroup) (children : List SGTree)

/-- The group at the root. -/
def SGTree.group : SGTree → SGroup
  | .node g _ => g

/-- m21utilities.py:118 `min(self.staffNums)`. -/
def SGroup.lowest (g : SGroup) : Nat := g.nums.headD 0

/-! ### The trees -/

/-- m21utilities.py:1756-1781: the first other group, in order of size, that has all the staves of the `i`-th and is not already a child of it; for the last
group only if there is a group without parent. -/
def smallestParent (gs : List SGroup) (children : Nat → List Nat) (top : List Nat) (i : Nat) : Option Nat :=
  (List.range gs.length).find? fun j =>
    decide (j ≠ i) && !(children i).contains j && (decide (i + 1 < gs.length) || !top.isEmpty) &&
      ((gs[i]?.map (·.nums)).getD []).all (fun n => ((gs[j]?.map (·.nums)).getD []).contains n)

/-- The variables of the loop: the children of each group, and the groups without parent. -/
structure ForestVars where
  children : Nat → List Nat
  top : List Nat

/-- m21utilities.py:1783-1786: one round of the loop. -/
def forestStep (gs : List SGroup) (v : ForestVars) (i : Nat) : ForestVars :=
  match smallestParent gs v.children v.top i with
  | none => { v with top := v.top ++ [i] }
  | some p => { v with children := fun j => if j = p then v.children j ++ [i] else v.children j }

/-- m21utilities.py:1755-1786: the loop. -/
def forestLoop (gs : List SGroup) : ForestVars := (List.range gs.length).foldl (forestStep gs) ⟨fun _ => [], []⟩

/-- m21utilities.py:1750: the groups in order of size (a stable sort). -/
def sortBySize (gs : List SGroup) : List SGroup := gs.insertionSort (fun a b => a.nums.length ≤ b.nums.length)

/-- m21utilities.py:1802: siblings in order of their lowest staff (a stable sort). -/
def sortByLowest (gs : List SGroup) (is : List Nat) : List Nat :=
  is.insertionSort (fun i j => (gs.getD i ⟨.none, false, []⟩).lowest ≤ (gs.getD j ⟨.none, false, []⟩).lowest)

/-- The tree at the `i`-th group, to the depth `fuel` (the Python objects are linked; the number of groups is enough). -/
def treeAt (gs : List SGroup) (children : Nat → List Nat) : Nat → Nat → SGTree
  | 0, i => .node (gs.getD i ⟨.none, false, []⟩) []
  | fuel + 1, i => .node (gs.getD i ⟨.none, false, []⟩) ((sortByLowest gs (children i)).map (treeAt gs children fuel))

/-- The forest of groups that are already in order of size. -/
def forestOf (gs : List SGroup) : List SGTree :=
  (sortByLowest gs (forestLoop gs).top).map (treeAt gs (forestLoop gs).children gs.length)

/-- m21utilities.py:1735-1794 `getStaffGroupTrees`. -/
def staffGroupTrees (gs : List SGroup) : List SGTree := forestOf (sortBySize gs)

/-! ### The text -/

/-- The kinds of brackets. -/
inductive Delim
  | paren | brace | bracket | square
  deriving DecidableEq

/-- The pieces of a decoration. -/
inductive DTok
  | op (d : Delim)
  | cl (d : Delim)
  | comma
  | staff (n : Nat)
  deriving DecidableEq

/-- m21convert.py:96-101: the bracket of a symbol. -/
def GSym.delim : GSym → Option Delim
  | .brace => some .brace
  | .bracket => some .bracket
  | .square => some .square
  | .line => Option.none
  | .none => Option.none

/-- humdrumwriter.py:879-887: `preString`. -/
def preToks (g : SGroup) : List DTok :=
  (g.sym.delim.map DTok.op).toList ++ (if g.bar then [.op .paren] else [])

/-- humdrumwriter.py:879-887: `postString`. -/
def postToks (g : SGroup) : List DTok :=
  (if g.bar then [.cl .paren] else []) ++ (g.sym.delim.map DTok.cl).toList

/-- humdrumwriter.py:898-911: the staves before a subgroup whose lowest staff is `low`: the pieces, and the numbers. `i` is the index in the sorted list,
`todo` the staves still to be processed. -/
def stavesBefore (low : Nat) (todo : List Nat) : Nat → List Nat → List DTok × List Nat
  | _, [] => ([], [])
  | i, n :: ns =>
    if low ≤ n then ([], [])
    else if !todo.contains n then stavesBefore low todo (i + 1) ns
    else ((if 0 < i then [.comma] else []) ++ .staff n :: (stavesBefore low todo (i + 1) ns).1, n :: (stavesBefore low todo (i + 1) ns).2)

/-- humdrumwriter.py:921-927: the staves at the end. -/
def stavesAtEnd : Nat → List Nat → List DTok
  | _, [] => []
  | i, n :: ns => (if 0 < i then [.comma] else []) ++ .staff n :: stavesAtEnd (i + 1) ns

/-- What the loop over the subgroups gives: the pieces, the staves still to be processed, the staves processed. -/
structure DecoPart where
  toks : List DTok
  todo : List Nat
  nums : List Nat

mutual

/-- humdrumwriter.py:866-930 `_appendRecursiveDecoString`: the pieces appended, and the staff numbers returned. -/
def decoTree : SGTree → List DTok × List Nat
  | .node g children =>
    if g.nums = [] then ([], [])
    else
      (preToks g ++ (decoChildren g.nums g.nums children).toks ++ stavesAtEnd 0 (decoChildren g.nums g.nums children).todo ++ postToks g,
        (decoChildren g.nums g.nums children).nums ++ (decoChildren g.nums g.nums children).todo)

/-- humdrumwriter.py:895-918: the loop over the subgroups. -/
def decoChildren (sorted : List Nat) (todo : List Nat) : List SGTree → DecoPart
  | [] => ⟨[], todo, []⟩
  | c :: cs =>
    let before := stavesBefore c.group.lowest todo 0 sorted
    let sub := decoTree c
    let rest := decoChildren sorted ((todo.filter (fun n => !before.2.contains n)).filter (fun n => !sub.2.contains n)) cs
    ⟨before.1 ++ sub.1 ++ rest.toks, rest.todo, before.2 ++ sub.2 ++ rest.nums⟩

end

/-- humdrumwriter.py:838-864 `_getSystemDecoration`, as pieces. -/
def decoForest (ts : List SGTree) : List DTok := ts.flatMap fun t => (decoTree t).1

/-- The characters of a bracket: m21convert.py:96-108, humdrumwriter.py:886-887. -/
def Delim.opChar : Delim → Char
  | .paren => '(' | .brace => '{' | .bracket => '[' | .square => '<'
def Delim.clChar : Delim → Char
  | .paren => ')' | .brace => '}' | .bracket => ']' | .square => '>'

/-- The text of a piece. -/
def DTok.text : DTok → Str
  | .op d => [d.opChar]
  | .cl d => [d.clChar]
  | .comma => [',']
  | .staff n => 's' :: natStr n

/-- humdrumwriter.py:838-864 `_getSystemDecoration`. -/
def systemDecoration (gs : List SGroup) : Str := (decoForest (staffGroupTrees gs)).flatMap DTok.text

end C21
