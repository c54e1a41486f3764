import Verif.Model.Decoration
/-
The system decoration read back: humdrum/humdrumfile.py:11150-11590 and 11680-11830.
-/
namespace C21

/-! ### The pieces -/

/-- The bracket of a character. -/
def charDelim : Char → Option DTok
  | '(' => some (.op .paren) | '{' => some (.op .brace) | '[' => some (.op .bracket) | '<' => some (.op .square)
  | ')' => some (.cl .paren) | '}' => some (.cl .brace) | ']' => some (.cl .bracket) | '>' => some (.cl .square)
  | _ => none

/-- What is known about the number being read: nothing, the `s` only, or the value of the digits so far. -/
inductive Pend
  | idle
  | s
  | num (v : Nat)
  deriving DecidableEq

/-- The staff, if a number has been read. -/
def Pend.flush : Pend → List DTok
  | .num v => [.staff v]
  | .idle => []
  | .s => []

/-- One more digit. Digits that do not follow an `s` belong to no staff. -/
def Pend.digit (c : Char) : Pend → Pend
  | .idle => .idle
  | .s => .num (c.toNat - 48)
  | .num v => .num (v * 10 + (c.toNat - 48))

/-- humdrumfile.py:11339-11340 and 11514-11537: the characters of the decoration grouped into pieces, without the characters that are removed. Simplified: the
Python code keeps the string and walks over its characters; an `s` that is not followed by a digit is dropped here; the expansion of instrument classes, groups,
parts and `*` (11298-11352) is not modelled, as the exported decoration has none. -/
def lexDeco : Pend → Str → List DTok
  | p, [] => p.flush
  | p, c :: cs =>
    if isDig c then lexDeco (p.digit c) cs
    else if c = 's' then p.flush ++ lexDeco .s cs
    else p.flush ++ (charDelim c).toList ++ lexDeco .idle cs

/-! ### Cleaning -/

/-- `re.sub(r'\(\)', '', d)` and the like: the empty groups of one kind removed, from left to right. -/
def removeEmpty (k : Delim) : List DTok → List DTok
  | [] => []
  | [t] => [t]
  | a :: b :: ts => if a = .op k ∧ b = .cl k then removeEmpty k ts else a :: removeEmpty k (b :: ts)

/-- humdrumfile.py:11376-11380: one round of removals. -/
def removeEmpties (ts : List DTok) : List DTok := removeEmpty .square (removeEmpty .brace (removeEmpty .bracket (removeEmpty .paren ts)))

/-- A staff that is not in the score. -/
def staffKnown (staffList : List Nat) : DTok → Bool
  | .staff n => staffList.contains n
  | .op _ => true
  | .cl _ => true
  | .comma => false

/-- Is it a staff? -/
def DTok.isStaff : DTok → Bool
  | .staff _ => true
  | .op _ => false
  | .cl _ => false
  | .comma => false

/-- humdrumfile.py:11361-11395: staves that are not in the score removed, then the empty groups, twice; with one staff, the brackets. -/
def cleanDeco (staffList : List Nat) (ts : List DTok) : List DTok :=
  let d := removeEmpties (removeEmpties (ts.filter (staffKnown staffList)))
  if d.countP DTok.isStaff = 1 then d.filter DTok.isStaff else d

/-! ### Pairing -/

/-- The open brackets, innermost first, and the partners found. -/
structure PairVars where
  stack : List (Nat × Delim)
  pair : Nat → Option Nat

/-- humdrumfile.py:11419-11420. -/
def setPair (pair : Nat → Option Nat) (o i : Nat) : Nat → Option Nat := fun k => if k = i then some o else if k = o then some i else pair k

/-- humdrumfile.py:11406-11421: one piece; `none` if it is a close without open or with a different open. -/
def pairStep (v : PairVars) (i : Nat) : DTok → Option PairVars
  | .op d => some { v with stack := (i, d) :: v.stack }
  | .cl d =>
    match v.stack with
    | [] => none
    | (o, k) :: st => if k = d then some ⟨st, setPair v.pair o i⟩ else none
  | .staff _ => some v
  | .comma => some v

/-- humdrumfile.py:11406-11421: the loop. -/
def pairWalk : Nat → List DTok → PairVars → Option PairVars
  | _, [], v => some v
  | i, t :: ts, v =>
    match pairStep v i t with
    | none => none
    | some v' => pairWalk (i + 1) ts v'

/-- humdrumfile.py:11401-11436. Positions count pieces, not characters; only neighbouring brackets are compared, so this is the same. -/
def pairAll (ts : List DTok) : Option (Nat → Option Nat) :=
  match pairWalk 0 ts ⟨[], fun _ => none⟩ with
  | none => none
  | some v => if v.stack = [] then some v.pair else none

/-! ### The groups -/

/-- m21utilities.py:124-146 `M21StaffGroupDescriptionTree`. `above` is the chain of parents, nearest first (a parent is never changed after the group has been
made); groups are named by the order in which they are made. -/
structure RGroup where
  sym : GSym
  bar : Bool
  above : List Nat
  ids : List Nat
  deriving DecidableEq

/-- The variables of the walk: the groups in the order made, where they begin, the current group with its chain of parents, the staves seen, and whether the
next piece is to be skipped. -/
structure ReadVars where
  groups : List RGroup
  descs : Nat → Option Nat
  cur : List Nat
  seen : List Nat
  skip : Bool

/-- m21convert.py:90-94. -/
def delimSym : Delim → GSym
  | .brace => .brace
  | .bracket => .bracket
  | .square => .square
  | .paren => .none

/-- humdrumfile.py:11478-11483 and 11487-11493: a new group inside the current one. -/
def newGroup (v : ReadVars) (i : Nat) (sym : GSym) (bar skip : Bool) : ReadVars :=
  { groups := v.groups ++ [⟨sym, bar, v.cur, []⟩]
    descs := fun k => if k = i then some v.groups.length else v.descs k
    cur := v.groups.length :: v.cur
    seen := v.seen
    skip := skip }

/-- humdrumfile.py:11496-11500 and 11508-11512: back to the group around the one that begins at `o`. -/
def closeGroup (v : ReadVars) (o : Option Nat) : ReadVars :=
  { v with cur := ((o.bind v.descs).bind (fun k => v.groups[k]?)).elim [] RGroup.above }

/-- The id added to the staves of a group. -/
def RGroup.addIds (ids : List Nat) (g : RGroup) : RGroup := { g with ids := g.ids ++ ids }

/-- humdrumfile.py:11543-11548: the staves added to the current group and all above it. -/
def addAll (gs : List RGroup) (cur : List Nat) (ids : List Nat) : List RGroup := gs.mapIdx fun k g => if k ∈ cur then g.addIds ids else g

/-- Is the closing bracket one of `}]>`? -/
def closesSymbol : Option DTok → Bool
  | some (.cl .brace) => true
  | some (.cl .bracket) => true
  | some (.cl .square) => true
  | _ => false

/-- humdrumfile.py:11466-11550: one piece at position `i`; `next` is the piece after it. -/
def readStep (pair : Nat → Option Nat) (staffList : List Nat) (v : ReadVars) (i : Nat) (next : Option DTok) (t : DTok) : ReadVars :=
  if v.skip then { v with skip := false }
  else match t with
    | .op .paren => newGroup v i .none true false
    | .op d =>
      let both := decide (next = some (.op .paren)) && decide ((pair (i + 1)).map (· + 1) = pair i)
      newGroup v i (delimSym d) both both
    | .cl .paren =>
      if closesSymbol next && decide ((pair (i + 1)).map (· + 1) = pair i) then v else closeGroup v (pair i)
    | .cl _ => closeGroup v (pair i)
    | .staff n =>
      if staffList.contains n then
        { v with groups := addAll v.groups v.cur [staffList.idxOf n], seen := v.seen ++ [staffList.idxOf n] }
      else v
    | .comma => v

/-- humdrumfile.py:11466-11550: the walk. -/
def readWalk (pair : Nat → Option Nat) (staffList : List Nat) : Nat → List DTok → ReadVars → ReadVars
  | _, [], v => v
  | i, t :: ts, v => readWalk pair staffList (i + 1) ts (readStep pair staffList v i ts.head? t)

/-- humdrumfile.py:11455-11461: before the walk; there is a root if no group encloses everything. -/
def readStart (outer : Bool) : ReadVars :=
  if outer then ⟨[], fun _ => none, [], [], false⟩ else ⟨[⟨.none, false, [], []⟩], fun _ => none, [0], [], false⟩

/-- A staff group in the score: the symbol, whether barlines go through, the staves (indices into the list of staves, in increasing order). -/
structure ReadGroup where
  sym : GSym
  bar : Bool
  ids : List Nat
  deriving DecidableEq

/-- humdrumfile.py:11692-11694 and 11808-11810. -/
def RGroup.out (g : RGroup) : ReadGroup := ⟨g.sym, g.bar, g.ids.insertionSort (· ≤ ·)⟩

/-- humdrumfile.py:11294-11582, and the staff groups that 11640-11830 make from the tree. `none`: the decoration is not used. A subgroup without staves is an
`IndexError` (11728). The groups are listed in the order made; the order of insertion into the score is not modelled. -/
def readDeco (staffList : List Nat) (text : Str) : Except PyErr (Option (List ReadGroup)) :=
  if lexDeco .idle text = [] then .ok none
  else
    let d := cleanDeco staffList (lexDeco .idle text)
    if d.countP DTok.isStaff = 0 then .ok none
    else match pairAll d with
      | none => .ok none
      | some pair =>
        let v := readWalk pair staffList 0 d (readStart (decide (pair (d.length - 1) = some 0)))
        if (List.range staffList.length).all (fun k => v.seen.count k == 1) then
          if (v.groups.drop 1).any (fun g => g.ids.isEmpty) then .error .indexError
          else .ok (some (v.groups.map RGroup.out))
        else .ok none

end C21
