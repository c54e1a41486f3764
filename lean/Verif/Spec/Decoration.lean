import Verif.Model.Decoration
/-
Specification for C53 and C68.
-/
namespace C21

/-- Balanced: every bracket is closed by one of the same kind, and they are nested. -/
inductive Balanced : List DTok → Prop
  | nil : Balanced []
  | staff (n : Nat) : Balanced [.staff n]
  | comma : Balanced [.comma]
  | wrap (d : Delim) {w : List DTok} : Balanced w → Balanced (.op d :: (w ++ [.cl d]))
  | append {v w : List DTok} : Balanced v → Balanced w → Balanced (v ++ w)

/-- The staves listed, in order. -/
def stavesListed : List DTok → List Nat
  | [] => []
  | .staff n :: ts => n :: stavesListed ts
  | .op _ :: ts => stavesListed ts
  | .cl _ :: ts => stavesListed ts
  | .comma :: ts => stavesListed ts

/-- A set of staves: in increasing order, and not empty. -/
structure StaffSet (l : List Nat) : Prop where
  nonempty : l ≠ []
  sorted : l.Pairwise (· < ·)

/-- The staff groups are nested or disjoint, and no two have the same staves. -/
structure Nested (gs : List SGroup) : Prop where
  sets : ∀ g ∈ gs, StaffSet g.nums
  distinct : (gs.map (·.nums)).Nodup
  laminar : ∀ g ∈ gs, ∀ h ∈ gs, (∀ n ∈ g.nums, n ∈ h.nums) ∨ (∀ n ∈ h.nums, n ∈ g.nums) ∨ (∀ n ∈ g.nums, n ∉ h.nums)

mutual
/-- The groups of a tree. -/
def SGTree.groups : SGTree → List SGroup
  | .node g cs => g :: groupsList cs
/-- The groups of several trees. -/
def groupsList : List SGTree → List SGroup
  | [] => []
  | c :: cs => c.groups ++ groupsList cs
end

/-- A tree of staff groups: each set of staves is increasing; the staves of a subgroup are some but not all of those of the group; subgroups are disjoint
and in the order of their lowest staves. -/
inductive TreeOk : SGTree → Prop
  | node (g : SGroup) (cs : List SGTree) : StaffSet g.nums → (∀ c ∈ cs, TreeOk c) → (∀ c ∈ cs, ∀ n ∈ c.group.nums, n ∈ g.nums) →
      (∀ c ∈ cs, ∃ n ∈ g.nums, n ∉ c.group.nums) → cs.Pairwise (fun a b => ∀ n ∈ a.group.nums, n ∉ b.group.nums) →
      cs.Pairwise (fun a b => a.group.lowest ≤ b.group.lowest) → TreeOk (.node g cs)

end C21
