import Verif.Model.HumHash
/-
Independent specification of the parameter store: what the documented address of an argument list is,
and what a history of calls has left at an address.
-/
namespace C21.HumHashSpec
open C21

/-- A fully qualified address. -/
structure Addr where
  ns1 : Str
  ns2 : Str
  key : Str
deriving DecidableEq, Repr

/-- "ns1 only" and "ns2 only" are the same single-level namespace. -/
def Addr.canon (a : Addr) : Addr :=
  if a.ns2 = [] then ⟨[], a.ns1, a.key⟩ else a

/-- What a call did to an address: `none` when it did not touch it. -/
def lastParam {α τ : Type} (addrOf : List Str → Option Addr) :
    List (HumHash.Op α τ) → Addr → Option (Option α × Option τ)
  -- the history is given most recent call first
  | [], _ => none
  | .set args v :: older, a =>
    if addrOf args = some a then some (v, none) else lastParam addrOf older a
  | .delete args :: older, a =>
    if addrOf args = some a then none else lastParam addrOf older a
  | .setOrigin args o :: older, a =>
    if addrOf args = some a then (lastParam addrOf older a).map (fun p => (p.1, some o))
    else lastParam addrOf older a

/-- Address of an argument list when no argument contains a colon: missing parts are empty. -/
def plainAddr : List Str → Option Addr
  | [k] => some ⟨[], [], k⟩
  | [n2, k] => some (Addr.canon ⟨[], n2, k⟩)
  | [n1, n2, k] => some (Addr.canon ⟨n1, n2, k⟩)
  | _ => none

/-- Address denoted by an argument list in general: a lone (or otherwise unqualified) key may carry its
namespaces as colon-separated prefixes. -/
def docAddr : List Str → Option Addr
  | [k] => match splitOn ':' k with
    | [a] => some ⟨[], [], a⟩
    | [a, b] => some (Addr.canon ⟨[], a, b⟩)
    | a :: b :: c :: _ => some (Addr.canon ⟨a, b, c⟩)
    | [] => none
  | [n2, k] => if n2 = [] then docAddr [k] else some ⟨[], n2, k⟩
  | [n1, n2, k] => if n1 = [] ∧ n2 = [] then docAddr [k] else some (Addr.canon ⟨n1, n2, k⟩)
  | _ => none

end C21.HumHashSpec
