/-
Python `dict` as an insertion-ordered association list.

Models the CPython built-in (insertion order, update in place, `del`), not code of /repo.
-/
namespace C21

/-- A Python dict: key/value pairs in insertion order. -/
abbrev Dict (κ : Type) (υ : Type) := List (κ × υ)

namespace Dict
variable {κ υ : Type} [DecidableEq κ]

/-- `d.get(k)` / `k in d`. -/
def get? : Dict κ υ → κ → Option υ
  | [], _ => none
  | (k', v) :: rest, k => if k' = k then some v else get? rest k

/-- `d[k] = v`: update in place if present, otherwise append. -/
def set : Dict κ υ → κ → υ → Dict κ υ
  | [], k, v => [(k, v)]
  | (k', v') :: rest, k, v => if k' = k then (k', v) :: rest else (k', v') :: set rest k v

/-- `del d[k]` (no effect when absent; callers test first). -/
def del : Dict κ υ → κ → Dict κ υ
  | [], _ => []
  | (k', v') :: rest, k => if k' = k then rest else (k', v') :: del rest k

/-- The keys in iteration order. -/
def keys (d : Dict κ υ) : List κ := d.map Prod.fst

end Dict
end C21
