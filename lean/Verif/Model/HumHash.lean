import Verif.Model.PyStr
import Verif.Model.PyDict
/-
Model of /repo/converter21/humdrum/humhash.py.

Values are an arbitrary type `α` (Python: any object, or None), origins an arbitrary type `τ`
(HumdrumToken).  A raised ValueError is `none` at the outermost `Option`.
-/
namespace C21

/-- humhash.py:23-31 `getKeyTuple`. -/
def getKeyTuple (inKey : Str) : Str × Str × Str :=
  match splitOn ':' inKey with
  | [] => ([], [], [])            -- unreachable: split never returns an empty list
  | [k] => ([], [], k)
  | [a, b] => ([], a, b)
  | a :: b :: c :: _ => (a, b, c)

/-- humhash.py:57-64, the swap making `ns1` the empty one. -/
def swapNamespaces (ns1 ns2 key : Str) : Str × Str × Str :=
  if ns2 = [] ∧ ns1 ≠ [] then (ns2, ns1, key) else (ns1, ns2, key)

/-- humhash.py:39-64 once the three parts are known. -/
def fixupParts (ns1 ns2 key : Str) : Str × Str × Str :=
  let t := if ns1 = [] ∧ ns2 = [] then getKeyTuple key else (ns1, ns2, key)
  swapNamespaces t.1 t.2.1 t.2.2

/-- humhash.py:33-64 `fixupNamespace1Namespace2Key`; `none` is the ValueError of lines 34-37. -/
def fixupNs1Ns2Key : List Str → Option (Str × Str × Str)
  | [key] => some (fixupParts [] [] key)
  | [ns2, key] => some (fixupParts [] ns2 key)
  | [ns1, ns2, key] => some (fixupParts ns1 ns2 key)
  | _ => none

/-- humhash.py:66-80 `fixupNamespace1Namespace2`.  The branch of lines 76-78 is guarded by
`len(keyTuple) == 2`; `getKeyTuple` returns a 3-tuple on every path (lines 26, 29, 31), so the
guard is constantly false and the branch is dead. -/
def fixupNs1Ns2 (ns1 ns2 : Option Str) : Option Str × Option Str :=
  let p := match ns1, ns2 with
    | none, some b => (some b, none)
    | a, b => (a, b)
  match p with
  | (some a, none) =>
    let keyTuple := getKeyTuple a
    let tupleLen := 3
    if tupleLen = 2 then (some keyTuple.1, some keyTuple.2.1) else (some a, none)
  | q => q

/-- humhash.py:82-108 `HumParameter`. -/
structure HumParameter (α τ : Type) where
  value : Option α
  origin : Option τ
deriving DecidableEq, Repr

/-- humhash.py:110-113: `{ns1: {ns2: {key: HumParameter}}}`. -/
abbrev HumHash (α τ : Type) := Dict Str (Dict Str (Dict Str (HumParameter α τ)))

namespace HumHash
variable {α τ : Type}

/-- Lines 161-166 of `setValue`, at a normalised address. -/
def setAt (h : HumHash α τ) (ns1 ns2 key : Str) (value : Option α) : HumHash α τ :=
  match h.get? ns1 with
  | none => h.set ns1 [(ns2, [(key, ⟨value, none⟩)])]
  | some d1 =>
    match d1.get? ns2 with
    | none => h.set ns1 (d1.set ns2 [(key, ⟨value, none⟩)])
    | some d2 => h.set ns1 (d1.set ns2 (d2.set key ⟨value, none⟩))

/-- humhash.py:153-166 `setValue`. -/
def setValue (h : HumHash α τ) (args : List Str) (value : Option α) : Option (HumHash α τ) :=
  (fixupNs1Ns2Key args).map fun t => h.setAt t.1 t.2.1 t.2.2 value

/-- The nested `in` tests of `getValue`, `isDefined`, `getOrigin` (lines 186-193, 316-321, 385-394). -/
def find (h : HumHash α τ) (ns1 ns2 key : Str) : Option (HumParameter α τ) :=
  match h.get? ns1 with
  | none => none
  | some d1 =>
    match d1.get? ns2 with
    | none => none
    | some d2 => d2.get? key

/-- humhash.py:181-193 `getValue`: outer `none` is ValueError, inner `none` is None. -/
def getValue (h : HumHash α τ) (args : List Str) : Option (Option α) :=
  if h.isEmpty then some none
  else (fixupNs1Ns2Key args).map fun t => (h.find t.1 t.2.1 t.2.2).bind (·.value)

/-- humhash.py:311-321 `isDefined`. -/
def isDefined (h : HumHash α τ) (args : List Str) : Option Bool :=
  if h.isEmpty then some false
  else (fixupNs1Ns2Key args).map fun t => (h.find t.1 t.2.1 t.2.2).isSome

/-- Lines 336-343 of `deleteValue`. -/
def deleteAt (h : HumHash α τ) (ns1 ns2 key : Str) : HumHash α τ :=
  match h.get? ns1 with
  | none => h
  | some d1 =>
    match d1.get? ns2 with
    | none => h
    | some d2 =>
      match d2.get? key with
      | none => h
      | some _ => h.set ns1 (d1.set ns2 (d2.del key))

/-- humhash.py:330-343 `deleteValue`. -/
def deleteValue (h : HumHash α τ) (args : List Str) : Option (HumHash α τ) :=
  if h.isEmpty then some h
  else (fixupNs1Ns2Key args).map fun t => h.deleteAt t.1 t.2.1 t.2.2

/-- Lines 362-371 of `setOrigin`. -/
def setOriginAt (h : HumHash α τ) (ns1 ns2 key : Str) (o : τ) : HumHash α τ :=
  match h.get? ns1 with
  | none => h
  | some d1 =>
    match d1.get? ns2 with
    | none => h
    | some d2 =>
      match d2.get? key with
      | none => h
      | some p => h.set ns1 (d1.set ns2 (d2.set key { p with origin := some o }))

/-- humhash.py:350-371 `setOrigin` (the origin is a HumdrumToken by typing: line 359-360 not modelled). -/
def setOrigin (h : HumHash α τ) (args : List Str) (o : τ) : Option (HumHash α τ) :=
  if h.isEmpty then some h
  else (fixupNs1Ns2Key args).map fun t => h.setOriginAt t.1 t.2.1 t.2.2 o

/-- humhash.py:379-394 `getOrigin`. -/
def getOrigin (h : HumHash α τ) (args : List Str) : Option (Option τ) :=
  if h.isEmpty then some none
  else (fixupNs1Ns2Key args).map fun t => (h.find t.1 t.2.1 t.2.2).bind (·.origin)

/-- humhash.py:407-436 `getKeys`. -/
def getKeys (h : HumHash α τ) (ns1 ns2 : Option Str) : List Str :=
  if h.isEmpty then [] else
  match fixupNs1Ns2 ns1 ns2 with
  | (none, none) =>
    h.flatMap fun e1 => e1.2.flatMap fun e2 => e2.2.map fun e3 => e1.1 ++ ':' :: e2.1 ++ ':' :: e3.1
  | (some n1, none) =>
    match h.get? n1 with
    | none => []
    | some d1 => d1.flatMap fun e2 => e2.2.map fun e3 => e2.1 ++ ':' :: e3.1
  | (some n1, some n2) =>
    match h.get? n1 with
    | none => []
    | some d1 =>
      match d1.get? n2 with
      | none => []
      | some d2 => d2.map (·.1)
  | (none, some _) => []         -- unreachable: fixupNs1Ns2 moves a lone ns2 to ns1

/-- humhash.py:448-476 `hasParameters`. -/
def hasParameters (h : HumHash α τ) (ns1 ns2 : Option Str) : Bool :=
  if h.isEmpty then false else
  match fixupNs1Ns2 ns1 ns2 with
  | (none, none) => h.any fun e1 => e1.2.any fun e2 => !e2.2.isEmpty
  | (some n1, none) =>
    match h.get? n1 with
    | none => false
    | some d1 => d1.any fun e2 => !e2.2.isEmpty
  | (some n1, some n2) =>
    match h.get? n1 with
    | none => false
    | some d1 =>
      match d1.get? n2 with
      | none => false
      | some d2 => !d2.isEmpty
  | (none, some _) => false

/-- humhash.py:489-515 `getParameterCount`. -/
def getParameterCount (h : HumHash α τ) (ns1 ns2 : Option Str) : Nat :=
  if h.isEmpty then 0 else
  match fixupNs1Ns2 ns1 ns2 with
  | (none, none) => (h.map fun e1 => (e1.2.map fun e2 => e2.2.length).sum).sum
  | (some n1, none) =>
    match h.get? n1 with
    | none => 0
    | some d1 => (d1.map fun e2 => e2.2.length).sum
  | (some n1, some n2) =>
    match h.get? n1 with
    | none => 0
    | some d1 =>
      match d1.get? n2 with
      | none => 0
      | some d2 => d2.length
  | (none, some _) => 0

/-- Typed values stored in a HumHash, as far as `getValueBool` (humhash.py:277-301) distinguishes them:
bool, HumdrumToken, str, a number (`int(value)` succeeds with that value), or an object whose `int()` fails. -/
inductive PyVal where
  | bool (b : Bool)
  | token (id : Nat)
  | str (s : Str)
  | num (truncated : Int)
  | other (id : Nat)
deriving DecidableEq, Repr

/-- humhash.py:277-301 `getValueBool`, applied to the result of `getValue`. -/
def valueBool : Option PyVal → Bool
  | none => false
  | some (.bool b) => b
  | some (.token _) => true
  | some (.str s) => if s = "false".toList then false else if s = "0".toList then false else true
  | some (.num n) => n != 0
  | some (.other _) => true

/-- One mutating call on the store. -/
inductive Op (α τ : Type) where
  | set (args : List Str) (value : Option α)
  | delete (args : List Str)
  | setOrigin (args : List Str) (origin : τ)

/-- The effect of one call; a call that raises leaves the store unchanged. -/
def step (h : HumHash α τ) : Op α τ → HumHash α τ
  | .set a v => (h.setValue a v).getD h
  | .delete a => (h.deleteValue a).getD h
  | .setOrigin a o => (h.setOrigin a o).getD h

/-- The store after a history of calls, starting from `HumHash()`. -/
def run (ops : List (Op α τ)) : HumHash α τ := ops.foldl step []

end HumHash
end C21
