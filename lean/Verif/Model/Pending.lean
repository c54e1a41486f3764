import Verif.Model.PyStr
import Verif.Model.PyDict
/-
humdrum/humdrumwriter.py:62-65 and 2135-2199: the stops of octave lines and pedal marks that wait for their time.
-/
namespace C21

/-- humdrumwriter.py:62-65 `PendingOttavaOrPedalStop`. `id` is the identity of the object: `list.remove` compares objects of this class by identity. -/
structure PStop where
  id : Nat
  text : Str
  time : Rat
  deriving DecidableEq

/-- `pendingOttavaOrPedalStopsForPartAndStaff`, and the number of objects made so far. -/
structure PendState where
  parts : Dict Int (Dict Int (List PStop)) := []
  made : Nat := 0

/-- The objects made for the texts, in order. -/
def makeStops (time : Rat) : Nat → List Str → List PStop
  | _, [] => []
  | n, t :: ts => ⟨n, t, time⟩ :: makeStops time (n + 1) ts

/-- The inner dict of a part; an empty one where it is created (humdrumwriter.py:2142-2143). -/
def partDict (st : PendState) (p : Int) : Dict Int (List PStop) := (st.parts.get? p).getD []

/-- The list of a staff; an empty one where it is created (humdrumwriter.py:2144-2145). -/
def staffStops (st : PendState) (p s : Int) : List PStop := ((partDict st p).get? s).getD []

/-- humdrumwriter.py:2135-2151 `storePendingOttavaOrPedalStops`. -/
def storeStops (st : PendState) (stops : List Str) (time : Rat) (p s : Int) : PendState :=
  ⟨st.parts.set p ((partDict st p).set s (staffStops st p s ++ makeStops time st.made stops)), st.made + stops.length⟩

/-- humdrumwriter.py:2176-2177: the removal, one object after another. -/
def removeStops (l : List PStop) : List PStop → List PStop
  | [] => l
  | r :: rs => removeStops (l.erase r) rs

/-- humdrumwriter.py:2153-2179 `popPendingOttavaOrPedalStopsAtTime`: the texts, and the state after. -/
def popStops (st : PendState) (p s : Int) (time : Rat) : List Str × PendState :=
  match st.parts.get? p with
  | none => ([], st)
  | some d =>
    match d.get? s with
    | none => ([], st)
    | some l =>
      ((l.filter (fun x => decide (x.time = time))).map (·.text),
        ⟨st.parts.set p (d.set s (removeStops l (l.filter (fun x => decide (x.time = time))))), st.made⟩)

/-- humdrumwriter.py:2181-2199 `_finishLastPendingOttavaOrPedalStops`: what is written at the end, with its part and staff. -/
def finishStops (st : PendState) : List (Int × Int × Str) :=
  st.parts.flatMap fun (p : Int × Dict Int (List PStop)) => p.2.flatMap fun (s : Int × List PStop) => s.2.map fun (x : PStop) => (p.1, s.1, x.text)

/-- The two calls. -/
inductive PendOp
  | store (stops : List Str) (time : Rat) (p s : Int)
  | pop (p s : Int) (time : Rat)

/-- One call. -/
def pendStep (st : PendState) : PendOp → PendState
  | .store stops time p s => storeStops st stops time p s
  | .pop p s time => (popStops st p s time).2

/-- A sequence of calls. -/
def pendRun (ops : List PendOp) : PendState := ops.foldl pendStep {}

end C21
