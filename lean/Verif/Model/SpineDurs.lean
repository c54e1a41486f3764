import Mathlib.Algebra.Order.Ring.Unbundled.Rat
import Verif.Model.PyStr
/-
Model of the durations of tokens in spines without a rhythm of their own, such as dynamics and text:
`HumdrumFileStructure.assignDurationsToNonRhythmicTrack` (converter21/humdrum/humdrumfilestructure.py:690-730), called for
each end of a track (400-410).

The tokens of a track are given as the code meets them: from the end backwards. Where spines merge, the code turns to
the other spines first (709-718). Simplifications: a spine that merges into another one ends at its split; the code gets
there too and stops, because the name of such a spine has a `b` (699-703). The first token of a track, where the code
stops (705-707), is not a data token. `acceptSyntaxErrors` is off.
-/
namespace C21

/-- A spine read backwards (humdrumfilestructure.py:696-698, 705-716, 728). `join sub rest`: the spine `sub` merges into this one right before the first token of `rest`. -/
inductive DStrand
  | top
  | tok (info : Str) (time : Rat) (data : Bool) (dur : Rat) (prev : DStrand)
  | join (sub rest : DStrand)
  deriving DecidableEq

/-- `spineInfo` of the first token (humdrumfilestructure.py:695). -/
def DStrand.headInfo : DStrand → Str
  | .top => []
  | .tok i _ _ _ _ => i
  | .join _ rest => rest.headInfo

/-- The test on the names at the start of the loop (humdrumfilestructure.py:699-703). -/
def stopsAt (info i : Str) : Bool := decide (i ≠ info) && (decide ('b' ∈ i) || decide ('b' ∈ info))

/-- `assignDurationsToNonRhythmicTrack` (humdrumfilestructure.py:690-730): `info` is the name of the spine at its end, `cur`
the time of `current`. -/
def assignDurs (info : Str) (cur : Rat) : DStrand → DStrand
  | .top => .top
  | .tok i t d u prev =>
    if stopsAt info i then .tok i t d u prev
    else if d then .tok i t d (cur - t) (assignDurs info t prev)
    else .tok i t d u (assignDurs info cur prev)
  | .join sub rest =>
    if stopsAt info rest.headInfo then .join sub rest
    else .join (assignDurs sub.headInfo cur sub) (assignDurs info cur rest)

/-- A track that ends at time `endT` (humdrumfilestructure.py:400-410). -/
def assignTrack (endT : Rat) (s : DStrand) : DStrand := assignDurs s.headInfo endT s

end C21
