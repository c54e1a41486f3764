import Verif.Model.Spine
import Mathlib.Data.List.Sort
/-
Strands, the unbroken stretches of spines, and the tokens null tokens stand for: humdrum/humdrumfilestructure.py:767-833 and 851-888,
humdrum/humdrumtoken.py:2688-2699, and the color of a note from a `**color` spine, humdrum/humdrumfile.py:7876-7906.
-/
namespace C21

/-- A file with its links (C17), as far as strands depend on it: the sub-track of each token (C18) and the number of lines. -/
structure SFile where
  next : TokId → List TokId
  text : TokId → Str
  sub : TokId → Nat
  lines : Nat

/-- `isMergeInterpretation` (humdrumtoken.py:2217). -/
def SFile.isMerge (F : SFile) (t : TokId) : Bool := F.text t = "*v".toList

/-- humdrumfilestructure.py:865-871: `previousFieldToken` exists and is a merge. -/
def SFile.leftMerge (F : SFile) (t : TokId) : Bool := 0 < t.2 && F.isMerge (t.1, t.2 - 1)

/-- humdrumfilestructure.py:851-885 `analyzeSpineStrands` from the token `t` on: the end of the strand that goes through `t`, and the strands that
branch off, each with its first and last token, in the order of `ends`. `fuel` bounds the number of lines left. -/
def followStrand (F : SFile) : Nat → TokId → Option TokId × List (TokId × Option TokId)
  | 0, _ => (none, [])
  | fuel + 1, t =>
    if F.isMerge t && decide (1 < F.sub t) then
      if F.leftMerge t then (some t, [])
      else match F.next t with
        | [] => (none, [])
        | n :: _ => followStrand F fuel n
    else if F.text t = "*-".toList then (some t, [])
    else match F.next t with
      | [] => (none, [])
      | n :: cs =>
        let rest := followStrand F fuel n
        (rest.1, cs.flatMap (fun c => let w := followStrand F fuel c; (c, w.1) :: w.2) ++ rest.2)

/-- The strands of one spine, as found. -/
def spineStrands (F : SFile) (start : TokId) : List (TokId × Option TokId) :=
  let w := followStrand F F.lines start
  (start, w.1) :: w.2

/-- The order of strands: by line, then by field of the first token. -/
def strandLe (a b : TokId × Option TokId) : Prop := a.1.1 < b.1.1 ∨ (a.1.1 = b.1.1 ∧ a.1.2 ≤ b.1.2)

instance : DecidableRel strandLe := fun _ _ => inferInstanceAs (Decidable (_ ∨ _))

/-- humdrumfilestructure.py:767-781 `analyzeStrands`: all strands. Simplified: every spine has a first token. -/
def strands (F : SFile) (starts : List TokId) : List (TokId × Option TokId) :=
  starts.flatMap (fun s => (spineStrands F s).insertionSort strandLe)

/-- The tokens of a strand, from the first along the first next tokens to the last (or, if it has none, as far as there are tokens): the loop at
humdrumfilestructure.py:805-833, which leaves out the last. -/
def strandToks (F : SFile) : Nat → TokId → Option TokId → List TokId
  | 0, _, _ => []
  | fuel + 1, t, last =>
    if some t = last then [t]
    else match F.next t with
      | [] => [t]
      | n :: _ => t :: strandToks F fuel n last

/-- The tokens of a strand of the file. -/
def SFile.toks (F : SFile) (s : TokId × Option TokId) : List TokId := strandToks F F.lines s.1 s.2

/-- The state of `resolveNullTokens`: `data`, and the resolutions. -/
abbrev NullState := Option TokId × (TokId → Option TokId)

/-- humdrumfilestructure.py:815-831: one token. -/
def nullStep (F : SFile) (S : NullState) (t : TokId) : NullState :=
  if !tokIsData (F.text t) then S
  else match S.1 with
    | none => (some t, fun x => if x = t then some t else S.2 x)
    | some d => if tokIsNull (F.text t) then (S.1, fun x => if x = t then some d else S.2 x) else (some t, S.2)

/-- The tokens the loop goes over: not the last one, if there is one. -/
def SFile.looped (F : SFile) (s : TokId × Option TokId) : List TokId :=
  match s.2 with
  | some _ => (F.toks s).dropLast
  | none => F.toks s

/-- humdrumfilestructure.py:795-833 `resolveNullTokens`; `data` is not reset between strands. -/
def resolveNulls (F : SFile) (ss : List (TokId × Option TokId)) : NullState :=
  ss.foldl (fun S s => (F.looped s).foldl (nullStep F) S) (none, fun _ => none)

/-- humdrumtoken.py:2688-2699 `nullResolution`: the token itself if it has none. -/
def nullRes (F : SFile) (ss : List (TokId × Option TokId)) (t : TokId) : TokId := ((resolveNulls F ss).2 t).getD t

/-- humdrumfile.py:7890-7906: the color for the token at field `fi` of a line, from the first `**color` token right of it. `types` are the data types
of the line's tokens. -/
def colorRight (F : SFile) (ss : List (TokId × Option TokId)) (types : List Str) (li fi : Nat) : Str :=
  match ((List.range types.length).filter (fun i => fi < i)).find? (fun i => types.getD i [] = "**color".toList) with
  | none => []
  | some i => let out := F.text (nullRes F ss (li, i)); if out = ".".toList then [] else out

/-- The file as analysed: the texts, the links, and the sub-tracks from the spine descriptions `ds` of the lines. -/
def sfileOf (lines : List Line) (ds : List (List Str)) (L : Links) : SFile :=
  { next := L.next,
    text := fun t => ((lines[t.1]?).bind (fun l => l.tokens[t.2]?)).getD [],
    sub := fun t => match analyzeTracks (ds.getD t.1 []) with
      | .ok r => ((r[t.2]?).map (·.2)).getD 0
      | .error _ => 0,
    lines := lines.length }

end C21
