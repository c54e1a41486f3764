import Verif.Model.MeiSlurs
/-
Model of the name of the file the command line program writes: `converter21/__main__.py:69-87` and 159-169.

Simplifications: the subconverters registered with music21 are a list with their formats and output extensions.
`os.path.splitext` is CPython's for `/` as separator, written on the reversed path. Output to `-` is left out.
-/
namespace C21

/-- A subconverter: `registerFormats`, `registerOutputExtensions` (__main__.py:73-75). -/
structure SubConv where
  formats : List Str
  outExts : List Str

/-- `os.path.splitext` (__main__.py:164). -/
def splitExt (p : Str) : Str × Str :=
  let e := p.reverse.takeWhile (fun c => c != '.' && c != '/')
  match p.reverse.drop e.length with
  | '.' :: base => if (base.takeWhile (fun c => c != '/')).any (fun c => c != '.') then (base.reverse, '.' :: e.reverse) else (p, [])
  | _ => (p, [])

/-- `getValidOutputExtensionForFormat` (__main__.py:69-76). -/
def firstOutExt : List SubConv → Str → Str
  | [], _ => []
  | s :: rest, form =>
    match s.outExts with
    | [] => firstOutExt rest form
    | x :: _ => if form ∈ s.formats then '.' :: x else firstOutExt rest form

/-- `getOutputExtensionsListForFormat` (__main__.py:78-87). -/
def allOutExts (subs : List SubConv) (form : Str) : List Str :=
  subs.flatMap (fun s => if form ∈ s.formats then s.outExts.map (fun x => '.' :: x) else [])

/-- The name of the file that is written (__main__.py:163-169). -/
def outputName (subs : List SubConv) (form p : Str) : Str :=
  if (splitExt p).2 ∈ allOutExts subs form then p else (splitExt p).1 ++ firstOutExt subs form

end C21
